import Verif.Proofs.UnwindPts
import Verif.Proofs.Counters

/-!
# What panics leave behind, seen from outside
-/

namespace QuickCache
variable {K V RS : Type} [DecidableEq K]
open Shard Unsync Spec U

namespace Unwind
variable {c : Cfg K V RS} {s s' : Shard K V}

omit [DecidableEq K] in
theorem Evicting.keeps {q : Req K V RS} (h : Evicting c s q s') (hi : Inv c s) : Inv c s' ∧ Const s s' := by
  obtain ⟨q', h⟩ := h
  exact ⟨⟨h.inv, h.ghosts hi.ghosts⟩, h.same.const⟩

omit [DecidableEq K] in
theorem Storing.keeps {q : Req K V RS} {k : K} {v : V} {str : Strategy} (h : Storing c s q k v str s') (hi : Inv c s) :
    Inv c s' ∧ Const s s' := by
  cases h with
  | same h => subst h; exact ⟨hi, .refl _⟩
  | room hstr hno post => exact post.keeps hi
  | put s2 qb t old r same wrote hk hv hplh hold post =>
    obtain ⟨h1, h2⟩ := post.keeps (wrote.full hi (Nat.zero_le _))
    exact ⟨h1, wrote.const.trans h2⟩

omit [DecidableEq K] in
theorem Halt.keeps {q : Req K V RS} {k : K} {v : V} {str : Strategy} (h : Halt c s q k v str s') (hi : Inv c s) :
    Inv c s' ∧ Const s s' := by
  cases h with
  | same h => subst h; exact ⟨hi, .refl _⟩
  | storing q1 v1 he adm h => exact h.keeps hi
  | reject q1 v1 hw hp hb hw1 q' hr hplh =>
    cases hr with
    | old t r hk same wrote => exact ⟨wrote.full hi (Nat.zero_le _), wrote.const⟩
    | plh t ph hk hno same wrote => exact ⟨wrote.full hi (Nat.zero_le _), wrote.const⟩
    | none hno => exact ⟨hi, .refl _⟩

/-- What storing an item that is past the overweight check may have done to the map so far. -/
theorem Storing.evicts {q : Req K V RS} {k : K} {v : V} {str : Strategy} (h : Storing c s q k v str s') (hi : Inv0 c s) :
    s'.contents = s.contents ∨
    (str = .insert ∧ NoKey s k ∧ ∃ L st', Evicts c s.contents q.st L s'.contents st') ∨
    (∃ old L st', s.contents k = some old ∧ Evicts c (Spec.put s.contents k v) (c.onEvict q.st k old) L s'.contents st') ∨
    (str = .insert ∧ s.contents k = none ∧ ∃ L st', Evicts c (Spec.put s.contents k v) q.st L s'.contents st') := by
  cases h with
  | same h => left; rw [h]
  | room hstr hno post =>
    right; left
    obtain ⟨q', post⟩ := post
    obtain ⟨L, -, hL⟩ := post.evicts hi
    exact ⟨hstr, hno, L, _, hL⟩
  | put s2 qb t old r same wrote hk hv hplh hold post =>
    obtain ⟨q', post⟩ := post
    obtain ⟨L, -, hL⟩ := post.evicts wrote.inv
    have hput : s2.contents = Spec.put s.contents k v := by
      rw [← hk, ← hv]
      refine wrote.contents_put hi ?_
      rcases hold with ⟨r0, rfl, h0, -⟩ | ⟨h0, -⟩
      · intro r' hr'; cases hr'; rw [h0, hk]
      · intro r' hr'; exact absurd hr' (h0 r')
    rw [hput] at hL
    rcases hold with ⟨r0, rfl, h0, rfl⟩ | ⟨h0, hno, rfl, hstr⟩
    · right; right; left
      exact ⟨r0.value, L, _, contents_at hi wrote.upd.before h0, hL⟩
    · right; right; right
      exact ⟨hstr, hi.contents_none.mpr hno, L, _, hL⟩

theorem Halt.insert {k : K} {v : V} (h : Halt c s c.begin k v .insert s') (hi : Inv0 c s) :
    s'.contents = s.contents ∨
    (NoKey s k ∧ ∃ v1 st st' pre L, Enter c s.weightTargetHot k v st pre v1 ∧ Admitted c s.weightTargetHot k pre v1 ∧
      Evicts c s.contents st L s'.contents st') ∨
    ∃ log, Store c s.weightTargetHot s.contents k v log s'.contents := by
  cases h with
  | same h => left; rw [h]
  | storing q1 v1 he adm h =>
    rcases h.evicts hi with h | ⟨-, h1, L, st', h2⟩ | ⟨old, L, st', h1, h2⟩ | ⟨-, h1, L, st', h2⟩
    · exact Or.inl h
    · exact Or.inr (Or.inl ⟨h1, v1, _, _, _, L, he.enter, admitted adm, h2⟩)
    · exact Or.inr (Or.inr ⟨_, .overwritten he.enter (admitted adm) h1 h2⟩)
    · exact Or.inr (Or.inr ⟨_, .added he.enter (admitted adm) h1 .nil h2 (Or.inl rfl)⟩)
  | reject q1 v1 hw hp hb hw1 q' hr hplh =>
    obtain ⟨h1, h2⟩ := hr.spec hi
    obtain ⟨h3, h4⟩ := enter_before hw hp hb
    rw [h1]
    exact Or.inr (Or.inr ⟨_, .rejected h3 h4 hw1⟩)

theorem Halt.replace {k : K} {v : V} {soft : Bool} (h : Halt c s c.begin k v (.replace soft) s') (hi : Inv0 c s) :
    s'.contents = s.contents ∨
    ∃ log r, Replace c s.weightTargetHot s.contents k v log s'.contents r := by
  cases h with
  | same h => left; rw [h]
  | storing q1 v1 he adm h =>
    rcases h.evicts hi with h | ⟨h, -⟩ | ⟨old, L, st', h1, h2⟩ | ⟨h, -⟩
    · exact Or.inl h
    · cases h
    · exact Or.inr ⟨_, _, .overwritten he.enter (admitted adm) h1 h2⟩
    · cases h
  | reject q1 v1 hw hp hb hw1 q' hr hplh =>
    obtain ⟨h1, h2⟩ := hr.spec hi
    obtain ⟨h3, h4⟩ := enter_before hw hp hb
    rw [h1]
    cases hc : s.contents k with
    | none => left; rw [del_self _ hc]
    | some old => exact Or.inr ⟨_, _, .rejected h3 h4 hw1 hc⟩

omit [DecidableEq K] in
/-- A storing operation adds no placeholder. -/
theorem Halt.old {q : Req K V RS} {k : K} {v : V} {str : Strategy} (h : Halt c s q k v str s') {t : Nat} {ph : Placeholder K}
    {hh : UInt64} (h1 : s'.entries.item t = some (.placeholder ph)) (h2 : (hh, t) ∈ s'.map) :
    s.entries.item t = some (.placeholder ph) ∧ (hh, t) ∈ s.map := by
  have ev : ∀ {s1 s2 : Shard K V} {q1 : Req K V RS}, Evicting c s1 q1 s2 → s2.entries.item t = some (.placeholder ph) →
      (hh, t) ∈ s2.map → s1.entries.item t = some (.placeholder ph) ∧ (hh, t) ∈ s1.map := by
    rintro s1 s2 q1 ⟨q', h⟩ h1 h2
    obtain ⟨L, -, hL⟩ := h.log
    exact ⟨(hL.frame.1 t ph).mpr h1, ((h.map _).mp h2).1⟩
  have wr : ∀ {s1 s2 : Shard K V} {u : Nat} {old new : Option (Entry K V)}, Wrote c s1 s2 u old new →
      (∀ p, new ≠ some (.placeholder p)) → s2.entries.item t = some (.placeholder ph) →
      (hh, t) ∈ s2.map → s1.entries.item t = some (.placeholder ph) ∧ (hh, t) ∈ s1.map := by
    intro s1 s2 u old new hw hn h1 h2
    by_cases hut : t = u
    · subst hut; rw [hw.upd.after] at h1; exact absurd h1 (hn ph)
    · rw [hw.upd.other hut] at h1
      rcases (hw.map _).mp h2 with ⟨-, hm⟩ | ⟨h', -⟩
      · exact ⟨h1, hm⟩
      · exact absurd h' hut
  cases h with
  | same h => subst h; exact ⟨h1, h2⟩
  | storing q1 v1 he adm h =>
    cases h with
    | same h => subst h; exact ⟨h1, h2⟩
    | room hstr hno post => exact ev post h1 h2
    | put s2 qb t old r same wrote hk hv hplh hold post =>
      obtain ⟨h3, h4⟩ := ev post h1 h2
      exact wr wrote (by simp) h3 h4
  | reject q1 v1 hw hp' hb hw1 q' hr hplh =>
    cases hr with
    | none => exact ⟨h1, h2⟩
    | old t r hk same wrote => exact wr wrote (by simp) h1 h2
    | plh t ph hk hno same wrote => exact wr wrote (by simp) h1 h2

omit [DecidableEq K] in
theorem Halt.pend {q : Req K V RS} {k k' : K} {v : V} {str : Strategy} (h : Halt c s q k v str s') (hp : Pend s' k') :
    Pend s k' := by
  obtain ⟨t, ph, hh, h1, h2, h3⟩ := hp
  exact ⟨t, ph, hh, (h.old h1 h3).1, h2, (h.old h1 h3).2⟩

/-- A state an interrupted call may leave. -/
structure Good (c : Cfg K V RS) (s : Shard K V) (op : Op K V) (s' : Shard K V) : Prop where
  inv : Inv c s'
  const : Const s s'
  left : Left c s.weightTargetHot s.contents op s'.contents
  pend : ∀ k, Pend s' k → Pend s k ∨ Opens op k

theorem Good.refl {op : Op K V} (hi : Inv c s) : Good c s op s := ⟨hi, .refl _, .nothing, fun _ => Or.inl⟩

theorem Good.of_eq {op : Op K V} (hi : Inv c s) (h : s' = s) : Good c s op s' := by
  subst h; exact .refl hi

theorem Good.idle {op : Op K V} (h : Inv c s' ∧ Const s s') (hc : s'.contents = s.contents)
    (hp : ∀ k, Pend s' k → Pend s k ∨ Opens op k) : Good c s op s' :=
  ⟨h.1, h.2, by rw [hc]; exact .nothing, hp⟩

theorem Good.done {op : Op K V} {out : Out K V} {q : Req K V RS} (hi : Inv c s) (h : Unsync.step c s op = .ok (s', out, q)) :
    Good c s op s' :=
  ⟨((step_eff hi h).keeps hi).1, ((step_eff hi h).keeps hi).2, .whole ((step_eff hi h).opSpec hi.toInv0),
    fun k hk => (((step_eff hi h).idle hi.toInv0).plh k hk).imp_right (fun hl => by
      cases hl with
      | load => exact .load ..
      | loadMut => exact .loadMut ..
      | guard => exact .guard ..
      | guardMut => exact .guardMut ..)⟩

/-- Bumping a reference counter. -/
theorem Good.bumped {op : Op K V} {t n : Nat} {r : Resident K V} (hi : Inv c s)
    (wrote : Wrote c s s' t (some (.resident r)) (some (.resident { r with referenced := n }))) : Good c s op s' := by
  refine .idle ⟨wrote.full hi (Nat.le_refl _), wrote.const⟩ ?_
    (fun k hk => Or.inl ((wrote.idles (by simp) (by simp)).plh k hk))
  have h1 := wrote_value (v := r.value) hi.toInv0 wrote
  rw [h1, put_self _ (contents_at hi.toInv0 wrote.upd.before rfl)]

theorem Good.pending {op : Op K V} {k : K} {p : Plh} (hi : Inv c s) (hp : Pending c s k s' p) (ho : Opens op k) :
    Good c s op s' :=
  .idle ⟨hp.full hi, hp.const⟩ (hp.contents hi.toInv0) (fun _ hk => (hp.plh_of hk).imp_right (by rintro rfl; exact ho))

/-- What filling a placeholder may have done. -/
theorem Filling.stored {s1 : Shard K V} {k : K} {v : V} {p : Plh} (h : Filling c s1 c.begin k v p.idx s') (hi : Inv c s)
    (hp : Pending c s k s1 p) : (Inv c s' ∧ Const s s') ∧
      (s'.contents = s.contents ∨ ∃ log, Store c s.weightTargetHot s.contents k v log s'.contents) := by
  obtain ⟨h1, h2⟩ := h.1.keeps (hp.full hi)
  refine ⟨⟨h1, hp.const.trans h2⟩, ?_⟩
  have h3 := h.1.insert hp.inv
  rw [hp.contents hi.toInv0, hp.target] at h3
  rcases h3 with h3 | ⟨h3, -⟩ | h3
  · exact Or.inl h3
  · obtain ⟨ph, g1, g2, g3⟩ := hp.holds
    exact absurd (by simp [keyAt, g1, keyOf, g3]) (h3 _ p.idx hp.mapped)
  · exact Or.inr h3

/-- Dropping the guard changes nothing but the index. -/
theorem dropped {s1 s2 : Shard K V} {k : K} {p : Plh} (hp : Pending c s k s1 p) (hi : Inv c s2)
    (h : s2 = s1 ∨ ∀ ph, s2.entries.item p.idx ≠ some (.placeholder ph)) :
    ∃ s', s2.removePlaceholder c p = .ok s' ∧ (Inv c s' ∧ Const s2 s') ∧ s'.contents = s2.contents ∧
      (s2 = s1 ∨ (∃ v, Halt c s1 c.begin k v .insert s2) → ∀ k', Pend s' k' → Pend s k') := by
  obtain ⟨s', h1, h2, h3, h4, -, -, h7, h8, h9⟩ := removePlaceholder_spec hi.toInv0 (p := p) (by
    intro ph g1 g2
    rcases h with rfl | h
    · obtain ⟨ph', g3, g4, g5⟩ := hp.holds
      rw [g3] at g1
      cases g1
      rw [g4]
    · exact absurd g1 (h ph))
  refine ⟨s', h1, ⟨⟨h2, ?_⟩, h3.const⟩, ?_, fun hH k' => ?_⟩
  · rw [h7, h3.ghostCap]; exact hi.ghosts
  · unfold Shard.contents Shard.iter
    rw [h4]
  · rintro ⟨t, ph, hh, g1, g2, g3⟩
    rw [h4] at g1
    have hne : t ≠ p.idx := by
      rintro rfl
      by_cases hx : ∃ ph, s2.entries.item p.idx = some (.placeholder ph) ∧ c.sameAs ph.shared p = true
      · rw [h8 hx] at g3
        simp at g3
      · rcases h with rfl | h
        · obtain ⟨ph', g4, g5, g6⟩ := hp.holds
          exact hx ⟨ph', g4, by rw [g5]; unfold Cfg.sameAs; cases c.ptrEq <;> simp⟩
        · exact h ph g1
    have g4 : (hh, t) ∈ s2.map := by
      by_cases hx : ∃ ph, s2.entries.item p.idx = some (.placeholder ph) ∧ c.sameAs ph.shared p = true
      · rw [h8 hx] at g3
        exact (List.mem_filter.mp g3).1
      · rw [h9 hx] at g3
        exact g3
    obtain ⟨g5, g6⟩ : s1.entries.item t = some (.placeholder ph) ∧ (hh, t) ∈ s1.map := by
      rcases hH with rfl | ⟨v, hH⟩
      · exact ⟨g1, g4⟩
      · exact hH.old g1 g4
    rcases hp.plh_of ⟨t, ph, hh, g5, g2, g6⟩ with g7 | rfl
    · exact g7
    · obtain ⟨ph', g7, g8, g9⟩ := hp.holds
      exact absurd (hp.inv.idx.uniq _ t _ _ k' g6 hp.mapped (by simp [keyAt, g5, keyOf, g2])
        (by simp [keyAt, g7, keyOf, g9])) hne

theorem useGuard_pts {s1 : Shard K V} {k : K} {p : Plh} (hi : Inv c s) (hp : Pending c s k s1 p) (use : GuardUse V) :
    Pts (useGuard c s1 p use) (fun s' => (Inv c s' ∧ Const s s') ∧
      (s'.contents = s.contents ∨
        ∃ v log, use = .insert v ∧ Store c s.weightTargetHot s.contents k v log s'.contents) ∧
      ∀ k', Pend s' k' → Pend s k') := by
  unfold useGuard
  have hd := dropped hp (hp.full hi) (Or.inl rfl)
  refine .bind (.dropping (P := (· = s1)) (.user (fun _ => rfl)) ?_) (fun _ _ => ?_)
  · rintro _ rfl
    obtain ⟨s', h1, h2, h3, h4⟩ := hd
    exact ⟨s', h1, ⟨h2.1, hp.const.trans h2.2⟩, Or.inl (by rw [h3, hp.contents hi.toInv0]), h4 (Or.inl rfl)⟩
  · cases use with
    | drop => exact .bind .lift (fun _ _ => .pure)
    | forget => exact .pure
    | insert v =>
      refine .bind (.dropping (fill_pts hp v) ?_) (fun x hx => ?_)
      · rintro s2 hs2
        obtain ⟨h1, h2⟩ := hs2.stored hi hp
        obtain ⟨s', h3, h4, h5, h6⟩ := dropped hp h1.1 hs2.2
        refine ⟨s', h3, ⟨h4.1, h1.2.trans h4.2⟩, ?_, h6 (Or.inr ⟨v, hs2.1⟩)⟩
        rw [h5]
        rcases h2 with h2 | ⟨log, h2⟩
        · exact Or.inl h2
        · exact Or.inr ⟨v, log, rfl, h2⟩
      · refine .bind (.user (fun _ => ?_)) (fun _ _ => .pure)
        rw [run_dropping, run_fill] at hx
        obtain ⟨g1, -, -, -, g2⟩ := (hp.fill v).of_ok hx
        refine ⟨⟨g1.full (hp.full hi), hp.const.trans g1.same.const⟩, Or.inr ⟨v, x.2.log, rfl, ?_⟩, fun k' hk' => ?_⟩
        · have := g1.store hp.inv
          rw [hp.contents hi.toInv0, hp.target] at this
          exact this
        · rcases hp.plh_of (g1.idles.plh k' hk') with h1 | rfl
          · exact h1
          · obtain ⟨t, ph, hh, h1, h2, h3⟩ := hk'
            exact absurd h2 (g2 t ph hh h1 h3)

theorem getOrInsertToken_pts (hi : Inv c s) (k : K) (load : Option V) :
    Pts (getOrInsertToken c s k load) (fun s' => (Inv c s' ∧ Const s s') ∧
      (s'.contents = s.contents ∨ (s.contents k = none ∧
        ∃ v log, load = some v ∧ Store c s.weightTargetHot s.contents k v log s'.contents)) ∧
      ∀ k', Pend s' k' → Pend s k' ∨ k' = k) := by
  unfold getOrInsertToken
  refine .bind (.user (fun _ => ⟨⟨hi, .refl _⟩, Or.inl rfl, fun _ => Or.inl⟩)) (fun _ _ => .bind ((upsertPlaceholder_pts _ _ _).mono
    (fun _ h => by subst h; exact ⟨⟨hi, .refl _⟩, Or.inl rfl, fun _ => Or.inl⟩)) (fun x hx => ?_))
  rw [run_upsertPlaceholder] at hx
  rcases (upsert_sat hi.toInv0 k).of_ok hx with ⟨t, r, h1, -⟩ | ⟨p, b, h1, hp⟩
  · obtain ⟨s1, y⟩ := x
    dsimp only at h1
    subst h1
    exact .pure
  · obtain ⟨s1, y⟩ := x
    dsimp only at h1 hp
    subst h1
    dsimp only
    have hc := hp.contents hi.toInv0
    have hn := hi.toInv0.contents_none.mpr hp.noRes
    refine .bind (.user (fun _ => ⟨⟨hp.full hi, hp.const⟩, Or.inl hc, fun _ => hp.plh_of⟩)) (fun _ _ => ?_)
    cases load with
    | none => exact .pure
    | some v =>
      refine .bind ((fill_pts hp v).mono (fun s2 hs2 => ?_)) (fun x hx => .bind (.user (fun _ => ?_)) (fun _ _ => .pure))
      · obtain ⟨h1, h2⟩ := hs2.stored hi hp
        refine ⟨h1, ?_, fun k' hk' => hp.plh_of (hs2.1.pend hk')⟩
        rcases h2 with h2 | ⟨log, h2⟩
        · exact Or.inl h2
        · exact Or.inr ⟨hn, v, log, rfl, h2⟩
      · rw [run_fill] at hx
        obtain ⟨g1, -⟩ := (hp.fill v).of_ok hx
        refine ⟨⟨g1.full (hp.full hi), hp.const.trans g1.same.const⟩, Or.inr ⟨hn, v, x.2.log, rfl, ?_⟩,
          fun k' hk' => hp.plh_of (g1.idles.plh k' hk')⟩
        have := g1.store hp.inv
        rw [hc, hp.target] at this
        exact this

/-- Every call of user code at a safe place leaves a state as specified if it panics. -/
theorem step_pts (hi : Inv c s) (op : Op K V) : Pts (step c s op) (Good c s op) := by
  have hrun := run_step c s op
  have hh : Pts (user .hashKey s) (Good c s op) := .user (fun _ => .refl hi)
  cases op with
  | insert k v =>
    unfold step at hrun ⊢
    unfold cacheInsert at hrun ⊢
    simp only [bind_assoc] at hrun ⊢
    refine .bindR hrun (.user (fun _ => .refl hi)) (fun _ _ hrun => .bindR hrun hh (fun _ _ hrun => .bindR hrun
      ((insert_pts hi.toInv0 _ k v .insert).mono (fun s' hs => ?_)) (fun x _ hrun => ?_)))
    · refine ⟨(hs.keeps hi).1, (hs.keeps hi).2, ?_, fun _ hk => Or.inl (hs.pend hk)⟩
      rcases hs.insert hi.toInv0 with h | ⟨h1, v1, st, st', pre, L, h2, h3, h4⟩ | ⟨log, h⟩
      · rw [h]; exact .nothing
      · exact .room (hi.toInv0.contents_none.mpr (h1.noRes hi.toInv0)) h2 h3 h4
      · exact .whole (out := .unit) (log := log) ⟨rfl, h⟩
    · obtain ⟨s1, q, _ | r⟩ := x
      · simp only [Option.isSome_none, Bool.false_eq_true, if_false, bind_assoc, pure_bind] at hrun ⊢
        refine .bindR hrun (.user (fun _ => ?_)) (fun _ _ _ => .pure)
        rw [run_bind] at hrun
        exact .done hi hrun.symm
      · exact .bind (.ite (fun _ => .lift) (fun h => absurd rfl h)) (fun _ _ => .pure)
  | replace k v soft =>
    unfold step at hrun ⊢
    unfold cacheReplace at hrun ⊢
    simp only [bind_assoc] at hrun ⊢
    refine .bindR hrun (.user (fun _ => .refl hi)) (fun _ _ hrun => .bindR hrun hh (fun _ _ hrun => .bindR hrun
      ((insert_pts hi.toInv0 _ k v (.replace soft)).mono (fun s' hs => ?_)) (fun x _ hrun => ?_)))
    · refine ⟨(hs.keeps hi).1, (hs.keeps hi).2, ?_, fun _ hk => Or.inl (hs.pend hk)⟩
      rcases hs.replace hi.toInv0 with h | ⟨log, r, h⟩
      · rw [h]; exact .nothing
      · exact .whole (log := log) ⟨_, rfl, h⟩
    · obtain ⟨s1, q, _ | r⟩ := x
      · simp only [Option.isSome_none, Bool.false_eq_true, if_false, bind_assoc, pure_bind] at hrun ⊢
        refine .bindR hrun (.user (fun _ => ?_)) (fun _ _ _ => .pure)
        rw [run_bind] at hrun
        exact .done hi hrun.symm
      · exact .bind (.ite (fun _ => .pure) (fun h => absurd rfl h)) (fun _ _ => .pure)
  | remove k =>
    exact .bind hh (fun _ _ => .bind ((remove_pts _ _).mono (fun _ h => .of_eq hi h)) (fun _ _ => .pure))
  | get k =>
    exact .bind hh (fun _ _ => .bind ((get_pts _ _).mono (fun _ h => .of_eq hi h)) (fun _ _ => .pure))
  | peek k =>
    exact .bind hh (fun _ _ => .bind ((searchResident_pts _ _).mono (fun _ h => .of_eq hi h)) (fun _ _ => .pure))
  | containsKey k =>
    exact .bind hh (fun _ _ => .bind ((searchResident_pts _ _).mono (fun _ h => .of_eq hi h)) (fun _ _ => .pure))
  | getMut k f =>
    unfold step at hrun ⊢
    refine .bindR hrun hh (fun _ _ hrun => .bindR hrun ((getMut_pts _ _).mono (fun s' hs => ?_)) (fun x _ hrun =>
      .bind ((writeRef_pts _ _).mono (fun s' hs => ?_)) (fun _ _ => .pure)))
    · rcases hs with rfl | ⟨r, hs⟩
      · exact .refl hi
      · rcases getMut_spec hi.toInv0 (Lawful.key c k) with ⟨t, r, s1, h1, h2, h3, h4, h5, h6, h7⟩ | ⟨h1, h2⟩
        · rw [h1] at hs
          cases hs
          exact .bumped hi h4
        · have : Unsync.step c s (.getMut k id) = .ok ({ s with misses := s.misses + 1 }, .value none, c.begin) := by
            unfold Unsync.step
            simp only [h1]
            rfl
          rw [h1] at hs
          cases hs
          exact .idle ((step_eff hi this).keeps hi) rfl (fun _ => Or.inl)
    · rw [run_bind, run_writeRef, hs] at hrun
      exact .done hi hrun.symm
  | peekMut k f =>
    unfold step at hrun ⊢
    refine .bindR hrun hh (fun _ _ hrun => .bindR hrun ((peekMut_pts _ _).mono (fun s' hs => .of_eq hi hs)) (fun x _ hrun =>
      .bind ((writeRef_pts _ _).mono (fun s' hs => ?_)) (fun _ _ => .pure)))
    rw [run_bind, run_writeRef, hs] at hrun
    exact .done hi hrun.symm
  | retain f => exact .bind ((retain_pts f).mono (fun _ h => .of_eq hi h)) (fun _ _ => .pure)
  | clear => exact .pure
  | drain => exact .pure
  | reserve => exact .bind (reserve_pts.mono (fun _ h => h.elim)) (fun _ _ => .pure)
  | getOrInsertWith k load =>
    unfold step
    dsimp only
    unfold getOrInsertWith
    rw [bind_assoc]
    refine .bind ((getOrInsertToken_pts hi k load).mono ?_) (fun _ _ => .bind .pure (fun _ _ => .pure))
    rintro s' ⟨h1, h2 | ⟨hn, v, log, rfl, h2⟩, h3⟩
    · exact .idle h1 h2 (fun k' hk' => (h3 k' hk').imp_right (by rintro rfl; exact .load ..))
    · refine ⟨h1.1, h1.2, .whole (out := .loaded true (some (s'.contents k))) (log := log) ?_,
        fun k' hk' => (h3 k' hk').imp_right (by rintro rfl; exact .load ..)⟩
      simp only [OpSpec, hn]
      exact ⟨h2, trivial⟩
  | getMutOrInsertWith k load f =>
    unfold step at hrun ⊢
    dsimp only at hrun ⊢
    unfold getMutOrInsertWith at hrun ⊢
    rw [bind_assoc] at hrun ⊢
    have hstored : ∀ {s'}, ((Inv c s' ∧ Const s s') ∧ (s'.contents = s.contents ∨ (s.contents k = none ∧
        ∃ v log, load = some v ∧ Store c s.weightTargetHot s.contents k v log s'.contents)) ∧
        ∀ k', Pend s' k' → Pend s k' ∨ k' = k) →
        Good c s (.getMutOrInsertWith k load f) s' := by
      rintro s' ⟨h1, h2 | ⟨hn, v, log, rfl, h2⟩, h3⟩
      · exact .idle h1 h2 (fun k' hk' => (h3 k' hk').imp_right (by rintro rfl; exact .loadMut ..))
      · exact ⟨h1.1, h1.2, .loaded hn h2, fun k' hk' => (h3 k' hk').imp_right (by rintro rfl; exact .loadMut ..)⟩
    refine .bindR hrun ((getOrInsertToken_pts hi k load).mono (fun _ h => hstored h)) (fun x hx hrun => ?_)
    rw [run_getOrInsertToken] at hx
    have hg : Good c s (.getMutOrInsertWith k load f) x.1 := by
      rcases (loadToken_sat hi.toInv0 k load).of_ok hx with ⟨t, r, h0, hk, hits, misses, wrote⟩ | ⟨p, h0, h1, hp⟩ |
        ⟨s1, p, v, q, h0, h1, hp, g1, -⟩
      · exact .bumped hi wrote
      · exact .pending hi hp (.loadMut ..)
      · refine hstored ⟨⟨g1.full (hp.full hi), hp.const.trans g1.same.const⟩,
          Or.inr ⟨hi.toInv0.contents_none.mpr hp.noRes, v, q.log, h0, ?_⟩,
          fun k' hk' => hp.plh_of (g1.idles.plh k' hk')⟩
        have := g1.store hp.inv
        rw [hp.contents hi.toInv0, hp.target] at this
        exact this
    obtain ⟨s1, q, b, t⟩ := x
    dsimp only at hg
    rcases t with _ | t
    · exact .bind .pure (fun _ _ => .pure)
    · simp only [bind_assoc, pure_bind] at hrun ⊢
      refine .bindR hrun ((peekTokenMut_pts _).mono (fun _ h => h ▸ hg)) (fun r _ hrun =>
        .bind ((writeRef_pts _ _).mono (fun s' hs => ?_)) (fun _ _ => .pure))
      rw [run_bind, run_writeRef, hs] at hrun
      exact .done hi hrun.symm
  | getRefOrGuard k use =>
    unfold step
    dsimp only
    unfold getRefOrGuard
    rw [bind_assoc]
    refine .bind hh (fun _ _ => ?_)
    rw [bind_assoc]
    refine .bind ((upsertPlaceholder_pts _ _ _).mono (fun _ h => .of_eq hi h)) (fun x hx => ?_)
    rw [run_upsertPlaceholder] at hx
    obtain ⟨s1, y⟩ := x
    rcases (upsert_sat hi.toInv0 k).of_ok hx with ⟨t, r, h1, -⟩ | ⟨p, b, h1, hp⟩
    · dsimp only at h1
      subst h1
      exact .bind .pure (fun _ _ => .pure)
    · dsimp only at h1 hp
      subst h1
      refine .bind (.bind ((useGuard_pts hi hp use).mono ?_) (fun _ _ => .pure)) (fun _ _ => .pure)
      rintro s' ⟨h1, h2 | ⟨v, log, rfl, h2⟩, h3⟩
      · exact .idle h1 h2 (fun k' hk' => Or.inl (h3 k' hk'))
      · refine ⟨h1.1, h1.2, .whole (out := .orGuard none) (log := log) ?_, fun k' hk' => Or.inl (h3 k' hk')⟩
        simp only [OpSpec, hi.toInv0.contents_none.mpr hp.noRes]
        exact ⟨trivial, h2⟩
  | getMutOrGuard k f use =>
    unfold step at hrun ⊢
    dsimp only at hrun ⊢
    unfold getMutOrGuard at hrun ⊢
    rw [bind_assoc] at hrun ⊢
    refine .bindR hrun hh (fun _ _ hrun => ?_)
    rw [bind_assoc] at hrun ⊢
    refine .bindR hrun ((upsertPlaceholder_pts _ _ _).mono (fun _ h => .of_eq hi h)) (fun x hx hrun => ?_)
    rw [run_upsertPlaceholder] at hx
    obtain ⟨s1, y⟩ := x
    rcases (upsert_sat hi.toInv0 k).of_ok hx with ⟨t, r, h1, hk, hits, misses, wrote⟩ | ⟨p, b, h1, hp⟩
    · dsimp only at h1 wrote
      subst h1
      simp only [bind_assoc, pure_bind] at hrun ⊢
      refine .bindR hrun ((peekTokenMut_pts _).mono (fun _ h => h ▸ .bumped hi wrote)) (fun r _ hrun =>
        .bind ((writeRef_pts _ _).mono (fun s' hs => ?_)) (fun _ _ => .pure))
      rw [run_bind, run_writeRef, hs] at hrun
      exact .done hi hrun.symm
    · dsimp only at h1 hp
      subst h1
      refine .bind (.bind ((useGuard_pts hi hp use).mono ?_) (fun _ _ => .pure)) (fun _ _ => .pure)
      rintro s' ⟨h1, h2 | ⟨v, log, rfl, h2⟩, h3⟩
      · exact .idle h1 h2 (fun k' hk' => Or.inl (h3 k' hk'))
      · refine ⟨h1.1, h1.2, .whole (out := .orGuard none) (log := log) ?_, fun k' hk' => Or.inl (h3 k' hk')⟩
        simp only [OpSpec, hi.toInv0.contents_none.mpr hp.noRes]
        exact ⟨trivial, h2⟩

end Unwind
end QuickCache
