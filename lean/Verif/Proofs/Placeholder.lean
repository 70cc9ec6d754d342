import Verif.Proofs.Insert

/-!
# Placeholders
-/

namespace QuickCache
variable {K V RS : Type _}

namespace Shard
variable {c : Cfg K V RS} {s : Shard K V}

/-- The outcomes of `upsert_placeholder`. -/
inductive Upserted (c : Cfg K V RS) (s : Shard K V) (key : K) : Shard K V × Upsert V → Prop
  | found (t : Nat) (r : Resident K V) (s' : Shard K V) (ht : s.entries.item t = some (.resident r))
      (hk : r.key = key)
      (wrote : Wrote c s s' t (some (.resident r)) (some (.resident { r with referenced := bumpRef r.referenced })))
      (hits : s'.hits = s.hits + 1) (misses : s'.misses = s.misses) (np : s'.nextPlh = s.nextPlh) :
      Upserted c s key (s', .found t r.value)
  | join (t : Nat) (ph : Placeholder K) (ht : s.entries.item t = some (.placeholder ph)) (hk : ph.key = key)
      (hm : (c.hash key, t) ∈ s.map) (hno : NoRes s key) :
      Upserted c s key ({ s with hits := s.hits + 1 }, .pending ph.shared false)
  | ghost (t : Nat) (s' : Shard K V) (ht : s.entries.item t = some (.ghost (c.hash key))) (hno : NoKey s key)
      (wrote : Wrote c s s' t (some (.ghost (c.hash key))) (some (.placeholder
        { key := key, hot := .hot, shared := { id := s.nextPlh, hash := c.hash key, idx := t } })))
      (hits : s'.hits = s.hits) (misses : s'.misses = s.misses + 1) (np : s'.nextPlh = s.nextPlh + 1) :
      Upserted c s key (s', .pending { id := s.nextPlh, hash := c.hash key, idx := t } true)
  | fresh (t : Nat) (s' : Shard K V) (hno : NoKey s key) (hg : NoGhost s (c.hash key))
      (wrote : Wrote c s s' t none (some (.placeholder
        { key := key, hot := .cold, shared := { id := s.nextPlh, hash := c.hash key, idx := t } })))
      (hits : s'.hits = s.hits) (misses : s'.misses = s.misses + 1) (np : s'.nextPlh = s.nextPlh + 1) :
      Upserted c s key (s', .pending { id := s.nextPlh, hash := c.hash key, idx := t } true)

/-- The query of a lookup: `key` is the owned key it stands for. -/
theorem upsertPlaceholder_spec (h : Inv0 c s) {eqv : K → Bool} {key : K} (hq : Lawful c (c.hash key) eqv)
    (hkey : eqv key = true) :
    Res.Sat (s.upsertPlaceholder c (c.hash key) eqv key) (Upserted c s key)
      (fun p => p = .slabFull ∧ NoKey s key ∧ s.entries.entries.length + 2 = 2 ^ 32) := by
  have heq : ∀ k, eqv k = true → k = key := fun k hk => hq.one k key hk hkey
  unfold upsertPlaceholder
  rcases search_spec h.idx hq with ⟨t, e, k, h1, h2, h3, h4, h5⟩ | ⟨h0, hg⟩
  · rw [h1]
    simp only [Res.ok_bind]
    obtain rfl := heq k h5
    cases e with
    | resident r =>
      simp only [keyOf, Option.some.injEq] at h4
      obtain ⟨s', g1, g2, g3, g4, g5⟩ := bump_wrote h h3 (s.hits + 1) s.misses
      rw [Slab.get_eq, h3]
      simp only [Option.map_some]
      left
      refine ⟨(s', .found t r.value), ?_, .found t r s' h3 h4 g2 g3 g4 g5⟩
      congr 2
      rw [g1]
      by_cases hr : r.referenced < MAX_F
      · simp only [hr, if_true]; rfl
      · simp only [hr, if_false]
    | placeholder ph =>
      simp only [keyOf, Option.some.injEq] at h4
      have hno : NoRes s k := by
        intro t' r' hr' hk'
        have := res_key_uniq (k := k) h h3 (by simpa [hashOf, h4] using h2) (by simp [keyOf, h4]) _ t'
          (h.idx.mapped t' _ hr' (by simp)) (by simp [keyAt, hr', keyOf, hk'])
        subst this; rw [h3] at hr'; cases hr'
      rw [Slab.get_eq, h3]
      simp only [Option.map_some]
      exact .ok (.join t ph h3 h4 h2 hno)
    | ghost g => simp [keyOf] at h4
  · have hnk : NoKey s key := by
      intro h' t hm hk
      have := h0 h' t key hm hk
      rw [hkey] at this; cases this
    have hnew : ∀ t' p', s.entries.item t' = some (.placeholder p') → s.nextPlh ≠ p'.shared.id := by
      intro t' p' ht'
      have := (h.idx.plh t' p' ht').2.2
      omega
    rcases hg with ⟨t, h1, h2, h3⟩ | ⟨h1, h2⟩
    · rw [h1]
      simp only [Res.ok_bind]
      rw [Slab.get_eq, h3]
      simp only [Option.map_some]
      obtain ⟨f1, f2, f4⟩ := ghost_facts h h3
      have hocc : (s.entries.item t).isSome := by simp [h3]
      generalize hph : ({ key := key, hot := .hot, shared := { id := s.nextPlh, hash := c.hash key, idx := t } }
        : Placeholder K) = ph
      rw [csub_ok (by exact f1)]
      simp only [Res.ok_bind]
      generalize hs2 : ({ s.setEntry t (.placeholder ph) with
          nextPlh := s.nextPlh + 1, numNonResident := (s.setEntry t (.placeholder ph)).numNonResident - 1 }
          : Shard K V) = s2
      have hse : s2.entries = s.entries.setItem t (.placeholder ph) := by rw [← hs2]; rfl
      have hsh : s2.head = s.head := by rw [← hs2]; funext i; cases i <;> rfl
      obtain ⟨s3, g1, g2, g3⟩ := unlinkGhost_ring (rho := c.rho s.entries.item) (s := s2) (t := t)
        (by rw [hse, hsh]; exact h.str.setItem hocc _) f4
      rw [g1]
      simp only [Res.ok_bind]
      have hw : Wrote c s { s3 with misses := s3.misses + 1 } t (some (.ghost (c.hash key)))
          (some (.placeholder ph)) := by
        have e1 : Shard.head { s3 with misses := s3.misses + 1 } = s3.head := by funext i; cases i <;> rfl
        have e2 : Shard.num { s3 with misses := s3.misses + 1 } = s3.num := by funext i; cases i <;> rfl
        have e3 : Shard.wgt { s3 with misses := s3.misses + 1 } = s3.wgt := by funext i; cases i <;> rfl
        refine wrote_change h h3 f2 (by simp [hashOf, ← hph]) ?_ ?_ ?_ ?_ ?_ ?_ ?_ ?_ ?_ ?_ ?_ ?_ ?_
        · simp only; rw [g2.items, hse]
        · rw [e1]
          rw [hse, hsh] at g3
          refine (g3.after_setItem hocc).congr_move (fun R F hR => ?_)
          simp [Cfg.ringOf, ringMove]
        · simp only; rw [g2.map, ← hs2]; rfl
        · simp only; rw [g2.same.probe, ← hs2]; rfl
        · simp only; rw [g2.same.nextPlh, ← hs2]; simp
        · simp only; rw [g2.same.target, ← hs2]; rfl
        · simp only; rw [g2.same.capacity, ← hs2]; rfl
        · simp only; rw [g2.same.ghostCap, ← hs2]; rfl
        · intro k hk h' t' hm hk'
          simp only [keyOf, Option.some.injEq, ← hph] at hk
          subst hk
          exact absurd hk' (hnk h' t' hm)
        · intro p hp
          cases hp
          rw [← hph]
          refine ⟨rfl, rfl, ?_, fun t' p' ht' hid => absurd hid (hnew t' p' ht')⟩
          simp only
          rw [g2.same.nextPlh, ← hs2]; simp
        · intro st; rw [e2, g2.num, ← hs2]; cases st <;> simp [numF, num, setEntry]
        · intro st; rw [e3, g2.wgt, ← hs2]; cases st <;> simp [wgtF, wgt, setEntry]
        · simp only; rw [g2.ghosts, ← hs2]; simp [ghostF]; omega
      refine .ok (.ghost t _ h3 hnk (hph ▸ hw) ?_ ?_ ?_)
      · simp only; rw [g2.same.hits, ← hs2]; rfl
      · simp only; rw [g2.same.misses, ← hs2]; rfl
      · simp only; rw [g2.same.nextPlh, ← hs2]
    · rw [h1]
      simp only [Res.ok_bind]
      generalize ht : s.entries.nextFree = t
      generalize hph : ({ key := key, hot := .cold, shared := { id := s.nextPlh, hash := c.hash key, idx := t } }
        : Placeholder K) = ph
      rcases h.str.insert (.placeholder ph) with ⟨g1, g2, g3⟩ | ⟨e, g1, g2, g3, g4⟩
      · right
        rw [g1]
        exact ⟨_, rfl, rfl, hnk, g2⟩
      rw [ht] at g1 g2 g3
      rw [g1]
      simp only [Res.ok_bind]
      rw [if_neg (by simp)]
      have hre : rehash c e s.map = .ok s.map := by
        refine rehash_spec ?_
        intro hh t' hm
        obtain ⟨x, e1, e2⟩ := h.idx.hashed hh t' hm
        refine ⟨x, ?_, e2⟩
        rw [g2.other]
        · exact e1
        · rintro rfl; rw [g2.before] at e1; cases e1
      unfold mapInsert
      simp only
      rw [hre]
      simp only [Res.ok_bind]
      refine .ok (.fresh t _ hnk h2 (?_ : Wrote c s _ t none _) rfl rfl rfl)
      rw [hph]
      refine wrote_add h g2 ?_ ?_ rfl (by simp) rfl rfl rfl ?_ ?_ ?_ ?_ ?_
      · have e1 : ∀ (m : List (UInt64 × Nat)) (a b : Nat), Shard.head { s with
            nextPlh := a, entries := e, map := m, misses := b } = s.head := by
          intro m a b; funext i; cases i <;> rfl
        rw [e1]
        rw [upd_self]
        · exact Moves.insert g1
        · exact g3
      · simp [hashOf, ← hph]
      · intro k hk h' t' hm hk'
        simp only [keyOf, Option.some.injEq, ← hph] at hk
        subst hk
        exact hnk h' t' hm hk'
      · intro p hp
        cases hp
        rw [← hph]
        refine ⟨rfl, rfl, ?_, fun t' p' ht' hid => absurd hid (hnew t' p' ht')⟩
        simp
      · intro st; cases st <;> simp [numF, num]
      · intro st; cases st <;> simp [wgtF, wgt]
      · simp [ghostF]

/-! ### replace_placeholder -/

/-- The slot holds the placeholder `p` refers to. -/
def Holds (c : Cfg K V RS) (s : Shard K V) (p : Plh) (ph : Placeholder K) : Prop :=
  s.entries.item p.idx = some (.placeholder ph) ∧ c.sameAs ph.shared p = true

/-- The outcomes of `replace_placeholder`. -/
inductive Replaced (c : Cfg K V RS) (s : Shard K V) (q : Req K V RS) (p : Plh) (referenced : Bool) (value : V) :
    Shard K V × Req K V RS × Option V → Prop
  | gone (hg : ∀ ph, ¬ Holds c s p ph) : Replaced c s q p referenced value (s, q, some value)
  | direct (ph : Placeholder K) (st : St) (s3 s' : Shard K V) (q' : Req K V RS) (hp : Holds c s p ph)
      (hw : ¬ (s.weightTargetHot < c.weight ph.key value ∧ c.pinned ph.key value = false)) (same : Same s s3)
      (wrote : Wrote c s s3 p.idx (some (.placeholder ph)) (some (.resident
        { key := ph.key, value := value, state := st, referenced := if referenced then 1 else 0 })))
      (after : AfterEvict c s3 q s' q' ∨ (c.weight ph.key value = 0 ∧ s' = s3 ∧ q' = q))
      (level : st = if s.weightHot + s.weightCold + c.weight ph.key value ≤ s.weightCapacity then .hot else ph.hot)
      (light : c.weight ph.key value = 0 → s' = s3 ∧ q' = q) :
      Replaced c s q p referenced value (s', q', none)
  | shrunk (ph : Placeholder K) (st : St) (q1 : Req K V RS) (v1 : V) (s3 s' : Shard K V) (q' : Req K V RS)
      (hp : Holds c s p ph) (hw : s.weightTargetHot < c.weight ph.key value) (hpin : c.pinned ph.key value = false)
      (hb : q.before c ph.key value = (q1, v1)) (hw1 : c.weight ph.key v1 ≤ s.weightTargetHot) (same : Same s s3)
      (wrote : Wrote c s s3 p.idx (some (.placeholder ph)) (some (.resident
        { key := ph.key, value := v1, state := st, referenced := if referenced then 1 else 0 })))
      (after : AfterEvict c s3 q1 s' q' ∨ (c.weight ph.key v1 = 0 ∧ s' = s3 ∧ q' = q1))
      (level : st = if s.weightHot + s.weightCold + c.weight ph.key v1 ≤ s.weightCapacity then .hot else ph.hot)
      (light : c.weight ph.key v1 = 0 → s' = s3 ∧ q' = q1) :
      Replaced c s q p referenced value (s', q', none)
  | rejected (ph : Placeholder K) (q1 : Req K V RS) (v1 : V) (s' : Shard K V) (hp : Holds c s p ph)
      (hw : s.weightTargetHot < c.weight ph.key value) (hpin : c.pinned ph.key value = false)
      (hb : q.before c ph.key value = (q1, v1)) (hw1 : s.weightTargetHot < c.weight ph.key v1) (same : Same s s')
      (wrote : Wrote c s s' p.idx (some (.placeholder ph)) none) :
      Replaced c s q p referenced value (s', q1.on c ph.key v1, none)

theorem replacePlaceholderAdmit_spec (h : Inv0 c s) (q : Req K V RS) {p : Plh} {ph : Placeholder K}
    (ht : s.entries.item p.idx = some (.placeholder ph)) (hm : (c.hash ph.key, p.idx) ∈ s.map)
    (referenced : Bool) (value : V) :
    Res.Sat ((s.setEntry p.idx (.ghost 0)).replacePlaceholderAdmit c q p ph.key ph.hot referenced value
        (c.weight ph.key value))
      (fun x => ∃ st s3, Same s s3 ∧
        Wrote c s s3 p.idx (some (.placeholder ph)) (some (.resident
          { key := ph.key, value := value, state := st, referenced := if referenced then 1 else 0 })) ∧
        (AfterEvict c s3 q x.1 x.2 ∨ (c.weight ph.key value = 0 ∧ x.1 = s3 ∧ x.2 = q)) ∧
        st = (if s.weightHot + s.weightCold + c.weight ph.key value ≤ s.weightCapacity then .hot else ph.hot) ∧
        (c.weight ph.key value = 0 → x.1 = s3 ∧ x.2 = q))
      (OvErr s (c.weight ph.key value)) := by
  have f4 : c.rho s.entries.item p.idx = none := rho_placeholder ht
  have hocc : (s.entries.item p.idx).isSome := by simp [ht]
  unfold replacePlaceholderAdmit
  have e1 : (s.setEntry p.idx (.ghost 0)).weightHot = s.weightHot := rfl
  have e2 : (s.setEntry p.idx (.ghost 0)).weightCold = s.weightCold := rfl
  have e3 : (s.setEntry p.idx (.ghost 0)).weightCapacity = s.weightCapacity := rfl
  rw [e1, e2, e3]
  rcases Nat.lt_or_ge (s.weightHot + s.weightCold) (2 ^ 64) with hov | hov
  rotate_left
  · right; rw [cadd_err hov]; exact ⟨_, rfl, rfl, by omega⟩
  rw [cadd_ok hov]
  simp only [Res.ok_bind]
  rcases Nat.lt_or_ge (s.weightHot + s.weightCold + c.weight ph.key value) (2 ^ 64) with hov | hov
  rotate_left
  · right; rw [cadd_err hov]; exact ⟨_, rfl, rfl, by omega⟩
  rw [cadd_ok hov]
  simp only [Res.ok_bind]
  generalize hst : (if s.weightHot + s.weightCold + c.weight ph.key value ≤ s.weightCapacity then St.hot else ph.hot) = st
  have hset : ∀ r' : Resident K V, (s.setEntry p.idx (.ghost 0)).setEntry p.idx (.resident r') =
      s.setEntry p.idx (.resident r') := by
    intro r'
    simp only [setEntry]
    unfold Slab.setItem Slab.mod
    simp only [List.modify_modify_eq]
    rfl
  rw [hset]
  generalize hr' : ({ key := ph.key, value := value, state := st, referenced := if referenced then 1 else 0 }
    : Resident K V) = r'
  have k1 : r'.key = ph.key := by rw [← hr']
  have k2 : r'.value = value := by rw [← hr']
  have k3 : r'.state = st := by rw [← hr']
  rw [wgt_setEntry, num_setEntry]
  have hle := wgt_le_total s st
  rw [cadd_ok (by omega)]
  simp only [Res.ok_bind]
  generalize hs2 : (((s.setEntry p.idx (.resident r')).setNum st (s.num st + 1)).setWgt st
      (s.wgt st + c.weight ph.key value) : Shard K V) = s2
  have hse : s2.entries = s.entries.setItem p.idx (.resident r') := by rw [← hs2]; simp
  have hsh : s2.head = s.head := by rw [← hs2]; simp
  have hocc2 : (s2.entries.item p.idx).isSome := by
    rw [hse, Slab.item_setItem hocc]; simp
  obtain ⟨s3, g1, g2, g3⟩ := linkNew_ring (rho := c.rho s.entries.item) (s := s2) (t := p.idx)
      (by rw [hse, hsh]; exact h.str.setItem hocc _) st (w := c.weight ph.key value) hocc2 f4
  have hsame : Same s s3 := by
    refine Same.trans ?_ g2.same
    rw [← hs2]; constructor <;> simp
  have hw : Wrote c s s3 p.idx (some (.placeholder ph)) (some (.resident r')) := by
    refine fill_wrote h ht hm k1 ?_ ?_ ?_ ?_ ?_ ?_ hsame
    · rw [g2.items, hse]
    · rw [hse, hsh] at g3
      rw [k1, k2, k3]; exact g3.after_setItem hocc
    · rw [g2.map, ← hs2]; simp
    · rw [g2.wgt, ← hs2, k1, k2, k3]; simp
    · rw [g2.num, ← hs2, k3]; simp
    · rw [g2.ghosts, ← hs2]; simp
  unfold linkNew at g1
  by_cases hw0 : c.weight ph.key value ≠ 0
  · rw [if_pos hw0] at g1 ⊢
    rw [g1]
    simp only [Res.ok_bind]
    refine (evictLoop_after hw.inv _).mono (fun x hx => ⟨st, s3, hsame, by rw [hr']; exact hw, Or.inl hx, rfl, fun h0 => absurd h0 hw0⟩) ?_
    rintro x ⟨rfl, hp⟩
    refine ⟨rfl, ?_⟩
    have := hw.total h
    simp only [totF, k1, k2] at this
    omega
  · rw [if_neg hw0] at g1 ⊢
    cases g1
    exact .ok ⟨st, s2, hsame, by rw [hr']; exact hw, Or.inr ⟨by omega, rfl, rfl⟩, rfl, fun _ => ⟨rfl, rfl⟩⟩

theorem replacePlaceholder_spec (h : Inv0 c s) (q : Req K V RS) {p : Plh} (referenced : Bool) (value : V)
    (hlive : ∀ ph, Holds c s p ph → p.hash = c.hash ph.key ∧ (p.hash, p.idx) ∈ s.map) :
    Res.Sat (s.replacePlaceholder c q p referenced value) (Replaced c s q p referenced value)
      (fun e => ∃ ph, Holds c s p ph ∧ OvErr s (addWeight c s q ph.key value) e) := by
  by_cases hh : ∃ ph, Holds c s p ph
  · obtain ⟨ph, hp⟩ := hh
    obtain ⟨l1, l2⟩ := hlive ph hp
    obtain ⟨ht, hsa⟩ := hp
    have hocc : (s.entries.item p.idx).isSome := by simp [ht]
    unfold replacePlaceholder addWeight
    rw [Slab.get_eq, ht]
    simp only [Option.map_some]
    rw [if_pos hsa]
    have e1 : (s.setEntry p.idx (.ghost 0)).weightTargetHot = s.weightTargetHot := rfl
    rw [e1]
    have hmap : (c.hash ph.key, p.idx) ∈ s.map := l1 ▸ l2
    by_cases hw : s.weightTargetHot < c.weight ph.key value ∧ c.pinned ph.key value = false
    · simp only [if_pos hw]
      by_cases hw1 : s.weightTargetHot < c.weight ph.key (q.before c ph.key value).2
      · simp only [if_pos hw1]
        have f4 : c.rho s.entries.item p.idx = none := rho_placeholder ht
        have hs1 : Struct (s.setEntry p.idx (.ghost 0)).entries s.head (c.rho s.entries.item) :=
          h.str.setItem hocc _
        have hit : (s.setEntry p.idx (.ghost 0)).entries.item p.idx = some (.ghost 0) := by
          rw [entries_setEntry, Slab.item_setItem hocc]; simp
        obtain ⟨e2, j1, j2, j3, j4⟩ := hs1.remove_off f4 hit
        have hmr := mapRemove_spec (s := { s.setEntry p.idx (.ghost 0) with entries := e2 })
          (I := s.entries.item) h.idx l2
        left
        refine ⟨({ s.setEntry p.idx (.ghost 0) with
            entries := e2, map := s.map.filter (fun b => b.2 != p.idx) },
          (q.before c ph.key value).1.on c ph.key (q.before c ph.key value).2, none), ?_, ?_⟩
        · unfold handleOverweightReplacePlaceholder
          rw [j1]
          simp only [Res.ok_bind]
          rw [hmr]
          simp only [Res.ok_bind]
          rfl
        · refine .rejected ph _ _ _ ⟨ht, hsa⟩ hw.1 hw.2 rfl hw1 ⟨rfl, rfl, rfl, rfl, rfl, rfl, rfl⟩ ?_
          have hu : Slab.Upd s.entries e2 p.idx (some (.placeholder ph)) none := by
            have u1 : Slab.Upd s.entries (s.entries.setItem p.idx (.ghost 0)) p.idx (some (.placeholder ph))
              (some (.ghost 0)) := Slab.Upd.setItem ht _
            refine ⟨ht, ?_, ?_⟩
            · intro u; rw [j2.item]
              by_cases hu : u = p.idx
              · simp [hu]
              · simp only [hu, if_false]; exact u1.other hu
            · intro f hf
              have := j2.sum f hf
              have := u1.sum f hf
              simp only [entries_setEntry] at *
              omega
          have hhead : Shard.head { s.setEntry p.idx (.ghost 0) with
              entries := e2, map := s.map.filter (fun b => b.2 != p.idx) } = s.head := by
            funext i; cases i <;> rfl
          refine ⟨?_, hu, rfl, rfl, rfl, rfl, map_filter_iff, ?_⟩
          · refine h.step (t := p.idx) (old := some (.placeholder ph)) (new := none) hu ?_ (h.idx.del p.idx) ?_ ?_ ?_
            · simp only [Option.bind_none]
              rw [upd_self _ _ _ f4]
              rw [hhead]; exact j4
            · intro st; cases st <;> simp [numF, num, setEntry]
            · intro st; cases st <;> simp [wgtF, wgt, setEntry]
            · simp [ghostF, setEntry]
          · rw [hhead]
            refine ((Moves.remove_off f4 j1 hit).after_setItem hocc).congr_rho ?_
            simp only
            rw [hu.fn, Cfg.rho_upd, Option.bind_none, upd_self _ _ _ f4]
      · simp only [if_neg hw1]
        refine Res.Sat.bind (Res.Sat.mono (replacePlaceholderAdmit_spec h (q.before c ph.key value).1 ht hmap referenced
          (q.before c ph.key value).2) (fun _ hx => hx) (fun x hx => ⟨ph, ⟨ht, hsa⟩, ?_⟩)) ?_
        · rw [if_pos hw]; exact hx
        rintro ⟨s2, q2⟩ ⟨st, s3, k1, k2, k3, k4, k5⟩
        exact .ok (.shrunk ph st _ _ s3 s2 q2 ⟨ht, hsa⟩ hw.1 hw.2 rfl (Nat.le_of_not_lt hw1) k1 k2 k3 k4 k5)
    · simp only [if_neg hw]
      refine Res.Sat.bind (Res.Sat.mono (replacePlaceholderAdmit_spec h q ht hmap referenced value)
        (fun _ hx => hx) (fun x hx => ⟨ph, ⟨ht, hsa⟩, ?_⟩)) ?_
      · rw [if_neg hw]; exact hx
      rintro ⟨s2, q2⟩ ⟨st, s3, k1, k2, k3, k4, k5⟩
      exact .ok (.direct ph st s3 s2 q2 ⟨ht, hsa⟩ hw k1 k2 k3 k4 k5)
  · have hh' : ∀ ph, ¬ Holds c s p ph := fun ph hp => hh ⟨ph, hp⟩
    have : s.replacePlaceholder c q p referenced value = .ok (s, q, some value) := by
      unfold replacePlaceholder
      rw [Slab.get_eq]
      cases hit : s.entries.item p.idx with
      | none => rfl
      | some e =>
        cases e with
        | resident r => rfl
        | ghost g => rfl
        | placeholder ph =>
          simp only [Option.map_some]
          rw [if_neg]
          intro hsa
          exact hh' ph ⟨hit, hsa⟩
    rw [this]
    exact .ok (.gone hh')

end Shard
end QuickCache
