import Verif.Proofs.Memory
import Verif.Proofs.History
import Verif.Model.Sync

/-!
# The effect of every critical section of a shard

On the items (through `StepEff`, `Pending`, `StoreEff`), and on the placeholders (`PEff`).
-/

namespace QuickCache
variable {K V RS : Type _}
open Shard Unsync Spec

section
variable {c : Cfg K V RS} {s s' : Shard K V}

/-! ### Placeholders of a shard -/

/-- The slot of the handle `p` holds the placeholder with that handle, for key `k`. -/
def PSlot (s : Shard K V) (k : K) (p : Plh) : Prop :=
  ∃ ph : Placeholder K, s.entries.item p.idx = some (.placeholder ph) ∧ ph.key = k ∧ ph.shared = p

/-- … and is in the index. -/
def PLive (c : Cfg K V RS) (s : Shard K V) (k : K) (p : Plh) : Prop := PSlot s k p ∧ (c.hash k, p.idx) ∈ s.map

/-- How the placeholders change: `live'` are the ones in the index afterwards; slots with a placeholder outside of the
index were such slots before, or are among `orph`. -/
structure PEff (c : Cfg K V RS) (s s' : Shard K V) (live' : K → Plh → Prop) (orph : Plh → Prop) : Prop where
  live : ∀ k p, PLive c s' k p ↔ live' k p
  orphan : ∀ k p, PSlot s' k p → live' k p ∨ (PSlot s k p ∧ ¬ PLive c s k p) ∨ orph p

theorem PSlot.of_item (hi : Inv0 c s) {t : Nat} {ph : Placeholder K} (h : s.entries.item t = some (.placeholder ph)) :
    PSlot s ph.key ph.shared := by
  refine ⟨ph, ?_, rfl, rfl⟩
  rw [(hi.idx.plh t ph h).1]; exact h

theorem PSlot.hash (hi : Inv0 c s) {k : K} {p : Plh} (h : PSlot s k p) : p.hash = c.hash k ∧ p.id < s.nextPlh := by
  obtain ⟨ph, h1, h2, h3⟩ := h
  have := hi.idx.plh _ ph h1
  rw [h3, h2] at this
  exact this.2

/-- At most one placeholder of a key is in the index. -/
theorem PLive.uniq (hi : Inv0 c s) {k : K} {p p' : Plh} (h : PLive c s k p) (h' : PLive c s k p') : p = p' := by
  obtain ⟨⟨ph, h1, h2, h3⟩, h4⟩ := h
  obtain ⟨⟨ph', g1, g2, g3⟩, g4⟩ := h'
  have := hi.idx.uniq _ _ _ _ k h4 g4 (by simp [keyAt, h1, keyOf, h2]) (by simp [keyAt, g1, keyOf, g2])
  rw [← this] at g1
  rw [h1] at g1
  cases g1
  rw [← h3, ← g3]

theorem PLive.noRes (hi : Inv0 c s) {k : K} {p : Plh} (h : PLive c s k p) : NoRes s k := by
  obtain ⟨⟨ph, h1, h2, h3⟩, h4⟩ := h
  rw [← h2]
  exact plh_noRes hi h1 h4

theorem PLive.noKey {k : K} {p : Plh} (h : PLive c s k p) : ¬ NoKey s k := by
  obtain ⟨⟨ph, h1, h2, h3⟩, h4⟩ := h
  intro hn
  exact hn _ _ h4 (by simp [keyAt, h1, keyOf, h2])

/-- Placeholders unchanged except that those `kill`ed lost slot and index entry. -/
structure PDrop (c : Cfg K V RS) (s s' : Shard K V) (kill : K → Plh → Prop) : Prop where
  slot : ∀ k p, PSlot s' k p ↔ PSlot s k p ∧ ¬ kill k p
  live : ∀ k p, PLive c s' k p ↔ PLive c s k p ∧ ¬ kill k p

theorem PDrop.refl (c : Cfg K V RS) (s : Shard K V) : PDrop c s s (fun _ _ => False) :=
  ⟨by simp, by simp⟩

theorem PDrop.trans {s1 : Shard K V} {k1 k2 : K → Plh → Prop} (h1 : PDrop c s s1 k1) (h2 : PDrop c s1 s' k2) :
    PDrop c s s' (fun k p => k1 k p ∨ k2 k p) := by
  constructor
  · intro k p; rw [h2.slot, h1.slot, not_or, and_assoc]
  · intro k p; rw [h2.live, h1.live, not_or, and_assoc]

theorem PDrop.congr {k1 k2 : K → Plh → Prop} (h : PDrop c s s' k1) (he : ∀ k p, PSlot s k p → (k1 k p ↔ k2 k p)) :
    PDrop c s s' k2 := by
  constructor
  · intro k p; rw [h.slot]
    constructor
    · rintro ⟨a, b⟩; exact ⟨a, fun hk => b ((he k p a).mpr hk)⟩
    · rintro ⟨a, b⟩; exact ⟨a, fun hk => b ((he k p a).mp hk)⟩
  · intro k p; rw [h.live]
    constructor
    · rintro ⟨a, b⟩; exact ⟨a, fun hk => b ((he k p a.1).mpr hk)⟩
    · rintro ⟨a, b⟩; exact ⟨a, fun hk => b ((he k p a.1).mp hk)⟩

theorem PDrop.eff {kill : K → Plh → Prop} (h : PDrop c s s' kill) :
    PEff c s s' (fun k p => PLive c s k p ∧ ¬ kill k p) (fun _ => False) := by
  refine ⟨h.live, fun k p hs => ?_⟩
  obtain ⟨h1, h2⟩ := (h.slot k p).mp hs
  by_cases hl : PLive c s k p
  · exact Or.inl ⟨hl, h2⟩
  · exact Or.inr (Or.inl ⟨h1, hl⟩)

/-- Index and placeholder slots are the same. -/
theorem PDrop.same (h1 : ∀ t ph, s'.entries.item t = some (.placeholder ph) ↔ s.entries.item t = some (.placeholder ph))
    (h2 : ∀ t ph hh, s.entries.item t = some (.placeholder ph) → ((hh, t) ∈ s'.map ↔ (hh, t) ∈ s.map)) :
    PDrop c s s' (fun _ _ => False) := by
  have hs : ∀ k p, PSlot s' k p ↔ PSlot s k p := by
    intro k p
    unfold PSlot
    simp only [h1]
  constructor
  · intro k p; simp [hs]
  · intro k p
    unfold PLive
    rw [hs]
    simp only [not_false_eq_true, and_true]
    constructor
    · rintro ⟨a, b⟩
      obtain ⟨ph, a1, -⟩ := id a
      exact ⟨a, (h2 _ ph _ a1).mp b⟩
    · rintro ⟨a, b⟩
      obtain ⟨ph, a1, -⟩ := id a
      exact ⟨a, (h2 _ ph _ a1).mpr b⟩

theorem EvPost.pdrop {q q' : Req K V RS} (h : EvPost c s q s' q') : PDrop c s s' (fun _ _ => False) := by
  obtain ⟨L, -, hev⟩ := h.log
  refine .same (fun t ph => (hev.frame.1 t ph).symm) (fun t ph hh ht => ?_)
  rw [h.map]
  have := (hev.frame.1 t ph).mp ht
  simp [this]

theorem Wrote.pdrop {t : Nat} {old new : Option (Entry K V)} (h : Wrote c s s' t old new)
    (hn : ∀ p, new ≠ some (.placeholder p)) : PDrop c s s' (fun _ p => p.idx = t) := by
  have hs : ∀ k p, PSlot s' k p ↔ PSlot s k p ∧ ¬ p.idx = t := by
    intro k p
    unfold PSlot
    by_cases ht : p.idx = t
    · rw [ht, h.upd.after]
      simp [hn]
    · rw [h.upd.other ht]
      simp [ht]
  refine ⟨hs, fun k p => ?_⟩
  unfold PLive
  rw [hs, h.map]
  simp only
  constructor
  · rintro ⟨⟨a, b⟩, ⟨-, d⟩ | ⟨d, -⟩⟩
    · exact ⟨⟨a, d⟩, b⟩
    · exact absurd d b
  · rintro ⟨⟨a, d⟩, b⟩
    exact ⟨⟨a, b⟩, Or.inl ⟨b, d⟩⟩

/-- Writing over something that is not a placeholder. -/
theorem Wrote.pdrop_idle {t : Nat} {old new : Option (Entry K V)} (h : Wrote c s s' t old new)
    (ho : ∀ p, old ≠ some (.placeholder p)) (hn : ∀ p, new ≠ some (.placeholder p)) :
    PDrop c s s' (fun _ _ => False) := by
  refine (h.pdrop hn).congr (fun k p hs => ?_)
  obtain ⟨ph, h1, -⟩ := hs
  refine ⟨fun ht => ?_, False.elim⟩
  have := h.upd.before
  rw [← ht, h1] at this
  exact ho ph this.symm

/-- Writing over the placeholder of `k` that is in the index. -/
theorem Wrote.pdrop_key (hi : Inv0 c s) {t : Nat} {ph : Placeholder K} {new : Option (Entry K V)} {hh : UInt64}
    (h : Wrote c s s' t (some (.placeholder ph)) new) (hm : (hh, t) ∈ s.map) (hn : ∀ p, new ≠ some (.placeholder p)) :
    PDrop c s s' (fun k p => k = ph.key ∧ PLive c s k p) := by
  refine (h.pdrop hn).congr (fun k p hs => ?_)
  have ht := h.upd.before
  constructor
  · rintro hpt
    obtain ⟨ph', h1, h2, h3⟩ := id hs
    rw [hpt, ht] at h1
    cases h1
    refine ⟨h2.symm, hs, ?_⟩
    have := hi.idx.hash_of_mem hm ht
    rw [hpt, ← h2]
    rw [← this] at hm
    exact hm
  · rintro ⟨rfl, ⟨ph', h1, h2, h3⟩, h4⟩
    exact hi.idx.uniq _ _ _ _ ph.key h4 hm (by simp [keyAt, h1, keyOf, h2]) (by simp [keyAt, ht, keyOf])

/-- Replacing the placeholder of `p` by its own handle. -/
theorem Wrote.pdrop_handle {p : Plh} {ph : Placeholder K} {new : Option (Entry K V)}
    (h : Wrote c s s' p.idx (some (.placeholder ph)) new) (hp : ph.shared = p) (hn : ∀ p, new ≠ some (.placeholder p)) :
    PDrop c s s' (fun _ p' => p' = p) := by
  refine (h.pdrop hn).congr (fun k p' hs => ?_)
  have ht := h.upd.before
  obtain ⟨ph', h1, h2, h3⟩ := id hs
  constructor
  · rintro hpt
    rw [hpt, ht] at h1
    cases h1
    rw [← h3, ← hp]
  · rintro rfl; rfl

theorem NoKey.not_live {k : K} (h : NoKey s k) {p : Plh} : ¬ PLive c s k p := fun hl => hl.noKey h

theorem res_not_live (hi : Inv0 c s) {t : Nat} {r : Resident K V} (ht : s.entries.item t = some (.resident r))
    {p : Plh} : ¬ PLive c s r.key p := fun hl => hl.noRes hi t r ht rfl

theorem PDrop.add_key (hk : ∀ p, ¬ PLive c s k p) (h : PDrop c s s' (fun _ _ => False)) :
    PDrop c s s' (fun k' p => k' = k ∧ PLive c s k' p) := by
  refine h.congr (fun k' p _ => ⟨False.elim, ?_⟩)
  rintro ⟨rfl, h⟩
  exact hk p h

theorem AfterEvict.pdrop {q q' : Req K V RS} (h : AfterEvict c s q s' q') : PDrop c s s' (fun _ _ => False) :=
  h.post.pdrop

theorem PDrop.then_same {s1 : Shard K V} {kill : K → Plh → Prop} (h1 : PDrop c s s1 kill)
    (h2 : PDrop c s1 s' (fun _ _ => False)) : PDrop c s s' kill :=
  (h1.trans h2).congr (fun _ _ _ => by simp)

theorem PDrop.same_then {s1 : Shard K V} {kill : K → Plh → Prop} (h1 : PDrop c s s1 (fun _ _ => False))
    (h2 : PDrop c s1 s' kill) : PDrop c s s' kill :=
  (h1.trans h2).congr (fun _ _ _ => by simp)

theorem Shard.Admit.pdrop_insert {q : Req K V RS} {k : K} {v : V} {x : Shard K V × Req K V RS × Option V}
    (hi : Inv0 c s) (h : Admit c s q k v .insert x) : PDrop c s x.1 (fun k' p => k' = k ∧ PLive c s k' p) := by
  cases h with
  | overwrite t r s3 s' q' ht hk same wrote after =>
    refine ((wrote.pdrop_idle (by simp) (by simp)).add_key ?_).then_same after.pdrop
    intro p; rw [← hk]; exact res_not_live hi ht
  | revive t s3 s' q' hstr ht hk same wrote after =>
    exact ((wrote.pdrop_idle (by simp) (by simp)).add_key (fun p => NoKey.not_live hk)).then_same after.pdrop
  | fill t ph s3 s' q' hstr ht hm hk hno same wrote after =>
    subst hk
    exact (wrote.pdrop_key hi hm (by simp)).then_same after.pdrop
  | fresh t st s1 s' q' hstr hk hg post done fits hst same wrote run =>
    exact (post.pdrop.then_same (wrote.pdrop_idle (by simp) (by simp))).add_key (fun p => NoKey.not_live hk)
  | absent soft hstr hno => cases hstr

theorem Shard.Admit.pdrop_replace {q : Req K V RS} {k : K} {v : V} {soft : Bool} {x : Shard K V × Req K V RS × Option V}
    (h : Admit c s q k v (.replace soft) x) : PDrop c s x.1 (fun _ _ => False) := by
  cases h with
  | overwrite t r s3 s' q' ht hk same wrote after =>
    exact (wrote.pdrop_idle (by simp) (by simp)).then_same after.pdrop
  | revive t s3 s' q' hstr ht hk same wrote after => cases hstr
  | fill t ph s3 s' q' hstr ht hm hk hno same wrote after => cases hstr
  | fresh t st s1 s' q' hstr hk hg post done fits hst same wrote run => cases hstr
  | absent soft hstr hno => exact .refl c s

theorem Shard.Reject.pdrop {q : Req K V RS} {k : K} {v : V} {str : Strategy} {x : Shard K V × Req K V RS × Option V}
    (h : Reject c s q k v str x) : PDrop c s x.1 (fun _ _ => False) := by
  cases h with
  | evictOld t r s' ht hk same wrote =>
    have := wrote.pdrop_idle (by simp) (by simp)
    cases str <;> exact this
  | noOld hno => cases str <;> exact .refl c s

/-- What a call of the shared API does to placeholders: the ones it takes out. -/
def Kills (c : Cfg K V RS) (target : Nat) : Op K V → K → Prop
  | .insert k v => fun k' => k' = k ∧ Admissible c target k v
  | .remove k => fun k' => k' = k
  | .clear => fun _ => True
  | _ => fun _ => False

theorem Shard.Inserted.pdrop {k : K} {v : V} {x : Shard K V × Req K V RS × Option V}
    (hi : Inv0 c s) (h : Inserted c s c.begin k v .insert x) :
    PDrop c s x.1 (fun k' p => (k' = k ∧ Admissible c s.weightTargetHot k v) ∧ PLive c s k' p) := by
  cases h with
  | direct hw ha =>
    refine (ha.pdrop_insert hi).congr (fun k' p _ => ?_)
    have : Admissible c s.weightTargetHot k v := by
      unfold Admissible enterWeight
      rw [if_neg hw]
      by_cases hp : c.pinned k v = true
      · exact Or.inl hp
      · right
        have := not_and.mp hw
        simp only [Bool.not_eq_true] at hp
        exact Nat.le_of_not_lt (fun hlt => this hlt hp)
    simp [this]
  | shrunk q1 v1 hw hp hb hw1 ha =>
    refine (ha.pdrop_insert hi).congr (fun k' p _ => ?_)
    have : Admissible c s.weightTargetHot k v := by
      right
      unfold enterWeight
      rw [if_pos ⟨hw, hp⟩]
      have : (c.begin.before c k v).2 = v1 := by rw [hb]
      exact this ▸ hw1
    simp [this]
  | rejected q1 v1 hw hp hb hw1 ha =>
    refine ha.pdrop.congr (fun k' p _ => ?_)
    have : ¬ Admissible c s.weightTargetHot k v := by
      rintro (h | h)
      · rw [hp] at h; cases h
      · unfold enterWeight at h
        rw [if_pos ⟨hw, hp⟩] at h
        have he : (c.begin.before c k v).2 = v1 := by rw [hb]
        have : c.weight k v1 ≤ s.weightTargetHot := he ▸ h
        omega
    simp [this]

theorem Shard.Inserted.pdrop_replace {k : K} {v : V} {soft : Bool} {x : Shard K V × Req K V RS × Option V}
    (h : Inserted c s c.begin k v (.replace soft) x) : PDrop c s x.1 (fun _ _ => False) := by
  cases h with
  | direct hw ha => exact ha.pdrop_replace
  | shrunk q1 v1 hw hp hb hw1 ha => exact ha.pdrop_replace
  | rejected q1 v1 hw hp hb hw1 ha => exact ha.pdrop

/-- The placeholders after a call. -/
theorem step_plh [DecidableEq K] (hi : Inv c s) {op : Op K V} (hop : op.shared) {x : Shard K V × Out K V × Req K V RS}
    (h : Unsync.step c s op = .ok x) :
    PEff c s x.1 (fun k p => PLive c s k p ∧ ¬ Kills c s.weightTargetHot op k) (fun _ => False) ∧
      x.1.nextPlh = s.nextPlh := by
  have fin : ∀ {s' : Shard K V} {kill : K → Plh → Prop}, PDrop c s s' kill →
      (∀ k p, PLive c s k p → (kill k p ↔ Kills c s.weightTargetHot op k)) →
      PEff c s s' (fun k p => PLive c s k p ∧ ¬ Kills c s.weightTargetHot op k) (fun _ => False) := by
    intro s' kill hd he
    have := hd.eff
    have hcong : ∀ k p, (PLive c s k p ∧ ¬ kill k p) ↔ (PLive c s k p ∧ ¬ Kills c s.weightTargetHot op k) := by
      intro k p
      constructor
      · rintro ⟨a, b⟩; exact ⟨a, fun hk => b ((he k p a).mpr hk)⟩
      · rintro ⟨a, b⟩; exact ⟨a, fun hk => b ((he k p a).mp hk)⟩
    exact ⟨fun k p => (this.live k p).trans (hcong k p), fun k p hs => (this.orphan k p hs).imp_left (hcong k p).mp⟩
  have keep : PEff c s s (fun k p => PLive c s k p ∧ ¬ False) (fun _ => False) := (PDrop.refl c s).eff
  cases op with
  | insert k v =>
    simp only [Unsync.step, Unsync.insert] at h
    cases hx : s.insert c c.begin (c.hash k) k v .insert with
    | error p => rw [hx] at h; cases h
    | ok y =>
      rw [hx] at h
      obtain ⟨s1, q, r⟩ := y
      have hins := (insert_spec hi.toInv0 c.begin k v .insert).of_ok hx
      have hsame := (hins.storeEff hi.toInv0).same
      simp only [Res.ok_bind] at h
      split at h
      · cases h
      · cases h
        refine ⟨fin (hins.pdrop hi.toInv0) ?_, hsame.nextPlh⟩
        intro k' p hl
        simp only [Kills]
        exact ⟨fun h => h.1, fun h => ⟨h, hl⟩⟩
  | replace k v soft =>
    simp only [Unsync.step, Unsync.replace] at h
    cases hx : s.insert c c.begin (c.hash k) k v (.replace soft) with
    | error p => rw [hx] at h; cases h
    | ok y =>
      rw [hx] at h
      obtain ⟨s1, q, r⟩ := y
      have hins := (insert_spec hi.toInv0 c.begin k v (.replace soft)).of_ok hx
      have hsame := (hins.storeEff hi.toInv0).same
      cases h
      exact ⟨fin hins.pdrop_replace (fun _ _ _ => Iff.rfl), hsame.nextPlh⟩
  | remove k =>
    simp only [Unsync.step] at h
    rcases remove_spec hi.toInv0 (Lawful.key c k) with ⟨hx, hno⟩ | ⟨s1, t, e, hx, ht, hm, wrote, same, hk⟩
    · rw [hx] at h
      cases h
      refine ⟨fin (kill := fun _ _ => False) (.refl c s) ?_, rfl⟩
      rintro k' p hl
      refine ⟨False.elim, ?_⟩
      rintro rfl
      obtain ⟨⟨ph, h1, h2, h3⟩, h4⟩ := hl
      have := hno _ _ _ h4 (by simp [keyAt, h1, keyOf]; rfl)
      simp [h2] at this
    · rw [hx] at h
      cases h
      refine ⟨?_, same.nextPlh⟩
      cases e with
      | resident r =>
        rcases hk with ⟨k', h1, h2⟩ | ⟨h1, -⟩
        · simp only [keyOf, Option.some.injEq] at h1
          simp only [beq_iff_eq] at h2
          refine fin ((wrote.pdrop_idle (by simp) (by simp))) ?_
          intro k2 p hl
          refine ⟨False.elim, ?_⟩
          rintro rfl
          exact hl.noRes hi.toInv0 t r ht (by rw [h1, h2])
        · cases h1
      | placeholder ph =>
        rcases hk with ⟨k', h1, h2⟩ | ⟨h1, -⟩
        · simp only [keyOf, Option.some.injEq] at h1
          simp only [beq_iff_eq] at h2
          refine fin (wrote.pdrop_key hi.toInv0 hm (by simp)) ?_
          intro k2 p hl
          simp only [Kills]
          rw [h1, h2]
          exact ⟨fun h => h.1, fun h => ⟨h, hl⟩⟩
        · cases h1
      | ghost g =>
        rcases hk with ⟨k', h1, h2⟩ | ⟨-, hno⟩
        · cases h1
        · refine fin ((wrote.pdrop_idle (by simp) (by simp))) ?_
          intro k2 p hl
          refine ⟨False.elim, ?_⟩
          rintro rfl
          obtain ⟨⟨ph, h1, h2, h3⟩, h4⟩ := hl
          have := hno _ _ _ h4 (by simp [keyAt, h1, keyOf]; rfl)
          simp [h2] at this
  | peek k =>
    simp only [Unsync.step] at h
    cases hx : s.peek (c.hash k) (fun x => x == k) with
    | error p => rw [hx] at h; cases h
    | ok y => rw [hx] at h; cases h; exact ⟨keep, rfl⟩
  | containsKey k =>
    simp only [Unsync.step] at h
    cases hx : s.contains (c.hash k) (fun x => x == k) with
    | error p => rw [hx] at h; cases h
    | ok y => rw [hx] at h; cases h; exact ⟨keep, rfl⟩
  | retain f =>
    simp only [Unsync.step] at h
    obtain ⟨s1, h1, h2, h3, h4, h5, h6, h7⟩ := retain_spec hi.toInv0 f
    rw [h1] at h
    cases h
    refine ⟨fin (.same (fun t ph => ?_) (fun t ph hh ht => ?_)) (fun _ _ _ => Iff.rfl), h3.nextPlh⟩
    · constructor
      · intro ht
        by_cases hr : ∃ r, s.entries.item t = some (.resident r) ∧ f r.key r.value = false
        · obtain ⟨r, a, b⟩ := hr
          rw [h5 t r a b] at ht; cases ht
        · rw [← h6 t]
          · exact ht
          · intro r hr'
            cases hf : f r.key r.value with
            | true => rfl
            | false => exact absurd ⟨r, hr', hf⟩ hr
      · intro ht
        rw [h6 t]
        · exact ht
        · intro r hr'; rw [ht] at hr'; cases hr'
    · rw [h7]
      have := h6 t (by intro r hr'; rw [ht] at hr'; cases hr')
      simp [this, ht]
  | clear =>
    cases h
    obtain ⟨h1, h2, h3, h4, -, -⟩ := drain_spec hi.toInv0
    refine ⟨⟨fun k p => ?_, fun k p hs => ?_⟩, h2.nextPlh⟩
    · simp only [Kills, not_true_eq_false, and_false, iff_false]
      rintro ⟨⟨ph, g1, -⟩, -⟩
      have := h3 p.idx
      rw [show s.clear = s.drain.1 from rfl] at g1
      rw [this] at g1; cases g1
    · obtain ⟨ph, g1, -⟩ := hs
      have := h3 p.idx
      rw [show s.clear = s.drain.1 from rfl] at g1
      rw [this] at g1; cases g1
  | reserve =>
    simp only [Unsync.step] at h
    rw [reserve_spec hi.toInv0] at h
    cases h
    exact ⟨keep, rfl⟩
  | get k => exact hop.elim
  | getMut k f => exact hop.elim
  | peekMut k f => exact hop.elim
  | drain => exact hop.elim
  | getOrInsertWith k l => exact hop.elim
  | getMutOrInsertWith k l f => exact hop.elim
  | getRefOrGuard k u => exact hop.elim
  | getMutOrGuard k f u => exact hop.elim

/-! ### Sections -/

/-- What the protocol guarantees when it enters a section. -/
def SecOK (c : Cfg K V RS) (s : Shard K V) : Section K V → Prop
  | .call op => op.shared
  | .fill k p _ _ => ∀ k' p', PSlot s k' p' → p'.id = p.id → p' = p ∧ k' = k ∧ PLive c s k p
  | .abandon k p => ∀ k' p', PSlot s k' p' → p'.id = p.id → p' = p ∧ k' = k
  | .load k t => ∃ r, s.entries.item t = some (.resident r) ∧ r.key = k
  | .bump k t => ∃ r, s.entries.item t = some (.resident r) ∧ r.key = k
  | _ => True

/-- The effect of a section. -/
inductive SecEff [DecidableEq K] (c : Cfg K V RS) (s : Shard K V) :
    Section K V → Shard K V × SOut K V × Req K V RS → Prop
  | call {op : Op K V} {s' : Shard K V} {out : Out K V} {q : Req K V RS} (hop : op.shared)
      (h : StepEff c s op (s', out, q))
      (plh : PEff c s s' (fun k p => PLive c s k p ∧ ¬ Kills c s.weightTargetHot op k) (fun _ => False))
      (np : s'.nextPlh = s.nextPlh) : SecEff c s (.call op) (s', .call out, q)
  | found {k : K} {s' : Shard K V} (t : Nat) (r : Resident K V) (hk : r.key = k)
      (wrote : Wrote c s s' t (some (.resident r)) (some (.resident { r with referenced := bumpRef r.referenced })))
      (hits : s'.hits = s.hits + 1) (misses : s'.misses = s.misses)
      (plh : PEff c s s' (PLive c s) (fun _ => False)) (np : s'.nextPlh = s.nextPlh) :
      SecEff c s (.upsert k) (s', .found r.value, c.begin)
  | created {k : K} {s' : Shard K V} {p : Plh} (hp : Pending c s k s' p) (hno : NoKey s k)
      (plh : PEff c s s' (fun k' p' => PLive c s k' p' ∨ (k' = k ∧ p' = p)) (fun _ => False))
      (id : p.id = s.nextPlh) (np : s'.nextPlh = s.nextPlh + 1) : SecEff c s (.upsert k) (s', .pending p true, c.begin)
  | joined {k : K} {p : Plh} (hp : Pending c s k { s with hits := s.hits + 1 } p) (hl : PLive c s k p) :
      SecEff c s (.upsert k) ({ s with hits := s.hits + 1 }, .pending p false, c.begin)
  | gone {k : K} {p : Plh} {b : Bool} {v : V} (hg : ∀ k, ¬ PSlot s k p) :
      SecEff c s (.fill k p b v) (s, .filled (some v), c.begin)
  | filled {k : K} {p : Plh} {b : Bool} {v : V} {s' : Shard K V} {q : Req K V RS} (hl : PLive c s k p)
      (h : StoreEff c s c.begin k v .insert (s', q, none))
      (plh : PEff c s s' (fun k' p' => PLive c s k' p' ∧ p' ≠ p) (fun _ => False)) (np : s'.nextPlh = s.nextPlh) :
      SecEff c s (.fill k p b v) (s', .filled none, q)
  | abandoned {k : K} {p : Plh} {s' : Shard K V} (inv : Inv0 c s') (same : Same s s') (entries : s'.entries = s.entries)
      (wgt : s'.wgt = s.wgt) (num : s'.num = s.num) (ghosts : s'.numNonResident = s.numNonResident)
      (plh : PEff c s s' (fun k' p' => PLive c s k' p' ∧ p' ≠ p) (fun p' => p' = p)) :
      SecEff c s (.abandon k p) (s', .unit, c.begin)
  | located {k : K} (t : Nat) (r : Resident K V) (ht : s.entries.item t = some (.resident r)) (hk : r.key = k) :
      SecEff c s (.find k) (s, .located (some (t, r.value)), c.begin)
  | absent {k : K} (hno : NoRes s k) : SecEff c s (.find k) (s, .located none, c.begin)
  | loaded {k : K} {t : Nat} (r : Resident K V) (ht : s.entries.item t = some (.resident r)) (hk : r.key = k) :
      SecEff c s (.load k t) (s, .counter r.referenced, c.begin)
  | bumped {k : K} {t : Nat} {s' : Shard K V} (r : Resident K V) (hk : r.key = k)
      (wrote : Wrote c s s' t (some (.resident r)) (some (.resident
        { r with referenced := (r.referenced + 1) % 2 ^ 16 })))
      (plh : PEff c s s' (PLive c s) (fun _ => False)) (same : Same s s') : SecEff c s (.bump k t) (s', .unit, c.begin)
  | counted (hit : Bool) : SecEff c s (.count hit)
      ((if hit then { s with hits := s.hits + 1 } else { s with misses := s.misses + 1 }), .unit, c.begin)

/-- The panics a section may end with: only the cache being too large. -/
def SecErr [DecidableEq K] (c : Cfg K V RS) (s : Shard K V) : Section K V → Panic → Prop
  | .call op, p => StepErr c s op p
  | .upsert k, p => p = .slabFull ∧ s.contents k = none ∧ s.entries.entries.length + 2 = 2 ^ 32
  | .fill k _ _ v, p => p = .overflow ∧ 2 ^ 64 ≤ s.weightHot + s.weightCold + enterWeight c s.weightTargetHot k v
  | _, _ => False

theorem PEff.of_false (h : PDrop c s s' (fun _ _ => False)) : PEff c s s' (PLive c s) (fun _ => False) := by
  have := h.eff
  exact ⟨fun k p => (this.live k p).trans (by simp), fun k p hs => (this.orphan k p hs).imp_left (·.1)⟩

/-- A slot that becomes a placeholder. -/
theorem Wrote.peff_new {t : Nat} {old : Option (Entry K V)} {ph : Placeholder K}
    (h : Wrote c s s' t old (some (.placeholder ph))) (ho : ∀ p, old ≠ some (.placeholder p)) (hid : ph.shared.idx = t) :
    PEff c s s' (fun k' p' => PLive c s k' p' ∨ (k' = ph.key ∧ p' = ph.shared)) (fun _ => False) := by
  have hs : ∀ k p, PSlot s' k p ↔ PSlot s k p ∨ (k = ph.key ∧ p = ph.shared) := by
    intro k p
    unfold PSlot
    by_cases ht : p.idx = t
    · rw [ht, h.upd.after, h.upd.before]
      constructor
      · rintro ⟨ph', h1, h2, h3⟩
        cases h1
        exact Or.inr ⟨h2.symm, h3.symm⟩
      · rintro (⟨ph', h1, -⟩ | ⟨rfl, rfl⟩)
        · exact absurd h1 (ho ph')
        · exact ⟨ph, rfl, rfl, rfl⟩
    · rw [h.upd.other ht]
      constructor
      · exact Or.inl
      · rintro (h1 | ⟨rfl, rfl⟩)
        · exact h1
        · exact absurd hid ht
  have hmap : ∀ k p, PSlot s k p → ((c.hash k, p.idx) ∈ s'.map ↔ (c.hash k, p.idx) ∈ s.map) := by
    intro k p hsl
    rw [h.map]
    obtain ⟨ph', h1, -⟩ := hsl
    have ht : p.idx ≠ t := by
      intro ht
      rw [ht, h.upd.before] at h1
      exact ho ph' h1
    simp [ht]
  have hl : ∀ k p, PLive c s' k p ↔ PLive c s k p ∨ (k = ph.key ∧ p = ph.shared) := by
    intro k p
    unfold PLive
    rw [hs]
    constructor
    · rintro ⟨h1 | h1, h2⟩
      · exact Or.inl ⟨h1, (hmap k p h1).mp h2⟩
      · exact Or.inr h1
    · rintro (⟨h1, h2⟩ | ⟨rfl, rfl⟩)
      · exact ⟨Or.inl h1, (hmap k p h1).mpr h2⟩
      · refine ⟨Or.inr ⟨rfl, rfl⟩, (h.map _).mpr (Or.inr ⟨hid, rfl⟩)⟩
  refine ⟨hl, fun k p h1 => ?_⟩
  rcases (hs k p).mp h1 with h2 | h2
  · by_cases hlv : PLive c s k p
    · exact Or.inl (Or.inl hlv)
    · exact Or.inr (Or.inl ⟨h2, hlv⟩)
  · exact Or.inl (Or.inr h2)

theorem Holds.slot (hi : Inv0 c s) {p : Plh} {ph : Placeholder K} (hq : c.ptrEq = true) (h : Holds c s p ph) :
    PSlot s ph.key ph.shared ∧ ph.shared.id = p.id := by
  refine ⟨.of_item hi h.1, ?_⟩
  have := h.2
  unfold Cfg.sameAs at this
  rw [hq] at this
  simpa using this

theorem PSlot.holds {k : K} {p : Plh} (h : PSlot s k p) : ∃ ph, Holds c s p ph ∧ ph.key = k ∧ ph.shared = p := by
  obtain ⟨ph, h1, h2, h3⟩ := h
  exact ⟨ph, ⟨h1, by unfold Cfg.sameAs; rw [h3]; cases c.ptrEq <;> simp⟩, h2, h3⟩

/-- Every section, entered as the protocol does, has its effect or fails because the cache is too large. -/
theorem sec_sat [DecidableEq K] (hi : Inv c s) (hq : c.ptrEq = true) {sec : Section K V} (hok : SecOK c s sec) :
    Res.Sat (Sync.step c s sec) (SecEff c s sec) (SecErr c s sec) := by
  cases sec with
  | call op =>
    simp only [Sync.step]
    rcases step_sat hi.toInv0 op with ⟨x, hx, h⟩ | ⟨p, hx, h⟩
    · obtain ⟨s', out, q⟩ := x
      obtain ⟨h1, h2⟩ := step_plh hi hok hx
      rw [hx]
      exact .ok (.call hok h h1 h2)
    · rw [hx]
      exact Or.inr ⟨p, rfl, h⟩
  | upsert k =>
    simp only [Sync.step]
    have hsp := upsertPlaceholder_spec hi.toInv0 (Lawful.key c k) (key := k) (by simp)
    rcases hsp with ⟨x, hx, h⟩ | ⟨p, hx, h1, h2, h3⟩
    · rw [hx]
      simp only [Res.ok_bind]
      cases hp : x.2 with
      | found t v =>
        cases h with
        | found t r s' ht hk wrote hits misses np =>
          cases hp
          exact .ok (.found t r hk wrote hits misses (.of_false (wrote.pdrop_idle (by simp) (by simp))) np)
        | join => cases hp
        | ghost => cases hp
        | fresh => cases hp
      | pending p b =>
        have hpend := upserted_pending hi.toInv0 h hp
        cases h with
        | found => cases hp
        | join t ph ht hk hm hno =>
          cases hp
          refine .ok (.joined hpend ⟨?_, ?_⟩)
          · rw [← hk]; exact .of_item hi.toInv0 ht
          · rw [(hi.idx.plh t ph ht).1]; exact hm
        | ghost t s' ht hno wrote hits misses np =>
          cases hp
          exact .ok (.created hpend hno (wrote.peff_new (by simp) rfl) rfl np)
        | fresh t s' hno hg wrote hits misses np =>
          cases hp
          exact .ok (.created hpend hno (wrote.peff_new (by simp) rfl) rfl np)
    · rw [hx]
      exact Or.inr ⟨p, rfl, h1, hi.toInv0.contents_none.mpr (h2.noRes hi.toInv0), h3⟩
  | fill k p b v =>
    simp only [Sync.step]
    have hown : ∀ ph, Holds c s p ph → ph.shared = p ∧ ph.key = k ∧ PLive c s k p := by
      intro ph hh
      obtain ⟨h1, h2⟩ := Holds.slot hi.toInv0 hq hh
      obtain ⟨g1, g2, g3⟩ := hok _ _ h1 h2
      exact ⟨g1, g2, g3⟩
    have hsp := replacePlaceholder_spec hi.toInv0 c.begin (p := p) b v (by
      intro ph hh
      obtain ⟨h1, h2, h3⟩ := hown ph hh
      have := (h3.1.hash hi.toInv0).1
      exact ⟨by rw [this, h2], by rw [this]; exact h3.2⟩)
    rcases hsp with ⟨x, hx, h⟩ | ⟨e, hx, ph, h1, h2⟩
    · rw [hx]
      obtain ⟨s', q, r⟩ := x
      simp only [Res.ok_bind]
      by_cases hh : ∃ ph, Holds c s p ph
      · obtain ⟨ph, hh⟩ := hh
        obtain ⟨h1, h2, h3⟩ := hown ph hh
        have hst := h.storeEff hi.toInv0 hh h3.2
        rw [h2] at hst
        have hkey : ∀ ph', Holds c s p ph' → ph' = ph := by
          intro ph' h'
          have := h'.1.symm.trans hh.1
          cases this; rfl
        have hd : PDrop c s s' (fun _ p' => p' = p) ∧ r = none := by
          cases h with
          | gone hg => exact absurd hh (hg ph)
          | direct ph' st s3 s' q' hp' hw same wrote after level light =>
            obtain rfl := hkey ph' hp'
            refine ⟨(wrote.pdrop_handle h1 (by simp)).then_same ?_, rfl⟩
            rcases after with h | ⟨-, rfl, rfl⟩
            · exact h.post.pdrop
            · exact .refl c _
          | shrunk ph' st q1 v1 s3 s' q' hp' hw hpin hb hw1 same wrote after level light =>
            obtain rfl := hkey ph' hp'
            refine ⟨(wrote.pdrop_handle h1 (by simp)).then_same ?_, rfl⟩
            rcases after with h | ⟨-, rfl, rfl⟩
            · exact h.post.pdrop
            · exact .refl c _
          | rejected ph' q1 v1 s' hp' hw hpin hb hw1 same wrote =>
            obtain rfl := hkey ph' hp'
            exact ⟨wrote.pdrop_handle h1 (by simp), rfl⟩
        obtain ⟨hd, rfl⟩ := hd
        exact .ok (.filled h3 hst hd.eff hst.same.nextPlh)
      · cases h with
        | gone hg =>
          refine .ok (.gone (fun k' hs => ?_))
          obtain ⟨ph, h1, -⟩ := hs.holds (c := c)
          exact hg ph h1
        | direct ph' st s3 s' q' hp' => exact absurd ⟨ph', hp'⟩ hh
        | shrunk ph' st q1 v1 s3 s' q' hp' => exact absurd ⟨ph', hp'⟩ hh
        | rejected ph' q1 v1 s' hp' => exact absurd ⟨ph', hp'⟩ hh
    · rw [hx]
      obtain ⟨g1, g2, g3⟩ := hown ph h1
      rw [g2] at h2
      exact Or.inr ⟨e, rfl, h2⟩
  | abandon k p =>
    simp only [Sync.step]
    have hown : ∀ ph, s.entries.item p.idx = some (.placeholder ph) → c.sameAs ph.shared p = true →
        ph.shared = p ∧ ph.key = k := by
      intro ph h1 h2
      obtain ⟨a, b⟩ := Holds.slot hi.toInv0 hq (p := p) ⟨h1, h2⟩
      exact hok _ _ a b
    obtain ⟨s', h1, h2, h3, h4, h5, h6, h7, h8, h9⟩ := removePlaceholder_spec hi.toInv0 (p := p) (by
      intro ph g1 g2
      rw [(hown ph g1 g2).1])
    rw [h1]
    refine .ok (.abandoned h2 h3 h4 h5 h6 h7 ?_)
    have hs : ∀ k p, PSlot s' k p ↔ PSlot s k p := by intro k p; unfold PSlot; rw [h4]
    by_cases hx : ∃ ph, s.entries.item p.idx = some (.placeholder ph) ∧ c.sameAs ph.shared p = true
    · have hm := h8 hx
      obtain ⟨ph, g1, g2⟩ := hx
      obtain ⟨g3, g4⟩ := hown ph g1 g2
      have hidx : ∀ k' p', PSlot s k' p' → (p'.idx = p.idx ↔ p' = p) := by
        rintro k' p' ⟨ph', a1, a2, a3⟩
        constructor
        · intro he
          rw [he, g1] at a1
          cases a1
          rw [← a3, g3]
        · rintro rfl; rfl
      have hl : ∀ k' p', PLive c s' k' p' ↔ PLive c s k' p' ∧ p' ≠ p := by
        intro k' p'
        unfold PLive
        rw [hs, hm, List.mem_filter]
        constructor
        · rintro ⟨a, b, d⟩
          refine ⟨⟨a, b⟩, fun he => ?_⟩
          simp [he] at d
        · rintro ⟨⟨a, b⟩, d⟩
          refine ⟨a, b, ?_⟩
          simp only [bne_iff_ne, ne_eq]
          exact fun he => d ((hidx k' p' a).mp he)
      refine ⟨hl, fun k' p' hsl => ?_⟩
      rw [hs] at hsl
      by_cases hpp : p' = p
      · exact Or.inr (Or.inr hpp)
      · by_cases hlv : PLive c s k' p'
        · exact Or.inl ⟨hlv, hpp⟩
        · exact Or.inr (Or.inl ⟨hsl, hlv⟩)
    · have hm := h9 hx
      have hne : ∀ k' p', PSlot s k' p' → p' ≠ p := by
        rintro k' p' hsl rfl
        obtain ⟨ph, a, -⟩ := hsl.holds (c := c)
        exact hx ⟨ph, a⟩
      refine ⟨fun k' p' => ?_, fun k' p' hsl => ?_⟩
      · unfold PLive
        rw [hs, hm]
        exact ⟨fun h => ⟨h, hne _ _ h.1⟩, fun h => h.1⟩
      · rw [hs] at hsl
        by_cases hlv : PLive c s k' p'
        · exact Or.inl ⟨hlv, hne _ _ hsl⟩
        · exact Or.inr (Or.inl ⟨hsl, hlv⟩)
  | find k =>
    simp only [Sync.step]
    rcases searchResident_spec hi.idx (Lawful.key c k) with ⟨t, r, h1, h2, h3⟩ | ⟨h1, h2⟩
    · rw [h1]
      simp only [beq_iff_eq] at h3
      exact .ok (.located t r h2 h3)
    · rw [h1]
      exact .ok (.absent (fun t r ht hk => by have := h2 t r ht; simp [hk] at this))
  | load k t =>
    obtain ⟨r, hr, hk⟩ := hok
    simp only [Sync.step]
    simp only [Slab.get_eq, hr, Option.map_some]
    exact .ok (.loaded r hr hk)
  | bump k t =>
    obtain ⟨r, hr, hk⟩ := hok
    simp only [Sync.step]
    simp only [Slab.get_eq, hr, Option.map_some]
    have hw := setRef_wrote hi.toInv0 hr ((r.referenced + 1) % 2 ^ 16) (s' := s.setEntry t (.resident
      { r with referenced := (r.referenced + 1) % 2 ^ 16 })) rfl
    exact .ok (.bumped r hk hw (.of_false (hw.pdrop_idle (by simp) (by simp))) ⟨rfl, rfl, rfl, rfl, rfl, rfl, rfl⟩)
  | count hit => exact .ok (.counted hit)

end
end QuickCache
