import Verif.Proofs.Overflow

/-!
# When overwriting an item overflows: proof
-/

namespace QuickCache
variable {K V RS : Type} {c : Cfg K V RS}
open Spec

namespace Shard

theorem kw_unlinkFrom (s : Shard K V) (i : RingId) (t : Nat) : On (Kw s) (s.unlinkFrom i t) :=
  .bind (fun a => .ok (by cases i <;> exact ⟨rfl, rfl⟩))

theorem kw_relink (s : Shard K V) (st : St) (t a b : Nat) : On (Kw s) (s.relink st t a b) :=
  .ite (kw_linkTo ..) (.ite (kw_unlinkFrom ..) (.ok ⟨rfl, rfl⟩))

theorem csub_on (a b : Nat) : On (fun x => x + b = a) (csub a b) := by
  unfold csub
  split
  · exact .ok (by omega)
  · exact .err

/-- Replacing leaves the sum of the weights of the others and the new one. -/
theorem overwritten_on (s : Shard K V) (t : Nat) (r r' : Resident K V) (ew w : Nat) :
    On (fun s3 => s3.weightHot + s3.weightCold + ew = s.weightHot + s.weightCold + w) (s.overwritten t r r' ew w) := by
  refine .bind' (csub_on ..) (fun a ha => .bind' (cadd_on ..) (fun b hb => (kw_relink ..).mono (fun s3 h3 => ?_)))
  have e1 := h3.1
  have e2 := h3.2
  have e3 := hb.1
  cases hst : r.state with
  | hot =>
    rw [hst] at ha e1 e2
    have e4 : s3.weightHot = b := e1
    have e5 : s3.weightCold = s.weightCold := e2
    have e6 : a + ew = s.weightHot := ha
    omega
  | cold =>
    rw [hst] at ha e1 e2
    have e4 : s3.weightHot = s.weightHot := e1
    have e5 : s3.weightCold = b := e2
    have e6 : a + ew = s.weightCold := ha
    omega

theorem overwritten_ok {s : Shard K V} (h : Inv0 c s) {t : Nat} {r r' : Resident K V} {w : Nat}
    (ht : s.entries.item t = some (.resident r))
    (hw : s.weightHot + s.weightCold + w < 2 ^ 64 + c.weight r.key r.value) :
    ∃ s3, s.overwritten t r r' (c.weight r.key r.value) w = .ok s3 := by
  obtain ⟨f1, f2, f3, f4⟩ := res_facts h ht
  have hocc : (s.entries.item t).isSome := by simp [ht]
  have hle := wgt_le_total s r.state
  unfold overwritten
  simp only
  rw [wgt_setEntry, csub_ok f1]
  simp only [Res.ok_bind]
  rw [cadd_ok (by omega)]
  simp only [Res.ok_bind]
  obtain ⟨s3, g1, -, -⟩ := relink_ring (rho := c.rho s.entries.item)
    (s := (s.setEntry t (.resident r')).setWgt r.state (s.wgt r.state - c.weight r.key r.value + w)) (t := t)
    (ew := c.weight r.key r.value) (w := w)
    (by simp only [head_setWgt, entries_setWgt, head_setEntry, entries_setEntry]; exact h.str.setItem hocc _) r.state
    (by simp only [entries_setWgt, entries_setEntry]; rw [Slab.item_setItem hocc]; simp) f4
  exact ⟨s3, g1⟩

theorem overwrite_over {s : Shard K V} (q : Req K V RS) {t : Nat} {r : Resident K V} {k : K} (v : V) {w : Nat} (str : Strategy)
    (ht : s.entries.item t = some (.resident r)) (hw : 2 ^ 64 + c.weight r.key r.value ≤ s.weightHot + s.weightCold + w) :
    On (fun _ => False) (s.insertExisting c q t k v w str) := by
  rw [insertExisting_resident_eq q k v w str ht]
  refine .bind' (overwritten_on ..) (fun s3 h3 => .bind' (over_evict _ _ ?_) (fun _ hb => hb.elim))
  omega

theorem overwrite_fits {s : Shard K V} (h : Inv0 c s) (q : Req K V RS) {t : Nat} {r : Resident K V} {k : K} (v : V)
    (str : Strategy) (ht : s.entries.item t = some (.resident r)) (hk : r.key = k)
    (hw : s.weightHot + s.weightCold + c.weight k v < 2 ^ 64 + c.weight r.key r.value) :
    ∃ s' q', s.insertExisting c q t k v (c.weight k v) str = .ok (s', q', none) := by
  rw [insertExisting_resident_eq q k v _ str ht]
  obtain ⟨s3, h3⟩ := overwritten_ok (r' := { key := k, value := v, state := r.state, referenced := insRef str r.referenced })
    h ht hw
  have h4 := (overwritten_on s t r _ _ _).res s3 h3
  rcases overwritten_spec (r' := { key := k, value := v, state := r.state, referenced := insRef str r.referenced })
    h ht hk rfl rfl rfl with ⟨s3', h5, -, hwr⟩ | ⟨p, h5, -⟩
  · rw [h3] at h5
    cases h5
    rw [h3, Res.ok_bind]
    rcases evictLoop_after hwr.inv (q.on c r.key r.value) with ⟨x, hx, -⟩ | ⟨p, -, -, hp⟩
    · rw [hx, Res.ok_bind]
      exact ⟨_, _, rfl⟩
    · omega
  · rw [h3] at h5
    cases h5

variable [DecidableEq K]

/-- The search for a key that is there finds its slot. -/
theorem search_here {s : Shard K V} (h : Inv0 c s) {k : K} {v : V} (hk : s.contents k = some v) :
    ∃ t r, s.search (c.hash k) (fun x => x == k) = .ok (some t) ∧ s.entries.item t = some (.resident r) ∧ r.key = k ∧
      r.value = v := by
  obtain ⟨t, r, h1, h2, h3⟩ := h.contents_slot.mp hk
  have hm := h.idx.mapped t _ h1 (by simp)
  rcases search_spec h.idx (Lawful.key c k) with ⟨t', e, k', g1, g2, g3, g4, g5⟩ | ⟨g, -⟩
  · simp only [beq_iff_eq] at g5
    subst g5
    have := res_key_uniq (k := k') h h1 hm (by simp [keyOf, h2]) _ t' g2 (by unfold keyAt; rw [g3]; exact g4)
    subst this
    exact ⟨_, r, g1, h1, h2, h3⟩
  · have := g _ t k hm (by unfold keyAt; rw [h1]; simp [keyOf, h2])
    simp at this

/-- What happens when the item with key `k` and value `v0` is overwritten by one that can be admitted. -/
theorem overwrite_insert {s : Shard K V} (h : Inv0 c s) {k : K} {v v0 : V} (hk : s.contents k = some v0) (str : Strategy)
    (ha : Admissible c s.weightTargetHot k v) :
    (2 ^ 64 + c.weight k v0 ≤ s.weightHot + s.weightCold + enterWeight c s.weightTargetHot k v →
      On (fun _ => False) (s.insert c c.begin (c.hash k) k v str)) ∧
    (s.weightHot + s.weightCold + enterWeight c s.weightTargetHot k v < 2 ^ 64 + c.weight k v0 →
      ∃ s' q', s.insert c c.begin (c.hash k) k v str = .ok (s', q', none)) := by
  obtain ⟨t, r, h1, h2, h3, h4⟩ := search_here h hk
  subst h4
  unfold Admissible at ha
  unfold enterWeight at ha ⊢
  unfold Shard.insert
  by_cases hc : s.weightTargetHot < c.weight k v ∧ c.pinned k v = false
  · rw [if_pos hc] at ha ⊢
    simp only [if_pos hc]
    have hle : c.weight k (c.beforeEvict c.beginReq k v).2 ≤ s.weightTargetHot := by
      rcases ha with ha | ha
      · rw [hc.2] at ha; cases ha
      · exact ha
    rw [if_neg (by exact Nat.not_lt.mpr hle)]
    unfold insertAdmitted
    rw [h1, Res.ok_bind]
    exact ⟨fun hw => overwrite_over _ _ _ h2 (by rw [h3]; exact hw),
      fun hw => overwrite_fits h _ _ _ h2 h3 (by rw [h3]; exact hw)⟩
  · rw [if_neg hc]
    simp only [if_neg hc]
    unfold insertAdmitted
    rw [h1, Res.ok_bind]
    exact ⟨fun hw => overwrite_over _ _ _ h2 (by rw [h3]; exact hw),
      fun hw => overwrite_fits h _ _ _ h2 h3 (by rw [h3]; exact hw)⟩

/-- An item that cannot be admitted is turned away without a panic. -/
theorem rejected_ok {s : Shard K V} (h : Inv0 c s) {k : K} {v : V} (str : Strategy)
    (ha : ¬ Admissible c s.weightTargetHot k v) :
    ∃ x, s.insert c c.begin (c.hash k) k v str = .ok x ∧ (str = .insert → x.2.2 = none) := by
  unfold Admissible enterWeight at ha
  unfold Shard.insert
  by_cases hc : s.weightTargetHot < c.weight k v ∧ c.pinned k v = false
  · rw [if_pos hc] at ha
    simp only [if_pos hc]
    rw [if_pos (by exact Nat.lt_of_not_le (fun hle => ha (Or.inr hle)))]
    obtain ⟨x, h1, h2⟩ := handleInsertOverweight_spec (c := c) h (c.begin.before c k v).1 k (c.begin.before c k v).2 str
    refine ⟨x, h1, ?_⟩
    rintro rfl
    cases h2 <;> rfl
  · rw [if_neg hc] at ha
    exfalso
    rcases hp : c.pinned k v with _ | _
    · exact ha (Or.inr (Nat.le_of_not_lt (fun hlt => hc ⟨hlt, hp⟩)))
    · exact ha (Or.inl hp)

/-- `replace` of a key that is absent does not panic. -/
theorem replace_absent {s : Shard K V} (h : Inv0 c s) {k : K} (v : V) (soft : Bool) (hk : s.contents k = none) :
    ∃ x, s.insert c c.begin (c.hash k) k v (.replace soft) = .ok x := by
  have hno := h.contents_none.mp hk
  have adm : ∀ q v w, ∃ x, s.insertAdmitted c q (c.hash k) k v w (.replace soft) = .ok x := by
    intro q v w
    unfold insertAdmitted
    rcases search_spec h.idx (Lawful.key c k) with ⟨t, e, k', h1, -, h3, h4, h5⟩ | ⟨-, ⟨t, h1, -, h3⟩ | ⟨h1, -⟩⟩
    · rw [h1, Res.ok_bind]
      refine ⟨_, insertExisting_replace q v h3 ?_⟩
      rintro r rfl
      simp only [keyOf, Option.some.injEq] at h4
      simp only [beq_iff_eq] at h5
      exact hno t r h3 (h4.trans h5)
    · rw [h1, Res.ok_bind]
      exact ⟨_, insertExisting_replace q v h3 (by simp)⟩
    · rw [h1, Res.ok_bind]
      exact ⟨_, rfl⟩
  by_cases ha : Admissible c s.weightTargetHot k v
  · unfold Shard.insert
    by_cases hc : s.weightTargetHot < c.weight k v ∧ c.pinned k v = false
    · unfold Admissible enterWeight at ha
      rw [if_pos hc] at ha
      simp only [if_pos hc]
      have hle : c.weight k (c.beforeEvict c.beginReq k v).2 ≤ s.weightTargetHot := by
        rcases ha with ha | ha
        · rw [hc.2] at ha; cases ha
        · exact ha
      rw [if_neg (by exact Nat.not_lt.mpr hle)]
      exact adm ..
    · simp only [if_neg hc]
      exact adm ..
  · obtain ⟨x, hx, -⟩ := rejected_ok h (.replace soft) ha
    exact ⟨x, hx⟩

end Shard

variable [DecidableEq K]

theorem Unsync.rejected_step {s : Shard K V} (h : Inv0 c s) {k : K} {v : V} (ha : ¬ Admissible c s.weightTargetHot k v) :
    (∃ x, Unsync.step c s (.insert k v) = .ok x) ∧ ∀ soft, ∃ x, Unsync.step c s (.replace k v soft) = .ok x := by
  constructor
  · obtain ⟨⟨s', q, r⟩, h1, h2⟩ := Shard.rejected_ok h .insert ha
    have h2 : r = none := h2 rfl
    subst h2
    simp only [Unsync.step, Unsync.insert, h1]
    exact ⟨_, rfl⟩
  · intro soft
    obtain ⟨x, h1, -⟩ := Shard.rejected_ok h (.replace soft) ha
    simp only [Unsync.step, Unsync.replace, h1]
    exact ⟨_, rfl⟩

theorem Unsync.replace_step {s : Shard K V} (h : Inv0 c s) {k : K} (v : V) (soft : Bool) (hk : s.contents k = none) :
    ∃ x, Unsync.step c s (.replace k v soft) = .ok x := by
  obtain ⟨x, h1⟩ := Shard.replace_absent h v soft hk
  simp only [Unsync.step, Unsync.replace, h1]
  exact ⟨_, rfl⟩

theorem Unsync.replace_here {s : Shard K V} (h : Inv0 c s) {k : K} {v v0 : V} (soft : Bool) (hk : s.contents k = some v0)
    (ha : Admissible c s.weightTargetHot k v) :
    (∃ p, Unsync.step c s (.replace k v soft) = .error p) ↔
      2 ^ 64 + c.weight k v0 ≤ s.weightHot + s.weightCold + enterWeight c s.weightTargetHot k v := by
  obtain ⟨h1, h2⟩ := Shard.overwrite_insert h hk (.replace soft) ha
  constructor
  · rintro ⟨p, hp⟩
    refine Nat.le_of_not_lt (fun hn => ?_)
    obtain ⟨s', q', h3⟩ := h2 hn
    simp only [Unsync.step, Unsync.replace, h3] at hp
    cases hp
  · intro hw
    have : On (fun _ => False) (Unsync.step c s (.replace k v soft)) :=
      .bind' (P := fun _ => False) (.bind' (h1 hw) (fun a ha => ha.elim)) (fun a ha => ha.elim)
    rcases h : Unsync.step c s (.replace k v soft) with e | x
    · exact ⟨e, rfl⟩
    · exact (this.res _ h).elim

theorem Unsync.overwrite_step {s : Shard K V} (h : Inv0 c s) {k : K} {v v0 : V} (hk : s.contents k = some v0)
    (ha : Admissible c s.weightTargetHot k v) :
    (∃ p, Unsync.step c s (.insert k v) = .error p) ↔
      2 ^ 64 + c.weight k v0 ≤ s.weightHot + s.weightCold + enterWeight c s.weightTargetHot k v := by
  obtain ⟨h1, h2⟩ := Shard.overwrite_insert h hk .insert ha
  constructor
  · rintro ⟨p, hp⟩
    refine Nat.le_of_not_lt (fun hn => ?_)
    obtain ⟨s', q', h3⟩ := h2 hn
    simp only [Unsync.step, Unsync.insert, h3] at hp
    cases hp
  · intro hw
    have : On (fun _ => False) (Unsync.step c s (.insert k v)) :=
      .bind' (P := fun _ => False) (.bind' (h1 hw) (fun a ha => ha.elim)) (fun a ha => ha.elim)
    rcases h : Unsync.step c s (.insert k v) with e | x
    · exact ⟨e, rfl⟩
    · exact (this.res _ h).elim

end QuickCache
