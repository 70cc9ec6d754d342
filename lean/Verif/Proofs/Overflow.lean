import Verif.Proofs.Slots
import Verif.Proofs.Step

/-!
# An insertion for which the numbers have no room panics: proof
-/

namespace QuickCache
variable {K V RS : Type} {c : Cfg K V RS}
open Spec

namespace Shard

/-- The weights are the same. -/
def Kw (s s' : Shard K V) : Prop := s'.weightHot = s.weightHot ∧ s'.weightCold = s.weightCold

theorem kw_linkTo (s : Shard K V) (i : RingId) (t : Nat) : On (Kw s) (s.linkTo i t) :=
  .bind (fun a => .ok (by cases i <;> exact ⟨rfl, rfl⟩))

theorem kw_linkNew (s : Shard K V) (st : St) (t w : Nat) : On (Kw s) (s.linkNew st t w) :=
  .ite (kw_linkTo ..) (.ok ⟨rfl, rfl⟩)

theorem kw_unlinkGhost (s : Shard K V) (t : Nat) : On (Kw s) (s.unlinkGhost t) :=
  .bind (fun a => .ok (by dsimp only; split <;> exact ⟨rfl, rfl⟩))

theorem cadd_on (a b : Nat) : On (fun x => x = a + b ∧ a + b < 2 ^ 64) (cadd a b) := by
  unfold cadd
  split
  · rename_i h; exact .ok ⟨rfl, h⟩
  · exact .err

theorem over_evict {extra : Nat} (fuel : Nat) {s : Shard K V} (q : Req K V RS)
    (h : 2 ^ 64 ≤ s.weightHot + s.weightCold + extra) : On (fun _ => False) (evictLoop c extra fuel s q) := by
  cases fuel with
  | zero => exact .err
  | succ n =>
    refine .bind' (cadd_on ..) (fun _ ha => .bind' (cadd_on ..) (fun _ hb => ?_))
    have := ha.1
    have := hb.2
    omega

theorem over_new {s : Shard K V} (q : Req K V RS) (h : UInt64) (k : K) (v : V) {w : Nat}
    (hw : 2 ^ 64 ≤ s.weightHot + s.weightCold + w) : On (fun _ => False) (s.insertNew c q h k v w) :=
  .bind (fun _ => .bind' (over_evict _ _ hw) (fun _ hb => hb.elim))

theorem over_existing {s : Shard K V} (q : Req K V RS) {t : Nat} (k : K) (v : V) {w : Nat}
    (hr : ∀ r, s.entries.item t ≠ some (.resident r)) (hw : 2 ^ 64 ≤ s.weightHot + s.weightCold + w) :
    On (fun _ => False) (s.insertExisting c q t k v w .insert) := by
  cases hi : s.entries.item t with
  | none =>
    unfold insertExisting
    rw [Slab.get_eq, hi]
    exact .err
  | some e =>
    cases e with
    | resident r => exact absurd hi (hr r)
    | ghost g =>
      unfold insertExisting
      rw [Slab.get_eq, hi]
      refine .bind' (cadd_on ..) (fun a ha => .bind (fun n => .bind' (kw_unlinkGhost ..) (fun s3 h3 =>
        .bind' (kw_linkNew ..) (fun s4 h4 => .bind' (over_evict _ _ ?_) (fun b hb => hb.elim)))))
      have e1 : s3.weightHot = a := h3.1
      have e2 : s3.weightCold = s.weightCold := h3.2
      have e3 : a = s.weightHot + w := ha.1
      have e4 := h4.1
      have e5 := h4.2
      omega
    | placeholder ph =>
      unfold insertExisting
      rw [Slab.get_eq, hi]
      refine .bind' (cadd_on ..) (fun a ha => .bind' (kw_linkNew ..) (fun s4 h4 =>
        .bind' (over_evict _ _ ?_) (fun b hb => hb.elim)))
      have e4 := h4.1
      have e5 := h4.2
      have e3 := ha.1
      cases hh : ph.hot with
      | hot =>
        rw [hh] at e3 e4 e5
        have e1 : s4.weightHot = a := e4
        have e2 : s4.weightCold = s.weightCold := e5
        have e3 : a = s.weightHot + w := e3
        omega
      | cold =>
        rw [hh] at e3 e4 e5
        have e1 : s4.weightHot = s.weightHot := e4
        have e2 : s4.weightCold = a := e5
        have e3 : a = s.weightCold + w := e3
        omega

variable [DecidableEq K]

theorem over_admitted {s : Shard K V} (hi : Inv0 c s) (q : Req K V RS) {k : K} (v : V) {w : Nat}
    (hk : s.contents k = none) (hw : 2 ^ 64 ≤ s.weightHot + s.weightCold + w) :
    On (fun _ => False) (s.insertAdmitted c q (c.hash k) k v w .insert) := by
  have hno := hi.contents_none.mp hk
  unfold insertAdmitted
  rcases search_spec hi.idx (Lawful.key c k) with ⟨t, e, k', h1, -, h3, h4, h5⟩ | ⟨-, ⟨t, h1, -, h3⟩ | ⟨h1, -⟩⟩
  · rw [h1]
    refine over_existing _ _ _ ?_ hw
    intro r hr
    rw [h3] at hr
    cases hr
    simp only [keyOf, Option.some.injEq] at h4
    simp only [beq_iff_eq] at h5
    exact hno t r h3 (h4.trans h5)
  · rw [h1]
    refine over_existing _ _ _ ?_ hw
    intro r hr
    rw [h3] at hr
    cases hr
  · rw [h1, Res.ok_bind]
    exact .bind' (P := fun _ => False) (over_new _ _ _ _ hw) (fun a ha => ha.elim)

theorem over_insert {s : Shard K V} (hi : Inv0 c s) {k : K} {v : V} (hk : s.contents k = none)
    (ha : Admissible c s.weightTargetHot k v)
    (hw : 2 ^ 64 ≤ s.weightHot + s.weightCold + enterWeight c s.weightTargetHot k v) :
    On (fun _ => False) (s.insert c c.begin (c.hash k) k v .insert) := by
  unfold Admissible at ha
  unfold enterWeight at ha hw
  unfold Shard.insert
  by_cases h : s.weightTargetHot < c.weight k v ∧ c.pinned k v = false
  · rw [if_pos h] at ha hw
    simp only [if_pos h]
    have hle : c.weight k (c.beforeEvict c.beginReq k v).2 ≤ s.weightTargetHot := by
      rcases ha with ha | ha
      · rw [h.2] at ha; cases ha
      · exact ha
    rw [if_neg (by exact Nat.not_lt.mpr hle)]
    exact over_admitted hi _ _ hk hw
  · rw [if_neg h] at hw
    simp only [if_neg h]
    exact over_admitted hi _ _ hk hw

end Shard

variable [DecidableEq K]

theorem Unsync.over_step {s : Shard K V} (hi : Inv0 c s) {k : K} {v : V} (hk : s.contents k = none)
    (ha : Admissible c s.weightTargetHot k v)
    (hw : 2 ^ 64 ≤ s.weightHot + s.weightCold + enterWeight c s.weightTargetHot k v) :
    ∃ e, Unsync.step c s (.insert k v) = .error e := by
  have : On (fun _ => False) (Unsync.step c s (.insert k v)) :=
    .bind' (P := fun _ => False) (.bind' (Shard.over_insert hi hk ha hw) (fun a ha => ha.elim)) (fun a ha => ha.elim)
  rcases h : Unsync.step c s (.insert k v) with e | x
  · exact ⟨e, rfl⟩
  · exact (this.res _ h).elim

end QuickCache
