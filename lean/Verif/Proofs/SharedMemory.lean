import Verif.Proofs.ClockConc
import Verif.Proofs.Memory
import Verif.Spec.SharedMemory

/-!
# The memory of a shared cache: proof
-/

namespace QuickCache.Conc
variable {K V RS : Type} [DecidableEq K] {c : Cfg K V RS}
open Spec

/-- A section leaves at most as many placeholders, one more if it reserves, one fewer if it uses a reservation. -/
theorem plh_section {s s' : Shard K V} {sec : Section K V} {out : SOut K V} {q : Req K V RS} (hi : Inv c s)
    (h : SecEff c s sec (s', out, q)) (l : List (Event K V)) :
    s'.placeholders + (if stores (.sect sec out l) then 1 else 0) ≤
      s.placeholders + (if reserves (.sect sec out l) then 1 else 0) := by
  cases h with
  | @call op s' out q hop h plh np =>
    have h1 := h.placeholders hi.toInv0 []
    cases op <;> first | exact hop.elim | exact h1
  | found t r hk wrote hits misses plh np => exact (wrote.plhSub (by simp)).count
  | created hp hno plh id np =>
    have h1 := hp.count plhF rfl (fun _ => rfl)
    rw [← placeholders_sum, ← placeholders_sum] at h1
    exact h1
  | joined hp hl => exact Nat.le_refl _
  | gone hg => exact Nat.le_refl _
  | @filled k p b v s' q hl h plh np =>
    show s'.placeholders + 1 ≤ s.placeholders
    have hs := h.plhSub
    rw [placeholders_sum, placeholders_sum]
    refine Slab.sumBy_lt rfl hs.pointwise (t := p.idx) ?_
    obtain ⟨⟨ph, g1, g2, g3⟩, g4⟩ := id hl
    rw [g1]
    cases hi : s'.entries.item p.idx with
    | none => simp [plhF]
    | some e =>
      cases e with
      | placeholder ph' =>
        exfalso
        obtain ⟨a1, a2⟩ := hs _ _ hi
        rw [g1] at a1
        cases a1
        exact ((plh.live k p).mp ⟨⟨ph, hi, g2, g3⟩, a2 _ g4⟩).2 rfl
      | resident r => simp [plhF]
      | ghost g => simp [plhF]
  | abandoned inv same entries wgt num ghosts plh =>
    show s'.placeholders ≤ s.placeholders
    rw [placeholders_sum, placeholders_sum, entries]
  | located t r ht hk => exact Nat.le_refl _
  | absent hno => exact Nat.le_refl _
  | loaded r ht hk => exact Nat.le_refl _
  | bumped r hk wrote plh same => exact (wrote.plhSub (by simp)).count
  | counted hit => cases hit <;> exact Nat.le_refl _

omit [DecidableEq K] in
theorem count_none {p : Ev K V → Bool} (hp : ∀ e, p e = true → isSect e = true) {l : List (Ev K V)}
    (h : ∀ e ∈ l, isSect e = false) : l.countP p = 0 := by
  rw [List.countP_eq_zero]
  intro e he hpe
  exact absurd (hp e hpe) (by simp [h e he])

omit [DecidableEq K] in
theorem reserves_sect (e : Ev K V) (h : reserves e = true) : isSect e = true := by
  cases e <;> first | rfl | cases h

omit [DecidableEq K] in
theorem stores_sect (e : Ev K V) (h : stores e = true) : isSect e = true := by
  cases e <;> first | rfl | cases h

theorem Run.placeholders {target cap gcap : Nat} {tr : List (Ev K V)} {s : State K V}
    (hr : Run c (State.new (Shard.new target cap gcap)) tr s) (hq : c.ptrEq = true) :
    s.shard.placeholders + tr.countP stores ≤ tr.countP reserves := by
  induction hr with
  | start => exact Nat.le_refl _
  | layout m p hr hm hp ih => exact ih
  | @act tr s s' act evs hr hs ih =>
    have hi := (hr.reach hq (CReach.new c target cap gcap)).inv
    rw [List.countP_append, List.countP_append]
    rcases exec_sect hi hq hs with ⟨h1, h2⟩ | ⟨sec, out, q, rest, h1, h2, h3, h4, -⟩
    · rw [h1, count_none stores_sect h2, count_none reserves_sect h2]
      exact ih
    · rcases sec_sat hi.shard hq h4 with ⟨x, hx, h5⟩ | ⟨e, hx, -⟩
      · rw [h3] at hx
        cases hx
        have h6 := plh_section hi.shard h5 q.log
        rw [h1, List.countP_cons, List.countP_cons, count_none stores_sect h2, count_none reserves_sect h2]
        omega
      · rw [h3] at hx
        cases hx

theorem Run.memory {target cap gcap : Nat} {tr : List (Ev K V)} {s : State K V}
    (hr : Run c (State.new (Shard.new target cap gcap)) tr s) (hq : c.ptrEq = true) :
    s.shard.slots = s.shard.len + s.shard.ghosts + s.shard.placeholders ∧ s.shard.ghosts ≤ gcap := by
  have h := hr.reach hq (CReach.new c target cap gcap)
  refine ⟨h.inv.shard.toInv0.slots_eq, ?_⟩
  rw [h.inv.shard.toInv0.ghosts_eq, ← h.reach.ghostCap]
  exact h.inv.shard.ghosts

end QuickCache.Conc
