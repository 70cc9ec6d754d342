import Verif.Proofs.Longevity
import Verif.Proofs.SharedMemory
import Verif.Spec.Cleared

/-!
# What happened to a shard since it was last cleared: proof
-/

namespace QuickCache.Conc
variable {K V RS : Type} [DecidableEq K] {c : Cfg K V RS}
open Spec

omit [DecidableEq K] in
theorem clears_sect (e : Ev K V) (h : clears e = true) : isSect e = true := by
  cases e <;> first | rfl | cases h

omit [DecidableEq K] in
theorem afterClear_quiet (l : List (Ev K V)) {l' : List (Ev K V)} (h : ∀ e ∈ l', clears e = false) :
    afterClear (l ++ l') = afterClear l ++ l' := by
  unfold afterClear
  rw [List.reverse_append, List.takeWhile_append_of_pos, List.reverse_append, List.reverse_reverse]
  intro e he
  rw [h e (List.mem_reverse.mp he)]
  rfl

omit [DecidableEq K] in
theorem afterClear_clear (l : List (Ev K V)) {e : Ev K V} (he : clears e = true) {l' : List (Ev K V)}
    (h : ∀ e ∈ l', clears e = false) : afterClear (l ++ e :: l') = l' := by
  have : l ++ e :: l' = (l ++ [e]) ++ l' := by simp
  rw [this, afterClear_quiet _ h]
  unfold afterClear
  rw [List.reverse_append]
  simp [he]

omit [DecidableEq K] in
theorem quiet_clears {l : List (Ev K V)} (h : ∀ e ∈ l, isSect e = false) : ∀ e ∈ l, clears e = false := by
  intro e he
  cases hc : clears e with
  | false => rfl
  | true => exact absurd (clears_sect e hc) (by simp [h e he])

theorem clear_section {s s' : Shard K V} {out : SOut K V} {q : Req K V RS}
    (h : Sync.step c s (.call .clear) = .ok (s', out, q)) : s' = s.clear := by
  cases h
  rfl

theorem Run.cleared {target cap gcap : Nat} {tr : List (Ev K V)} {s : State K V}
    (hr : Run c (State.new (Shard.new target cap gcap)) tr s) (hq : c.ptrEq = true) :
    s.shard.entries.entries.length ≤ (afterClear tr).countP takesSlot ∧
      s.shard.placeholders + (afterClear tr).countP stores ≤ (afterClear tr).countP reserves := by
  induction hr with
  | start => exact ⟨Nat.zero_le _, Nat.le_refl _⟩
  | layout m p hr hm hp ih => exact ih
  | @act tr s s' act evs hr hs ih =>
    have hi := (hr.reach hq (CReach.new c target cap gcap)).inv
    rcases exec_sect hi hq hs with ⟨h1, h2⟩ | ⟨sec, out, q, rest, h1, h2, h3, h4, -⟩
    · rw [afterClear_quiet _ (quiet_clears h2), h1, List.countP_append, List.countP_append, List.countP_append,
        count_none stores_sect h2, count_none reserves_sect h2]
      exact ⟨by omega, ih.2⟩
    · by_cases hc : clears (.sect sec out q.log : Ev K V) = true
      · have hsec : sec = .call .clear := by
          cases sec with
          | call op => cases op <;> first | rfl | cases hc
          | _ => cases hc
        subst hsec
        rw [h1, afterClear_clear _ hc (quiet_clears h2), clear_section h3, count_none stores_sect h2,
          count_none reserves_sect h2]
        exact ⟨Nat.zero_le _, Nat.le_refl _⟩
      · have hq' : ∀ e ∈ (.sect sec out q.log :: rest : List (Ev K V)), clears e = false := by
          intro e he
          rcases List.mem_cons.mp he with rfl | he
          · simpa using hc
          · exact quiet_clears h2 e he
        rw [h1, afterClear_quiet _ hq', List.countP_append, List.countP_append, List.countP_append]
        constructor
        · have h5 := len_section s.shard h3 (fun op ho => by
            subst ho
            obtain ⟨b, hb⟩ := (hi.eff hq hs).lockMode (by rw [h1]; exact List.mem_cons_self)
            rw [hb]; simp)
          have h6 : secTakes sec ≤ (.sect sec out q.log :: rest : List (Ev K V)).countP takesSlot := by
            rw [List.countP_cons]
            refine Nat.le_trans ?_ (Nat.le_add_left _ _)
            cases sec with
            | call op => cases op <;> exact Nat.le_refl _
            | _ => exact Nat.le_refl _
          omega
        · rcases sec_sat hi.shard hq h4 with ⟨x, hx, h5⟩ | ⟨e, hx, -⟩
          · rw [h3] at hx
            cases hx
            have h6 := plh_section hi.shard h5 q.log
            rw [List.countP_cons, List.countP_cons, count_none stores_sect h2, count_none reserves_sect h2]
            omega
          · rw [h3] at hx
            cases hx

end QuickCache.Conc
