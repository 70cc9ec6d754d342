import Verif.Spec.Listener
import Verif.Spec.Order
import Verif.Proofs.ConcFacts

/-!
# Insertions into a shared cache: proof
-/

namespace QuickCache.Conc
variable {K V RS : Type} [DecidableEq K] {c : Cfg K V RS}
open Spec

/-- If all that ever happens is `insert`, a shard of the concurrent cache is a cache used by one caller. -/
theorem Run.inserts {target cap gcap : Nat} {tr : List (Ev K V)} {s : State K V}
    (hr : Run c (State.new (Shard.new target cap gcap)) tr s) (hq : c.ptrEq = true) (ho : ∀ e ∈ tr, (insertion e).isSome = true) :
    ∃ h, Unsync.Run c (Shard.new target cap gcap) h s.shard ∧
      h.map (·.op) = (tr.filterMap insertion).map (fun p => .insert p.1 p.2) ∧
      h.flatMap (fun x => evicted x.log) = tr.flatMap toldBy := by
  induction hr with
  | start => exact ⟨[], .start, rfl, rfl⟩
  | layout m p hr hm hp ih =>
    obtain ⟨h, h1, h2⟩ := ih ho
    exact ⟨h, .layout m p h1 hm hp, h2⟩
  | @act tr s s' act evs hr hs ih =>
    obtain ⟨h, h1, h2, h3⟩ := ih (fun e he => ho e (List.mem_append_left _ he))
    have ho : ∀ e ∈ evs, (insertion e).isSome = true := fun e he => ho e (List.mem_append_right _ he)
    have he := (hr.reach hq (CReach.new c target cap gcap)).inv.eff hq hs
    have key : (evs = [] ∧ s'.shard = s.shard) ∨ ∃ k v, act = .call (.insert k v) := by
      cases he
      all_goals first
        | exact Or.inl ⟨rfl, rfl⟩
        | (have := ho _ List.mem_cons_self; cases this)
        | (have h5 := ho _ List.mem_cons_self
           unfold insertion at h5
           split at h5
           · rename_i heq
             cases heq
             exact Or.inr ⟨_, _, rfl⟩
           · cases h5)
        | (refine Or.inl ⟨?_, rfl⟩
           by_contra hne
           obtain ⟨e, he⟩ := List.exists_mem_of_ne_nil _ hne
           have h5 := ho e he
           split at he
           · simp only [List.mem_singleton] at he
             subst he
             cases h5
           · cases he)
    rcases key with ⟨rfl, h4⟩ | ⟨k, v, rfl⟩
    · refine ⟨h, h4 ▸ h1, by rw [List.append_nil]; exact h2, by rw [List.append_nil]; exact h3⟩
    · have e : exec c s (.call (.insert k v)) = if s.unlocked = true then
          some (Sync.step c s.shard (.call (.insert k v)) >>= fun x =>
            .ok ({ s with shard := x.1 }, [.sect (.call (.insert k v)) x.2.1 x.2.2.log])) else none := rfl
      rw [e] at hs
      by_cases hu : s.unlocked = true
      · rw [if_pos hu] at hs
        rcases hx : Sync.step c s.shard (.call (.insert k v)) with e | ⟨sh, out, q⟩
        · rw [hx] at hs; cases hs
        · rw [hx] at hs
          cases hs
          rcases hy : Unsync.step c s.shard (.insert k v) with e | ⟨sh1, out1, q1⟩
          · simp only [Sync.step, hy] at hx
            cases hx
          · simp only [Sync.step, hy] at hx
            cases hx
            refine ⟨_, .call h1 hy, ?_, ?_⟩
            · rw [List.map_append, h2, List.filterMap_append, List.map_append]; rfl
            · rw [List.flatMap_append, List.flatMap_append, h3]; rfl
      · rw [if_neg hu] at hs
        cases hs

end QuickCache.Conc

namespace QuickCache.Spec
variable {K V : Type}

open Conc

theorem shardCalls_inserts {tr : List (Nat × Ev K V)} (ho : ∀ e ∈ tr, (insertion e.2).isSome = true) :
    (∀ x ∈ shardCalls tr, (∃ k v, x.2.op = .insert k v) ∨ ∃ k, x.2.op = .get k) ∧
      (shardCalls tr).flatMap (fun x => evicted x.2.log) = tr.flatMap (fun e => toldBy e.2) ∧
      (shardCalls tr).filterMap (fun x => inserted x.2.op) = tr.filterMap (fun e => insertion e.2) := by
  induction tr with
  | nil => exact ⟨fun x hx => (by cases hx), rfl, rfl⟩
  | cons e tr ih =>
    obtain ⟨h1, h2, h3⟩ := ih (fun e he => ho e (List.mem_cons_of_mem _ he))
    have := ho e List.mem_cons_self
    obtain ⟨i, e⟩ := e
    unfold insertion at this
    split at this
    · rename_i k v out log heq
      simp only at heq
      subst heq
      have e1 : shardCalls ((i, .sect (.call (.insert k v)) (.call out) log) :: tr) =
          (i, ⟨.insert k v, out, log⟩) :: shardCalls tr := rfl
      rw [e1]
      refine ⟨fun x hx => ?_, ?_, ?_⟩
      · rcases List.mem_cons.mp hx with rfl | hx
        · exact Or.inl ⟨_, _, rfl⟩
        · exact h1 x hx
      · rw [List.flatMap_cons, List.flatMap_cons, h2]; rfl
      · show (k, v) :: _ = (k, v) :: _
        rw [h3]
    · cases this

theorem puts_sublist (i : Nat) (tr : List (Nat × Ev K V)) : (puts i tr).Sublist (tr.filterMap (fun e => insertion e.2)) := by
  unfold puts onShard
  rw [List.filterMap_filterMap]
  induction tr with
  | nil => exact List.Sublist.refl _
  | cons e tr ih =>
    rw [List.filterMap_cons, List.filterMap_cons]
    by_cases h : e.1 = i
    · simp only [h, if_true, Option.bind_some]
      cases insertion e.2 with
      | none => exact ih
      | some p => exact ih.cons_cons _
    · simp only [h, if_false, Option.bind_none]
      cases insertion e.2 with
      | none => exact ih
      | some p => exact ih.cons _

/-- The evictions of a scan, one after the other. -/
theorem told_scan {t n : Nat} (ht : t < n) {l : List (K × V)} {h : List (Unsync.Call K V)} (hl : h.length = l.length)
    (hx : ∀ j x, h[j]? = some x → x.log = scanLog t n l j) :
    h.flatMap (fun x => evicted x.log) = (l.drop t).take (l.length - n) := by
  have key : ∀ m, m ≤ l.length → (h.take m).flatMap (fun x => evicted x.log) = (l.drop t).take (m - n) := by
    intro m
    induction m with
    | zero => intro _; simp
    | succ m ih =>
      intro hm
      have hlt : m < h.length := by omega
      rw [List.take_succ_eq_append_getElem hlt, List.flatMap_append, ih (by omega), List.flatMap_singleton,
        hx m _ (List.getElem?_eq_getElem hlt)]
      unfold scanLog
      by_cases hn : m < n
      · rw [if_pos hn, show m + 1 - n = 0 by omega, show m - n = 0 by omega]
        rfl
      · have hi : t + (m - n) < l.length := by omega
        rw [if_neg hn, List.getElem?_eq_getElem hi, show m + 1 - n = m - n + 1 by omega]
        rw [List.take_succ_eq_append_getElem (by rw [List.length_drop]; omega), List.getElem_drop]
        rfl
  have := key l.length (Nat.le_refl _)
  rw [List.take_of_length_le (by omega)] at this
  exact this

end QuickCache.Spec
