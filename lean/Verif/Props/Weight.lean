import Verif.Proofs.Weight
import Verif.Props.Example

/-!
# Properties C03, C04, C05, C29, C37: weight, length and capacity
-/

namespace QuickCache.Props
variable {K V RS : Type _} [DecidableEq K] {c : Cfg K V RS} {target cap gcap : Nat} {h : List (Unsync.Call K V)}
  {s s' : Shard K V}
open Unsync Spec

/-! ### C03: capacity bound for evictable weight -/

/-- In every state reached without raising the evictable weight of an item through a mutable reference, the items that
are not pinned weigh at most the capacity. (The hot target is at most the capacity whenever the capacity is at most
`2^53`, see C43.) -/
theorem C03_evictable (hr : Run c (Shard.new target cap gcap) h s) (ht : target ≤ cap) (hc : ∀ x ∈ h, Calm c x) :
    total (evictable c) s.iter ≤ s.capacity := by
  rw [← evW_iter, show s.capacity = cap from hr.reach_new.capacity]
  generalize h0 : (Shard.new target cap gcap : Shard K V) = s0 at hr
  induction hr with
  | start => subst h0; exact Nat.zero_le _
  | layout m p hr hm hp ih => exact ih hc
  | call hr hs ih =>
    subst h0
    have hre := hr.reach_new
    have h1 := ih (fun x hx => hc x (by simp [hx]))
    have h2 := step_calm hre.inv.toInv0 (step_eff hre.inv hs) (by rw [hre.target, hre.capacity]; exact ht)
      (hc _ (by simp))
    rw [hre.capacity] at h2
    simp only at h2
    omega

/-- If moreover nothing is pinned, `weight()` is at most `capacity()`. -/
theorem C03_weight (hr : Run c (Shard.new target cap gcap) h s) (ht : target ≤ cap) (hc : ∀ x ∈ h, Calm c x)
    (hp : ∀ k v, (k, v) ∈ s.iter → c.pinned k v = false) {w : Nat} (hw : s.weight = .ok w) : w ≤ s.capacity := by
  refine Nat.le_trans ?_ (C03_evictable hr ht hc)
  have h1 : w = s.weightHot + s.weightCold := by
    unfold Shard.weight cadd at hw
    split at hw
    · cases hw; rfl
    · cases hw
  rw [h1, ← hr.reach_new.inv.toInv0.total_iter]
  unfold total
  have : s.iter.map (fun p => c.weight p.1 p.2) = s.iter.map (fun p => evictable c p.1 p.2) := by
    apply List.map_congr_left
    rintro ⟨k, v⟩ hm
    simp [evictable, hp k v hm]
  rw [this]
  exact Nat.le_refl _

/-- The calls of the example are calm except the write that makes key 3 heavier; without it they all are. Three units of
unpinned weight are stored next to a pinned item, with a capacity of 10. -/
example : (∀ x ∈ (exRun (exOps.eraseIdx 10)).2, Calm exCfg x) ∧ exFine (exOps.eraseIdx 10) = true ∧
    total (evictable exCfg) (exRun (exOps.eraseIdx 10)).1.iter = 3 := by
  refine ⟨?_, by decide, by decide⟩
  have : (exRun (exOps.eraseIdx 10)).2.all (fun x => match x.op with
      | .getMut .. | .peekMut .. | .getMutOrInsertWith .. | .getMutOrGuard .. => false
      | _ => true) = true := by decide
  intro x hx
  have hx := List.all_eq_true.mp this x hx
  unfold Calm
  split <;> simp_all

/-- The restriction is needed: growing an item through `get_mut` exceeds the capacity. -/
example : exFine [.insert 1 15, .insert 2 15, .getMut 1 (· + 3)] = true ∧
    total (evictable exCfg) (exRun [.insert 1 15, .insert 2 15, .getMut 1 (· + 3)]).1.iter = 13 := by decide

/-! ### C04: `weight()` is the exact sum of item weights -/

/-- `weight()` returns the summed weight of the items, if it returns. -/
theorem C04_weight (hr : Run c (Shard.new target cap gcap) h s) {w : Nat} (hw : s.weight = .ok w) :
    w = total c.weight s.iter := by
  unfold Shard.weight cadd at hw
  rw [hr.reach_new.inv.toInv0.total_iter]
  split at hw
  · cases hw; rfl
  · cases hw

/-- It returns unless the sum overflows 64 bits. -/
theorem C04_returns (hr : Run c (Shard.new target cap gcap) h s) (hw : total c.weight s.iter < 2 ^ 64) :
    s.weight = .ok (total c.weight s.iter) := by
  have h1 := hr.reach_new.inv.toInv0.total_iter
  unfold Shard.weight cadd
  rw [h1] at hw ⊢
  rw [if_pos hw]

example : (exRun exOps).1.weight = .ok 9 ∧ total exCfg.weight (exRun exOps).1.iter = 9 := by decide

/-! ### C05: `len()` and `is_empty()` are exact -/

/-- `len()` is the number of items; `is_empty()` is `len() == 0` (`/repo/src/unsync.rs:92-94`). -/
theorem C05_len (hr : Run c (Shard.new target cap gcap) h s) :
    s.len = s.iter.length ∧ (s.len = 0 ↔ s.iter = []) := by
  have := hr.reach_new.inv.toInv0.len_iter
  refine ⟨this.symm, ?_⟩
  rw [← this, List.length_eq_zero_iff]

example : (exRun exOps).1.len = 4 ∧ (exRun (exOps ++ [.clear])).1.len = 0 := by decide

/-! ### C29: over-capacity caused by mutable references is repaired by the next admission -/

/-- From any state of any run, storing an item that is admitted and has weight brings the evictable weight down to the
capacity. -/
theorem C29_repair (hr : Run c (Shard.new target cap gcap) h s) (ht : target ≤ cap) {op : Op K V} {out : Out K V}
    {q : Req K V RS} (hs : step c s op = .ok (s', out, q)) {k : K} {v : V} (hst : Stores s.contents op out k v)
    (hadm : Admissible c target k v) (hw : enterWeight c target k v ≠ 0) :
    total (evictable c) s'.iter ≤ s'.capacity := by
  have hre := hr.reach_new
  have hre' := (Run.call hr hs).reach_new
  rw [← evW_iter, show s'.capacity = cap from hre'.capacity]
  obtain ⟨s1, str, hi1, hcon, hinfo, htot, he, -⟩ := (step_eff hre.inv hs).stores hre.inv.toInv0 hst
  have hent : enterWeight c target k v = Shard.addWeight c s1 c.begin k v := by
    rw [addWeight_begin, hcon.target, hre.target]
  generalize hx : ((s', q, none) : Shard K V × Req K V RS × Option V) = x at he
  cases he with
  | put q1 v1 hent' adm hp =>
    cases hx
    rw [hent, hent'.weight] at hw
    have h1 := hent'.evictable_le adm
    have hc1 : s1.weightCapacity = cap := hcon.capacity.trans hre.capacity
    have ht1 : s1.weightTargetHot = target := hcon.target.trans hre.target
    rcases hp.evW_le (by omega) with ⟨h0, -⟩ | h
    · exact absurd h0 hw
    · rwa [hc1] at h
  | reject q1 v1 hw0 hp hb hw1 hrej =>
    exfalso
    rcases hadm with h | h
    · rw [h] at hp; cases hp
    · rw [hent, (Entering.before hw0 hp hb).weight] at h
      rw [hcon.target, hre.target] at hw1
      omega
  | absent => cases hx

/-- `insert` and a successful `replace` do so even if the item weighs nothing. (Filling a placeholder with an item that weighs
nothing does not evict.) -/
theorem C29_weightless (hr : Run c (Shard.new target cap gcap) h s) (ht : target ≤ cap) {op : Op K V} {out : Out K V}
    {q : Req K V RS} (hs : step c s op = .ok (s', out, q)) {k : K} {v : V}
    (hop : op = .insert k v ∨ ∃ soft, op = .replace k v soft ∧ out = .replaced none) (hadm : Admissible c target k v) :
    total (evictable c) s'.iter ≤ s'.capacity := by
  have hre := hr.reach_new
  have hre' := (Run.call hr hs).reach_new
  rw [← evW_iter, show s'.capacity = cap from hre'.capacity, ← hre.capacity]
  have ht' : s.weightTargetHot ≤ s.weightCapacity := by rw [hre.target, hre.capacity]; exact ht
  have hadm' : c.pinned k v = true ∨ Shard.addWeight c s c.begin k v ≤ s.weightTargetHot := by
    rw [addWeight_begin, hre.target]; exact hadm
  rcases hop with rfl | ⟨soft, rfl, rfl⟩
  · obtain ⟨⟨s1, q1⟩, h1, h2⟩ := Res.of_bind hs
    cases h2
    obtain ⟨⟨s2, q2, r⟩, h3, h4⟩ := Res.of_bind h1
    cases r with
    | some _ => cases h4
    | none =>
      cases h4
      exact ((Shard.insert_spec hre.inv.toInv0 _ _ _ _).of_ok h3).evW_le ht' hadm'
  · obtain ⟨⟨s1, q1, o⟩, h1, h2⟩ := Res.of_bind hs
    obtain ⟨⟨s2, q2, r⟩, h3, h4⟩ := Res.of_bind h1
    cases h4
    cases r with
    | some _ => cases h2
    | none =>
      cases h2
      exact ((Shard.insert_spec hre.inv.toInv0 _ _ _ _).of_ok h3).evW_le ht' hadm'

/-- The cache of the next example, three over its capacity of 10: inserting an item of weight 0 evicts, filling a
placeholder with one does not. -/
example : exNextFine [.insert 1 15, .insert 2 15, .getMut 1 (· + 3)] (.insert 3 10) = true ∧ exCfg.weight 3 10 = 0 ∧
    total (evictable exCfg) (exNext [.insert 1 15, .insert 2 15, .getMut 1 (· + 3)] (.insert 3 10)).1.iter ≤ 10 ∧
    total (evictable exCfg) (exNext [.insert 1 15, .insert 2 15, .getMut 1 (· + 3)] (.getOrInsertWith 3 (some 10))).1.iter = 13 ∧
    Admissible exCfg 8 3 10 := by
  refine ⟨by decide, by decide, by decide, by decide, Or.inr (by decide)⟩

/-- The example over capacity: storing key 3 brings the evictable weight back from 13 to 8. -/
example : exNextFine [.insert 1 15, .insert 2 15, .getMut 1 (· + 3)] (.insert 3 13) = true ∧
    total (evictable exCfg) (exNext [.insert 1 15, .insert 2 15, .getMut 1 (· + 3)] (.insert 3 13)).1.iter ≤ 10 ∧
    Admissible exCfg 8 3 13 ∧ enterWeight exCfg 8 3 13 ≠ 0 := by
  refine ⟨by decide, by decide, Or.inr (by decide), by decide⟩

/-! ### C37: `capacity()` is constant -/

theorem C37_capacity (hr : Run c (Shard.new target cap gcap) h s) : s.capacity = cap := hr.reach_new.capacity

example : (exRun exOps).1.capacity = 10 := by decide

end QuickCache.Props
