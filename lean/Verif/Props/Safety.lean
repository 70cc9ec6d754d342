import Verif.Proofs.Protocol
import Verif.Props.Example

/-!
# Properties C06, C07: no panics, termination
-/

namespace QuickCache.Props
variable {K V RS : Type _} [DecidableEq K] {c : Cfg K V RS} {target cap gcap : Nat} {h : List (Unsync.Call K V)}
  {s s' : Shard K V}
open Unsync Spec

/-! ### C06: no call panics or reaches undefined behaviour -/

/-- The only two ways in which a call can fail to return: the total weight would reach `2^64` (arithmetic overflow), or
a call that needs a new slot finds the slab at its maximal length ("Capacity overflow"). All other panics of the code
(`unwrap` of `None`, `unreachable!`, `unreachable_unchecked`, failed debug assertions, index out of bounds, underflow)
never happen, in any state of any run. -/
theorem C06_panics (hr : Run c (Shard.new target cap gcap) h s) {op : Op K V} {p : Panic}
    (hs : step c s op = .error p) :
    (p = .overflow ∧ ∃ w, Adds c target s.contents op w ∧ 2 ^ 64 ≤ total c.weight s.iter + w) ∨
    (p = .slabFull ∧ Grows s.contents op ∧ s.entries.entries.length = 2 ^ 32 - 2) := by
  have hre := hr.reach_new
  rcases step_sat hre.inv.toInv0 op with ⟨x, hx, -⟩ | ⟨p', hp', he⟩
  · rw [hx] at hs; cases hs
  · rw [hp'] at hs
    cases hs
    rcases he with ⟨rfl, w, hw, hle⟩ | ⟨rfl, hg, hlen⟩
    · rw [hre.target] at hw
      exact Or.inl ⟨rfl, w, hw, by rw [hre.inv.toInv0.total_iter]; exact hle⟩
    · exact Or.inr ⟨rfl, hg, by omega⟩

/-- As long as the weights stay below `2^64` and less than `2^32 - 2` slots exist, every call returns. -/
theorem C06_returns (hr : Run c (Shard.new target cap gcap) h s) (op : Op K V)
    (hw : ∀ w, Adds c target s.contents op w → total c.weight s.iter + w < 2 ^ 64)
    (hl : s.entries.entries.length < 2 ^ 32 - 2) : ∃ s' out q, step c s op = .ok (s', out, q) := by
  cases hs : step c s op with
  | ok x => exact ⟨x.1, x.2.1, x.2.2, rfl⟩
  | error p =>
    rcases C06_panics hr hs with ⟨-, w, ha, hle⟩ | ⟨-, -, hlen⟩
    · have := hw w ha; omega
    · omega

/-- Calls that neither store nor write never panic, whatever the weights and the number of slots. -/
theorem C06_reads (hr : Run c (Shard.new target cap gcap) h s) {op : Op K V}
    (hop : (∃ k, op = .get k ∨ op = .peek k ∨ op = .containsKey k ∨ op = .remove k) ∨ (∃ f, op = .retain f) ∨
      op = .clear ∨ op = .drain ∨ op = .reserve) : ∃ s' out q, step c s op = .ok (s', out, q) := by
  cases hs : step c s op with
  | ok x => exact ⟨x.1, x.2.1, x.2.2, rfl⟩
  | error p =>
    exfalso
    rcases C06_panics hr hs with ⟨-, w, ha, -⟩ | ⟨-, hg, -⟩
    · rcases hop with ⟨k, rfl | rfl | rfl | rfl⟩ | ⟨f, rfl⟩ | rfl | rfl | rfl <;> cases ha
    · rcases hop with ⟨k, rfl | rfl | rfl | rfl⟩ | ⟨f, rfl⟩ | rfl | rfl | rfl <;> cases hg

/-- `weight()` panics only if the stored items weigh `2^64` or more. -/
theorem C06_weight (hr : Run c (Shard.new target cap gcap) h s) {p : Panic} (hs : s.weight = .error p) :
    p = .overflow ∧ 2 ^ 64 ≤ total c.weight s.iter := by
  unfold Shard.weight cadd at hs
  rw [hr.reach_new.inv.toInv0.total_iter]
  split at hs
  · cases hs
  · cases hs; exact ⟨rfl, by omega⟩

/-- In the example no weight and no slot limit is near: any call returns. -/
example : (exRun exOps).1.entries.entries.length = 4 ∧ total exCfg.weight (exRun exOps).1.iter = 9 := by decide
example (op : Op Nat Nat) (w : Nat) (h : Adds exCfg 8 (exRun exOps).1.contents op w) :
    total exCfg.weight (exRun exOps).1.iter + w < 2 ^ 64 := by
  have : ∀ k v, exCfg.weight k v < 10 := fun k v => Nat.mod_lt _ (by decide)
  have h2 : ∀ k v, enterWeight exCfg 8 k v < 10 := by
    intro k v; unfold enterWeight; split <;> exact this _ _
  have h9 : total exCfg.weight (exRun exOps).1.iter = 9 := by decide
  rw [h9]
  cases h with
  | insert | replace | load | guard | guardMut =>
    exact Nat.lt_of_lt_of_le (Nat.add_lt_add_left (h2 _ _) 9) (by decide)
  | getMut | peekMut | loadMutHit | guardMutHit =>
    exact Nat.lt_of_lt_of_le (Nat.add_lt_add_left (this _ _) 9) (by decide)
  | loadMut =>
    exact Nat.lt_of_lt_of_le (Nat.add_lt_add_left (Nat.add_lt_add (h2 _ _) (this _ _)) 9) (by decide)

/-- The overflow really exists: two pinned items weighing `2^63` each. -/
example : ((runOps { exCfg with weight := fun _ _ => 2 ^ 63, pinned := fun _ _ => true } exNew
    [.insert 1 1, .insert 2 2]).toBool) = false := by decide

/-! ### C07: every call terminates -/

/-- The loops of the code are unfolded in the model with a bound on the number of iterations (`2 * slots + 1` for
`evict`, `3 * slots + 1` for the scan of the hot queue); running into the bound is the error `outOfFuel`. It is never
reached, in any state of any run: the loops of the code end by themselves. -/
theorem C07_terminates (hr : Run c (Shard.new target cap gcap) h s) (op : Op K V) :
    step c s op ≠ .error .outOfFuel := by
  intro hs
  rcases C06_panics hr hs with ⟨h, -⟩ | ⟨h, -⟩ <;> cases h

/-- A case where all items are pinned and heavier than the capacity, and another one is inserted: the scan goes around
without finding a victim and stops. -/
example : exNextFine [.insert 1 105, .insert 2 106, .insert 3 107, .get 1, .get 2] (.insert 4 15) = true ∧
    (exNext [.insert 1 105, .insert 2 106, .insert 3 107, .get 1, .get 2] (.insert 4 15)).1.len = 4 := by decide

/-- A case where `before_evict` makes every victim weightless. -/
example : exNextFine [.insert 1 55, .insert 2 55] (.insert 3 57) = true ∧
    (exNext [.insert 1 55, .insert 2 55] (.insert 3 57)).1.iter.map (·.2) = [50, 50, 57] := by decide

end QuickCache.Props
