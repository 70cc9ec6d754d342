import Verif.Model.Conc

/-!
# Executions with a bounded number of concurrent readers
-/

namespace QuickCache.Spec
variable {K V RS : Type _}
open Conc

/-- `Crowd n c s0 tr s`: from `s0` some interleaving of actions leads to `s` with the events `tr`, never do more than `n`
agents hold the shard's read lock at the same time, and loads of counters read the current values. -/
inductive Crowd [DecidableEq K] (n : Nat) (c : Cfg K V RS) (s0 : State K V) : List (Ev K V) → State K V → Prop
  | start : Crowd n c s0 [] s0
  | layout {tr : List (Ev K V)} {s : State K V} (m : List (UInt64 × Nat)) (p : UInt64 → UInt64 → Bool)
      (hr : Crowd n c s0 tr s) (hm : m.Perm s.shard.map) (hp : ∀ x, p x x = true) :
      Crowd n c s0 tr { s with shard := s.shard.relayout m p }
  | act {tr : List (Ev K V)} {s s' : State K V} {act : Act K V} {ev : List (Ev K V)} (hr : Crowd n c s0 tr s)
      (hs : exec c s act = some (.ok (s', ev))) (few : s'.readers.length ≤ n) (new : ∀ a m, act ≠ .load a (some m)) :
      Crowd n c s0 (tr ++ ev) s'

end QuickCache.Spec
