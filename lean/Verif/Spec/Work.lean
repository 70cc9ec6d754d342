import Verif.Model.Unwind

/-!
# How many items eviction looks at

The loops of `advance_hot` and `advance_cold` (`/repo/src/shard.rs:616-723`) call user code exactly once for every item the
hand stops at: `is_pinned`, or `weight` if the item is promoted. So the work of eviction can be observed from outside, by
counting these calls.
-/

namespace QuickCache
variable {K V RS : Type}

/-- The calls of user code made once per item that eviction looks at: `is_pinned` (`/repo/src/shard.rs:643`, `689`), and the
`weight` of an item that is promoted (`631`). -/
def Site.examines : Site → Bool
  | .pinnedHot | .pinnedCold | .weighPromoted => true
  | _ => false

namespace Spec
variable [DecidableEq K]

/-- The number of items that eviction looks at during the call `op` on the cache `s`. -/
def examined (c : Cfg K V RS) (s : Shard K V) (op : Op K V) : Nat :=
  ((Unwind.step c s op).points.filter (·.site.examines)).length

/-- What a call may add to the work to be done: nothing if it only reads without leaving a trace or takes items out, 1 if it
is a lookup or a load, 3 if it stores or changes a value. -/
def credit : Op K V → Nat
  | .insert .. | .replace .. | .getMut .. | .peekMut .. | .getMutOrInsertWith .. | .getMutOrGuard .. => 3
  | .get .. | .getOrInsertWith .. | .getRefOrGuard .. => 1
  | .peek .. | .containsKey .. | .remove .. | .retain .. | .clear | .drain | .reserve => 0

/-- `Work c s0 ops n s`: starting from the cache `s0`, the calls `ops` (oldest first) lead to the cache `s`, and eviction
looks at `n` items altogether. Between calls the layout of the hash table may change. -/
inductive Work (c : Cfg K V RS) (s0 : Shard K V) : List (Op K V) → Nat → Shard K V → Prop
  | start : Work c s0 [] 0 s0
  | layout {ops : List (Op K V)} {n : Nat} {s : Shard K V} (m : List (UInt64 × Nat)) (p : UInt64 → UInt64 → Bool)
      (hr : Work c s0 ops n s) (hm : m.Perm s.map) (hp : ∀ x, p x x = true) : Work c s0 ops n (s.relayout m p)
  | call {ops : List (Op K V)} {n : Nat} {s s' : Shard K V} {op : Op K V} {out : Out K V} {q : Req K V RS}
      (hr : Work c s0 ops n s) (hs : Unsync.step c s op = .ok (s', out, q)) :
      Work c s0 (ops ++ [op]) (n + examined c s op) s'

end Spec
end QuickCache
