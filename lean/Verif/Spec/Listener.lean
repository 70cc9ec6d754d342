import Verif.Spec.Balance
import Verif.Spec.Sharded

/-!
# What a listener hears from the shards (C97)
-/

namespace QuickCache.Spec
variable {K V : Type _}
open Conc

/-- The item that an event inserts by `insert`. -/
def insertion : Ev K V → Option (K × V)
  | .sect (.call (.insert k v)) (.call _) _ => some (k, v)
  | _ => none

/-- The items that an event hands to `on_evict`. -/
def toldBy : Ev K V → List (K × V)
  | .sect _ _ log => evicted log
  | _ => []

/-- The items inserted into shard `i`, in order. -/
def puts (i : Nat) (tr : List (Nat × Ev K V)) : List (K × V) := (onShard i tr).filterMap insertion

/-- The items of shard `i` that `on_evict` was told of, in order. -/
def heard (i : Nat) (tr : List (Nat × Ev K V)) : List (K × V) := (onShard i tr).flatMap toldBy

end QuickCache.Spec
