import Verif.Spec.Sharded

/-!
# Counting what may make a cache longer (C98)
-/

namespace QuickCache.Spec
variable {K V : Type _}
open Conc

/-- An event that may take a new slot: an `insert` or `replace`, or the step of a lookup with a loader or guard that, under
the write lock, finds the key or else reserves it. -/
def takesSlot : Ev K V → Bool
  | .sect (.call (.insert _ _)) _ _ | .sect (.call (.replace _ _ _)) _ _ | .sect (.upsert _) _ _ => true
  | _ => false

/-- How many there were on shard `i`. -/
def additions (i : Nat) (tr : List (Nat × Ev K V)) : Nat := (onShard i tr).countP takesSlot

end QuickCache.Spec
