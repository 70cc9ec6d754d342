import Verif.Spec.Sharded

/-!
# Counting the loads of a shared cache (C99)
-/

namespace QuickCache.Spec
variable {K V : Type _}
open Conc

/-- A lookup with a loader or guard found nothing and reserved the key. -/
def reserves : Ev K V → Bool
  | .sect (.upsert _) (.pending _ true) _ => true
  | _ => false

/-- A loaded value took the place that was reserved for it. -/
def stores : Ev K V → Bool
  | .sect (.fill _ _ _ _) (.filled none) _ => true
  | _ => false

/-- How many keys of shard `i` were reserved. -/
def reserved (i : Nat) (tr : List (Nat × Ev K V)) : Nat := (onShard i tr).countP reserves

/-- How many reservations on shard `i` were used. -/
def stored (i : Nat) (tr : List (Nat × Ev K V)) : Nat := (onShard i tr).countP stores

end QuickCache.Spec
