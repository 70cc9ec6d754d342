import Verif.Spec.Longevity
import Verif.Spec.SharedMemory

/-!
# What happened to a shard since it was last cleared (C98, C99)
-/

namespace QuickCache.Spec
variable {K V : Type _}
open Conc

/-- `clear` empties the shard. -/
def clears : Ev K V → Bool
  | .sect (.call .clear) _ _ => true
  | _ => false

/-- The events after the last `clear`; all of them if there was none. -/
def afterClear (l : List (Ev K V)) : List (Ev K V) := (l.reverse.takeWhile (fun e => !clears e)).reverse

end QuickCache.Spec
