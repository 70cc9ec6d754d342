import Verif.Model.Herd

/-!
# Specification of the crate's own concurrent tests

What it means to carry on without giving up.
-/

namespace QuickCache.Spec
variable {K V RS : Type _}
open Herd

/-- Moves made by callers that neither give up nor disturb each other: no timeouts, no polls of futures that were not notified,
no removals and no insertions of the other value. -/
def Steady (s : Herd.State K V) : Move K V → Prop
  | .ask _ | .count _ => True
  | .step _ (.timeout _) => False
  | .step _ (.poll a _) => s.base.flag a = true
  | .step _ _ => True
  | .meddle _ yes => yes = false
  | .lapse _ _ => False

/-- `Steadily c T s0 n s`: with `n` such moves, `s0` leads to `s`. -/
inductive Steadily [DecidableEq K] [DecidableEq V] (c : Cfg K V RS) (T : Test K V) (s0 : Herd.State K V) : Nat → Herd.State K V → Prop
  | start : Steadily c T s0 0 s0
  | layout {n : Nat} {s : Herd.State K V} (m : List (UInt64 × Nat)) (p : UInt64 → UInt64 → Bool) (hr : Steadily c T s0 n s)
      (hm : m.Perm s.base.shard.map) (hp : ∀ x, p x x = true) :
      Steadily c T s0 n { s with base := { s.base with shard := s.base.shard.relayout m p } }
  | move {n : Nat} {s s' : Herd.State K V} {m : Move K V} (hr : Steadily c T s0 n s) (hm : Steady s m)
      (hs : step c T s m = some (.ok s')) : Steadily c T s0 (n + 1) s'

end QuickCache.Spec
