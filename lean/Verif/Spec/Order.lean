import Verif.Spec.Flood

/-!
# The order in which items leave
-/

namespace QuickCache
variable {K V : Type _}

/-- Calls that take out items of many keys. -/
def Op.sweeps : Op K V → Bool
  | .retain _ | .clear | .drain => true
  | _ => false

namespace Spec

/-- The call does not use the item of `k`: it is about another key, about no particular one, or it only peeks. -/
def Unused (k : K) (op : Op K V) : Prop := op.key? ≠ some k ∨ op = .peek k ∨ op = .containsKey k

/-- What the lifecycle is told when the items `l` of different keys are inserted one after the other into a cache for `n` items of
which `hot` may be hot: nothing for the first `n`; each further one evicts one item, in the order of insertion, beginning with
the first that was not hot. -/
def scanLog (hot n : Nat) (l : List (K × V)) (j : Nat) : List (Event K V) :=
  if j < n then []
  else match l[hot + (j - n)]? with
    | some p => [.beforeEvict p.1 p.2 p.2, .onEvict p.1 p.2]
    | none => []

/-- What is left then: the first `hot` items and the last `n - hot`. -/
def scanned (hot n : Nat) (l : List (K × V)) : List (K × V) :=
  l.take hot ++ (l.drop hot).drop (l.length - n)

end Spec
end QuickCache
