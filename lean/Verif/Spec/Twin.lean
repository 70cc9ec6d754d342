import Verif.Spec.Clock

/-!
# Comparing the visible behaviour of two caches
-/

namespace QuickCache
variable {K V RS : Type _}

/-- The same parameters, but another hash function. -/
def Cfg.rehash (c : Cfg K V RS) (hash' : K → UInt64) : Cfg K V RS := { c with hash := hash' }

/-- The same parameters, but placeholders are compared by identity (as in `sync`) or not at all (as in `unsync`). -/
def Cfg.compare (c : Cfg K V RS) (identity : Bool) : Cfg K V RS := { c with ptrEq := identity }

/-- The key a call is about. -/
def Op.key? : Op K V → Option K
  | .insert k _ | .replace k _ _ | .remove k | .get k | .peek k | .containsKey k | .getMut k _ | .peekMut k _
  | .getOrInsertWith k _ | .getMutOrInsertWith k _ _ | .getRefOrGuard k _ | .getMutOrGuard k _ _ => some k
  | .retain _ | .clear | .drain | .reserve => none

namespace Spec

/-- Two calls return the same, up to the order of the items that `drain` yields. -/
inductive SameOut : Out K V → Out K V → Prop
  | same (o : Out K V) : SameOut o o
  | items {l l' : List (K × V)} (h : l.Perm l') : SameOut (.items l) (.items l')

/-- Two calls do the same, as far as their caller and the lifecycle can see. -/
structure SameCall (x y : Unsync.Call K V) : Prop where
  op : x.op = y.op
  out : SameOut x.out y.out
  log : x.log = y.log

/-- The keys in a history. -/
def keysOf (h : List (Unsync.Call K V)) : List K := h.filterMap (·.op.key?)

/-- The hashes of the keys in a history do not collide. -/
def Distinct (hash : K → UInt64) (h : List (Unsync.Call K V)) : Prop :=
  ∀ a ∈ keysOf h, ∀ b ∈ keysOf h, hash a = hash b → a = b

instance [DecidableEq K] (hash : K → UInt64) (h : List (Unsync.Call K V)) : Decidable (Distinct hash h) := by
  unfold Distinct; infer_instance

end Spec
end QuickCache
