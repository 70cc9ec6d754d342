import Verif.Model.Rogue

/-!
# Vocabulary: well-behaved user code as a special case
-/

namespace QuickCache.Spec
variable {W K V RS : Type}

/-- The user code of `c`: it leaves the world alone, never panics, and answers as `c` says. -/
def honest [DecidableEq K] (c : Cfg K V RS) : Rogue W K V RS where
  hash k w := (some (c.hash k), w)
  eqv k x w := (some (x == k), w)
  own k w := (some k, w)
  weight k v w := (some (c.weight k v), w)
  pinned k v w := (some (c.pinned k v), w)
  beginReq w := (some c.beginReq, w)
  beforeEvict st k v w := (some (c.beforeEvict st k v), w)
  onEvict st k v w := (some (c.onEvict st k v), w)
  endReq _ w := (some (), w)
  ptrEq := c.ptrEq

/-- Writing `f` through a reference and dropping it. -/
def honestUse (f : V → V) : RefUse W V := { writes := [fun v w => (f v, some (), w)], leak := false }

/-- A call with well-behaved closures. -/
def honestOp : Op K V → RogueOp W K V
  | .insert k v => .insert k v
  | .replace k v soft => .replace k v soft
  | .remove k => .remove k
  | .get k => .get k
  | .peek k => .peek k
  | .containsKey k => .containsKey k
  | .getMut k f => .getMut k (honestUse f)
  | .peekMut k f => .peekMut k (honestUse f)
  | .retain f => .retain (fun k v w => (some (f k v), w))
  | .clear => .clear
  | .drain => .drain
  | .reserve => .reserve
  | .getOrInsertWith k load => .getOrInsertWith k (fun w => (some load, w))
  | .getMutOrInsertWith k load f => .getMutOrInsertWith k (fun w => (some load, w)) (honestUse f)
  | .getRefOrGuard k use => .getRefOrGuard k use
  | .getMutOrGuard k f use => .getMutOrGuard k (honestUse f) use

end QuickCache.Spec
