import Verif.Spec.Sharded

/-!
# Which actions may make a shared cache too large (C41, C49)
-/

namespace QuickCache.Spec
variable {K V RS : Type _}
open Conc

/-- The weight an action may add: that of the item it stores. -/
inductive MayAdd (c : Cfg K V RS) (target : Nat) (s : State K V) : Act K V → Nat → Prop
  | insert (k : K) (v : V) : MayAdd c target s (.call (.insert k v)) (enterWeight c target k v)
  | replace (k : K) (v : V) (soft : Bool) : MayAdd c target s (.call (.replace k v soft)) (enterWeight c target k v)
  /-- the holder of a guard has published `v` and stores it -/
  | store {a : Nat} {k : K} {p : Plh} {v : V} {b : Bool} (h : s.ctl a = .inserting k p v b) :
      MayAdd c target s (.store a) (enterWeight c target k v)

/-- The actions that may need an additional slot: insertion or reservation of a key that is absent. -/
inductive MayGrow (s : State K V) : Act K V → Prop
  | insert {k : K} (v : V) (absent : ∀ w, (k, w) ∉ s.shard.iter) : MayGrow s (.call (.insert k v))
  | reserve {a : Nat} {k : K} (h : s.ctl a = .created k) (absent : ∀ w, (k, w) ∉ s.shard.iter) : MayGrow s (.upsert a)

end QuickCache.Spec
