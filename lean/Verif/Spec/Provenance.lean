import Verif.Model.Sharded

/-!
# Where values come from (C94)

A relation `P` between keys and values, such as "the value was loaded for this key".
-/

namespace QuickCache.Spec
variable {K V RS : Type _}

/-- All values that this call may put into the cache or write through a reference are in the relation. -/
def Feeds (P : K → V → Prop) : Op K V → Prop
  | .insert k v | .replace k v _ => P k v
  | .getMut k f | .peekMut k f => ∀ v, P k v → P k (f v)
  | .getOrInsertWith k load => ∀ v, load = some v → P k v
  | .getMutOrInsertWith k load f => (∀ v, load = some v → P k v) ∧ ∀ v, P k v → P k (f v)
  | .getRefOrGuard k use => ∀ v, use = .insert v → P k v
  | .getMutOrGuard k f use => (∀ v, use = .insert v → P k v) ∧ ∀ v, P k v → P k (f v)
  | .remove _ | .get _ | .peek _ | .containsKey _ | .retain _ | .clear | .drain | .reserve => True

/-- The items that a call returns: its key (if it has one) with the value found, or the pairs handed back. -/
def shown (op : Op K V) : Out K V → List (K × V)
  | .value (some v) | .loaded _ (some (some v)) | .orGuard (some v) => op.key.toList.map (fun k => (k, v))
  | .removed (some x) | .replaced (some x) => [x]
  | .items l => l
  | _ => []

/-- The items that a lifecycle call is given or leaves. -/
def told : Event K V → List (K × V)
  | .beforeEvict k v v' => [(k, v), (k, v')]
  | .onEvict k v => [(k, v)]

/-- All items that callers and lifecycle see of a call. -/
def seen (x : Unsync.Call K V) : List (K × V) := shown x.op x.out ++ x.log.flatMap told

/-- The relation survives a lifecycle's `before_evict`. -/
def Survives (c : Cfg K V RS) (P : K → V → Prop) : Prop := ∀ st k v, P k v → P k (c.beforeEvict st k v).2

end QuickCache.Spec
