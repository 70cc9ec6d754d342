import Verif.Model.Sharded

/-!
# What enters and what leaves the cache (C96)

Everything here is read off the calls, their results and the calls of the lifecycle; the state of the cache plays no part.
A value that is rewritten, by `before_evict` or through a mutable reference, leaves, and the new one enters.
-/

namespace QuickCache.Spec
variable {K V : Type _}

/-- What enters by a call with this result. -/
def enters : Op K V → Out K V → List (K × V)
  | .insert k v, _ => [(k, v)]
  | .replace k v _, _ => [(k, v)]
  | .getMut k f, .value (some v) => [(k, f v)]
  | .peekMut k f, .value (some v) => [(k, f v)]
  | .getOrInsertWith k (some v), .loaded true _ => [(k, v)]
  | .getMutOrInsertWith k (some v) _, .loaded true (some none) => [(k, v)]
  | .getMutOrInsertWith k (some v) f, .loaded true (some (some w)) => [(k, v), (k, f w)]
  | .getMutOrInsertWith k _ f, .loaded false (some (some v)) => [(k, f v)]
  | .getRefOrGuard k (.insert v), .orGuard none => [(k, v)]
  | .getMutOrGuard k _ (.insert v), .orGuard none => [(k, v)]
  | .getMutOrGuard k f _, .orGuard (some v) => [(k, f v)]
  | _, _ => []

/-- What leaves by a call with this result, apart from evictions. -/
def leaves : Op K V → Out K V → List (K × V)
  | .getMut k _, .value (some v) => [(k, v)]
  | .peekMut k _, .value (some v) => [(k, v)]
  | .getMutOrInsertWith k _ _, .loaded _ (some (some v)) => [(k, v)]
  | .getMutOrGuard k _ _, .orGuard (some v) => [(k, v)]
  | .remove _, .removed (some x) => [x]
  | .replace _ _ _, .replaced (some x) => [x]
  | .drain, .items l => l
  | _, _ => []

/-- What a lifecycle call puts in. -/
def evIn : Event K V → List (K × V)
  | .beforeEvict k _ v' => [(k, v')]
  | .onEvict _ _ => []

/-- What a lifecycle call takes out. -/
def evOut : Event K V → List (K × V)
  | .beforeEvict k v _ => [(k, v)]
  | .onEvict k v => [(k, v)]

/-- All that enters during a call. -/
def comes (x : Unsync.Call K V) : List (K × V) := enters x.op x.out ++ x.log.flatMap evIn

/-- All that leaves during a call. -/
def goes (x : Unsync.Call K V) : List (K × V) := leaves x.op x.out ++ x.log.flatMap evOut

/-- The calls that drop items silently. -/
def Op.silent : Op K V → Bool
  | .retain _ | .clear => true
  | _ => false

/-- What an insertion puts in. -/
def inserted : Op K V → Option (K × V)
  | .insert k v => some (k, v)
  | _ => none

/-- The items handed to `on_evict`. -/
def evicted (log : List (Event K V)) : List (K × V) :=
  log.flatMap (fun
    | .onEvict k v => [(k, v)]
    | .beforeEvict _ _ _ => [])

end QuickCache.Spec
