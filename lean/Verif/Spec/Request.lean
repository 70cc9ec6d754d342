import Verif.Model.Request
import Verif.Spec.Ops

/-!
# What a lifecycle sees of a request
-/

namespace QuickCache.Spec
variable {K V RS : Type _}

/-- The calls of `unsync::Cache` that begin a request on a cache holding `m`: `insert`, `replace`, and the filling of an
absent key by a loader that succeeds or through a guard. -/
inductive Requests (m : K → Option V) : Op K V → Prop
  | insert (k : K) (v : V) : Requests m (.insert k v)
  | replace (k : K) (v : V) (soft : Bool) : Requests m (.replace k v soft)
  | load {k : K} (v : V) (absent : m k = none) : Requests m (.getOrInsertWith k (some v))
  | loadMut {k : K} (v : V) (f : V → V) (absent : m k = none) : Requests m (.getMutOrInsertWith k (some v) f)
  | guard {k : K} (v : V) (absent : m k = none) : Requests m (.getRefOrGuard k (.insert v))
  | guardMut {k : K} (f : V → V) (v : V) (absent : m k = none) : Requests m (.getMutOrGuard k f (.insert v))

/-- The critical sections of `sync::Cache` that belong to a request: `insert`, `replace`, `PlaceholderGuard::insert`. -/
inductive SecRequests : Section K V → Prop
  | insert (k : K) (v : V) : SecRequests (.call (.insert k v))
  | replace (k : K) (v : V) (soft : Bool) : SecRequests (.call (.replace k v soft))
  | fill (k : K) (p : Plh) (referenced : Bool) (v : V) : SecRequests (.fill k p referenced v)

/-- The functions of which there is a variant `…_with_lifecycle`: all but those that call a loader. -/
def HasVariant : Op K V → Prop
  | .getOrInsertWith _ _ | .getMutOrInsertWith _ _ _ => False
  | _ => True

/-- The call returned `Err`. -/
inductive Failed : Out K V → Prop
  | replaced (kv : K × V) : Failed (.replaced (some kv))

/-- The critical section made its function return `Err`. -/
inductive SecFailed : SOut K V → Prop
  | replaced (kv : K × V) : SecFailed (.call (.replaced (some kv)))
  | filled (v : V) : SecFailed (.filled (some v))

/-- No request: no call of the lifecycle at all. -/
def Quiet (l : Lc K V RS) : Prop := l.calls = [] ∧ l.returned = none

/-- A request that came to its end: `begin_request` once and first, the callbacks `log`, each with the request state
left by the one before, and `end_request` once and last, with the final request state. -/
def Ended (c : Cfg K V RS) (log : List (Event K V)) (l : Lc K V RS) : Prop :=
  ∃ st, Threads c c.beginReq log st ∧ l.calls = .begun :: log.map .evict ++ [.ended st] ∧ l.returned = none

/-- A request whose final state is returned to the caller instead of being passed to `end_request`. -/
def Returned (c : Cfg K V RS) (log : List (Event K V)) (l : Lc K V RS) : Prop :=
  ∃ st, Threads c c.beginReq log st ∧ l.calls = .begun :: log.map .evict ∧ l.returned = some st

/-- A request whose state is dropped after the callbacks `log`. -/
def Dropped (c : Cfg K V RS) (log : List (Event K V)) (l : Lc K V RS) : Prop :=
  (∃ st, Threads c c.beginReq log st) ∧ l.calls = .begun :: log.map .evict ∧ l.returned = none

end QuickCache.Spec
