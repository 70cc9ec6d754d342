import Verif.Spec.Cache
import Verif.Model.Unsync

/-!
# Specification of every call on the map seen from outside

`OpSpec c target m op out log m'`: the call `op` on a cache holding the map `m` may return `out`, make the lifecycle
calls `log` and leave the map `m'`. Which items are evicted is left open here; how they leave is not.
-/

namespace QuickCache.Spec
variable {K V RS : Type _} [DecidableEq K]

/-- The admission check of an item `k`, `v` at the beginning of a storing call: an unpinned item heavier than the hot
target is passed to `before_evict`, which may rewrite the value. The outcome is the request state, the lifecycle calls
made, and the value that goes on. -/
inductive Enter (c : Cfg K V RS) (target : Nat) (k : K) (v : V) : RS → List (Event K V) → V → Prop
  | direct (fits : c.weight k v ≤ target ∨ c.pinned k v = true) : Enter c target k v c.beginReq [] v
  | rewritten {st : RS} {v1 : V} (heavy : target < c.weight k v) (free : c.pinned k v = false)
      (before : c.beforeEvict c.beginReq k v = (st, v1)) : Enter c target k v st [.beforeEvict k v v1] v1

/-- The value that goes on is admitted: a rewritten one has to be light enough now. -/
def Admitted (c : Cfg K V RS) (target : Nat) (k : K) (pre : List (Event K V)) (v1 : V) : Prop :=
  pre ≠ [] → c.weight k v1 ≤ target

/-- Storing `v` under `k` (insertion, filling a placeholder): lifecycle calls and resulting map. -/
inductive Store (c : Cfg K V RS) (target : Nat) (m : K → Option V) (k : K) (v : V) :
    List (Event K V) → (K → Option V) → Prop
  /-- still too heavy: the old item and then the new one are handed to `on_evict` -/
  | rejected {st : RS} {v1 : V} {pre : List (Event K V)} (enter : Enter c target k v st pre v1)
      (asked : pre ≠ []) (heavy : target < c.weight k v1) :
      Store c target m k v (pre ++ (m k).toList.map (.onEvict k) ++ [.onEvict k v1]) (del m k)
  /-- the key was present: the old value is handed to `on_evict`; evictions may follow -/
  | overwritten {st st' : RS} {v1 old : V} {pre L : List (Event K V)} {m' : K → Option V}
      (enter : Enter c target k v st pre v1) (fits : Admitted c target k pre v1) (here : m k = some old)
      (after : Evicts c (put m k v1) (c.onEvict st k old) L m' st') :
      Store c target m k v (pre ++ .onEvict k old :: L) m'
  /-- the key was absent: evictions happen either before or after the item is added -/
  | added {st st1 st2 : RS} {v1 : V} {pre L1 L2 : List (Event K V)} {m1 m' : K → Option V}
      (enter : Enter c target k v st pre v1) (fits : Admitted c target k pre v1) (absent : m k = none)
      (first : Evicts c m st L1 m1 st1) (after : Evicts c (put m1 k v1) st1 L2 m' st2) (either : L1 = [] ∨ L2 = []) :
      Store c target m k v (pre ++ L1 ++ L2) m'

/-- `replace`: lifecycle calls, resulting map and the value handed back (`none` for `Ok`). -/
inductive Replace (c : Cfg K V RS) (target : Nat) (m : K → Option V) (k : K) (v : V) :
    List (Event K V) → (K → Option V) → Option V → Prop
  /-- the key is absent: nothing changes -/
  | absent {st : RS} {v1 : V} {pre : List (Event K V)} (enter : Enter c target k v st pre v1) (absent : m k = none) :
      Replace c target m k v pre m (some v1)
  /-- too heavy: the old item is evicted, the new one is handed back -/
  | rejected {st : RS} {v1 old : V} {pre : List (Event K V)} (enter : Enter c target k v st pre v1)
      (asked : pre ≠ []) (heavy : target < c.weight k v1) (here : m k = some old) :
      Replace c target m k v (pre ++ [.onEvict k old]) (del m k) (some v1)
  | overwritten {st st' : RS} {v1 old : V} {pre L : List (Event K V)} {m' : K → Option V}
      (enter : Enter c target k v st pre v1) (fits : Admitted c target k pre v1) (here : m k = some old)
      (after : Evicts c (put m k v1) (c.onEvict st k old) L m' st') :
      Replace c target m k v (pre ++ .onEvict k old :: L) m' none

/-- The map after applying `f` to the value of `k`, if present. -/
def alter (m : K → Option V) (k : K) (f : V → V) : K → Option V := fun x => if x = k then (m k).map f else m x

/-- The weight of the value that goes on, whether or not it was rewritten. -/
def enterWeight (c : Cfg K V RS) (target : Nat) (k : K) (v : V) : Nat :=
  if target < c.weight k v ∧ c.pinned k v = false then c.weight k (c.beforeEvict c.beginReq k v).2 else c.weight k v

/-- Whether the item can be admitted at all: an unpinned item must not be heavier than the hot target, at least after
`before_evict` was given the chance to rewrite it. -/
def Admissible (c : Cfg K V RS) (target : Nat) (k : K) (v : V) : Prop :=
  c.pinned k v = true ∨ enterWeight c target k v ≤ target

/-- The value that goes on, whether or not it was rewritten. -/
def enterValue (c : Cfg K V RS) (target : Nat) (k : K) (v : V) : V :=
  if target < c.weight k v ∧ c.pinned k v = false then (c.beforeEvict c.beginReq k v).2 else v

/-- The lifecycle calls made when storing `v` under `k` before any victim is chosen: the new item may be passed to
`before_evict` (admission check), and the previous value of `k` is handed to `on_evict`. -/
def preamble (c : Cfg K V RS) (target : Nat) (m : K → Option V) (k : K) (v : V) : List (Event K V) :=
  (if target < c.weight k v ∧ c.pinned k v = false then [.beforeEvict k v (enterValue c target k v)] else []) ++
    (m k).toList.map (.onEvict k)

/-- The weight of the item stored under `k`; zero if there is none. -/
def weightAt (c : Cfg K V RS) (m : K → Option V) (k : K) : Nat :=
  match m k with
  | some v => c.weight k v
  | none => 0

/-- Calling the lifecycle one call after the other, each with the request state left by the one before. -/
inductive Threads (c : Cfg K V RS) : RS → List (Event K V) → RS → Prop
  | nil {st : RS} : Threads c st [] st
  | before {st st1 st' : RS} {k : K} {v v' : V} {log : List (Event K V)} (call : c.beforeEvict st k v = (st1, v'))
      (rest : Threads c st1 log st') : Threads c st (.beforeEvict k v v' :: log) st'
  | on {st st' : RS} {k : K} {v : V} {log : List (Event K V)} (rest : Threads c (c.onEvict st k v) log st') :
      Threads c st (.onEvict k v :: log) st'

/-- A call on a cache holding `m` that stores `v` under `k`: an insertion, a successful replacement, or the filling of an
absent key by a loader or through a guard. (Loading and then writing through the returned reference is not included.) -/
inductive Stores (m : K → Option V) : Op K V → Out K V → K → V → Prop
  | insert (k : K) (v : V) (out : Out K V) : Stores m (.insert k v) out k v
  | replace (k : K) (v : V) (soft : Bool) : Stores m (.replace k v soft) (.replaced none) k v
  | load {k : K} (v : V) (out : Out K V) (absent : m k = none) : Stores m (.getOrInsertWith k (some v)) out k v
  | guard {k : K} (v : V) (out : Out K V) (absent : m k = none) : Stores m (.getRefOrGuard k (.insert v)) out k v
  | guardMut {k : K} (f : V → V) (v : V) (out : Out K V) (absent : m k = none) :
      Stores m (.getMutOrGuard k f (.insert v)) out k v

/-- A call on a cache holding `m` that stores `v` under `k` and afterwards, if the item is still there, applies `f` to it
through the returned mutable reference. Plain storing calls apply nothing. -/
inductive StoresThen (m : K → Option V) : Op K V → Out K V → K → V → (V → V) → Prop
  | plain {op : Op K V} {out : Out K V} {k : K} {v : V} (h : Stores m op out k v) : StoresThen m op out k v id
  | loadMut {k : K} (v : V) (f : V → V) (out : Out K V) (absent : m k = none) :
      StoresThen m (.getMutOrInsertWith k (some v) f) out k v f

/-- The weight a call on a cache holding `m` may add to it. -/
inductive Adds (c : Cfg K V RS) (target : Nat) (m : K → Option V) : Op K V → Nat → Prop
  | insert (k : K) (v : V) : Adds c target m (.insert k v) (enterWeight c target k v)
  | replace (k : K) (v : V) (soft : Bool) : Adds c target m (.replace k v soft) (enterWeight c target k v)
  | getMut {k : K} {v : V} (f : V → V) (here : m k = some v) : Adds c target m (.getMut k f) (c.weight k (f v))
  | peekMut {k : K} {v : V} (f : V → V) (here : m k = some v) : Adds c target m (.peekMut k f) (c.weight k (f v))
  | loadMutHit {k : K} {v : V} (load : Option V) (f : V → V) (here : m k = some v) :
      Adds c target m (.getMutOrInsertWith k load f) (c.weight k (f v))
  | guardMutHit {k : K} {v : V} (f : V → V) (use : GuardUse V) (here : m k = some v) :
      Adds c target m (.getMutOrGuard k f use) (c.weight k (f v))
  | load {k : K} (v : V) (absent : m k = none) : Adds c target m (.getOrInsertWith k (some v)) (enterWeight c target k v)
  | guard {k : K} (v : V) (absent : m k = none) :
      Adds c target m (.getRefOrGuard k (.insert v)) (enterWeight c target k v)
  | guardMut {k : K} (f : V → V) (v : V) (absent : m k = none) :
      Adds c target m (.getMutOrGuard k f (.insert v)) (enterWeight c target k v)
  /-- first the loaded value, then, if it is still stored as `w`, the value written through the reference -/
  | loadMut {k : K} (v w : V) (f : V → V) (absent : m k = none) :
      Adds c target m (.getMutOrInsertWith k (some v) f) (enterWeight c target k v + c.weight k (f w))

/-- The calls that may need an additional slot: those that store or load a key that is absent. -/
inductive Grows (m : K → Option V) : Op K V → Prop
  | insert {k : K} (v : V) (absent : m k = none) : Grows m (.insert k v)
  | load {k : K} (load : Option V) (absent : m k = none) : Grows m (.getOrInsertWith k load)
  | loadMut {k : K} (load : Option V) (f : V → V) (absent : m k = none) : Grows m (.getMutOrInsertWith k load f)
  | guard {k : K} (use : GuardUse V) (absent : m k = none) : Grows m (.getRefOrGuard k use)
  | guardMut {k : K} (f : V → V) (use : GuardUse V) (absent : m k = none) : Grows m (.getMutOrGuard k f use)

/-- `l` lists every item of `m` exactly once. -/
def Lists (l : List (K × V)) (m : K → Option V) : Prop :=
  (l.map (·.1)).Nodup ∧ ∀ k v, (k, v) ∈ l ↔ m k = some v

/-- The specification of every call. -/
def OpSpec (c : Cfg K V RS) (target : Nat) (m : K → Option V) :
    Op K V → Out K V → List (Event K V) → (K → Option V) → Prop
  | .insert k v, out, log, m' => out = .unit ∧ Store c target m k v log m'
  | .replace k v _, out, log, m' => ∃ r, out = .replaced (r.map fun v' => (k, v')) ∧ Replace c target m k v log m' r
  | .remove k, out, log, m' => out = .removed ((m k).map fun v => (k, v)) ∧ log = [] ∧ m' = del m k
  | .get k, out, log, m' | .peek k, out, log, m' => out = .value (m k) ∧ log = [] ∧ m' = m
  | .containsKey k, out, log, m' => out = .bool (m k).isSome ∧ log = [] ∧ m' = m
  | .getMut k f, out, log, m' | .peekMut k f, out, log, m' => out = .value (m k) ∧ log = [] ∧ m' = alter m k f
  | .retain f, out, log, m' => out = .unit ∧ log = [] ∧ m' = fun x => (m x).filter (f x)
  | .clear, out, log, m' => out = .unit ∧ log = [] ∧ m' = fun _ => none
  | .drain, out, log, m' => (∃ l, out = .items l ∧ Lists l m) ∧ log = [] ∧ m' = fun _ => none
  | .reserve, out, log, m' => out = .unit ∧ log = [] ∧ m' = m
  | .getOrInsertWith k load, out, log, m' =>
    match m k, load with
    | some v, _ => out = .loaded false (some (some v)) ∧ log = [] ∧ m' = m
    | none, none => out = .loaded true none ∧ log = [] ∧ m' = m
    | none, some v => Store c target m k v log m' ∧ out = .loaded true (some (m' k))
  | .getMutOrInsertWith k load f, out, log, m' =>
    match m k, load with
    | some v, _ => out = .loaded false (some (some v)) ∧ log = [] ∧ m' = alter m k f
    | none, none => out = .loaded true none ∧ log = [] ∧ m' = m
    | none, some v => ∃ m1, Store c target m k v log m1 ∧ out = .loaded true (some (m1 k)) ∧ m' = alter m1 k f
  | .getRefOrGuard k use, out, log, m' =>
    match m k, use with
    | some v, _ => out = .orGuard (some v) ∧ log = [] ∧ m' = m
    | none, .insert v => out = .orGuard none ∧ Store c target m k v log m'
    | none, _ => out = .orGuard none ∧ log = [] ∧ m' = m
  | .getMutOrGuard k f use, out, log, m' =>
    match m k, use with
    | some v, _ => out = .orGuard (some v) ∧ log = [] ∧ m' = alter m k f
    | none, .insert v => out = .orGuard none ∧ Store c target m k v log m'
    | none, _ => out = .orGuard none ∧ log = [] ∧ m' = m

/-- A history of calls is a possible behaviour of a map: each call acts on the map left by the one before. -/
inductive Replays (c : Cfg K V RS) (target : Nat) (m0 : K → Option V) : List (Unsync.Call K V) → (K → Option V) → Prop
  | start : Replays c target m0 [] m0
  | call {h : List (Unsync.Call K V)} {m m' : K → Option V} {x : Unsync.Call K V} (hr : Replays c target m0 h m)
      (hx : OpSpec c target m x.op x.out x.log m') : Replays c target m0 (h ++ [x]) m'

end QuickCache.Spec
