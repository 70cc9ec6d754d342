import Verif.Model.SoloSharded
import Verif.Model.Default
import Verif.Model.Validate

/-!
# Model of the crate's own unit tests of `sync::Cache`

The tests that make one call at a time, as programs on top of `Verif.Model.SoloSharded`. A failed assertion, a panic inside the
cache, a failed `unwrap` and a call that waits for ever are errors.

* The hash function is an arbitrary function; `par` is `available_parallelism()`, on which the number of shards depends.
* After each action the layout of the hash table of the shard changes as the parameter `lay` says.
* `guard.insert(v).unwrap()` is part of a loading call here.
-/

namespace QuickCache.SyncTests
variable {K V RS : Type}
open Solo

/-- A statement of a test: a call, and what is asserted of the result. -/
structure Stmt (K V : Type) where
  call : Solo.Call K V
  check : Out K V → Bool

/-- The statements one after the other. -/
def execAll [DecidableEq K] (c : Cfg K V RS) (lay : Nat → Layout K V) : List (Stmt K V) → Whole K V → Res Unit
  | [], _ => .ok ()
  | st :: rest, s => do
    let (s, y) ← s.perform c lay st.call
    Shard.assert (st.check y.out = true)
    execAll c lay rest s

/-- A whole test: the cache is built by `with_weighter(items, weight, ..)` or, with `items = weight`, by `new(items)`
(`/repo/src/sync.rs:46-73`). -/
def run [DecidableEq K] (c : Cfg K V RS) (lay : Nat → Layout K V) (par items weight : Nat) (test : List (Stmt K V)) : Res Unit :=
  match Options.ofCapacities par items weight with
  | .error _ => .error .unwrapNone
  | .ok o => do
    let s ← SyncCache.withOptions o
    execAll c lay test (.start s)

/-- A call whose result is not looked at. -/
def just (x : Solo.Call K V) : Stmt K V := ⟨x, fun _ => true⟩

/-- `let Guard(guard) = cache.get_value_or_guard(&k, None) else { panic!() }; guard.insert(v).unwrap()`, or the async version. -/
def guards [DecidableEq K] [DecidableEq V] (l : Loader) (k : K) (v : V) : Stmt K V :=
  ⟨.load l k (some v), fun out => decide (out = .orGuard none)⟩

/-- `let Value(v) = cache.get_value_or_guard(&k, None) else { panic!() }; assert_eq!(v, …)`, or the async version; also
`assert_eq!(cache.get_or_insert_with(&k, || panic!()), Ok(v))`. -/
def finds [DecidableEq K] [DecidableEq V] (l : Loader) (k : K) (v : V) : Stmt K V :=
  ⟨.load l k none, fun out => decide (out = .orGuard (some v))⟩

/-- `assert_eq!(cache.get_or_insert_with(&k, || r), …)`, where the value is loaded or the loading fails; or the async version.
The result is what was found, or else what was loaded. -/
def loads [DecidableEq K] [DecidableEq V] (l : Loader) (k : K) (r expected : Option V) : Stmt K V :=
  ⟨.load l k r, fun out => match out with
    | .orGuard (some v) => decide (some v = expected)
    | .orGuard none => decide (r = expected)
    | _ => false⟩

/-- `assert_eq!(cache.get(&k), …)`. -/
def gets [DecidableEq K] [DecidableEq V] (k : K) (expected : Option V) : Stmt K V :=
  ⟨.get k, fun out => decide (out = .value expected)⟩

/-- The test runs on thread 0, without timeouts. -/
abbrev here : Loader := .thread 0 false

/-! ### The tests -/

/-- `StringWeighter` (`/repo/src/lib.rs:189-196`), with the default lifecycle. -/
def lengthOfValue (hash : UInt64 → UInt64) : Cfg UInt64 String (Option (UInt64 × String)) :=
  { Cfg.shared hash with weight := fun _ v => v.utf8ByteSize }

/-- `test_custom_cost` (`/repo/src/lib.rs:212-219`), on `with_weighter(100, 100_000, StringWeighter)`. -/
def customCost : List (Stmt UInt64 String) :=
  [just (.plain (.insert 1 "1")), just (.plain (.insert 54 "54")), just (.plain (.insert 1000 "1000")), gets 1000 (some "1000")]

/-- `test_borrow_keys` (`/repo/src/lib.rs:274-280`), each half of it on `new(0)`; the result is not looked at. -/
def borrowKeys (k : K) : List (Stmt K UInt64) := [just (.get k)]

/-- `test_get_or_insert_sync` (`/repo/src/lib.rs:333-371`), on `new(100)`. -/
def getOrInsert : List (Stmt UInt64 UInt64) :=
  [guards here 0 0, finds here 0 0, guards .task 1 1, finds .task 1 1, finds here 0 0, loads here 3 (some 3) (some 3),
    loads here 4 none none, finds .task 0 0, loads .task 4 none none, loads .task 4 (some 4) (some 4)]

/-- `test_retain_sync` (`/repo/src/lib.rs:407-443`), on `new(100)`. -/
def retains : List (Stmt UInt64 UInt64) :=
  ((List.range 10).flatMap fun i => [guards here (.ofNat i) (.ofNat i), finds here (.ofNat i) (.ofNat i)]) ++
  [just (.plain (.retain fun k v => decide (v > 4) && decide (k > 4)))] ++
  ((List.range 10).map fun i => gets (.ofNat i) (if i > 4 then some (.ofNat i) else none)) ++
  [just (.plain (.retain fun k v => decide (v < 8) && decide (k < 8)))] ++
  ((List.range 10).map fun i => gets (.ofNat i) (if i > 4 ∧ i < 8 then some (.ofNat i) else none))

end QuickCache.SyncTests
