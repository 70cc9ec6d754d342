import Verif.Model.Default
import Verif.Model.Options
import Verif.Model.Validate
import Verif.Model.Unsync

/-!
# Model of the crate's own unit tests of `unsync::Cache`

Programs that use the cache and check it with assertions, statement by statement. A failed assertion, a panic inside the
cache and a failed `unwrap` are errors.

* The hash function is an arbitrary function.
* After each call of the cache the layout of its hash table changes as the parameter `lay` says.
-/

namespace QuickCache.UnitTests
variable {K V RS : Type _}

/-- A statement of a test. `unwrap`, `unwrap_err` and `assert_eq!` on what a call returns are in `check`. -/
inductive Stmt (K V : Type _) where
  | call (op : Op K V) (check : Out K V → Bool)
  /-- `let a = cache.weight()` -/
  | note
  /-- `assert_eq!(cache.weight(), f(a))` -/
  | weighs (f : Nat → Nat)
  /-- `cache.validate(false)` -/
  | validate

/-- The variable `cache`, the number of calls made so far, and the variable `a`. -/
structure World (K V : Type _) where
  shard : Shard K V
  calls : Nat
  a : Nat

/-- How the layout of the hash table changes after the `n`-th call (see `Shard.relayout`). -/
abbrev Layout (K V : Type _) := Nat → Shard K V → Shard K V

/-- All that is required of it: it changes nothing but the order of the table and which foreign slots a probe meets. -/
def Layout.Fair (lay : Layout K V) : Prop :=
  ∀ n s, ∃ m p, lay n s = s.relayout m p ∧ m.Perm s.map ∧ ∀ x, p x x = true

/-- One statement. -/
def exec [DecidableEq K] (c : Cfg K V RS) (lay : Layout K V) (w : World K V) : Stmt K V → Res (World K V)
  | .call op check => do
    let (s, out, _) ← Unsync.step c w.shard op
    Shard.assert (check out = true)
    .ok { w with shard := lay w.calls s, calls := w.calls + 1 }
  | .note => do
    let x ← w.shard.weight
    .ok { w with a := x }
  | .weighs f => do
    let x ← w.shard.weight
    Shard.assert (x = f w.a)
    .ok w
  | .validate => do
    w.shard.validate c false
    .ok w

/-- The statements one after the other. -/
def execAll [DecidableEq K] (c : Cfg K V RS) (lay : Layout K V) : List (Stmt K V) → World K V → Res Unit
  | [], _ => .ok ()
  | st :: rest, w => do
    let w ← exec c lay w st
    execAll c lay rest w

/-- A whole test: the cache is built by `with_weighter(items, weight, ..)` or, with `items = weight`, by `new(items)`
(`/repo/src/unsync.rs:23-51`); `par` is `available_parallelism()`. -/
def run [DecidableEq K] (c : Cfg K V RS) (lay : Layout K V) (par items weight : Nat) (test : List (Stmt K V)) : Res Unit :=
  match Options.ofCapacities par items weight with
  | .error _ => .error .unwrapNone
  | .ok o => execAll c lay test ⟨o.unsync, 0, 0⟩

/-- A call whose result is not looked at. -/
def Stmt.just (op : Op K V) : Stmt K V := .call op (fun _ => true)

/-! ### `test_zero_weights` -/

/-- `Weighter` of `unsync.rs:524-530`, with the default lifecycle. -/
def weightOfValue (hash : UInt32 → UInt64) : Cfg UInt32 UInt32 Unit := { Cfg.plain hash with weight := fun _ v => v.toNat }

/-- `for i in 1..100 { cache.insert(i, i); cache.insert(i, i); }` (`/repo/src/unsync.rs:536-539`, `545-548`, `556-559`). -/
def flood : List (Stmt UInt32 UInt32) :=
  (List.range' 1 99).flatMap fun i => [.just (.insert (.ofNat i) (.ofNat i)), .just (.insert (.ofNat i) (.ofNat i))]

/-- `test_zero_weights` (`/repo/src/unsync.rs:531-562`), on `with_weighter(100, 100, Weighter)`. -/
def zeroWeights : List (Stmt UInt32 UInt32) :=
  [.just (.insert 0 0), .weighs (fun _ => 0)] ++ flood ++
  [.call (.get 0) (· == .value (some 0)), .call (.containsKey 0) (· == .bool true), .note,
    .call (.getMut 0 (· + 1)) (· == .value (some 0)), .weighs (fun a => a + 1)] ++ flood ++
  [.call (.get 0) (· == .value none), .call (.containsKey 0) (· == .bool false),
    .just (.insert 0 1), .note, .call (.getMut 0 (· - 1)) (· == .value (some 1)), .weighs (fun a => a - 1)] ++ flood ++
  [.call (.get 0) (· == .value (some 0)), .call (.containsKey 0) (· == .bool true)]

/-! ### `test_change_get_mut_change_weight` -/

/-- `StringWeighter` (`/repo/src/lib.rs:189-196`), with the default lifecycle. -/
def lengthOfValue (hash : UInt64 → UInt64) : Cfg UInt64 String Unit :=
  { Cfg.plain hash with weight := fun _ v => v.utf8ByteSize }

/-- `test_change_get_mut_change_weight` (`/repo/src/lib.rs:221-240`), on `with_weighter(100, 100_000, StringWeighter)`. The
results of the two `get_mut` calls are not looked at. -/
def changeWeight : List (Stmt UInt64 String) :=
  [.just (.insert 1 "1"), .call (.get 1) (· == .value (some "1")), .weighs (fun _ => 1),
    .just (.getMut 1 (fun _ => "11")), .just (.getMut 1 (fun _ => "")), .call (.get 1) (· == .value (some "")),
    .weighs (fun _ => 0), .validate]

/-! ### `test_equivalent` -/

/-- `test_equivalent` (`/repo/src/lib.rs:266-272`), on `new(5)`. -/
def equivalent : List (Stmt (String × Int) String) :=
  [.just (.insert ("square", 2022) "blue"), .just (.insert ("square", 2023) "black"),
    .call (.get ("square", 2022)) (· == .value (some "blue"))]

/-! ### `test_get_or_insert_unsync` -/

/-- `test_get_or_insert_unsync` (`/repo/src/lib.rs:313-331`), on `new(100)`. A closure that panics is one that must not be
called; `load` is then of no importance. -/
def getOrInsert : List (Stmt UInt64 UInt64) :=
  [.call (.getRefOrGuard 0 (.insert 0)) (· == .orGuard none),
    .call (.getRefOrGuard 0 .drop) (· == .orGuard (some 0)),
    .call (.getMutOrGuard 1 id (.insert 1)) (· == .orGuard none),
    .call (.getMutOrGuard 1 id .drop) (· == .orGuard (some 1)),
    .call (.getOrInsertWith 0 none) (· == .loaded false (some (some 0))),
    .call (.getOrInsertWith 1 none) (· == .loaded false (some (some 1))),
    .call (.getOrInsertWith 3 (some 3)) (· == .loaded true (some (some 3))),
    .call (.getOrInsertWith 4 none) (· == .loaded true none)]

/-! ### `test_retain_unsync` -/

/-- The loops over `ranges` after a `retain` (`/repo/src/lib.rs:385-393`, `396-404`): exactly the keys in `kept` are there,
each with itself as value. -/
def expectKept (kept : UInt64 → Bool) : List (Stmt UInt64 UInt64) :=
  (List.range 10).map fun i => .call (.get (.ofNat i)) (· == .value (if kept (.ofNat i) then some (.ofNat i) else none))

/-- `test_retain_unsync` (`/repo/src/lib.rs:374-405`), on `new(100)`. -/
def retain : List (Stmt UInt64 UInt64) :=
  ((List.range 10).flatMap fun i =>
    [.call (.getRefOrGuard (.ofNat i) (.insert (.ofNat i))) (· == .orGuard none),
      .call (.getRefOrGuard (.ofNat i) .drop) (· == .orGuard (some (.ofNat i)))]) ++
  [.just (.retain (fun k v => 3 < v && 3 < k))] ++ expectKept (fun i => 3 < i) ++
  [.just (.retain (fun k v => v < 7 && k < 7))] ++ expectKept (fun i => 3 < i && i < 7)

end QuickCache.UnitTests
