import Verif.Model.Conc
import Verif.Model.FuzzUnsync

/-!
# Model of the crate's own fuzz target for `sync::Cache`

`/repo/fuzz/fuzz_targets/fuzz_sync_cache.rs`, statement by statement: one thread that uses the cache, keeps guards, and checks
with assertions what happens. A failed assertion, a panic inside the cache and a call that would wait for ever are errors.

* The cache has a single shard (`shards(1)`), so it is the system of `Verif.Model.Conc`: a call is a sequence of its actions, of
  which there is only one at a time here. A guard is named by the agent that has it.
* The hash function (`ahash` with the seed of the input) is an arbitrary function; the seed is not a field of the input here.
* After each action the layout of the hash table changes as the parameter `lay` says.
* `HashMap<u16, PlaceholderGuard>` is a list of keys with guards.
* `Value`, `MyWeighter`, `MyLifecycle` and `check_evicted` (`fuzz_sync_cache.rs:18-53`, `177-188`) are those of the other fuzz
  target.
-/

namespace QuickCache.FuzzSync
open Conc
open FuzzUnsync (Value Layout cfg handed fresh checkEvicted)

/-- `enum Op` (`fuzz_sync_cache.rs:55-62`). -/
inductive FOp where
  | insert (k v : UInt16) (pinned : Bool)
  | replace (k v : UInt16) (pinned : Bool)
  | placeholder (k : UInt16)
  | setPlaceholder (k v : UInt16) (pinned : Bool)
  | remove (k : UInt16)
  deriving DecidableEq, Repr

/-- `struct Input` (`fuzz_sync_cache.rs:64-72`) without the seed. -/
structure Input where
  items : UInt16
  weight : UInt32
  hot : UInt8
  ghost : UInt8
  ops : List FOp
  deriving Repr

/-- The options (`fuzz_sync_cache.rs:88-99`): as in the other fuzz target. -/
def options (i : Input) : Res Options := FuzzUnsync.options ⟨i.items, i.weight, i.hot, i.ghost, []⟩

/-- The variables `cache` and `placeholders` (`fuzz_sync_cache.rs:100-101`) and the number of actions so far. -/
structure World where
  st : State UInt16 Value
  held : List (UInt16 × Nat)
  acts : Nat

/-- The cache makes one step. If that is not possible now it never will be, since there is nobody else: the program
hangs. -/
def act (hash : UInt16 → UInt64) (lay : Layout) (w : World) (x : Act UInt16 Value) :
    Res (World × List (Ev UInt16 Value)) :=
  match exec (cfg hash true) w.st x with
  | none => .error .outOfFuel
  | some (.error p) => .error p
  | some (.ok (st, evs)) => .ok ({ w with st := { st with shard := lay w.acts st.shard }, acts := w.acts + 1 }, evs)

/-- A call made of a single critical section, with the items handed to `on_evict` (`fuzz_sync_cache.rs:106`, `116`, `123`,
`166`). -/
def call (hash : UInt16 → UInt64) (lay : Layout) (w : World) (op : Op UInt16 Value) :
    Res (World × Out UInt16 Value × List (UInt16 × Value)) := do
  match ← act hash lay w (.call op) with
  | (w, [.sect _ (.call out) log]) => .ok (w, out, handed log)
  | _ => .error .unreachable

/-- Dropping a guard (`/repo/src/sync_placeholder.rs:324-348`). -/
def dropGuard (hash : UInt16 → UInt64) (lay : Layout) (w : World) (a : Nat) : Res World := do
  let (w, _) ← act hash lay w (.drop a)
  let (w, _) ← act hash lay w (.lockDrop a)
  let (w, _) ← act hash lay w (.finishDrop a)
  .ok w

/-- `placeholders.remove(&k)` without the guard. -/
def World.without (w : World) (k : UInt16) : World := { w with held := w.held.filter (fun p => p.1 ≠ k) }

/-- `placeholders.remove(&k);` (`fuzz_sync_cache.rs:114`, `122`, `167`): the guard, if there is one, is dropped. -/
def discard (hash : UInt16 → UInt64) (lay : Layout) (w : World) (k : UInt16) : Res World :=
  match w.held.lookup k with
  | none => .ok w
  | some a => dropGuard hash lay (w.without k) a

/-- `GuardResult` (`/repo/src/sync_placeholder.rs:38-47`). -/
inductive Got where
  | value
  | guard (a : Nat)
  | timeout

/-- What a call of `get_value_or_guard` returns, if it returns with these events. -/
def finished (evs : List (Ev UInt16 Value)) : Option Got :=
  evs.findSome? (fun
    | .hit .. => some .value
    | .received .. => some .value
    | .gotGuard a .. => some (.guard a)
    | .timedOut _ => some .timeout
    | _ => none)

/-- The next step of a call of `get_value_or_guard` with a timeout of zero: the time is over as soon as it waits. -/
def nextAct (a : Nat) : Ctl UInt16 Value → Option (Act UInt16 Value)
  | .start _ => some (.enter a 0)
  | .seek _ => some (.find a)
  | .saw .. => some (.load a)
  | .bump .. => some (.bump a)
  | .tally .. => some (.tally a)
  | .created _ => some (.upsert a)
  | .joining .. => some (.join a)
  | .starting .. => some (.startLoading a)
  | .waiting .. => some (.timeout a)
  | .claimed .. => some (.relock a)
  | .rejoining .. => some (.rejoin a)
  | _ => none

/-- The call goes on until it returns, for `n` steps at most. -/
def drive (hash : UInt16 → UInt64) (lay : Layout) (a : Nat) : Nat → World → Res (World × Got)
  | 0, _ => .error .outOfFuel
  | n + 1, w =>
    match nextAct a (w.st.ctl a) with
    | none => .error .unreachable
    | some x => do
      let (w, evs) ← act hash lay w x
      match finished evs with
      | some g => .ok (w, g)
      | none => drive hash lay a n w

/-- `cache.get_value_or_guard(&k, Some(Duration::default()))` (`fuzz_sync_cache.rs:142`). -/
def getValueOrGuard (hash : UInt16 → UInt64) (lay : Layout) (w : World) (k : UInt16) : Res (World × Got) := do
  let a := w.st.next
  let (w, _) ← act hash lay w (.begin (.thread 0 true) k)
  drive hash lay a 8 w

/-- `cache.peek(&k)` (`fuzz_sync_cache.rs:116`). -/
def peek (hash : UInt16 → UInt64) (lay : Layout) (w : World) (k : UInt16) : Res (World × Option Value) := do
  match ← call hash lay w (.peek k) with
  | (w, .value v, _) => .ok (w, v)
  | _ => .error .unreachable

/-- `fuzz_sync_cache.rs:115-118`, `132-135` and `158-160`: `k` is peeked; if present it must have value `v`; then
`check_evicted`. -/
def checkStored (hash : UInt16 → UInt64) (lay : Layout) (w : World) (k v : UInt16) (evicted : List (UInt16 × Value)) :
    Res World := do
  let (w, p) ← peek hash lay w k
  Shard.assert (∀ x ∈ p, x.original = v)
  checkEvicted k p [] evicted
  .ok w

/-- One round of the loop (`fuzz_sync_cache.rs:103-172`). -/
def oneOp (hash : UInt16 → UInt64) (lay : Layout) (w : World) : FOp → Res World
  | .insert k v pinned => do
    let (w, _, evicted) ← call hash lay w (.insert k (fresh v pinned))
    let w ← discard hash lay w k
    checkStored hash lay w k v evicted
  | .replace k v pinned => do
    let w ← discard hash lay w k
    match ← call hash lay w (.replace k (fresh v pinned) false) with
    | (w, .replaced none, evicted) => checkStored hash lay w k v evicted
    | (w, .replaced (some _), _) => do
      let (w, p) ← peek hash lay w k
      Shard.assert (p = none)
      .ok w
    | _ => .error .unreachable
  | .placeholder k => do
    match ← getValueOrGuard hash lay w k with
    | (w, .value) => .ok w
    | (w, .guard a) =>
      let w' := { w.without k with held := (k, a) :: (w.without k).held }
      match w.held.lookup k with
      | none => .ok w'
      | some b => dropGuard hash lay w' b
    | (w, .timeout) => do
      Shard.assert ((w.held.lookup k).isSome = true)
      .ok w
  | .setPlaceholder k v pinned =>
    match w.held.lookup k with
    | none => .ok w
    | some a => do
      let (w, _) ← act hash lay (w.without k) (.publish a (fresh v pinned))
      match ← act hash lay w (.store a) with
      | (w, [.sect _ _ log, .insertDone _ _ _ none]) => checkStored hash lay w k v (handed log)
      | (w, [.sect .., .insertDone _ _ _ (some _)]) => .ok w
      | _ => .error .unreachable
  | .remove k => do
    match ← call hash lay w (.remove k) with
    | (w, .removed (some (rk, _)), _) => do
      let w ← discard hash lay w k
      Shard.assert (rk = k)
      let (w, p) ← peek hash lay w k
      Shard.assert (p = none)
      .ok w
    | (w, .removed none, _) => do
      let (w, p) ← peek hash lay w k
      Shard.assert (p = none)
      .ok w
    | _ => .error .unreachable

/-- The loop (`fuzz_sync_cache.rs:102-173`). -/
def loop (hash : UInt16 → UInt64) (lay : Layout) : List FOp → World → Res World
  | [], w => .ok w
  | op :: ops, w => do
    let w ← oneOp hash lay w op
    loop hash lay ops w

/-- Dropping the map with the guards that are left, in the order given (`fuzz_sync_cache.rs:175`). -/
def dropAll (hash : UInt16 → UInt64) (lay : Layout) : List (UInt16 × Nat) → World → Res World
  | [], w => .ok w
  | (k, a) :: l, w => do
    let w ← dropGuard hash lay (w.without k) a
    dropAll hash lay l w

/-- `run` (`fuzz_sync_cache.rs:78-175`). `ord` is the order in which the map drops its guards. `validate` takes the read lock
(`/repo/src/sync.rs:155-160`). -/
def run (hash : UInt16 → UInt64) (lay : Layout) (ord : List (UInt16 × Nat) → List (UInt16 × Nat)) (i : Input) : Res Unit := do
  let o ← options i
  let cache : SyncCache UInt16 Value ← SyncCache.withOptions o
  match cache.shards with
  | [shard] => do
    let w ← loop hash lay i.ops ⟨State.new shard, [], 0⟩
    if w.st.writer.isNone then do
      w.st.shard.validate (cfg hash true) false
      let _ ← dropAll hash lay (ord w.held) w
      .ok ()
    else .error .outOfFuel
  | _ => .error .unreachable

end QuickCache.FuzzSync
