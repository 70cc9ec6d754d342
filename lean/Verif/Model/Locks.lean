import Mathlib.Data.List.Basic
import Mathlib.Logic.Function.Basic

/-!
# Model of the locking done by `sync::Cache`

What locks every function of `/repo/src/sync.rs` and `/repo/src/sync_placeholder.rs` takes and releases, in which order, on
every path through it. The paths are given by parameters, all values of which are considered (more than those that can
really occur). There are three sorts of locks: the one of each shard, the one of the `State` of each placeholder, and the
one of the `TaskWaiter` of each future. Lock guards are released in the order given by Rust's drop rules.

The places where user code runs (hashing, `Eq`, `Clone`, `ToOwned`, `Drop`, `Weighter`, `Lifecycle`, the closure of `retain`,
loaders, wakers) and where a thread is parked are listed as well. The user code run in a critical section of a shard is an
arbitrary list of the sorts of code that such sections run.

A system is any number of threads, each performing such calls one after the other. Where user code runs with no lock held it
may call the cache again, to any depth; elsewhere it is assumed not to (what happens otherwise is `C68_stuck`). Panics while
holding a lock are not modelled here (`Verif.Model.Poison` does that); neither is `validate` (fuzzing and tests only).
-/

namespace QuickCache.Locks

/-- The locks. -/
inductive Lock where
  /-- the `RwLock` of shard `i` (`/repo/src/sync.rs:34`) -/
  | shard (i : Nat)
  /-- `Placeholder::state` (`/repo/src/sync_placeholder.rs:52-56`) of placeholder `p` -/
  | state (p : Nat)
  /-- `SharedTaskWaiter` (`/repo/src/sync_placeholder.rs:91`) of future `b` -/
  | waiter (b : Nat)
  deriving DecidableEq, Repr

/-- `read()` or `write()`. -/
inductive Mode where
  | read
  | write
  deriving DecidableEq, Repr

/-- User code that the functions call outside of their critical sections. -/
inductive Outside where
  /-- hashing the key asked for, in `shard_for` (`/repo/src/sync.rs:218`) -/
  | hash
  /-- `Lifecycle::begin_request` (`/repo/src/sync.rs:298`, `326`, `/repo/src/sync_placeholder.rs:317`) -/
  | beginRequest
  /-- `Lifecycle::end_request` (`/repo/src/sync.rs:283`, `321`, `/repo/src/sync_placeholder.rs:291`) -/
  | endRequest
  /-- the loader (`/repo/src/sync.rs:381`, `422`) -/
  | loader
  /-- `Clone` of the value loaded (`/repo/src/sync.rs:382`, `423`) -/
  | clone
  deriving DecidableEq, Repr

/-- User code that critical sections with a read or a write lock of a shard run. -/
inductive Reading where
  /-- comparing keys with the one asked for (`/repo/src/shard.rs:428-455`) -/
  | eq
  /-- `Clone` of a value found (`/repo/src/sync.rs:252`, `262`, `362`, `405`, `/repo/src/sync_placeholder.rs:213`, `455`) -/
  | clone
  deriving DecidableEq, Repr

/-- User code that only critical sections with a write lock of a shard run (`/repo/src/shard.rs`). -/
inductive Writing where
  /-- `ToOwned` of the key asked for, in `upsert_placeholder` -/
  | toOwned
  /-- hashing keys stored, when the index grows and in `retain` and `advance_cold`/`advance_hot` -/
  | rehash
  /-- `Weighter::weight` -/
  | weigh
  /-- `Lifecycle::is_pinned` -/
  | pinned
  /-- `Lifecycle::before_evict` -/
  | beforeEvict
  /-- `Lifecycle::on_evict` -/
  | onEvict
  /-- the closure passed to `retain` -/
  | keep
  /-- `Drop` of keys and values, in `clear` and `retain` -/
  | drop
  deriving DecidableEq, Repr

/-- User code, by the place it is called from. -/
inductive User where
  | outside (u : Outside)
  | reading (u : Reading)
  | writing (u : Writing)
  /-- `Clone` of the value loaded, with the state locked (`/repo/src/sync_placeholder.rs:175`, `185`, `304`) -/
  | publish
  /-- cloning a `Waker` on the first poll (`/repo/src/sync_placeholder.rs:509`), with the state locked -/
  | newWaker
  /-- `Waker::clone_from` on a later poll (`/repo/src/sync_placeholder.rs:482`) -/
  | setWaker
  /-- `Waker::wake_by_ref` (`/repo/src/sync_placeholder.rs:110`) -/
  | wake
  deriving DecidableEq, Repr

/-- What a thread does. -/
inductive LAct where
  | acquire (l : Lock) (m : Mode)
  | release (l : Lock)
  /-- calls user code and waits for its return -/
  | user (u : User)
  /-- is parked until notified or timed out (`/repo/src/sync_placeholder.rs:236-268`) -/
  | park
  deriving DecidableEq, Repr

/-- A lock held around `body`. -/
def locked (l : Lock) (m : Mode) (body : List LAct) : List LAct := .acquire l m :: (body ++ [.release l])

/-- The user code run in a critical section with a read lock. -/
abbrev ReadCode := List Reading

/-- The user code run in a critical section with a write lock. -/
abbrev WriteCode := List (Reading ⊕ Writing)

/-- A critical section of shard `i` with a read lock. -/
def readShard (i : Nat) (r : ReadCode) : List LAct :=
  locked (.shard i) .read (r.map fun u => .user (.reading u))

/-- The acts of `WriteCode`. -/
def writeActs (w : WriteCode) : List LAct :=
  w.map (Sum.elim (fun u => .user (.reading u)) (fun u => .user (.writing u)))

/-- A critical section of shard `i` with a write lock. -/
def writeShard (i : Nat) (w : WriteCode) : List LAct := locked (.shard i) .write (writeActs w)

/-- `end_request`, if it is called: not if the call fails, nor by `…_with_lifecycle`. -/
def ending (ends : Bool) : List LAct := if ends then [.user (.outside .endRequest)] else []

/-- `start_loading` (`/repo/src/sync_placeholder.rs:134-149`): the `debug_assert!` locks the state. In release builds it does
not, hence `dbg`. -/
def startLoading (dbg : Bool) (p : Nat) : List LAct := if dbg then locked (.state p) .write [] else []

/-- A waiter: a thread, or the future `b` (`/repo/src/sync_placeholder.rs:93-97`). -/
inductive Waiter where
  | thread
  | task (b : Nat)
  deriving DecidableEq, Repr

/-- `Waiter::notify` (`/repo/src/sync_placeholder.rs:99-113`): the guard `t` lives until after `wake_by_ref`. -/
def notify : Waiter → List LAct
  | .thread => []
  | .task b => locked (.waiter b) .write [.user .wake]

/-- `join_internal` when notified (`/repo/src/sync_placeholder.rs:168-177`): the state is unlocked before `start_loading`;
`loading` says which state is found. -/
def joinNotified (dbg : Bool) (p : Nat) (loading : Bool) : List LAct :=
  if loading then locked (.state p) .read [] ++ startLoading dbg p else locked (.state p) .read [.user .publish]

/-- What `join_internal` finds when not notified. -/
inductive Found where
  /-- the value -/
  | value
  /-- `Loading`; the caller is a thread -/
  | thread
  /-- `Loading`; the caller is a future -/
  | task
  deriving DecidableEq, Repr

/-- `join_internal` when not notified (`/repo/src/sync_placeholder.rs:178-188`). -/
def joinFirst (p : Nat) (f : Found) : List LAct :=
  locked (.state p) .write (match f with
    | .value => [.user .publish]
    | .thread => []
    | .task => [.user .newWaker])

/-- What `upsert_placeholder` finds. -/
inductive Upsert where
  | value
  | new (p : Nat)
  | existing (p : Nat) (f : Found)
  deriving DecidableEq, Repr

/-- The first part of `join` and the first poll (`/repo/src/sync_placeholder.rs:211-232`, `451-472`, `516-533`): the write
lock of the shard is held until the end of `start_loading` or `join_internal`. -/
def upsert (dbg : Bool) (i : Nat) (w : WriteCode) (u : Upsert) : List LAct :=
  locked (.shard i) .write (writeActs w ++ match u with
    | .value => [.user (.reading .clone)]
    | .new p => startLoading dbg p
    | .existing p f => joinFirst p f)

/-- How the wait of a thread goes (`/repo/src/sync_placeholder.rs:236-270`). -/
inductive Wait where
  /-- notified -/
  | notified (loading : Bool)
  /-- the timeout is over, but with the state locked the flag is found set (`250-253`) -/
  | timely (loading : Bool)
  /-- the timeout is over (`250-259`) -/
  | timeout
  deriving DecidableEq, Repr

/-- `join` after the wait: `shard.read()` (`/repo/src/sync_placeholder.rs:270`), held during `join_internal`. -/
def rejoin (dbg : Bool) (i p : Nat) (loading : Bool) : List LAct :=
  locked (.shard i) .read (joinNotified dbg p loading)

/-- The wait and what follows. -/
def afterWait (dbg : Bool) (i p : Nat) : Wait → List LAct
  | .notified loading => .park :: rejoin dbg i p loading
  | .timely loading => .park :: (locked (.state p) .write [] ++ rejoin dbg i p loading)
  | .timeout => .park :: locked (.state p) .write []

/-- `drop_uninserted_slow` (`/repo/src/sync_placeholder.rs:327-338`): both locks are held to the end. -/
def dropUninserted (i p : Nat) (w : Option Waiter) : List LAct :=
  locked (.shard i) .write (locked (.state p) .write (match w with
    | some w => notify w
    | none => []))

/-- `drop_pending_waiter` (`/repo/src/sync_placeholder.rs:387-410`). `some w`: notified and `Loading`, so the state is
unlocked, `start_loading` called and the guard dropped with `w` waiting; `none`: nothing more. -/
def dropPending (dbg : Bool) (i p b : Nat) : Option (Option Waiter) → List LAct
  | some w => locked (.state p) .write (locked (.waiter b) .read []) ++ startLoading dbg p ++ dropUninserted i p w
  | none => locked (.state p) .write (locked (.waiter b) .read [])

/-- `PlaceholderGuard::insert_with_lifecycle` and `insert` (`/repo/src/sync_placeholder.rs:288-322`): the state is unlocked
before `begin_request`. -/
def guardInsert (i p : Nat) (ws : List Waiter) (w : WriteCode) (ends : Bool) : List LAct :=
  locked (.state p) .write (.user .publish :: ws.flatMap notify) ++
    (.user (.outside .beginRequest) :: (writeShard i w ++ ending ends))

/-- How a load ends. -/
inductive Loaded where
  /-- the loader succeeds (or its future completes) -/
  | stored (ws : List Waiter) (w : WriteCode) (ends : Bool)
  /-- it fails (or panics, or its future is dropped), and the guard is dropped -/
  | failed (w : Option Waiter)

/-- The calls made by threads, and their paths. -/
inductive Call where
  /-- `is_empty`, `len`, `weight`, `capacity`, `misses`, `hits` (`/repo/src/sync.rs:157-205`) and `shard_capacity`: one shard
  after the other. The list of the shards visited is arbitrary (`is_empty` may stop early). -/
  | sizes (shards : List Nat)
  /-- `reserve`, `retain`, `clear` (`/repo/src/sync.rs:229-234`, `307-314`, `337-341`) -/
  | sweep (shards : List (Nat × WriteCode))
  /-- `contains_key`, `get`, `peek` (`/repo/src/sync.rs:237-262`) -/
  | look (i : Nat) (r : ReadCode)
  /-- `remove` (`/repo/src/sync.rs:266-274`) -/
  | remove (i : Nat) (w : WriteCode)
  /-- `insert`, `replace` and their variants `…_with_lifecycle` (`/repo/src/sync.rs:281-335`) -/
  | store (i : Nat) (w : WriteCode) (ends : Bool)
  /-- `get_value_or_guard` (`/repo/src/sync.rs:352-365`) and the first poll of `get_value_or_guard_async` (`395-408`) that go on
  to `join` and return without waiting (if they find the value first they are like `get`) -/
  | join (i : Nat) (r : ReadCode) (w : WriteCode) (u : Upsert)
  /-- `get_value_or_guard` that waits for `p` -/
  | wait (i : Nat) (r : ReadCode) (w : WriteCode) (p : Nat) (how : Wait)
  /-- a later poll (`/repo/src/sync_placeholder.rs:478-487`, `516-533`): not notified, or notified with the state found -/
  | poll (i p b : Nat) (notified : Option Bool)
  /-- dropping a future that waits (`/repo/src/sync_placeholder.rs:413-424`) -/
  | dropFuture (i p b : Nat) (w : Option (Option Waiter))
  /-- `insert` of a guard with these waiters -/
  | insert (i p : Nat) (ws : List Waiter) (w : WriteCode) (ends : Bool)
  /-- dropping a guard -/
  | dropGuard (i p : Nat) (w : Option Waiter)
  /-- the rest of `get_or_insert_with` and of `get_or_insert_async` (`/repo/src/sync.rs:379-385`, `420-426`), once they have a
  guard -/
  | load (i p : Nat) (l : Loaded)

/-- `shard_for` followed by a lookup. The read lock taken for it is released before `join` (`/repo/src/sync.rs:361`, `404`: the
end of the `if let` statement). -/
def lookup (i : Nat) (r : ReadCode) : List LAct := .user (.outside .hash) :: readShard i r

/-- What a call does. -/
def Call.acts (dbg : Bool) : Call → List LAct
  | .sizes l => l.flatMap fun i => readShard i []
  | .sweep l => l.flatMap fun x => writeShard x.1 x.2
  | .look i r => Locks.lookup i r
  | .remove i w => .user (.outside .hash) :: writeShard i w
  | .store i w ends => .user (.outside .beginRequest) :: .user (.outside .hash) :: (writeShard i w ++ ending ends)
  | .join i r w u => Locks.lookup i r ++ upsert dbg i w u
  | .wait i r w p how => Locks.lookup i r ++ upsert dbg i w (.existing p .thread) ++ afterWait dbg i p how
  | .poll _ _ b none => locked (.waiter b) .write [.user .setWaker]
  | .poll i p b (some loading) => locked (.waiter b) .write [] ++ locked (.shard i) .read (joinNotified dbg p loading)
  | .dropFuture i p b w => dropPending dbg i p b w
  | .insert i p ws w ends => guardInsert i p ws w ends
  | .dropGuard i p w => dropUninserted i p w
  | .load i p (.stored ws w ends) =>
    .user (.outside .loader) :: .user (.outside .clone) :: guardInsert i p ws w ends
  | .load i p (.failed w) => .user (.outside .loader) :: dropUninserted i p w

/-! ### Threads -/

/-- A thread: what the call it is in still has to do, and the locks it holds. -/
structure Thread where
  todo : List LAct
  held : List (Lock × Mode)
  deriving DecidableEq, Repr

/-- A system of threads. -/
abbrev Sys := Nat → Thread

/-- All threads outside of the cache. -/
def init : Sys := fun _ => ⟨[], []⟩

/-- May both be held at once? -/
def compatible : Mode → Mode → Bool
  | .read, .read => true
  | _, _ => false

/-- No holder stands in the way of acquiring `l` in mode `m`. -/
def Free (s : Sys) (l : Lock) (m : Mode) : Prop := ∀ u m', (l, m') ∈ (s u).held → compatible m m' = true

/-- The next state after thread `t` performs its first act. -/
inductive Next (s : Sys) (t : Nat) : Sys → Prop
  /-- a lock is granted, which needs that no holder stands in the way -/
  | acquire {l : Lock} {m : Mode} {rest : List LAct} (h : (s t).todo = .acquire l m :: rest) (free : Free s l m) :
      Next s t (Function.update s t ⟨rest, (l, m) :: (s t).held⟩)
  | release {l : Lock} {rest : List LAct} (h : (s t).todo = .release l :: rest) :
      Next s t (Function.update s t ⟨rest, (s t).held.filter (fun x => x.1 ≠ l)⟩)
  /-- user code returns -/
  | user {u : User} {rest : List LAct} (h : (s t).todo = .user u :: rest) :
      Next s t (Function.update s t ⟨rest, (s t).held⟩)
  /-- the thread is unparked; whether it should be is the subject of C46 to C52 -/
  | unpark {rest : List LAct} (h : (s t).todo = .park :: rest) :
      Next s t (Function.update s t ⟨rest, (s t).held⟩)

/-- The states that can occur. Here a lock may be granted whenever no holder stands in the way; implementations of `RwLock`
(`/repo/src/rw_lock.rs`: those of `std` and of `parking_lot`) grant less, for example they make readers wait behind
writers. -/
inductive Reach (dbg : Bool) : Sys → Prop
  | init : Reach dbg init
  /-- a thread that has finished a call begins another one -/
  | call {s : Sys} {t : Nat} (c : Call) (h : Reach dbg s) (ht : (s t).todo = []) :
      Reach dbg (Function.update s t ⟨c.acts dbg, (s t).held⟩)
  /-- user code that runs outside of the critical sections calls the cache -/
  | nest {s : Sys} {t : Nat} {u : Outside} {rest : List LAct} (c : Call) (h : Reach dbg s)
      (ht : (s t).todo = .user (.outside u) :: rest) :
      Reach dbg (Function.update s t ⟨c.acts dbg ++ (s t).todo, (s t).held⟩)
  | step {s s' : Sys} {t : Nat} (h : Reach dbg s) (hs : Next s t s') : Reach dbg s'

end QuickCache.Locks
