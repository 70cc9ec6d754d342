import Verif.Model.Sync
import Mathlib.Logic.Function.Basic

/-!
# Model of the concurrent protocol (`/repo/src/sync_placeholder.rs`, and `get` of `/repo/src/sync.rs`)

One shard of `sync::Cache`, its read-write lock, the placeholders (`Arc<Placeholder>`) created so far, and any number of
*agents*. An agent is one call of `get`, `get_value_or_guard` or one future of `get_value_or_guard_async`, together with
the guard it may turn into. `exec c s act` performs one atomic action `act`:

* `none`: the action is not possible now (the agent is elsewhere, or would block on the shard lock),
* `some (.error p)`: the code panics with `p`,
* `some (.ok (s', evs))`: the new state and what happened.

All interleavings of actions are runs (`Run`). Granularity:

* The shard lock is explicit: `writer` and `readers` hold it over several actions where the code does.
* A critical section of a placeholder's `state` lock, together with the accesses to a task's `TaskWaiter` lock nested in it,
  is one action; so is each access to a thread's notification flag or to a `TaskWaiter` outside of such a section.
* `get` under the read lock is split into its atomic accesses.
* Parking: a thread that finds its flag unset after a wake-up parks again, which changes nothing here. `notify` sets the
  flag before it unparks the thread, so a thread with its flag set will not stay parked.
* Time is not represented: a timed wait may give up at any moment (see `Verif.Model.Park` for the times).
* A guard may be kept forever (this includes leaking it with `mem::forget`): nothing forces an agent to act.
* Wakers and user code (`Weighter`, `Lifecycle`, `Clone`, …) called inside a section neither panic nor call the cache.
-/

namespace QuickCache
variable {K V RS : Type _}

namespace Conc

/-- `LoadingState` (`/repo/src/sync_placeholder.rs:68-76`). -/
inductive Loading (V : Type _) where
  | loading
  | inserted (v : V)
  | terminated
  deriving DecidableEq, Repr

/-- `Placeholder` with its `State` (`/repo/src/sync_placeholder.rs:52-66`). A waiter is named by its agent. `key`, not
stored by the code, is the key the placeholder was created for; `handle` holds `hash` and `idx`. -/
structure PState (K V : Type _) where
  key : K
  handle : Plh
  waiters : List Nat
  loading : Loading V
  deriving DecidableEq, Repr

/-- The kinds of agents. -/
inductive Kind where
  /-- `get` -/
  | get
  /-- `get_value_or_guard` called on thread `tid`, with or without timeout -/
  | thread (tid : Nat) (timed : Bool)
  /-- `get_value_or_guard_async` -/
  | task
  deriving DecidableEq, Repr

/-- What an agent is doing. -/
inductive Ctl (K V : Type _) where
  /-- finished, or not yet begun -/
  | idle
  /-- called (a future: created), nothing done yet -/
  | start (k : K)
  /-- `get`: read lock held, about to search (`/repo/src/shard.rs:492`) -/
  | seek (k : K)
  /-- `get`: read lock held, resident found, about to load its counter (`493`) -/
  | saw (k : K) (t : Nat) (v : V)
  /-- `get`: read lock held, about to increment the counter (`498`) -/
  | bump (k : K) (t : Nat) (v : V)
  /-- `get`: read lock held, about to count the hit or miss (`500`, `503`) and to return or go on -/
  | tally (k : K) (r : Option V)
  /-- `join` entered, first poll of a `JoinFuture`: about to lock the shard (`/repo/src/sync_placeholder.rs:211`, `451`) -/
  | created (k : K)
  /-- write lock held, someone else's placeholder found: about to lock its state (`179`) -/
  | joining (k : K) (p : Plh)
  /-- shard lock held (write lock if `w`), about to check the state in `start_loading` (`139`) -/
  | starting (k : K) (p : Plh) (w : Bool)
  /-- in the list of waiters, or already notified -/
  | waiting (k : K) (p : Plh)
  /-- noticed the notification, about to take the read lock (`270`, `487`) -/
  | claimed (k : K) (p : Plh)
  /-- read lock held, about to read the state (`169`) -/
  | rejoining (k : K) (p : Plh)
  /-- holds a guard -/
  | guard (k : K) (p : Plh)
  /-- `insert_with_lifecycle`: waiters notified, about to lock the shard (`318`) -/
  | inserting (k : K) (p : Plh) (v : V) (referenced : Bool)
  /-- dropping the guard, about to lock the shard (`329`) -/
  | leaving (k : K) (p : Plh)
  /-- dropping the guard, write lock held, about to lock the state (`330`) -/
  | dropping (k : K) (p : Plh)
  /-- a future dropped after it was notified, about to call `start_loading` (`404`) -/
  | abandoning (k : K) (p : Plh)
  deriving DecidableEq, Repr

/-- Inside `get`, `get_value_or_guard` or a poll, or waiting: the call has not returned. -/
def Ctl.calling : Ctl K V → Bool
  | .start _ | .seek _ | .saw _ _ _ | .bump _ _ _ | .tally _ _ | .created _ | .joining _ _ | .starting _ _ _
  | .waiting _ _ | .claimed _ _ | .rejoining _ _ => true
  | _ => false

/-- What happens in an action, as far as it is visible from outside or of interest in the properties. -/
inductive Ev (K V : Type _) where
  /-- a critical section of the shard, with its result and lifecycle calls -/
  | sect (sec : Section K V) (out : SOut K V) (log : List (Event K V))
  /-- a call returned a value found in the cache -/
  | hit (a : Nat) (k : K) (v : V)
  /-- `get` returned `None` -/
  | miss (a : Nat) (k : K)
  /-- a call returned the value received from a pending load -/
  | received (a : Nat) (k : K) (p : Plh) (v : V)
  /-- a pending load began: a new placeholder for an absent key -/
  | began (a : Nat) (k : K) (p : Plh)
  /-- a call returned a guard -/
  | gotGuard (a : Nat) (k : K) (p : Plh)
  /-- a call returned `Timeout` -/
  | timedOut (a : Nat)
  /-- a future was dropped -/
  | cancelled (a : Nat)
  /-- `guard.insert(v)` published the value to the waiters -/
  | published (a : Nat) (p : Plh) (v : V)
  /-- `guard.insert(v)` returned; `err` is the value if it failed -/
  | insertDone (a : Nat) (k : K) (p : Plh) (err : Option V)
  /-- a guard was dropped and agent `b` notified -/
  | handedOver (a : Nat) (p : Plh) (b : Nat)
  /-- a guard was dropped, nobody was waiting -/
  | dropped (a : Nat) (k : K) (p : Plh)
  /-- a future was polled with waker `w` -/
  | polled (a : Nat) (w : Nat)
  /-- the waker `w` of future `a` was woken -/
  | woke (a : Nat) (w : Nat)

/-- The state of the system. -/
structure State (K V : Type _) where
  shard : Shard K V
  /-- the agent holding the shard's write lock between actions -/
  writer : Option Nat
  /-- the agents holding the shard's read lock -/
  readers : List Nat
  /-- the placeholders allocated so far -/
  plh : Nat → Option (PState K V)
  /-- the number of agents so far -/
  next : Nat
  kind : Nat → Kind
  ctl : Nat → Ctl K V
  /-- the notification flag: `AtomicBool` of a thread, `TaskWaiter::notified` of a future -/
  flag : Nat → Bool
  /-- `TaskWaiter::waker` -/
  waker : Nat → Nat
  /-- the waker passed to the running first poll -/
  cx : Nat → Nat

/-- The shard of a new cache. -/
def State.new (shard : Shard K V) : State K V where
  shard := shard
  writer := none
  readers := []
  plh := fun _ => none
  next := 0
  kind := fun _ => .get
  ctl := fun _ => .idle
  flag := fun _ => false
  waker := fun _ => 0
  cx := fun _ => 0

open Function (update)

/-- What an action leads to. -/
abbrev Outcome (K V : Type _) := Option (Res (State K V × List (Ev K V)))

namespace State

/-- Agent `a` goes on to `x`. -/
def go (s : State K V) (a : Nat) (x : Ctl K V) : State K V := { s with ctl := update s.ctl a x }

/-- Changing a placeholder's state. -/
def setPlh (s : State K V) (p : Plh) (ps : PState K V) : State K V := { s with plh := update s.plh p.id (some ps) }

/-- Nobody holds the shard lock. -/
def unlocked (s : State K V) : Bool := s.writer.isNone && s.readers.isEmpty

/-- Releasing the write lock. -/
def unlockWrite (s : State K V) : State K V := { s with writer := none }

/-- Releasing the read lock of `a`. -/
def unlockRead (s : State K V) (a : Nat) : State K V := { s with readers := s.readers.erase a }

/-- `Waiter::notify` (`/repo/src/sync_placeholder.rs:101-113`). -/
def notify (s : State K V) (b : Nat) : State K V := { s with flag := update s.flag b true }

/-- The wake-up done by `Waiter::notify`, if the waiter is a future. -/
def wakes (s : State K V) (b : Nat) : List (Ev K V) := if s.kind b = .task then [.woke b (s.waker b)] else []

end State

/-- `Vec::swap_remove`: the last element takes the place of the removed one. -/
def swapRemove (l : List Nat) (i : Nat) : List Nat :=
  match l.getLast? with
  | some x => (l.set i x).dropLast
  | none => []

/-- A new call or future. A thread makes one call at a time. -/
def begin (s : State K V) (kind : Kind) (k : K) : Outcome K V :=
  let busy (tid : Nat) : Bool := (List.range s.next).any (fun b =>
    match s.kind b with
    | .thread tid' _ => tid' == tid && (s.ctl b).calling
    | _ => false)
  let ok : Bool := match kind with
    | .thread tid _ => !busy tid
    | _ => true
  if ok then
    some (.ok ({ s with next := s.next + 1, kind := update s.kind s.next kind,
                        ctl := update s.ctl s.next (.start k), flag := update s.flag s.next false }, []))
  else none

/-- The calls begin with `shard.read()` (`/repo/src/sync.rs:252`, `361`, `404`); for a future this is its first poll. -/
def enter (s : State K V) (a w : Nat) : Outcome K V :=
  match s.ctl a with
  | .start k =>
    if s.writer.isNone then
      some (.ok ({ (s.go a (.seek k)) with readers := a :: s.readers, cx := update s.cx a w },
        if s.kind a = .task then [.polled a w] else []))
    else none
  | _ => none

/-- The search of `get` (`/repo/src/shard.rs:492`). -/
def find [DecidableEq K] (c : Cfg K V RS) (s : State K V) (a : Nat) : Outcome K V :=
  match s.ctl a with
  | .seek k =>
    some (do
      let (sh, out, q) ← Sync.step c s.shard (.find k)
      let x : Ctl K V := match out with
        | .located (some (t, v)) => .saw k t v
        | _ => .tally k none
      .ok ({ s.go a x with shard := sh }, [.sect (.find k) out q.log]))
  | _ => none

/-- The load of the counter and the comparison (`/repo/src/shard.rs:493-495`). The load is `Relaxed`: it may read an earlier
value `old`, which is left open here. (The event tells the current value.) -/
def load [DecidableEq K] (c : Cfg K V RS) (s : State K V) (a : Nat) (old : Option Nat) : Outcome K V :=
  match s.ctl a with
  | .saw k t v =>
    some (do
      let (sh, out, q) ← Sync.step c s.shard (.load k t)
      let x : Ctl K V := match out with
        | .counter n => if old.getD n < MAX_F then .bump k t v else .tally k (some v)
        | _ => .tally k (some v)
      .ok ({ s.go a x with shard := sh }, [.sect (.load k t) out q.log]))
  | _ => none

/-- The `fetch_add` (`/repo/src/shard.rs:498`). -/
def bump [DecidableEq K] (c : Cfg K V RS) (s : State K V) (a : Nat) : Outcome K V :=
  match s.ctl a with
  | .bump k t v =>
    some (do
      let (sh, out, q) ← Sync.step c s.shard (.bump k t)
      .ok ({ s.go a (.tally k (some v)) with shard := sh }, [.sect (.bump k t) out q.log]))
  | _ => none

/-- The end of `get` (`/repo/src/shard.rs:500-505`): statistics, unlocking; `get` returns, the other calls return if they
have a value and go on to join otherwise (`/repo/src/sync.rs:252`, `361-364`, `404-407`). -/
def tally [DecidableEq K] (c : Cfg K V RS) (s : State K V) (a : Nat) : Outcome K V :=
  match s.ctl a with
  | .tally k r =>
    some (do
      let (sh, out, q) ← Sync.step c s.shard (.count r.isSome)
      let x : Ctl K V := if r.isNone && s.kind a ≠ .get then .created k else .idle
      let ev : List (Ev K V) := match r with
        | some v => [.hit a k v]
        | none => if s.kind a = .get then [.miss a k] else []
      .ok ({ (s.unlockRead a).go a x with shard := sh }, .sect (.count r.isSome) out q.log :: ev))
  | _ => none

/-- Locking the shard and `upsert_placeholder` (`/repo/src/sync_placeholder.rs:211-218`, `451-472`). -/
def upsert [DecidableEq K] (c : Cfg K V RS) (s : State K V) (a : Nat) : Outcome K V :=
  match s.ctl a with
  | .created k =>
    if s.unlocked then
      some (do
        let (sh, out, q) ← Sync.step c s.shard (.upsert k)
        let s1 := { s with shard := sh }
        let ev : Ev K V := .sect (.upsert k) out q.log
        match out with
        | .found v => .ok (s1.go a .idle, [ev, .hit a k v])
        | .pending p true =>
          .ok ({ ((s1.setPlh p ⟨k, p, [], .loading⟩).go a (.starting k p true)) with writer := some a },
            [ev, .began a k p])
        | .pending p false => .ok ({ s1.go a (.joining k p) with writer := some a }, [ev])
        | _ => .error .unreachable)
    else none
  | _ => none

/-- `join_internal`, not notified, with the write lock held (`/repo/src/sync_placeholder.rs:178-188`). -/
def join (s : State K V) (a : Nat) : Outcome K V :=
  match s.ctl a with
  | .joining k p =>
    match s.plh p.id with
    | none => some (.error .unreachable)
    | some ps =>
      match ps.loading with
      | .loading =>
        some (.ok ({ (((s.setPlh p { ps with waiters := ps.waiters ++ [a] }).go a (.waiting k p)).unlockWrite) with
          flag := update s.flag a false, waker := update s.waker a (s.cx a) }, []))
      | .inserted v => some (.ok ((s.go a .idle).unlockWrite, [.received a k p v]))
      | .terminated => some (.error .unreachable)
  | _ => none

/-- `start_loading` for a caller that gets a guard (`/repo/src/sync_placeholder.rs:134-149`); the shard lock is released
afterwards. -/
def startLoading (s : State K V) (a : Nat) : Outcome K V :=
  match s.ctl a with
  | .starting k p w =>
    match (s.plh p.id).map PState.loading with
    | some .loading =>
      let s1 := s.go a (.guard k p)
      some (.ok (if w then s1.unlockWrite else s1.unlockRead a, [.gotGuard a k p]))
    | _ => some (.error .debugAssert)
  | _ => none

/-- A waiting thread finds its flag set after being unparked (`/repo/src/sync_placeholder.rs:242-244`, `263-266`). -/
def wake (s : State K V) (a : Nat) : Outcome K V :=
  match s.ctl a, s.kind a with
  | .waiting k p, .thread _ _ => if s.flag a then some (.ok (s.go a (.claimed k p), [])) else none
  | _, _ => none

/-- Polling a waiting future with waker `w` (`/repo/src/sync_placeholder.rs:478-487`). -/
def poll (s : State K V) (a w : Nat) : Outcome K V :=
  match s.ctl a, s.kind a with
  | .waiting k p, .task =>
    if s.flag a then some (.ok ({ s.go a (.claimed k p) with flag := update s.flag a false }, [.polled a w]))
    else some (.ok ({ s with waker := update s.waker a w }, [.polled a w]))
  | _, _ => none

/-- A timed wait gives up (`/repo/src/sync_placeholder.rs:250-259`): the state lock is taken and the flag read again. -/
def timeout (s : State K V) (a : Nat) : Outcome K V :=
  match s.ctl a, s.kind a with
  | .waiting k p, .thread tid true =>
    match s.plh p.id with
    | none => some (.error .unreachable)
    | some ps =>
      if s.flag a then some (.ok (s.go a (.claimed k p), []))
      else
        match ps.waiters.findIdx? (fun b => match s.kind b with | .thread t _ => t == tid | _ => false) with
        | none => some (.error .unwrapNone)
        | some i =>
          some (.ok ((s.setPlh p { ps with waiters := swapRemove ps.waiters i }).go a .idle, [.timedOut a]))
  | _, _ => none

/-- Taking the read lock after a notification (`/repo/src/sync_placeholder.rs:270`, `487`). -/
def relock (s : State K V) (a : Nat) : Outcome K V :=
  match s.ctl a with
  | .claimed k p =>
    if s.writer.isNone then some (.ok ({ s.go a (.rejoining k p) with readers := a :: s.readers }, [])) else none
  | _ => none

/-- `join_internal`, notified, with the read lock held (`/repo/src/sync_placeholder.rs:168-177`). -/
def rejoin (s : State K V) (a : Nat) : Outcome K V :=
  match s.ctl a with
  | .rejoining k p =>
    match (s.plh p.id).map PState.loading with
    | some .loading => some (.ok (s.go a (.starting k p false), []))
    | some (.inserted v) => some (.ok ((s.go a .idle).unlockRead a, [.received a k p v]))
    | _ => some (.error .unreachable)
  | _ => none

/-- The first part of `insert_with_lifecycle` (`/repo/src/sync_placeholder.rs:301-309`): the value is published and all
waiters are notified. -/
def publish (s : State K V) (a : Nat) (v : V) : Outcome K V :=
  match s.ctl a with
  | .guard k p =>
    match s.plh p.id with
    | none => some (.error .unreachable)
    | some ps =>
      let s1 := (s.setPlh p { ps with waiters := [], loading := .inserted v }).go a
        (.inserting k p v (!ps.waiters.isEmpty))
      some (.ok (ps.waiters.foldl State.notify s1, .published a p v :: ps.waiters.flatMap s.wakes))
  | _ => none

/-- The second part of `insert_with_lifecycle` (`/repo/src/sync_placeholder.rs:317-321`): `replace_placeholder` under the
write lock. -/
def store [DecidableEq K] (c : Cfg K V RS) (s : State K V) (a : Nat) : Outcome K V :=
  match s.ctl a with
  | .inserting k p v referenced =>
    if s.unlocked then
      some (do
        let (sh, out, q) ← Sync.step c s.shard (.fill k p referenced v)
        let err : Option V := match out with
          | .filled err => err
          | _ => none
        .ok ({ s.go a .idle with shard := sh }, [.sect (.fill k p referenced v) out q.log, .insertDone a k p err]))
    else none
  | _ => none

/-- The holder of a guard begins to drop it (`/repo/src/sync_placeholder.rs:341-347`). -/
def drop (s : State K V) (a : Nat) : Outcome K V :=
  match s.ctl a with
  | .guard k p => some (.ok (s.go a (.leaving k p), []))
  | _ => none

/-- `drop_uninserted_slow` takes the write lock (`/repo/src/sync_placeholder.rs:329`). -/
def lockDrop (s : State K V) (a : Nat) : Outcome K V :=
  match s.ctl a with
  | .leaving k p => if s.unlocked then some (.ok ({ s.go a (.dropping k p) with writer := some a }, [])) else none
  | _ => none

/-- The rest of `drop_uninserted_slow` (`/repo/src/sync_placeholder.rs:330-337`). -/
def finishDrop [DecidableEq K] (c : Cfg K V RS) (s : State K V) (a : Nat) : Outcome K V :=
  match s.ctl a with
  | .dropping k p =>
    match s.plh p.id with
    | none => some (.error .unreachable)
    | some ps =>
      match ps.waiters.getLast? with
      | some b =>
        match ps.loading with
        | .loading =>
          some (.ok ((((s.setPlh p { ps with waiters := ps.waiters.dropLast }).notify b).go a .idle).unlockWrite,
            .handedOver a p b :: s.wakes b))
        | _ => some (.error .debugAssert)
      | none =>
        some (do
          let (sh, out, q) ← Sync.step c s.shard (.abandon k p)
          .ok ({ ((s.setPlh p { ps with loading := .terminated }).go a .idle).unlockWrite with shard := sh },
            [.sect (.abandon k p) out q.log, .dropped a k p]))
  | _ => none

/-- Dropping a future: one that was never polled, or a waiting one (`drop_pending_waiter`,
`/repo/src/sync_placeholder.rs:387-410`). -/
def cancel (s : State K V) (a : Nat) : Outcome K V :=
  match s.ctl a, s.kind a with
  | .start _, .task => some (.ok (s.go a .idle, [.cancelled a]))
  | .waiting k p, .task =>
    match s.plh p.id with
    | none => some (.error .unreachable)
    | some ps =>
      if s.flag a then
        match ps.loading with
        | .loading => some (.ok (s.go a (.abandoning k p), [.cancelled a]))
        | _ => some (.ok (s.go a .idle, [.cancelled a]))
      else
        match ps.waiters.findIdx? (fun b => s.kind b = .task && b == a) with
        | none => some (.error .unwrapNone)
        | some i =>
          some (.ok ((s.setPlh p { ps with waiters := swapRemove ps.waiters i }).go a .idle, [.cancelled a]))
  | _, _ => none

/-- `drop_pending_waiter` takes the guard over (`/repo/src/sync_placeholder.rs:404`), in order to drop it. -/
def abandon (s : State K V) (a : Nat) : Outcome K V :=
  match s.ctl a with
  | .abandoning k p =>
    match (s.plh p.id).map PState.loading with
    | some .loading => some (.ok (s.go a (.leaving k p), []))
    | _ => some (.error .debugAssert)
  | _ => none

/-- Whether a call needs the write lock (`some true`) or the read lock (`some false`); `none` if it is not a call of
`sync::Cache` made of a single section. -/
def lockMode : Op K V → Option Bool
  | .insert _ _ | .replace _ _ _ | .remove _ | .retain _ | .clear | .reserve => some true
  | .peek _ | .containsKey _ => some false
  | _ => none

/-- The calls made of a single section (`/repo/src/sync.rs:229-244`, `257-341`); for `retain`, `clear` and `reserve` their
section on this shard. -/
def call [DecidableEq K] (c : Cfg K V RS) (s : State K V) (op : Op K V) : Outcome K V :=
  let free : Bool := match lockMode op with
    | some true => s.unlocked
    | some false => s.writer.isNone
    | none => false
  if free then
    some (do
      let (sh, out, q) ← Sync.step c s.shard (.call op)
      .ok ({ s with shard := sh }, [.sect (.call op) out q.log]))
  else none

/-- The actions. -/
inductive Act (K V : Type _) where
  | begin (kind : Kind) (k : K)
  | enter (a w : Nat)
  | find (a : Nat)
  | load (a : Nat) (old : Option Nat := none)
  | bump (a : Nat)
  | tally (a : Nat)
  | upsert (a : Nat)
  | join (a : Nat)
  | startLoading (a : Nat)
  | wake (a : Nat)
  | poll (a w : Nat)
  | timeout (a : Nat)
  | relock (a : Nat)
  | rejoin (a : Nat)
  | publish (a : Nat) (v : V)
  | store (a : Nat)
  | drop (a : Nat)
  | lockDrop (a : Nat)
  | finishDrop (a : Nat)
  | cancel (a : Nat)
  | abandon (a : Nat)
  | call (op : Op K V)

/-- One action. -/
def exec [DecidableEq K] (c : Cfg K V RS) (s : State K V) : Act K V → Outcome K V
  | .begin kind k => begin s kind k
  | .enter a w => enter s a w
  | .find a => find c s a
  | .load a old => load c s a old
  | .bump a => bump c s a
  | .tally a => tally c s a
  | .upsert a => upsert c s a
  | .join a => join s a
  | .startLoading a => startLoading s a
  | .wake a => wake s a
  | .poll a w => poll s a w
  | .timeout a => timeout s a
  | .relock a => relock s a
  | .rejoin a => rejoin s a
  | .publish a v => publish s a v
  | .store a => store c s a
  | .drop a => drop s a
  | .lockDrop a => lockDrop s a
  | .finishDrop a => finishDrop c s a
  | .cancel a => cancel s a
  | .abandon a => abandon s a
  | .call op => call c s op

/-- `Run c s0 tr s`: from `s0` some interleaving of actions leads to `s`, with the events `tr` (oldest first). The layout of
the hash table may change at any time (`Shard.relayout`). -/
inductive Run [DecidableEq K] (c : Cfg K V RS) (s0 : State K V) : List (Ev K V) → State K V → Prop
  | start : Run c s0 [] s0
  | layout {tr : List (Ev K V)} {s : State K V} (m : List (UInt64 × Nat)) (p : UInt64 → UInt64 → Bool)
      (hr : Run c s0 tr s) (hm : m.Perm s.shard.map) (hp : ∀ x, p x x = true) :
      Run c s0 tr { s with shard := s.shard.relayout m p }
  | act {tr : List (Ev K V)} {s s' : State K V} {act : Act K V} {ev : List (Ev K V)} (hr : Run c s0 tr s)
      (hs : exec c s act = some (.ok (s', ev))) : Run c s0 (tr ++ ev) s'

end Conc
end QuickCache
