import Verif.Model.ConcUnwind

/-!
# The concurrent cache with the locks of `std`

Without its feature `parking_lot` the crate uses `std::sync::RwLock` and unwraps the result of locking
(`/repo/src/rw_lock.rs:81-120`). A lock is poisoned when a thread panics while it holds the write guard, unless the thread was
already panicking when it took the guard; read guards do not poison. Taking a poisoned lock panics. A panic that leaves a
destructor while its thread is already unwinding aborts the process.

This file puts these rules on top of the actions of `Verif.Model.Conc` and of the interruptions of `Verif.Model.ConcUnwind`.
There are three kinds of locks: the lock of the shard, the lock of the state of a placeholder, and the lock of a `TaskWaiter`.

Simplifications. One shard; the other shards of a cache have locks of their own. The panics of the cache's own code
(`Conc.exec` giving `.error`) end the run, as everywhere. User code that runs before a poisoned lock is taken (hashing the key,
`begin_request`) is not interrupted here: a panic there leaves the same state as the panic of the lock. The builds are those with
debug assertions: `start_loading` takes the state lock only in a `debug_assert!` (`/repo/src/sync_placeholder.rs:139`).
-/

namespace QuickCache
variable {K V RS : Type}

namespace Std
open Conc (Ctl PState Ev Act Where Stop)
open Function (update)

/-- A lock. -/
inductive Lock where
  /-- of the shard (`/repo/src/sync.rs:39`) -/
  | shard
  /-- of the state of a placeholder (`/repo/src/sync_placeholder.rs:56`) -/
  | state (p : Plh)
  /-- of the `TaskWaiter` of a future (`/repo/src/sync_placeholder.rs:91`) -/
  | waiter (b : Nat)

/-- The state of the system: that of `Verif.Model.Conc`, the locks that are poisoned, and the agents that are being destroyed
by a panic. -/
structure State (K V : Type) where
  base : Conc.State K V
  /-- the lock of the shard is poisoned -/
  shardBad : Bool
  /-- the state lock of the placeholder with this id is poisoned -/
  stateBad : Nat → Bool
  /-- the lock of the `TaskWaiter` of this agent is poisoned -/
  waiterBad : Nat → Bool
  /-- the agent's guard or future is being dropped because its thread is unwinding -/
  unwinding : Nat → Bool

/-- Nothing is poisoned, nobody panics. -/
def State.new (b : Conc.State K V) : State K V := ⟨b, false, fun _ => false, fun _ => false, fun _ => false⟩

namespace State

def bad (s : State K V) : Lock → Bool
  | .shard => s.shardBad
  | .state p => s.stateBad p.id
  | .waiter b => s.waiterBad b

def poisonShard (s : State K V) : State K V := { s with shardBad := true }
def poisonState (s : State K V) (p : Plh) : State K V := { s with stateBad := update s.stateBad p.id true }
def poisonWaiter (s : State K V) (b : Nat) : State K V := { s with waiterBad := update s.waiterBad b true }
def unwind (s : State K V) (a : Nat) : State K V := { s with unwinding := update s.unwinding a true }

end State

/-- What an action comes to. -/
inductive Result (K V : Type) where
  /-- it is done -/
  | done (s : State K V) (evs : List (Ev K V))
  /-- it panics -/
  | panicked (s : State K V)
  /-- the process is aborted -/
  | aborted
  /-- a panic of the cache's own code -/
  | failed (e : Panic)

/-- The placeholder an agent deals with. -/
def plhOf : Ctl K V → Option Plh
  | .joining _ p | .starting _ p _ | .waiting _ p | .claimed _ p | .rejoining _ p | .guard _ p | .inserting _ p _ _
  | .leaving _ p | .dropping _ p | .abandoning _ p => some p
  | _ => none

/-- The state lock of the placeholder an agent deals with. -/
def stateLock (s : Conc.State K V) (a : Nat) : List Lock := ((plhOf (s.ctl a)).map Lock.state).toList

/-- The waiters of the placeholder an agent deals with. -/
def waitersOf (s : Conc.State K V) (a : Nat) : List Nat :=
  match plhOf (s.ctl a) with
  | some p => ((s.plh p.id).map PState.waiters).getD []
  | none => []

/-- The locks of the `TaskWaiter`s among the waiters, taken by `Waiter::notify` (`/repo/src/sync_placeholder.rs:107-111`). -/
def taskLocks (s : Conc.State K V) (l : List Nat) : List Lock := (l.filter (fun b => s.kind b = .task)).map .waiter

/-- The locks that an action takes, in this order: `/repo/src/sync.rs:252`, `361`, `404` (`enter`);
`/repo/src/sync_placeholder.rs:211`, `451` (`upsert`), `179` (`join`), `140` (`startLoading`, `abandon`), `478` (`poll`),
`251` (`timeout`), `270`, `487` (`relock`), `169` (`rejoin`), `303` and `108` (`publish`), `318` (`store`), `329` (`lockDrop`),
`330` and `108` (`finishDrop`), `397-398` (`cancel`); `/repo/src/sync.rs:229-341` (`call`). -/
def locks (s : Conc.State K V) : Act K V → List Lock
  | .enter _ _ | .upsert _ | .relock _ | .store _ | .lockDrop _ | .call _ => [.shard]
  | .join a | .startLoading a | .timeout a | .rejoin a | .abandon a => stateLock s a
  | .poll a _ => [.waiter a]
  | .publish a _ => stateLock s a ++ taskLocks s (waitersOf s a)
  | .finishDrop a => stateLock s a ++ taskLocks s (waitersOf s a).getLast?.toList
  | .cancel a =>
    match s.ctl a with
    | .waiting _ _ => stateLock s a ++ [.waiter a]
    | _ => []
  | _ => []

/-- A future in whose poll a panic occurs is dropped by the unwinding: it is a local variable of the coroutine made from
`get_value_or_guard_async` (`/repo/src/sync.rs:407`). If it is already registered as a waiter, then this does what `cancel` does
(`drop_pending_waiter`); a thread simply leaves the call. -/
def expel (s : State K V) (a : Nat) : State K V :=
  match s.base.ctl a with
  | .claimed k p | .rejoining k p | .starting k p false =>
    if s.base.kind a = .task then { s.unwind a with base := s.base.go a (.waiting k p) }
    else { s with base := s.base.go a .idle }
  | .waiting _ _ => s.unwind a
  | _ => { s with base := s.base.go a .idle }

/-- The shard lock is released by an agent that panics; it is poisoned if it is the write lock. -/
def release (s : State K V) (a : Nat) : State K V :=
  if s.base.writer = some a then { s.poisonShard with base := s.base.unlockWrite }
  else { s with base := s.base.unlockRead a }

/-- What is left when an action panics because the lock `l` is poisoned. -/
def onPoison (s : State K V) : Act K V → Lock → State K V
  | .enter a _, _ | .upsert a, _ | .store a, _ | .lockDrop a, _ | .timeout a, _ | .abandon a, _ =>
    { s with base := s.base.go a .idle }
  | .relock a, _ | .poll a _, _ => expel s a
  | .join a, _ | .startLoading a, _ | .rejoin a, _ => release (expel s a) a
  -- the guard is dropped, `inserted` being false
  | .publish a _, .state p =>
    match s.base.ctl a with
    | .guard k _ => { s.unwind a with base := s.base.go a (.leaving k p) }
    | _ => s
  -- the value is set, the waiters before `b` have been notified, the others are dropped with the `Drain`
  | .publish a v, .waiter b =>
    match s.base.ctl a with
    | .guard k p =>
      match s.base.plh p.id with
      | some ps =>
        { (s.unwind a).poisonState p with
          base := (ps.waiters.takeWhile (· ≠ b)).foldl Conc.State.notify
            ((s.base.setPlh p { ps with waiters := [], loading := .inserted v }).go a (.leaving k p)) }
      | none => s
    | _ => s
  | .finishDrop a, .waiter _ =>
    match s.base.ctl a with
    | .dropping _ p =>
      match s.base.plh p.id with
      | some ps =>
        release { s.poisonState p with
          base := (s.base.setPlh p { ps with waiters := ps.waiters.dropLast }).go a .idle } a
      | none => s
    | _ => s
  | .finishDrop a, _ => release { s with base := s.base.go a .idle } a
  | .cancel a, .waiter _ =>
    match s.base.ctl a with
    | .waiting _ p => { s.poisonState p with base := s.base.go a .idle }
    | _ => s
  | .cancel a, _ => { s with base := s.base.go a .idle }
  | _, _ => s

/-- An agent whose thread is unwinding does nothing but destroy its guard or future. -/
def barred (s : State K V) : Act K V → Bool
  | .enter a _ | .poll a _ => s.unwinding a
  | _ => false

/-- The agent that does an action. -/
def agent : Act K V → Option Nat
  | .begin _ _ | .call _ => none
  | .enter a _ | .find a | .load a _ | .bump a | .tally a | .upsert a | .join a | .startLoading a | .wake a | .poll a _
  | .timeout a | .relock a | .rejoin a | .publish a _ | .store a | .drop a | .lockDrop a | .finishDrop a | .cancel a
  | .abandon a => some a

/-- The agent that does the action is unwinding. -/
def unwinds (s : State K V) (act : Act K V) : Bool :=
  match agent act with
  | some a => s.unwinding a
  | none => false

/-- The panic of an action: a second panic if its agent is unwinding. -/
def panics (s : State K V) (act : Act K V) (left : State K V) : Result K V :=
  if unwinds s act then .aborted else .panicked left

/-- One action. -/
def exec [DecidableEq K] (c : Cfg K V RS) (s : State K V) (act : Act K V) : Option (Result K V) :=
  if barred s act then none
  else
    match Conc.exec c s.base act with
    | none => none
    | some r =>
      match (locks s.base act).find? s.bad with
      | some l => some (panics s act (onPoison s act l))
      | none =>
        match r with
        | .ok (b, evs) => some (.done { s with base := b } evs)
        | .error e => some (if unwinds s act then .aborted else .failed e)

/-- Whether a call of user code is made under the write lock of the shard, in a section made by a single action. -/
def underWrite (act : Act K V) (i : Where) : Bool :=
  i ≠ .code .hashKey && i ≠ .code .beginRequest && i ≠ .code .endRequest &&
    match act with
    | .upsert _ | .store _ => true
    | .call op => Conc.lockMode op == some true
    | _ => false

/-- The future among the waiters that was being woken when the `i`-th call of user code in `publish` panicked: the first one
is the `clone` of the value. -/
def wokenAt (s : Conc.State K V) (a i : Nat) : Option Nat :=
  match i with
  | 0 => none
  | i + 1 => ((waitersOf s a).filter (fun b => s.kind b = .task))[i]?

/-- The locks poisoned when user code panics in the action `act`, by the `i`-th call, at the place `site`; and whether the agent
is unwinding with something to destroy. `s` is the state before. -/
def onThrow (s : State K V) (left : Conc.State K V) (act : Act K V) (i : Nat) (site : Where) : State K V :=
  let t : State K V := { s with base := left }
  if underWrite act site then t.poisonShard
  else
    match act, plhOf (match agent act with | some a => s.base.ctl a | none => .idle) with
    -- `/repo/src/sync_placeholder.rs:179-187`, both locks are held
    | .join _, some p => t.poisonShard.poisonState p
    -- `/repo/src/sync_placeholder.rs:329-333` and `108-110`
    | .finishDrop a, some p =>
      match (waitersOf s.base a).getLast? with
      | some b => (t.poisonShard.poisonState p).poisonWaiter b
      | none => t.poisonShard.poisonState p
    -- `/repo/src/sync_placeholder.rs:478-482`; the future is dropped
    | .poll a _, _ => (t.unwind a).poisonWaiter a
    -- `/repo/src/sync_placeholder.rs:303-308` and `108-110`; the guard is dropped
    | .publish a _, some p =>
      match wokenAt s.base a i with
      | some b => ((t.unwind a).poisonState p).poisonWaiter b
      | none => (t.unwind a).poisonState p
    -- `/repo/src/sync_placeholder.rs:169-175`, read locks only; the future is dropped
    | .rejoin a, _ => if s.base.kind a = .task then t.unwind a else t
    | _, _ => t

/-- The `i`-th call of user code in an action panics. -/
def throw [DecidableEq K] (c : Cfg K V RS) (s : State K V) (act : Act K V) (i : Nat) : Option (Result K V × Where) :=
  if barred s act || ((locks s.base act).find? s.bad).isSome then none
  else
    match (Conc.stops c s.base act)[i]? with
    | none => none
    | some x =>
      match x.left with
      | .ok b => some (panics s act (onThrow s b act i x.site), x.site)
      | .error _ => some (.aborted, x.site)

/-- A panic elsewhere on the thread of agent `a` destroys the guard or the future that it has: the loader panics, or the code
around the cache. -/
def crash (s : State K V) (a : Nat) : Option (State K V) :=
  match s.base.ctl a, s.base.kind a with
  | .guard k p, _ => some { s.unwind a with base := s.base.go a (.leaving k p) }
  | .waiting _ _, .task | .start _, .task => some (s.unwind a)
  | _, _ => none

/-- `Run c s0 ps tr s`: some interleaving leads from `s0` to `s`, with the events `tr`; user code has panicked inside the cache
at the places `ps`. -/
inductive Run [DecidableEq K] (c : Cfg K V RS) (s0 : State K V) : List Where → List (Ev K V) → State K V → Prop
  | start : Run c s0 [] [] s0
  | layout {ps : List Where} {tr : List (Ev K V)} {s : State K V} (m : List (UInt64 × Nat)) (p : UInt64 → UInt64 → Bool)
      (hr : Run c s0 ps tr s) (ok : s.shardBad = false) (hm : m.Perm s.base.shard.map) (hp : ∀ x, p x x = true) :
      Run c s0 ps tr { s with base := { s.base with shard := s.base.shard.relayout m p } }
  | act {ps : List Where} {tr evs : List (Ev K V)} {s s' : State K V} {act : Act K V} (hr : Run c s0 ps tr s)
      (hs : exec c s act = some (.done s' evs)) : Run c s0 ps (tr ++ evs) s'
  | poison {ps : List Where} {tr : List (Ev K V)} {s s' : State K V} {act : Act K V} (hr : Run c s0 ps tr s)
      (hs : exec c s act = some (.panicked s')) : Run c s0 ps tr s'
  | throw {ps : List Where} {tr : List (Ev K V)} {s s' : State K V} {act : Act K V} {i : Nat} {site : Where}
      (hr : Run c s0 ps tr s) (hs : throw c s act i = some (.panicked s', site)) : Run c s0 (ps ++ [site]) tr s'
  | crash {ps : List Where} {tr : List (Ev K V)} {s s' : State K V} {a : Nat} (hr : Run c s0 ps tr s)
      (hs : crash s a = some s') : Run c s0 ps tr s'

end Std
end QuickCache
