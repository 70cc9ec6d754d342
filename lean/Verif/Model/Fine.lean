import Verif.Model.Conc

/-!
# Model of notification and parking at the granularity of atomic accesses

`Conc` treats a critical section of a placeholder's state lock as one action, and parking not at all. Here both are taken apart
(`/repo/src/sync_placeholder.rs:99-114`, `236-270`, `300-309`, `327-338`, `478-487`):

* The holder of a guard locks the state, sets the flags of the waiters one by one, unparks (threads) or wakes (futures) each
  right after its flag is set, and unlocks the state. Threads and futures notice their flags while this goes on, and go as far as
  the state lock lets them.
* `thread::park` blocks until the thread's token is there, and takes it; `Thread::unpark` puts it there. A token may also be
  there for another reason (`stray`), park may return without reason (`spurious`; this includes the end of `park_timeout`), and
  a token may get lost while the thread waits for a lock (`steal`; some implementations of locks park the thread).
* A thread that returned from park reads its flag, and either leaves the loop, or parks again, or, if its time is over, locks
  the state in order to leave the list of waiters.
* The flag of a thread is an atomic that is read without a lock. The thread may miss (`miss`) that it was set, unless it is
  bound to see it (`fresh`): it has taken its token after its notifier had unparked it. That is what the documentation of `park`
  promises: all prior calls of `unpark` synchronize with the `park` that takes the token. Nothing is assumed about how long it
  may take for a store to become visible otherwise, nor about `park` returning without a token, nor about tokens lost in locks.

The value and the list of waiters of a placeholder change in `base` when the state is unlocked: nobody else can see them before.
So `base` lags behind as long as the state is locked for notification; `raised` (flags set), `early` (notified callers that
noticed it) and `readers` (those of them that have locked the shard) tell what happened meanwhile, and `unlock` lets `base`
catch up. Critical sections of the state lock that notify nobody remain single actions (nobody can see their parts), possible
only while nobody holds the lock. So do those of the lock of a `TaskWaiter`, except that a notifier holds it from setting the
flag until the waker was called. Everything but the flags of threads and the counters (`Conc`'s `load`) is accessed with locks
held, so it is seen by each caller as the last one left it.
-/

namespace QuickCache
variable {K V RS : Type _}

/-- The placeholder an agent is concerned with. -/
def Conc.Ctl.plh : Conc.Ctl K V → Option Plh
  | .joining _ p | .starting _ p _ | .waiting _ p | .claimed _ p | .rejoining _ p | .guard _ p | .inserting _ p _ _
  | .leaving _ p | .dropping _ p | .abandoning _ p => some p
  | _ => none

namespace Fine
open Conc (Act Ctl Kind Outcome Ev exec)
open Function (update)

/-- Where a thread in the list of waiters is in the loop (`/repo/src/sync_placeholder.rs:237-268`). -/
inductive Pc where
  /-- about to call `park` (`241`, `263`) -/
  | about
  /-- blocked in `park` -/
  | parked
  /-- returned from `park`, about to read the flag (`242`, `264`) -/
  | awake
  /-- the flag was not set and the time is over: about to lock the state (`251`) -/
  | late
  deriving DecidableEq, Repr

/-- A step of a notifier (`Waiter::notify`, `/repo/src/sync_placeholder.rs:101-113`). -/
inductive Note where
  /-- setting the flag of `b` (`104`, `108-109`) -/
  | flag (b : Nat)
  /-- unparking thread `b` (`105`) -/
  | unpark (b : Nat)
  /-- calling the waker of future `b` (`110`) -/
  | wake (b : Nat)
  deriving DecidableEq, Repr

/-- Somebody holds the state lock of a placeholder and notifies waiters: `insert` of a guard with a value (`302-309`), or the
drop of a guard without (`330-333`). -/
structure Hold (V : Type _) where
  agent : Nat
  value : Option V
  todo : List Note
  deriving DecidableEq, Repr

/-- The state. -/
structure State (K V : Type _) where
  base : Conc.State K V
  /-- by placeholder: who holds its state lock over several actions -/
  hold : Nat → Option (Hold V)
  /-- flags set by notifiers that have not yet unlocked the state -/
  raised : Nat → Bool
  /-- callers that noticed such a flag; for a future, the waker passed to that poll -/
  early : Nat → Option Nat
  /-- those of them that hold the read lock of the shard -/
  readers : List Nat
  pc : Nat → Pc
  /-- the tokens of the threads -/
  token : Nat → Bool
  /-- threads that were unparked by their notifiers -/
  mailed : Nat → Bool
  /-- threads that have taken a token after that -/
  fresh : Nat → Bool

/-- Nothing has happened. -/
def State.new (shard : Shard K V) : State K V where
  base := .new shard
  hold := fun _ => none
  raised := fun _ => false
  early := fun _ => none
  readers := []
  pc := fun _ => .about
  token := fun _ => false
  mailed := fun _ => false
  fresh := fun _ => false

namespace State

/-- The notification flag of `b` as it is in memory. -/
def flag (f : State K V) (b : Nat) : Bool := f.base.flag b || f.raised b

/-- The state lock of the placeholder `a` is concerned with is free. -/
def stateFree (f : State K V) (a : Nat) : Bool :=
  match (f.base.ctl a).plh with
  | some p => (f.hold p.id).isNone
  | none => true

/-- Agent `a` is busy with notifying. -/
def busy (f : State K V) (a : Nat) : Bool :=
  match (f.base.ctl a).plh with
  | some p => (f.hold p.id).any (fun h => h.agent == a)
  | none => false

/-- The waiter lock of future `b` is held by a notifier. -/
def waking (f : State K V) (b : Nat) : Bool :=
  match (f.base.ctl b).plh with
  | some p => (f.hold p.id).any (fun h => h.todo.head? == some (.wake b))
  | none => false

end State

/-- The steps of notifying `b`. -/
def notes (kind : Nat → Kind) (b : Nat) : List Note :=
  match kind b with
  | .task => [.flag b, .wake b]
  | _ => [.flag b, .unpark b]

/-- The waiters that a holder of the state lock notifies: all, or the last one. -/
def called (value : Option V) (waiters : List Nat) : List Nat :=
  match value with
  | some _ => waiters
  | none => waiters.getLast?.toList

/-- The actions that are the same as in `Conc`, and whether the locks that `Conc` does not know allow them. -/
def allowed (f : State K V) : Act K V → Bool
  | .begin _ _ | .enter _ _ | .find _ | .load _ _ | .bump _ | .tally _ | .relock _ => true
  | .upsert _ | .store _ | .lockDrop _ => f.readers.isEmpty
  | .call op => match Conc.lockMode op with
    | some true => f.readers.isEmpty
    | _ => true
  | .join a | .startLoading a | .rejoin a | .abandon a | .cancel a => f.stateFree a
  | .drop a => !f.busy a
  | .finishDrop a => f.stateFree a && match (f.base.ctl a).plh with
    | some p => (f.base.plh p.id).all (fun ps => ps.waiters.isEmpty)
    | none => true
  | .wake _ | .poll _ _ | .timeout _ | .publish _ _ => false

/-- The actions. -/
inductive FAct (K V : Type _) where
  /-- an action as in `Conc` -/
  | act (x : Act K V)
  /-- the waiting thread `a` calls `park` -/
  | park (a : Nat)
  /-- `park` returns because the token is there -/
  | unparked (a : Nat)
  /-- `park` returns without reason, or because the time is over -/
  | spurious (a : Nat)
  /-- thread `a` reads its flag; `over`: if it is not set and the wait is timed, the time is over -/
  | look (a : Nat) (over : Bool)
  /-- thread `a` reads `false` though its flag is set -/
  | miss (a : Nat) (over : Bool)
  /-- a timed wait ends with the state locked (`251-259`) -/
  | expire (a : Nat)
  /-- a waiting future is polled (`478-487`) -/
  | poll (a w : Nat)
  /-- a notified caller takes the read lock of the shard (`270`, `487`) while the notifier still holds the state -/
  | relock (a : Nat)
  /-- locking the state in order to publish `v` (`303`), or to hand the guard over (`330`) -/
  | lock (a : Nat) (v : Option V)
  /-- the next step of the notifier of placeholder `i` -/
  | note (i : Nat)
  /-- the notifier of placeholder `i` is done and unlocks the state (`309`, `338`) -/
  | unlock (i : Nat)
  /-- somebody unparks thread `t` -/
  | stray (t : Nat)
  /-- thread `t` loses its token while waiting for a lock -/
  | steal (t : Nat)

/-- Several actions of `Conc`. -/
def perform [DecidableEq K] (c : Cfg K V RS) (s : Conc.State K V) : List (Act K V) → Outcome K V
  | [] => some (.ok (s, []))
  | x :: xs =>
    match exec c s x with
    | none => none
    | some (.error e) => some (.error e)
    | some (.ok (s1, e1)) =>
      match perform c s1 xs with
      | none => none
      | some (.error e) => some (.error e)
      | some (.ok (s2, e2)) => some (.ok (s2, e1 ++ e2))

/-- What an action leads to. -/
abbrev FOutcome (K V : Type _) := Option (Res (State K V × List (Ev K V)))

/-- Actions of `Conc`, the rest of the state being changed by `g`. -/
def lift [DecidableEq K] (c : Cfg K V RS) (f : State K V) (xs : List (Act K V)) (g : Conc.State K V → State K V) :
    FOutcome K V :=
  match perform c f.base xs with
  | none => none
  | some (.error e) => some (.error e)
  | some (.ok (s, ev)) => some (.ok (g s, ev))

/-- Where the threads are after an action as in `Conc`: one that enters the list of waiters goes on to park
(`/repo/src/sync_placeholder.rs:180-183`, `236-241`, `262-263`). -/
def parksAt (pc : Nat → Pc) : Act K V → Nat → Pc
  | .join a => update pc a .about
  | _ => pc

/-- An action as in `Conc`. -/
def plain [DecidableEq K] (c : Cfg K V RS) (f : State K V) (x : Act K V) : FOutcome K V :=
  if allowed f x then
    lift c f [x] (fun s => { f with base := s, pc := parksAt f.pc x })
  else none

/-- The thread of a waiting agent that has not noticed its notification. -/
def waits (f : State K V) (a : Nat) : Option (Nat × Bool) :=
  match f.base.ctl a, f.base.kind a, f.early a with
  | .waiting _ _, .thread t timed, none => some (t, timed)
  | _, _, _ => none

/-- `park` takes the token: all that was done before the thread was unparked is visible to it from now on. -/
def take (f : State K V) (a t : Nat) : State K V :=
  { f with
    token := update f.token t false
    pc := update f.pc a .awake
    fresh := update f.fresh a (f.fresh a || f.mailed a) }

/-- `thread::park` (`/repo/src/sync_placeholder.rs:241`, `263`): returns at once if the token is there. -/
def park (f : State K V) (a : Nat) : FOutcome K V :=
  match waits f a, f.pc a with
  | some (t, _), .about =>
    some (.ok (if f.token t then take f a t else { f with pc := update f.pc a .parked }, []))
  | _, _ => none

/-- The token is there. -/
def unparked (f : State K V) (a : Nat) : FOutcome K V :=
  match waits f a, f.pc a with
  | some (t, _), .parked =>
    if f.token t then some (.ok (take f a t, [])) else none
  | _, _ => none

/-- `park` returns for no reason, or `park_timeout` because its duration is over. -/
def spurious (f : State K V) (a : Nat) : FOutcome K V :=
  match waits f a, f.pc a with
  | some _, .parked => some (.ok ({ f with pc := update f.pc a .awake }, []))
  | _, _ => none

/-- Agent `a` notices its notification: an action of `Conc` if the notifier is done. -/
def notice [DecidableEq K] (c : Cfg K V RS) (f : State K V) (a w : Nat) (x : Act K V) : FOutcome K V :=
  if f.base.flag a then lift c f [x] (fun s => { f with base := s })
  else some (.ok ({ f with early := update f.early a (some w) }, []))

/-- The thread reads its flag (`/repo/src/sync_placeholder.rs:242-249`, `264-266`). -/
def look [DecidableEq K] (c : Cfg K V RS) (f : State K V) (a : Nat) (over : Bool) : FOutcome K V :=
  match waits f a, f.pc a with
  | some (_, timed), .awake =>
    if f.flag a then notice c f a 0 (.wake a)
    else some (.ok ({ f with pc := update f.pc a (if timed && over then .late else .about) }, []))
  | _, _ => none

/-- The thread does not see that its flag was set (`/repo/src/sync_placeholder.rs:242-249`, `264-266`). -/
def miss (f : State K V) (a : Nat) (over : Bool) : FOutcome K V :=
  match waits f a, f.pc a with
  | some (_, timed), .awake =>
    if f.flag a && !f.fresh a then
      some (.ok ({ f with pc := update f.pc a (if timed && over then .late else .about) }, []))
    else none
  | _, _ => none

/-- The end of a timed wait (`/repo/src/sync_placeholder.rs:251-259`). The flag is read with the state locked, and set only with
the state locked. -/
def expire [DecidableEq K] (c : Cfg K V RS) (f : State K V) (a : Nat) : FOutcome K V :=
  match waits f a, f.pc a with
  | some _, .late => if f.stateFree a then lift c f [.timeout a] (fun s => { f with base := s }) else none
  | _, _ => none

/-- A later poll of a future (`/repo/src/sync_placeholder.rs:474-487`). -/
def poll [DecidableEq K] (c : Cfg K V RS) (f : State K V) (a w : Nat) : FOutcome K V :=
  match f.base.ctl a, f.base.kind a, f.early a with
  | .waiting _ _, .task, none =>
    if f.waking a then none
    else if f.flag a then notice c f a w (.poll a w)
    else lift c f [.poll a w] (fun s => { f with base := s })
  | _, _, _ => none

/-- `shard.read()` (`/repo/src/sync_placeholder.rs:270`, `487`). -/
def relock (f : State K V) (a : Nat) : FOutcome K V :=
  if (f.early a).isSome && !f.readers.contains a && f.base.writer.isNone then
    some (.ok ({ f with readers := a :: f.readers }, []))
  else none

/-- `shared.state.write()` of a notifier (`/repo/src/sync_placeholder.rs:303`, `330`); dropping a guard nobody waits for is
`Conc`'s `finishDrop`. -/
def lock (f : State K V) (a : Nat) (v : Option V) : FOutcome K V :=
  let go (p : Plh) : FOutcome K V :=
    match f.hold p.id, f.base.plh p.id with
    | none, some ps => 
      let h : Hold V := ⟨a, v, (called v ps.waiters).flatMap (notes f.base.kind)⟩
      some (.ok ({ f with hold := update f.hold p.id (some h) }, []))
    | _, _ => none
  match f.base.ctl a, v with
  | .guard _ p, some _ => go p
  | .dropping _ p, none => if (f.base.plh p.id).all (fun ps => ps.waiters.isEmpty) then none else go p
  | _, _ => none

/-- `Waiter::notify` (`/repo/src/sync_placeholder.rs:101-113`), step by step. Its wake-ups are among the events of `unlock`. -/
def note (f : State K V) (i : Nat) : FOutcome K V :=
  match f.hold i with
  | some ⟨a, v, x :: rest⟩ =>
    let f1 := { f with hold := update f.hold i (some ⟨a, v, rest⟩) }
    match x with
    | .flag b => some (.ok ({ f1 with raised := update f.raised b true }, []))
    | .unpark b =>
      match f.base.kind b with
      | .thread t _ => some (.ok ({ f1 with token := update f.token t true, mailed := update f.mailed b true }, []))
      | _ => some (.error .unreachable)
    | .wake _ => some (.ok (f1, []))
  | _ => none

/-- What callers notified early did meanwhile. -/
def catchUp (f : State K V) (b : Nat) : List (Act K V) :=
  match f.early b with
  | some w =>
    (match f.base.kind b with
      | .task => Act.poll b w
      | _ => Act.wake b) :: (if f.readers.contains b then [Act.relock b] else [])
  | none => []

/-- What the holder of a state lock did, in `base`: insert a value (`302-309`), or hand the guard over (`330-338`). -/
def ending (a : Nat) : Option V → Act K V
  | some v => .publish a v
  | none => .finishDrop a

/-- The end of the critical section: its effects become visible. -/
def unlock [DecidableEq K] (c : Cfg K V RS) (f : State K V) (i : Nat) : FOutcome K V :=
  match f.hold i, f.base.plh i with
  | some ⟨a, v, []⟩, some ps =>
    let ws := called v ps.waiters
    lift c f (ending a v :: ws.flatMap (catchUp f)) (fun s => { f with
      base := s
      hold := update f.hold i none
      raised := fun b => !ws.contains b && f.raised b
      early := fun b => if ws.contains b then none else f.early b
      readers := f.readers.filter (fun b => !ws.contains b) })
  | _, _ => none

/-- Somebody unparks a thread. -/
def stray (f : State K V) (t : Nat) : FOutcome K V := some (.ok ({ f with token := update f.token t true }, []))

/-- A thread may lose its token except from entering the list of waiters until it has noticed its notification or its time
is over: in between it takes no lock (`/repo/src/sync_placeholder.rs:236-249`, `262-267`). -/
def steal (f : State K V) (t : Nat) : FOutcome K V :=
  if (List.range f.base.next).any (fun a => match waits f a with
    | some (t', _) => t' == t && f.pc a != .late
    | none => false) then none
  else some (.ok ({ f with token := update f.token t false }, []))

/-- One action. -/
def step [DecidableEq K] (c : Cfg K V RS) (f : State K V) : FAct K V → FOutcome K V
  | .act x => plain c f x
  | .park a => park f a
  | .unparked a => unparked f a
  | .spurious a => spurious f a
  | .look a over => look c f a over
  | .miss a over => miss f a over
  | .expire a => expire c f a
  | .poll a w => poll c f a w
  | .relock a => relock f a
  | .lock a v => lock f a v
  | .note i => note f i
  | .unlock i => unlock c f i
  | .stray t => stray f t
  | .steal t => steal f t

/-- `Run c f0 tr f`: some interleaving leads from `f0` to `f`; `tr` are the events of `base`. -/
inductive Run [DecidableEq K] (c : Cfg K V RS) (f0 : State K V) : List (Ev K V) → State K V → Prop
  | start : Run c f0 [] f0
  | layout {tr : List (Ev K V)} {f : State K V} (m : List (UInt64 × Nat)) (p : UInt64 → UInt64 → Bool)
      (hr : Run c f0 tr f) (hm : m.Perm f.base.shard.map) (hp : ∀ x, p x x = true) :
      Run c f0 tr { f with base := { f.base with shard := f.base.shard.relayout m p } }
  | act {tr : List (Ev K V)} {f f' : State K V} {act : FAct K V} {ev : List (Ev K V)} (hr : Run c f0 tr f)
      (hs : step c f act = some (.ok (f', ev))) : Run c f0 (tr ++ ev) f'

end Fine
end QuickCache
