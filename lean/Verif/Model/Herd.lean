import Verif.Model.Conc

/-!
# Model of the crate's own concurrent tests

`test_get_or_insert`, `test_value_or_guard`, `test_get_or_insert_async` and `test_value_or_guard_async`
(`/repo/src/lib.rs:282-311`, `446-576`) and the randomised `test_guard_works` (`/repo/src/shuttle_tests.rs:45-143`): a number of
threads and tasks ask the cache for one key all at once; those that get a guard count themselves, and use the guard or drop it
depending on how many there were before.

* All of them use a single key. So only one shard is concerned, and the tests run on the system of `Verif.Model.Conc`; each
  caller is one thread or task, all calls interleave in all ways.
* The random decisions (`gen_bool`) are left open, as is the moment at which a timeout fires.
* The barrier at the beginning is left out: without it there are more interleavings.
* The counter `entered` is an `AtomicUsize`; here it is a number, without wrap-around at `2^64`.
* `get_or_insert_with` and `get_or_insert_async` are `get_value_or_guard(_async)` with the guard used or dropped
  (`/repo/src/sync.rs:370-387`, `411-427`). They ignore the result of `guard.insert`, which `test_value_or_guard` unwraps; the
  stricter reading is used for all four tests of `lib.rs`.
-/

namespace QuickCache
variable {K V RS : Type _}

namespace Herd
open Conc
open Function (update)

/-- Who is calling. -/
inductive Caller where
  /-- a thread calling `get_value_or_guard`, with or without timeout -/
  | thread (timed : Bool)
  /-- a task awaiting `get_value_or_guard_async`, perhaps giving up at some moment -/
  | task
  deriving DecidableEq, Repr

/-- One of the tests. -/
structure Test (K V : Type _) where
  /-- the key: `(1, 1)` (`/repo/src/lib.rs:297`), `0` (`/repo/src/shuttle_tests.rs:68`) -/
  key : K
  /-- the value wanted: `1` -/
  good : V
  /-- the value that disturbs: `0` (`/repo/src/shuttle_tests.rs:75`, `128`) -/
  other : V
  /-- whether the holder of a guard that finds this many predecessors inserts the value: `before == solve_at`
  (`/repo/src/lib.rs:299`) or `before >= solve_at` (`/repo/src/shuttle_tests.rs:93`) -/
  stores : Nat → Bool
  /-- the test of `shuttle_tests.rs`: callers go on until they see the good value, and disturb each other -/
  meddles : Bool
  /-- the number of callers -/
  callers : Nat
  caller : Nat → Caller

/-- The kind of calls made by caller `j`; a thread is named by its caller. -/
def Test.kind (T : Test K V) (j : Nat) : Kind :=
  match T.caller j with
  | .thread timed => .thread j timed
  | .task => .task

/-- Where a caller is in its program. `a` is the agent making its present call. -/
inductive Pos where
  /-- at the top of the loop -/
  | ready
  /-- in the call, or just returned from it with a guard -/
  | asking (a : Nat)
  /-- counted, about to insert (`store`) or to drop the guard -/
  | holding (a : Nat) (store : Bool)
  /-- inside `guard.insert` or the guard's `drop` -/
  | spending (a : Nat)
  /-- got a value that is not the good one (`/repo/src/shuttle_tests.rs:85-88`, `114-117`) -/
  | sawOther
  /-- the call timed out (`/repo/src/lib.rs:473`, `/repo/src/shuttle_tests.rs:126`) -/
  | gaveUp
  /-- about to drop its future, or dropping it (`/repo/src/lib.rs:560`, `/repo/src/shuttle_tests.rs:73-78`) -/
  | quitting (a : Nat)
  /-- left the loop -/
  | done
  deriving DecidableEq, Repr

/-- The state of a test. -/
structure State (K V : Type _) where
  base : Conc.State K V
  /-- `entered` (`/repo/src/lib.rs:288`) -/
  entered : Nat
  pos : Nat → Pos

/-- A new cache, nobody has begun. -/
def State.new (shard : Shard K V) : State K V := ⟨Conc.State.new shard, 0, fun _ => .ready⟩

/-- The steps of the cache that a caller's program makes: a call of `get_value_or_guard(_async)` until it returns;
`g.insert(1)` or dropping the guard (`/repo/src/lib.rs:466-472`); dropping a future. -/
def may (T : Test K V) [DecidableEq V] : Pos → Act K V → Bool
  | .asking a, .enter b _ | .asking a, .find b | .asking a, .load b _ | .asking a, .bump b | .asking a, .tally b
  | .asking a, .upsert b | .asking a, .join b | .asking a, .startLoading b | .asking a, .wake b | .asking a, .poll b _
  | .asking a, .timeout b | .asking a, .relock b | .asking a, .rejoin b => a == b
  | .holding a true, .publish b v => a == b && v == T.good
  | .holding a false, .drop b => a == b
  | .spending a, .store b | .spending a, .lockDrop b | .spending a, .finishDrop b => a == b
  | .quitting a, .cancel b | .quitting a, .abandon b | .quitting a, .lockDrop b | .quitting a, .finishDrop b => a == b
  | _, _ => false

/-- What a call returns with these events, if it returns: a value, or nothing (`GuardResult::Timeout`). -/
def returned (evs : List (Ev K V)) : Option (Option V) :=
  evs.findSome? (fun
    | .hit _ _ v => some (some v)
    | .received _ _ _ v => some (some v)
    | .timedOut _ => some none
    | _ => none)

/-- `guard.insert` returned an error. -/
def refused (evs : List (Ev K V)) : Bool :=
  evs.any (fun
    | .insertDone _ _ _ (some _) => true
    | _ => false)

/-- A call returned `v`: `assert_eq!(v, 1)` (`/repo/src/lib.rs:465`, `305`, `552`), or leaving the loop if it is the good value
and perhaps disturbing otherwise (`/repo/src/shuttle_tests.rs:81-89`, `110-118`). -/
def onValue (T : Test K V) [DecidableEq V] (v : V) : Res Pos :=
  if v = T.good then .ok .done else if T.meddles then .ok .sawOther else .error .assertion

/-- The guard is used up: `unwrap` (`/repo/src/lib.rs:470`) and leaving the loop, or going on (`/repo/src/shuttle_tests.rs:90-96`,
`119-125`). -/
def onUsed (T : Test K V) (evs : List (Ev K V)) : Res Pos :=
  if T.meddles then .ok .ready else if refused evs then .error .unwrapNone else .ok .done

/-- How the program goes on after a step of the cache with these events, in which the agent came to `x`. -/
def next (T : Test K V) [DecidableEq V] (evs : List (Ev K V)) (x : Ctl K V) : Pos → Res Pos
  | .asking a =>
    match returned evs with
    | some (some v) => onValue T v
    | some none => .ok .gaveUp
    | none => .ok (.asking a)
  | .holding a _ => .ok (.spending a)
  | .spending a =>
    match x with
    | .idle => onUsed T evs
    | _ => .ok (.spending a)
  | .quitting a =>
    match x with
    | .idle => .ok .ready
    | _ => .ok (.quitting a)
  | p => .ok p

/-- The agent that makes a caller's present call. -/
def Pos.agent : Pos → Option Nat
  | .asking a | .holding a _ | .spending a | .quitting a => some a
  | _ => none

/-- The steps of a test. -/
inductive Move (K V : Type _) where
  /-- caller `j` calls `get_value_or_guard(_async)` (`/repo/src/lib.rs:463`, `546-549`) -/
  | ask (j : Nat)
  /-- a step of the cache on behalf of caller `j` -/
  | step (j : Nat) (act : Act K V)
  /-- caller `j`, having a guard, does `entered.fetch_add(1)` and decides (`/repo/src/lib.rs:467-469`) -/
  | count (j : Nat)
  /-- caller `j` goes on after another value or a timeout; if `yes`, after removing the key or inserting the other value
  (`/repo/src/shuttle_tests.rs:86-88`, `115-117`, `127-129`) -/
  | meddle (j : Nat) (yes : Bool)
  /-- the timeout of task `j` fires while its future is pending (`/repo/src/lib.rs:546-550`, `560`,
  `/repo/src/shuttle_tests.rs:73-78`); if `yes`, the other value is inserted while the future still exists -/
  | lapse (j : Nat) (yes : Bool)

/-- A call made of one section, if `yes`. -/
def optionally [DecidableEq K] (c : Cfg K V RS) (T : Test K V) (s : Conc.State K V) (yes : Bool) (op : Op K V) : Outcome K V :=
  match yes with
  | true => if T.meddles then exec c s (.call op) else none
  | false => some (.ok (s, []))

/-- The rest of a step, after what the cache does. -/
def after (o : Outcome K V) (f : Conc.State K V → List (Ev K V) → Res (State K V)) : Option (Res (State K V)) :=
  match o with
  | none => none
  | some (.error p) => some (.error p)
  | some (.ok (b, evs)) => some (f b evs)

/-- One step: `none` if it is not possible now. -/
def step [DecidableEq K] [DecidableEq V] (c : Cfg K V RS) (T : Test K V) (s : State K V) : Move K V → Option (Res (State K V))
  | .ask j =>
    if j < T.callers ∧ s.pos j = .ready then
      after (exec c s.base (.begin (T.kind j) T.key))
        (fun b _ => .ok { s with base := b, pos := update s.pos j (.asking s.base.next) })
    else none
  | .step j act =>
    match (s.pos j).agent with
    | none => none
    | some a =>
      if may T (s.pos j) act then
        after (exec c s.base act) (fun b evs => do
          let p ← next T evs (b.ctl a) (s.pos j)
          .ok { s with base := b, pos := update s.pos j p })
      else none
  | .count j =>
    match s.pos j with
    | .asking a =>
      match s.base.ctl a with
      | .guard _ _ =>
        some (.ok { s with entered := s.entered + 1, pos := update s.pos j (.holding a (T.stores s.entered)) })
      | _ => none
    | _ => none
  | .meddle j yes =>
    match s.pos j with
    | .sawOther =>
      after (optionally c T s.base yes (.remove T.key)) (fun b _ => .ok { s with base := b, pos := update s.pos j .ready })
    | .gaveUp =>
      after (optionally c T s.base yes (.insert T.key T.other))
        (fun b _ => .ok { s with base := b, pos := update s.pos j .ready })
    | _ => none
  | .lapse j yes =>
    match s.pos j with
    | .asking a =>
      match s.base.kind a, s.base.ctl a with
      | .task, .waiting _ _ =>
        after (optionally c T s.base yes (.insert T.key T.other))
          (fun b _ => .ok { s with base := b, pos := update s.pos j (.quitting a) })
      | _, _ => none
    | _ => none

/-- The executions of a test on a new cache. -/
inductive Run [DecidableEq K] [DecidableEq V] (c : Cfg K V RS) (T : Test K V) (s0 : State K V) : State K V → Prop
  | start : Run c T s0 s0
  | layout {s : State K V} (m : List (UInt64 × Nat)) (p : UInt64 → UInt64 → Bool) (hr : Run c T s0 s)
      (hm : m.Perm s.base.shard.map) (hp : ∀ x, p x x = true) :
      Run c T s0 { s with base := { s.base with shard := s.base.shard.relayout m p } }
  | move {s s' : State K V} {m : Move K V} (hr : Run c T s0 s) (hs : step c T s m = some (.ok s')) : Run c T s0 s'

end Herd
end QuickCache
