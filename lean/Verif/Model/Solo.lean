import Verif.Model.Conc

/-!
# Using the concurrent cache from one place at a time

`sync::Cache` behind a mutex, in a single thread, or in a program that for some other reason makes one call at a time: every
call runs to its end before the next one begins. A call is a sequence of actions of the protocol of `Verif.Model.Conc`; if one
of them is not possible, it will never be, since there is nobody else, and the program hangs (`outOfFuel`).

* The cache is one shard, as in `Verif.Model.Conc`.
* After each action the layout of the hash table changes as the parameter `lay` says.
* A guard is used at once: the loaded value is inserted, or the guard is dropped (as `get_or_insert_with` and
  `get_or_insert_async` do, `/repo/src/sync.rs:370-387`, `411-427`). Guards that are kept while other calls are made
  are in `Verif.Model.FuzzSync`.
-/

namespace QuickCache.Solo
variable {K V RS : Type}
open Conc

/-- Who loads a missing value. -/
inductive Loader where
  /-- `get_or_insert_with`, or `get_value_or_guard` with or without a timeout, on thread `tid` (`/repo/src/sync.rs:352-387`) -/
  | thread (tid : Nat) (timed : Bool)
  /-- `get_or_insert_async` or `get_value_or_guard_async` (`/repo/src/sync.rs:396-427`) -/
  | task
  deriving DecidableEq, Repr

/-- The kind of agent. -/
def Loader.kind : Loader → Kind
  | .thread tid timed => .thread tid timed
  | .task => .task

/-- The calls of `sync::Cache` (`/repo/src/sync.rs:223-427`). -/
inductive Call (K V : Type) where
  /-- a call made of a single critical section -/
  | plain (op : Op K V)
  /-- `get` -/
  | get (k : K)
  /-- a call that loads a missing value; `r` is what the loading yields, `none` if it fails -/
  | load (by' : Loader) (k : K) (r : Option V)

/-- The corresponding call of `unsync::Cache`. A call that loads is `get_ref_or_guard` (`/repo/src/unsync.rs:295-313`) and the
use of the guard. -/
def Call.op : Call K V → Op K V
  | .plain op => op
  | .get k => .get k
  | .load _ k (some v) => .getRefOrGuard k (.insert v)
  | .load _ k none => .getRefOrGuard k .drop

/-- The calls that `sync::Cache` has: not `get_mut`, `drain` and the like. -/
def Call.Known : Call K V → Prop
  | .plain op => lockMode op ≠ none
  | _ => True

instance (x : Call K V) : Decidable x.Known := by
  unfold Call.Known
  split <;> infer_instance

/-- How the layout of the hash table changes after the `n`-th action (see `Shard.relayout`). -/
abbrev Layout (K V : Type) := Nat → Shard K V → Shard K V

/-- All that is required of it: it changes nothing but the order of the table and which foreign slots a probe meets. -/
def Layout.Fair (lay : Layout K V) : Prop :=
  ∀ n s, ∃ m p, lay n s = s.relayout m p ∧ m.Perm s.map ∧ ∀ x, p x x = true

/-- The cache and the number of actions so far. -/
structure World (K V : Type) where
  st : State K V
  acts : Nat

/-- A new cache (`/repo/src/sync.rs:121-155`, one shard). -/
def World.new (target cap gcap : Nat) : World K V := ⟨State.new (Shard.new target cap gcap), 0⟩

variable [DecidableEq K]

/-- The cache makes one step. -/
def act (c : Cfg K V RS) (lay : Layout K V) (w : World K V) (x : Act K V) : Res (World K V × List (Ev K V)) :=
  match exec c w.st x with
  | none => .error .outOfFuel
  | some (.error p) => .error p
  | some (.ok (st, evs)) => .ok (⟨{ st with shard := lay w.acts st.shard }, w.acts + 1⟩, evs)

/-- What agent `a` does next; a guard is used to insert the value `r`, or dropped. `none` if the agent has to wait. -/
def nextAct (a : Nat) (r : Option V) : Ctl K V → Option (Act K V)
  | .start _ => some (.enter a 0)
  | .seek _ => some (.find a)
  | .saw _ _ _ => some (.load a none)
  | .bump _ _ _ => some (.bump a)
  | .tally _ _ => some (.tally a)
  | .created _ => some (.upsert a)
  | .joining _ _ => some (.join a)
  | .starting _ _ _ => some (.startLoading a)
  | .guard _ _ => some (match r with
    | some v => .publish a v
    | none => .drop a)
  | .inserting _ _ _ _ => some (.store a)
  | .leaving _ _ => some (.lockDrop a)
  | .dropping _ _ => some (.finishDrop a)
  | _ => none

/-- The agent runs until it is finished. It makes `n` steps at most; a call that needs more would count as one that hangs. -/
def drive (c : Cfg K V RS) (lay : Layout K V) (a : Nat) (r : Option V) : Nat → World K V → Res (World K V × List (Ev K V))
  | 0, _ => .error .outOfFuel
  | n + 1, w =>
    match w.st.ctl a with
    | .idle => .ok (w, [])
    | x =>
      match nextAct a r x with
      | none => .error .outOfFuel
      | some x => do
        let (w, evs) ← act c lay w x
        let (w, rest) ← drive c lay a r n w
        .ok (w, evs ++ rest)

omit [DecidableEq K] in
/-- The value that the call found. -/
def found : List (Ev K V) → Option V
  | [] => none
  | .hit _ _ v :: _ => some v
  | _ :: l => found l

omit [DecidableEq K] in
/-- The calls of the lifecycle. -/
def logged : List (Ev K V) → List (Event K V)
  | [] => []
  | .sect _ _ log :: l => log ++ logged l
  | _ :: l => logged l

/-- One call, from its beginning to its end: what it returned, and which calls of the lifecycle it made. A call that loads
returns (`.orGuard`) the value that it found; or nothing, and then it loaded. -/
def perform (c : Cfg K V RS) (lay : Layout K V) (w : World K V) : Call K V → Res (World K V × Unsync.Call K V)
  | .plain op => do
    match ← act c lay w (.call op) with
    | (w, [.sect _ (.call out) log]) => .ok (w, ⟨op, out, log⟩)
    | _ => .error .unreachable
  | .get k => do
    let a := w.st.next
    let (w, _) ← act c lay w (.begin .get k)
    let (w, evs) ← drive c lay a none 12 w
    .ok (w, ⟨.get k, .value (found evs), logged evs⟩)
  | .load l k r => do
    let a := w.st.next
    let (w, _) ← act c lay w (.begin l.kind k)
    let (w, evs) ← drive c lay a r 12 w
    .ok (w, ⟨(Call.load l k r).op, .orGuard (found evs), logged evs⟩)

/-- One call after the other. -/
def run (c : Cfg K V RS) (lay : Layout K V) : List (Call K V) → World K V → Res (World K V × List (Unsync.Call K V))
  | [], w => .ok (w, [])
  | x :: l, w => do
    let (w, y) ← perform c lay w x
    let (w, h) ← run c lay l w
    .ok (w, y :: h)

end QuickCache.Solo
