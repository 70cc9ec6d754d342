import Verif.Model.Conc
import Verif.Model.Unwind

/-!
# Panics of user code in the concurrent cache

`stops c s act` lists the calls of user code made in the action `act` of `Verif.Model.Conc`, each with the state that is left
if that call panics: the locks are released, the guard or future on the stack is dropped, the agent is gone. The panic either
ends the agent's thread or is caught further up; the other agents go on.

This is the crate with its feature `parking_lot`, whose locks are not poisoned. `Verif.Model.Poison` puts the locks of `std` on
top.

Destructors of keys, values and wakers are assumed not to panic. A panic of a loader, or of any other code running while a
guard is held, drops the guard; that is the action `drop` of `Verif.Model.Conc`.
-/

namespace QuickCache
variable {K V RS : Type}

namespace Conc

/-- The places at which user code is called. -/
inductive Where where
  /-- hashing, comparison, the weighter, the lifecycle, closures: the places in the code of a shard and of the calls -/
  | code (site : Site)
  /-- `clone` of a value found in the cache, under the lock (`/repo/src/sync.rs:252`, `262`, `362`, `405`,
  `/repo/src/sync_placeholder.rs:213`, `455`) -/
  | cloneFound
  /-- `clone` of a value that was just loaded, for a caller that needed not wait (`/repo/src/sync_placeholder.rs:185`) -/
  | cloneJoined
  /-- `clone` of a loaded value for a waiting thread (`/repo/src/sync_placeholder.rs:175`) -/
  | cloneForThread
  /-- … for a waiting future -/
  | cloneForTask
  /-- `clone` of the value given to `guard.insert` (`/repo/src/sync_placeholder.rs:304`) -/
  | clonePublished
  /-- `clone` of the waker of a future that has to wait (`/repo/src/sync_placeholder.rs:509`) -/
  | cloneWaker
  /-- `clone_from` of the waker of a waiting future that is polled again (`/repo/src/sync_placeholder.rs:482`) -/
  | renewWaker
  /-- waking a future from `guard.insert` (`/repo/src/sync_placeholder.rs:306-308`) -/
  | wakeInserted
  /-- waking a future when a guard is dropped (`/repo/src/sync_placeholder.rs:333`) -/
  | wakeDropped
  deriving DecidableEq, Repr

/-- A call of user code, and the state left if it panics. -/
structure Stop (K V : Type) where
  site : Where
  left : Res (State K V)

/-- The calls of user code in a section of the shard; `f` is what becomes of the rest of the state. -/
def ofPoints (f : Shard K V → State K V) (l : List (Point K V)) : List (Stop K V) :=
  l.map (fun p => ⟨.code p.site, p.left.map f⟩)

/-- Hashing the key, before anything else (`/repo/src/sync.rs:218`). -/
def enterStops (s : State K V) (a : Nat) : List (Stop K V) :=
  match s.ctl a with
  | .start _ => [⟨.code .hashKey, .ok (s.go a .idle)⟩]
  | _ => []

/-- The search under the read lock (`/repo/src/shard.rs:492`). -/
def findStops [DecidableEq K] (c : Cfg K V RS) (s : State K V) (a : Nat) : List (Stop K V) :=
  match s.ctl a with
  | .seek k => ofPoints (fun sh => { (s.unlockRead a).go a .idle with shard := sh })
      (Unwind.searchResident s.shard (c.hash k) (fun x => x == k)).points
  | _ => []

/-- The value is cloned after the hit was counted, and before the lock is released (`/repo/src/sync.rs:252`, `361-363`,
`404-406`). -/
def tallyStops [DecidableEq K] (c : Cfg K V RS) (s : State K V) (a : Nat) : List (Stop K V) :=
  match s.ctl a with
  | .tally _ (some _) =>
    match tally c s a with
    | some (.ok (s', _)) => [⟨.cloneFound, .ok s'⟩]
    | _ => []
  | _ => []

/-- `upsert_placeholder` and the `clone` of a value found by it (`/repo/src/sync_placeholder.rs:211-213`, `451-456`). A
future whose first poll panics is still `Created`, so that dropping it does nothing. -/
def upsertStops [DecidableEq K] (c : Cfg K V RS) (s : State K V) (a : Nat) : List (Stop K V) :=
  match s.ctl a with
  | .created k =>
    if s.unlocked then
      ofPoints (fun sh => { s.go a .idle with shard := sh })
        (Unwind.upsertPlaceholder c s.shard (c.hash k) (fun x => x == k) k).points ++
      match Sync.step c s.shard (.upsert k) with
      | .ok (sh, .found _, _) => [⟨.cloneFound, .ok { s.go a .idle with shard := sh }⟩]
      | _ => []
    else []
  | _ => []

/-- `join_internal` of a caller not notified (`/repo/src/sync_placeholder.rs:179-187`): a future clones its waker, with
`waiter` still `None`, so that dropping the future does nothing; or the loaded value is cloned. -/
def joinStops (s : State K V) (a : Nat) : List (Stop K V) :=
  match s.ctl a with
  | .joining _ p =>
    match s.plh p.id with
    | some ps =>
      match ps.loading with
      | .loading => if s.kind a = .task then [⟨.cloneWaker, .ok ((s.go a .idle).unlockWrite)⟩] else []
      | .inserted _ => [⟨.cloneJoined, .ok ((s.go a .idle).unlockWrite)⟩]
      | .terminated => []
    | none => []
  | _ => []

/-- A poll of a waiting future that was not notified (`/repo/src/sync_placeholder.rs:482`). The old waker stays. (In the code
the unwinding then drops the future, a local variable of the coroutine of `get_value_or_guard_async`, `/repo/src/sync.rs:407`.
Here that is the action `cancel`, which may come later; another poll is possible too.) -/
def pollStops (s : State K V) (a : Nat) : List (Stop K V) :=
  match s.ctl a, s.kind a with
  | .waiting _ _, .task => if s.flag a then [] else [⟨.renewWaker, .ok s⟩]
  | _, _ => []

/-- `join_internal` of a notified caller (`/repo/src/sync_placeholder.rs:168-177`): cloning the loaded value. A future is
still `Pending` with a waiter then, its `notified` having been reset in line 480. (The unwinding drops it, which is the action
`cancel`; that panics again, so in the code the process is aborted.) -/
def rejoinStops (s : State K V) (a : Nat) : List (Stop K V) :=
  match s.ctl a with
  | .rejoining k p =>
    match (s.plh p.id).map PState.loading with
    | some (.inserted _) =>
      if s.kind a = .task then [⟨.cloneForTask, .ok ((s.go a (.waiting k p)).unlockRead a)⟩]
      else [⟨.cloneForThread, .ok ((s.go a .idle).unlockRead a)⟩]
    | _ => []
  | _ => []

/-- The first part of `insert_with_lifecycle` (`/repo/src/sync_placeholder.rs:301-309`): cloning the value; waking the
waiters one after the other, where a panic drops the rest of the `Drain` and with it the waiters that come later. Both drop the
guard, `inserted` being false. -/
def publishStops (s : State K V) (a : Nat) (v : V) : List (Stop K V) :=
  match s.ctl a with
  | .guard k p =>
    match s.plh p.id with
    | some ps =>
      ⟨.clonePublished, .ok (s.go a (.leaving k p))⟩ ::
      (List.range ps.waiters.length).filterMap (fun i =>
        match ps.waiters[i]? with
        | some b =>
          if s.kind b = .task then
            some ⟨.wakeInserted, .ok ((ps.waiters.take (i + 1)).foldl State.notify
              ((s.setPlh p { ps with waiters := [], loading := .inserted v }).go a (.leaving k p)))⟩
          else none
        | none => none)
    | none => []
  | _ => []

/-- The second part of `insert_with_lifecycle` (`/repo/src/sync_placeholder.rs:317-321`) and `end_request` (`290`). As
`inserted` is true by then, nothing is done when the guard is dropped. -/
def storeStops [DecidableEq K] (c : Cfg K V RS) (s : State K V) (a : Nat) : List (Stop K V) :=
  match s.ctl a with
  | .inserting k p v referenced =>
    ⟨.code .beginRequest, .ok (s.go a .idle)⟩ ::
    if s.unlocked then
      ofPoints (fun sh => { s.go a .idle with shard := sh })
        (Unwind.replacePlaceholder c s.shard c.begin p referenced v).points ++
      match Sync.step c s.shard (.fill k p referenced v) with
      | .ok (sh, .filled none, _) => [⟨.code .endRequest, .ok { s.go a .idle with shard := sh }⟩]
      | _ => []
    else []
  | _ => []

/-- `drop_uninserted_slow` (`/repo/src/sync_placeholder.rs:330-337`): waking the waiter that the load is handed over to,
which is notified already. -/
def dropStops [DecidableEq K] (c : Cfg K V RS) (s : State K V) (a : Nat) : List (Stop K V) :=
  match finishDrop c s a with
  | some (.ok (s', .handedOver _ _ b :: _)) => if s.kind b = .task then [⟨.wakeDropped, .ok s'⟩] else []
  | _ => []

/-- The calls made of a single section. (`begin_request` and hashing come before the lock is taken, `end_request` after it
was released; that they are listed only while the lock is free makes no difference to the states left.) -/
def callStops [DecidableEq K] (c : Cfg K V RS) (s : State K V) (op : Op K V) : List (Stop K V) :=
  match call c s op with
  | none => []
  | some r =>
    ofPoints (fun sh => { s with shard := sh }) (Unwind.step c s.shard op).points ++
    match op, r with
    | .peek _, .ok (s', [.sect _ (.call (.value (some _))) _]) => [⟨.cloneFound, .ok s'⟩]
    | _, _ => []

/-- The calls of user code made in an action, with the states left if they panic. -/
def stops [DecidableEq K] (c : Cfg K V RS) (s : State K V) : Act K V → List (Stop K V)
  | .enter a _ => enterStops s a
  | .find a => findStops c s a
  | .tally a => tallyStops c s a
  | .upsert a => upsertStops c s a
  | .join a => joinStops s a
  | .poll a _ => pollStops s a
  | .rejoin a => rejoinStops s a
  | .publish a v => publishStops s a v
  | .store a => storeStops c s a
  | .finishDrop a => dropStops c s a
  | .call op => callStops c s op
  | _ => []

end Conc
end QuickCache
