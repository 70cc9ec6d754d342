import Verif.Model.Conc

/-!
# Model of `get_or_insert_with` and `get_or_insert_async` (`/repo/src/sync.rs:366-388`, `410-428`)

Both are programs on top of the protocol of `Verif.Model.Conc`: one `get_value_or_guard` without timeout (one
`get_value_or_guard_async`); a value is returned as it is; with a guard the loader `with` is run, its value is inserted
through the guard and returned, or its error is returned, by which the guard is dropped.

The state adds to that of the protocol, for each agent, where in this program it is. The loader is arbitrary: it may take as
long as it likes, use the cache meanwhile, and return a value or an error of type `E`, or not return at all (it panics, or
the future is dropped while awaiting it).
-/

namespace QuickCache
variable {K V RS E : Type _}

namespace Fetch
open Conc Function

/-- Where a call of `get_or_insert_with` or `get_or_insert_async` is. -/
inductive Prog (V E : Type _) where
  /-- no such call -/
  | raw
  /-- inside `get_value_or_guard`, or at its result (`/repo/src/sync.rs:377`, `421`) -/
  | asking
  /-- the loader runs (`380`, `424`) -/
  | loading
  /-- the loader returned a value: inserting it (`381`, `425`) -/
  | loaded (v : V)
  /-- the loader returned an error, or none if it did not return: dropping the guard (`?`, `380`, `424`) -/
  | failed (e : Option E)
  /-- returned, or dropped before -/
  | done
  deriving DecidableEq, Repr

/-- The protocol and the calls built on it. -/
structure State (K V E : Type _) where
  base : Conc.State K V
  prog : Nat → Prog V E

/-- What happens. -/
inductive Ev (K V E : Type _) where
  /-- an event of the protocol -/
  | base (e : Conc.Ev K V)
  /-- a call for key `k` -/
  | called (a : Nat) (k : K)
  /-- the loader of the call was started -/
  | loader (a : Nat) (k : K)
  /-- it returned a value or an error; `none`: it panicked or was dropped -/
  | loaded (a : Nat) (r : Option (Except E V))
  /-- the call returned -/
  | returned (a : Nat) (r : Except E V)

/-- A new cache. -/
def State.new (sh : Shard K V) : State K V E := ⟨Conc.State.new sh, fun _ => .raw⟩

/-- The agent for which an event of the protocol ends `get_value_or_guard`, `insert` or the drop of a guard. -/
def ender : Conc.Ev K V → Option Nat
  | .hit a _ _ | .received a _ _ _ | .insertDone a _ _ _ | .handedOver a _ _ | .dropped a _ _ | .timedOut a
  | .cancelled a => some a
  | _ => none

/-- Whether the event ends the call, and its result: the value found or received (`/repo/src/sync.rs:378`, `422`), the
loader's value once inserted, whether or not that succeeded (`381-382`, `425-426`), the loader's error once the guard is
dropped (`380`, `424`). A dropped future has no result. -/
def outcome : Prog V E → Conc.Ev K V → Option (Option (Except E V))
  | .asking, .hit _ _ v => some (some (.ok v))
  | .asking, .received _ _ _ v => some (some (.ok v))
  | .asking, .cancelled _ => some none
  | .loaded v, .insertDone _ _ _ _ => some (some (.ok v))
  | .failed e, .handedOver _ _ _ => some (e.map .error)
  | .failed e, .dropped _ _ _ => some (e.map .error)
  | _, _ => none

/-- How the calls react to the events of the protocol. `GuardResult::Timeout => unreachable!()`
(`/repo/src/sync.rs:384`). -/
def react (prog : Nat → Prog V E) : List (Conc.Ev K V) → Res ((Nat → Prog V E) × List (Ev K V E))
  | [] => .ok (prog, [])
  | e :: es =>
    match ender e with
    | none => do
      let (prog', evs) ← react prog es
      .ok (prog', .base e :: evs)
    | some a =>
      match prog a, e with
      | .asking, .timedOut _ => .error .unreachable
      | x, e =>
        match outcome x e with
        | none => do
          let (prog', evs) ← react prog es
          .ok (prog', .base e :: evs)
        | some r => do
          let (prog', evs) ← react (update prog a .done) es
          .ok (prog', .base e :: (r.map (fun r => Ev.returned a r)).toList ++ evs)

/-- An action of the protocol, and the reaction. -/
def lift [DecidableEq K] (c : Cfg K V RS) (s : State K V E) (act : Conc.Act K V) :
    Option (Res (State K V E × List (Ev K V E))) :=
  match Conc.exec c s.base act with
  | none => none
  | some r => some (do
    let (b, es) ← r
    let (prog, evs) ← react s.prog es
    .ok (⟨b, prog⟩, evs))

/-- The actions. -/
inductive Act (K V E : Type _) where
  /-- an action of the protocol, other than using the guard of a call of `get_or_insert_with` -/
  | base (act : Conc.Act K V)
  /-- `get_or_insert_with` called on thread `tid` -/
  | call (tid : Nat) (k : K)
  /-- `get_or_insert_async` called -/
  | callAsync (k : K)
  /-- starting the loader -/
  | load (a : Nat)
  /-- the loader returns, panics or is dropped -/
  | finish (a : Nat) (r : Option (Except E V))
  /-- `g.insert(v.clone())` -/
  | insert (a : Nat)
  /-- dropping the guard -/
  | giveUp (a : Nat)

/-- Beginning a call. -/
def begin [DecidableEq K] (c : Cfg K V RS) (s : State K V E) (kind : Kind) (k : K) :
    Option (Res (State K V E × List (Ev K V E))) :=
  match Conc.exec c s.base (.begin kind k) with
  | none => none
  | some r => some (do
    let (b, es) ← r
    .ok (⟨b, update s.prog s.base.next .asking⟩, es.map .base ++ [.called s.base.next k]))

/-- Whether the action uses the guard of a call of `get_or_insert_with`. -/
def usesGuard (prog : Nat → Prog V E) : Conc.Act K V → Bool
  | .publish a _ | .drop a =>
    match prog a with
    | .raw => false
    | _ => true
  | _ => false

/-- One action. -/
def exec [DecidableEq K] (c : Cfg K V RS) (s : State K V E) : Act K V E → Option (Res (State K V E × List (Ev K V E)))
  | .base act => if usesGuard s.prog act then none else lift c s act
  | .call tid k => begin c s (.thread tid false) k
  | .callAsync k => begin c s .task k
  | .load a =>
    match s.prog a, s.base.ctl a with
    | .asking, .guard k _ => some (.ok ({ s with prog := update s.prog a .loading }, [.loader a k]))
    | _, _ => none
  | .finish a r =>
    match s.prog a with
    | .loading =>
      let x : Prog V E := match r with
        | some (.ok v) => .loaded v
        | some (.error e) => .failed (some e)
        | none => .failed none
      some (.ok ({ s with prog := update s.prog a x }, [.loaded a r]))
    | _ => none
  | .insert a =>
    match s.prog a with
    | .loaded v => lift c s (.publish a v)
    | _ => none
  | .giveUp a =>
    match s.prog a with
    | .failed _ => lift c s (.drop a)
    | _ => none

/-- `Run c s0 tr s`: some interleaving of actions leads from `s0` to `s`, with the events `tr`. -/
inductive Run [DecidableEq K] (c : Cfg K V RS) (s0 : State K V E) : List (Ev K V E) → State K V E → Prop
  | start : Run c s0 [] s0
  | layout {tr : List (Ev K V E)} {s : State K V E} (m : List (UInt64 × Nat)) (p : UInt64 → UInt64 → Bool)
      (hr : Run c s0 tr s) (hm : m.Perm s.base.shard.map) (hp : ∀ x, p x x = true) :
      Run c s0 tr { s with base := { s.base with shard := s.base.shard.relayout m p } }
  | act {tr : List (Ev K V E)} {s s' : State K V E} {act : Act K V E} {ev : List (Ev K V E)} (hr : Run c s0 tr s)
      (hs : exec c s act = some (.ok (s', ev))) : Run c s0 (tr ++ ev) s'

end Fetch
end QuickCache
