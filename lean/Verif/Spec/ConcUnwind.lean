import Verif.Spec.Conc
import Verif.Spec.Unwind
import Verif.Model.ConcUnwind

/-!
# Specification of what a panic in user code leaves behind in the concurrent cache
-/

namespace QuickCache
variable {K V RS : Type}

namespace Conc

/-- The calls of user code whose panic leaves the protocol intact. -/
def Where.safe : Where → Bool
  | .code i => i.safe
  | .cloneFound | .cloneJoined | .cloneForThread | .clonePublished | .cloneWaker | .renewWaker | .wakeDropped => true
  | .cloneForTask | .wakeInserted => false

/-- `Rough c s0 s`: some interleaving of actions leads from `s0` to `s`, some of them interrupted by a panic of user code at a
safe place. -/
inductive Rough [DecidableEq K] (c : Cfg K V RS) (s0 : State K V) : State K V → Prop
  | start : Rough c s0 s0
  | layout {s : State K V} (m : List (UInt64 × Nat)) (p : UInt64 → UInt64 → Bool)
      (hr : Rough c s0 s) (hm : m.Perm s.shard.map) (hp : ∀ x, p x x = true) :
      Rough c s0 { s with shard := s.shard.relayout m p }
  | act {s s' : State K V} {act : Act K V} {ev : List (Ev K V)} (hr : Rough c s0 s)
      (hs : exec c s act = some (.ok (s', ev))) : Rough c s0 s'
  | interrupted {s s' : State K V} {act : Act K V} {x : Stop K V} (hr : Rough c s0 s)
      (hx : x ∈ stops c s act) (safe : x.site.safe = true) (left : x.left = .ok s') : Rough c s0 s'

end Conc

namespace Spec
open Conc

/-- The agent that does an action. -/
def actor : Act K V → Option Nat
  | .begin _ _ | .call _ => none
  | .enter a _ | .find a | .load a _ | .bump a | .tally a | .upsert a | .join a | .startLoading a | .wake a | .poll a _
  | .timeout a | .relock a | .rejoin a | .publish a _ | .store a | .drop a | .lockDrop a | .finishDrop a | .cancel a
  | .abandon a => some a

/-- The call of the map that an action carries out, if it is one that may change the contents. -/
def work (s : State K V) : Act K V → Option (Op K V)
  | .call op => some op
  | .store a =>
    match s.ctl a with
    | .inserting k _ v _ => some (.insert k v)
    | _ => none
  | _ => none

/-- What becomes of an agent whose action is interrupted: it is gone; or it had a guard and is now dropping it; or it is a
waiting future whose waker could not be renewed. -/
inductive Thrown (s s' : State K V) (a : Nat) : Prop
  | gone (h : s'.ctl a = .idle)
  | guard {k : K} {p : Plh} (h : s.ctl a = .guard k p) (h' : s'.ctl a = .leaving k p)
  | waiting {k : K} {p : Plh} (h : s.ctl a = .waiting k p) (h' : s'.ctl a = .waiting k p) (hf : s'.flag a = s.flag a)

/-- What the interrupted action `act` may have done. -/
structure Aftermath [DecidableEq K] (c : Cfg K V RS) (target : Nat) (s : State K V) (act : Act K V) (s' : State K V) :
    Prop where
  /-- the contents are unchanged, or as an interrupted call leaves them -/
  contents : match work s act with
    | some op => Left c target s.shard.contents op s'.shard.contents
    | none => s'.shard.contents = s.shard.contents
  /-- what becomes of the agent -/
  thrown : ∀ a, actor act = some a → Thrown s s' a
  /-- it holds no lock of the shard any more, and nobody else's lock is touched -/
  writer : s'.writer = if s.writer = actor act then none else s.writer
  readers : ∀ b, b ∈ s'.readers ↔ b ∈ s.readers ∧ actor act ≠ some b
  /-- the other agents are where they were; a notification is not lost -/
  others : ∀ b, actor act ≠ some b → s'.ctl b = s.ctl b ∧ (s.flag b = true → s'.flag b = true)
  kind : s'.kind = s.kind
  /-- no load has been completed or given up -/
  loads : ∀ i, (s'.plh i).map PState.loading = (s.plh i).map PState.loading
  /-- no load has become joinable; one that was still is, unless its key was being stored -/
  joinable : ∀ k p, (Joinable c s'.shard k p → Joinable c s.shard k p) ∧
    (Joinable c s.shard k p → Joinable c s'.shard k p ∨ ∃ v, work s act = some (.insert k v))

end Spec
end QuickCache
