import Verif.Model.Conc
import Verif.Spec.History

/-!
# Notions for the properties of the concurrent protocol

Positions of agents (`/repo/src/sync_placeholder.rs`) and functions of the trace of events.
-/

namespace QuickCache.Spec
variable {K V RS : Type _}
open Unsync Conc

/-! ### Positions -/

/-- The load of placeholder `p` is pending: no value has been published and it has not been given up. -/
def LoadPending (s : State K V) (p : Plh) : Prop := ∃ ps, s.plh p.id = some ps ∧ ps.handle = p ∧ ps.loading = .loading

/-- Agent `a` waits for the load `p` and has not been notified. -/
def Waits (s : State K V) (a : Nat) (p : Plh) : Prop := (∃ k, s.ctl a = .waiting k p) ∧ s.flag a = false

/-- Agent `a` has the right (and duty) to provide the value of `p`: it has a guard or is just getting or dropping it, or it
was notified while the load is pending, so that it will get the guard. -/
inductive Entitled (s : State K V) (a : Nat) (p : Plh) : Prop
  | guard (k : K) (h : s.ctl a = .guard k p)
  | starting (k : K) (w : Bool) (h : s.ctl a = .starting k p w)
  | leaving (k : K) (h : s.ctl a = .leaving k p)
  | dropping (k : K) (h : s.ctl a = .dropping k p)
  | abandoning (k : K) (h : s.ctl a = .abandoning k p)
  | notified (k : K) (h : s.ctl a = .waiting k p) (flag : s.flag a = true) (pending : LoadPending s p)
  | claimed (k : K) (h : s.ctl a = .claimed k p) (pending : LoadPending s p)
  | rejoining (k : K) (h : s.ctl a = .rejoining k p) (pending : LoadPending s p)

/-- Agent `a` has a guard of the load `p` of key `k`, and neither its `insert` nor its drop is complete. -/
inductive Loads (s : State K V) (a : Nat) (k : K) (p : Plh) : Prop
  | guard (h : s.ctl a = .guard k p)
  | inserting (v : V) (r : Bool) (h : s.ctl a = .inserting k p v r)
  | leaving (h : s.ctl a = .leaving k p)
  | dropping (h : s.ctl a = .dropping k p)

/-! ### Traces -/

/-- The events that take the placeholder of `k` out of the cache: `remove(k)`, `clear`, and `insert(k, v)` of an item that
is admitted. -/
inductive Supersedes (c : Cfg K V RS) (target : Nat) (k : K) : Ev K V → Prop
  | remove (out : SOut K V) (log : List (Event K V)) : Supersedes c target k (.sect (.call (.remove k)) out log)
  | clear (out : SOut K V) (log : List (Event K V)) : Supersedes c target k (.sect (.call .clear) out log)
  | insert (v : V) (out : SOut K V) (log : List (Event K V)) (adm : Admissible c target k v) :
      Supersedes c target k (.sect (.call (.insert k v)) out log)

/-- Since the load `p` of `k` began, `k` was removed, cleared or inserted. -/
def Superseded (c : Cfg K V RS) (target : Nat) (tr : List (Ev K V)) (k : K) (p : Plh) : Prop :=
  ∃ t1 a t2 e, tr = t1 ++ .began a k p :: t2 ∧ e ∈ t2 ∧ Supersedes c target k e

/-- The waker passed to the most recent poll of `a`. -/
def lastWaker (a : Nat) (tr : List (Ev K V)) : Option Nat :=
  tr.foldl (fun cur e => match e with
    | .polled b w => if b = a then some w else cur
    | _ => cur) none

/-- The agents holding a guard of `p`: those that got one and have neither published a value nor finished dropping it. -/
def guards (p : Plh) (tr : List (Ev K V)) : List Nat :=
  tr.foldl (fun l e => match e with
    | .gotGuard a _ q => if q = p then a :: l else l
    | .published a q _ => if q = p then l.erase a else l
    | .handedOver a q _ => if q = p then l.erase a else l
    | .dropped a _ q => if q = p then l.erase a else l
    | _ => l) []

/-- The event is about the load `p`: its beginning, a caller joining it, a guard of it, or a value received from it. -/
def About (p : Plh) : Ev K V → Prop
  | .received _ _ q _ => q = p
  | .began _ _ q => q = p
  | .gotGuard _ _ q => q = p
  | .published _ q _ => q = p
  | .insertDone _ _ q _ => q = p
  | .handedOver _ q _ => q = p
  | .dropped _ _ q => q = p
  | .sect (.upsert _) (.pending q false) _ => q = p
  | _ => False

/-- The events after which a key may be stored or being loaded, though it was not before. -/
def Enters (k : K) : Ev K V → Prop
  | .began _ k' _ => k' = k
  | .sect (.call (.insert k' _)) _ _ => k' = k
  | _ => False

/-- The events as calls of a sequential cache: the calls made of one section as they are, an insertion through a guard as
an `insert`, the lookup of a caller that returns as a `get`. -/
def asCall : Ev K V → Option (Call K V)
  | .sect (.call op) (.call out) log => some ⟨op, out, log⟩
  | .sect (.fill k _ _ v) (.filled none) log => some ⟨.insert k v, .unit, log⟩
  | .hit _ k v => some ⟨.get k, .value (some v), []⟩
  | .miss _ k => some ⟨.get k, .value none, []⟩
  | _ => none

/-- The history of sequential calls in a trace. -/
def calls (tr : List (Ev K V)) : List (Call K V) := tr.filterMap asCall

/-! ### Progress -/

/-- Actions that do not advance any of the agents: calls made of one section, and polls of futures not notified. -/
def Extra (s : State K V) : Act K V → Prop
  | .call _ => True
  | .poll a _ => s.flag a = false
  | _ => False

/-- `Steps c s0 n s`: without new calls of `get` or `get_value_or_guard`, `s0` leads to `s`, with `n` actions other than the
extra ones. -/
inductive Steps [DecidableEq K] (c : Cfg K V RS) (s0 : State K V) : Nat → State K V → Prop
  | start : Steps c s0 0 s0
  | layout {n : Nat} {s : State K V} (m : List (UInt64 × Nat)) (p : UInt64 → UInt64 → Bool)
      (h : Steps c s0 n s) (hm : m.Perm s.shard.map) (hp : ∀ x, p x x = true) :
      Steps c s0 n { s with shard := s.shard.relayout m p }
  | extra {n : Nat} {s s' : State K V} {act : Act K V} {ev : List (Ev K V)} (h : Steps c s0 n s) (hx : Extra s act)
      (hs : exec c s act = some (.ok (s', ev))) : Steps c s0 n s'
  | act {n : Nat} {s s' : State K V} {act : Act K V} {ev : List (Ev K V)} (h : Steps c s0 n s) (hx : ¬ Extra s act)
      (hb : ∀ kind k, act ≠ .begin kind k) (hs : exec c s act = some (.ok (s', ev))) : Steps c s0 (n + 1) s'

/-- The actions that are due: everything a running call does next, a notified thread or future noticing it, and a guard
holder inserting or dropping. Not due are new calls, timeouts, cancellations, and polling a future that was not notified. -/
inductive Due (s : State K V) : Act K V → Prop
  | enter (a w : Nat) : Due s (.enter a w)
  | find (a : Nat) : Due s (.find a)
  | load (a : Nat) (old : Option Nat) : Due s (.load a old)
  | bump (a : Nat) : Due s (.bump a)
  | tally (a : Nat) : Due s (.tally a)
  | upsert (a : Nat) : Due s (.upsert a)
  | join (a : Nat) : Due s (.join a)
  | startLoading (a : Nat) : Due s (.startLoading a)
  | wake (a : Nat) : Due s (.wake a)
  | poll (a w : Nat) (h : s.flag a = true) : Due s (.poll a w)
  | relock (a : Nat) : Due s (.relock a)
  | rejoin (a : Nat) : Due s (.rejoin a)
  | publish (a : Nat) (v : V) : Due s (.publish a v)
  | store (a : Nat) : Due s (.store a)
  | drop (a : Nat) : Due s (.drop a)
  | lockDrop (a : Nat) : Due s (.lockDrop a)
  | finishDrop (a : Nat) : Due s (.finishDrop a)
  | abandon (a : Nat) : Due s (.abandon a)

end QuickCache.Spec
