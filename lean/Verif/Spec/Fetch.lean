import Verif.Model.Fetch
import Verif.Spec.Conc

/-!
# What a call of `get_or_insert_with` or `get_or_insert_async` may do
-/

namespace QuickCache.Spec
variable {K V RS E : Type _}
open Fetch

/-- The events that concern call `a` as its caller sees it. -/
def ofCall (a : Nat) : Fetch.Ev K V E → Bool
  | .base (.hit b _ _) | .base (.received b _ _ _) | .base (.timedOut b) | .base (.cancelled b) => b == a
  | .called b _ | .loader b _ | .loaded b _ | .returned b _ => b == a
  | _ => false

/-- The story of call `a`. -/
def story (a : Nat) (tr : List (Fetch.Ev K V E)) : List (Fetch.Ev K V E) := tr.filter (ofCall a)

/-- The stories of a complete call for key `k`. -/
inductive Told (a : Nat) (k : K) : List (Fetch.Ev K V E) → Prop
  /-- the value is in the cache -/
  | found (v : V) : Told a k [.called a k, .base (.hit a k v), .returned a (.ok v)]
  /-- the value comes from the load of someone else -/
  | received (p : Plh) (v : V) : Told a k [.called a k, .base (.received a k p v), .returned a (.ok v)]
  /-- the value comes from the call's own loader -/
  | loaded (v : V) : Told a k [.called a k, .loader a k, .loaded a (some (.ok v)), .returned a (.ok v)]
  /-- the loader fails -/
  | failed (e : E) : Told a k [.called a k, .loader a k, .loaded a (some (.error e)), .returned a (.error e)]
  /-- the loader panics, or the future is dropped while it runs -/
  | broken : Told a k [.called a k, .loader a k, .loaded a none]
  /-- the future is dropped before it has a value or a guard -/
  | cancelled : Told a k [.called a k, .base (.cancelled a)]

/-- The loader of call `a` for key `k` is running. -/
def Running (tr : List (Fetch.Ev K V E)) (a : Nat) (k : K) : Prop := .loader a k ∈ tr ∧ ∀ r, .loaded a r ∉ tr

/-- The events of the protocol in a trace. -/
def baseEvs (tr : List (Fetch.Ev K V E)) : List (Conc.Ev K V) :=
  tr.filterMap (fun e => match e with | .base e => some e | _ => none)

/-- What is due (`Spec.Due`), with the guards of `get_or_insert_with` used as its code does. -/
inductive FetchDue (s : Fetch.State K V E) : Fetch.Act K V E → Prop
  | base (act : Conc.Act K V) (h : Due s.base act) : FetchDue s (.base act)
  | load (a : Nat) : FetchDue s (.load a)
  | finish (a : Nat) (r : Option (Except E V)) : FetchDue s (.finish a r)
  | insert (a : Nat) : FetchDue s (.insert a)
  | giveUp (a : Nat) : FetchDue s (.giveUp a)

/-- `FetchSteps c s0 n s`: without new calls, `s0` leads to `s`, with `n` actions other than the extra ones (`Spec.Extra`). -/
inductive FetchSteps [DecidableEq K] (c : Cfg K V RS) (s0 : Fetch.State K V E) : Nat → Fetch.State K V E → Prop
  | start : FetchSteps c s0 0 s0
  | layout {n : Nat} {s : Fetch.State K V E} (m : List (UInt64 × Nat)) (p : UInt64 → UInt64 → Bool)
      (h : FetchSteps c s0 n s) (hm : m.Perm s.base.shard.map) (hp : ∀ x, p x x = true) :
      FetchSteps c s0 n { s with base := { s.base with shard := s.base.shard.relayout m p } }
  | extra {n : Nat} {s s' : Fetch.State K V E} {act : Conc.Act K V} {ev : List (Fetch.Ev K V E)} (h : FetchSteps c s0 n s)
      (hx : Extra s.base act) (hs : Fetch.exec c s (.base act) = some (.ok (s', ev))) : FetchSteps c s0 n s'
  | act {n : Nat} {s s' : Fetch.State K V E} {act : Fetch.Act K V E} {ev : List (Fetch.Ev K V E)} (h : FetchSteps c s0 n s)
      (hx : ∀ bact, act = .base bact → ¬ Extra s.base bact) (hb : ∀ kind k, act ≠ .base (.begin kind k))
      (hc : ∀ tid k, act ≠ .call tid k) (ha : ∀ k, act ≠ .callAsync k) (hs : Fetch.exec c s act = some (.ok (s', ev))) :
      FetchSteps c s0 (n + 1) s'

end QuickCache.Spec
