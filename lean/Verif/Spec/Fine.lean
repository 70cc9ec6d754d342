import Verif.Model.Fine
import Verif.Spec.Conc

/-!
# Parking: what is due, what disturbs
-/

namespace QuickCache.Spec
variable {K V RS : Type}
open Fine

/-- Thread `t`, waiting for a load as agent `a`, is blocked in `park`: its token is not there. -/
def Blocked (f : State K V) (a t : Nat) : Prop := (∃ timed, waits f a = some (t, timed)) ∧ f.pc a = .parked ∧ f.token t = false

/-- Somebody holds a state lock and is about to unpark `a`. -/
def Unparks (f : State K V) (a : Nat) : Prop := ∃ i h, f.hold i = some h ∧ .unpark a ∈ h.todo

/-- The actions that are due: everything a running call does next, `park` returning because the token is there, a notified
thread or future noticing it, a guard holder inserting or dropping, and a notifier going on. Not due are new calls, park
returning for no reason, stray tokens, cancellations, and polling a future that was not notified. -/
inductive FineDue (f : State K V) : FAct K V → Prop
  | act {x : Conc.Act K V} (h : Due f.base x) : FineDue f (.act x)
  | park (a : Nat) : FineDue f (.park a)
  | unparked (a : Nat) : FineDue f (.unparked a)
  | look (a : Nat) (over : Bool) : FineDue f (.look a over)
  | expire (a : Nat) : FineDue f (.expire a)
  | poll (a w : Nat) (h : f.flag a = true) : FineDue f (.poll a w)
  | relock (a : Nat) : FineDue f (.relock a)
  | lock (a : Nat) (v : Option V) : FineDue f (.lock a v)
  | note (i : Nat) : FineDue f (.note i)
  | unlock (i : Nat) : FineDue f (.unlock i)

/-- Actions that do not advance any of the callers: calls made of one section, and polls of futures not notified. -/
def FineExtra (f : State K V) : FAct K V → Prop
  | .act (.call _) => True
  | .poll a _ => f.flag a = false
  | _ => False

/-- What may happen to a waiting thread for no reason: a stray token, the loss of a token, `park` returning. -/
def Disturbs : FAct K V → Prop
  | .stray _ | .steal _ | .spurious _ => True
  | _ => False

/-- `FineSteps c f0 n m f`: without new calls of `get` or `get_value_or_guard`, `f0` leads to `f`, with `m` disturbances and `n`
actions that are neither disturbances nor extra ones. -/
inductive FineSteps [DecidableEq K] (c : Cfg K V RS) (f0 : State K V) : Nat → Nat → State K V → Prop
  | start : FineSteps c f0 0 0 f0
  | layout {n d : Nat} {f : State K V} (m : List (UInt64 × Nat)) (p : UInt64 → UInt64 → Bool)
      (h : FineSteps c f0 n d f) (hm : m.Perm f.base.shard.map) (hp : ∀ x, p x x = true) :
      FineSteps c f0 n d { f with base := { f.base with shard := f.base.shard.relayout m p } }
  | extra {n d : Nat} {f f' : State K V} {act : FAct K V} {ev : List (Conc.Ev K V)} (h : FineSteps c f0 n d f)
      (hx : FineExtra f act) (hs : step c f act = some (.ok (f', ev))) : FineSteps c f0 n d f'
  | disturb {n d : Nat} {f f' : State K V} {act : FAct K V} {ev : List (Conc.Ev K V)} (h : FineSteps c f0 n d f)
      (hx : Disturbs act) (hs : step c f act = some (.ok (f', ev))) : FineSteps c f0 n (d + 1) f'
  | act {n d : Nat} {f f' : State K V} {act : FAct K V} {ev : List (Conc.Ev K V)} (h : FineSteps c f0 n d f)
      (hx : ¬ FineExtra f act) (hd : ¬ Disturbs act) (hb : ∀ kind k, act ≠ .act (.begin kind k))
      (hs : step c f act = some (.ok (f', ev))) : FineSteps c f0 (n + 1) d f'

end QuickCache.Spec
