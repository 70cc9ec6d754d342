import Verif.Spec.History
import Verif.Spec.Clock
import Verif.Spec.Conc

/-!
# Lifecycles that change between calls

A lifecycle may keep state of its own: `is_pinned` may look at a reference count or a flag, `before_evict` at a setting. Seen
from the cache it then answers differently from call to call. Hasher and weighter stay the same.
-/

namespace QuickCache.Spec
variable {K V RS : Type} [DecidableEq K]
open Unsync

/-- The two configurations have hasher and weighter in common. The lifecycles may differ in everything. -/
structure Kin (c c' : Cfg K V RS) : Prop where
  hash : c'.hash = c.hash
  weight : c'.weight = c.weight
  ptrEq : c'.ptrEq = c.ptrEq

/-- `Varied c s0 h s`: starting from the cache `s0`, the calls recorded in `h` lead to the cache `s`, each made while the
lifecycle was that of the configuration recorded with it. -/
inductive Varied (c : Cfg K V RS) (s0 : Shard K V) : List (Cfg K V RS × Call K V) → Shard K V → Prop
  | start : Varied c s0 [] s0
  | layout {h : List (Cfg K V RS × Call K V)} {s : Shard K V} (m : List (UInt64 × Nat)) (p : UInt64 → UInt64 → Bool)
      (hr : Varied c s0 h s) (hm : m.Perm s.map) (hp : ∀ x, p x x = true) : Varied c s0 h (s.relayout m p)
  | call {h : List (Cfg K V RS × Call K V)} {s s' : Shard K V} {c' : Cfg K V RS} {op : Op K V} {out : Out K V}
      {q : Req K V RS} (hr : Varied c s0 h s) (hk : Kin c c') (hs : step c' s op = .ok (s', out, q)) :
      Varied c s0 (h ++ [(c', ⟨op, out, q.log⟩)]) s'

/-- A history of the plain map (`Replays`), each call with its own lifecycle. -/
inductive VariedReplays (target : Nat) (m0 : K → Option V) : List (Cfg K V RS × Call K V) → (K → Option V) → Prop
  | start : VariedReplays target m0 [] m0
  | call {h : List (Cfg K V RS × Call K V)} {m m' : K → Option V} {c : Cfg K V RS} {x : Call K V}
      (hr : VariedReplays target m0 h m) (hx : OpSpec c target m x.op x.out x.log m') : VariedReplays target m0 (h ++ [(c, x)]) m'

/-- A history of the clock machine (`Clock.Run`), each call with its own lifecycle. -/
inductive VariedClock (m0 : Clock K V) : List (Cfg K V RS × Call K V) → Clock K V → Prop
  | start : VariedClock m0 [] m0
  | call {h : List (Cfg K V RS × Call K V)} {m m' : Clock K V} {c : Cfg K V RS} {x : Call K V}
      (hr : VariedClock m0 h m) (hx : Clock.Step c m x.op x.out x.log m') : VariedClock m0 (h ++ [(c, x)]) m'

/-! ### The concurrent cache -/

/-- `VariedConc c s0 h s`: from the state `s0` of the concurrent cache some interleaving of actions leads to `s`. Each action
is recorded with the lifecycle of the moment and the events it caused. -/
inductive VariedConc (c : Cfg K V RS) (s0 : Conc.State K V) : List (Cfg K V RS × List (Conc.Ev K V)) → Conc.State K V → Prop
  | start : VariedConc c s0 [] s0
  | layout {h : List (Cfg K V RS × List (Conc.Ev K V))} {s : Conc.State K V} (m : List (UInt64 × Nat))
      (p : UInt64 → UInt64 → Bool) (hr : VariedConc c s0 h s) (hm : m.Perm s.shard.map) (hp : ∀ x, p x x = true) :
      VariedConc c s0 h { s with shard := s.shard.relayout m p }
  | act {h : List (Cfg K V RS × List (Conc.Ev K V))} {s s' : Conc.State K V} {c' : Cfg K V RS} {act : Conc.Act K V}
      {evs : List (Conc.Ev K V)} (hr : VariedConc c s0 h s) (hk : Kin c c')
      (hs : Conc.exec c' s act = some (.ok (s', evs))) : VariedConc c s0 (h ++ [(c', evs)]) s'

/-- The calls in the trace, in the order in which they took effect, each with the lifecycle of that moment. -/
def variedCalls (h : List (Cfg K V RS × List (Conc.Ev K V))) : List (Cfg K V RS × Call K V) :=
  h.flatMap (fun x => (calls x.2).map (fun y => (x.1, y)))

/-- `VariedSteps c s0 n s`: without new calls of `get` or `get_value_or_guard`, `s0` leads to `s`, with `n` actions other
than the extra ones (see `Steps`), the lifecycle changing arbitrarily. -/
inductive VariedSteps (c : Cfg K V RS) (s0 : Conc.State K V) : Nat → Conc.State K V → Prop
  | start : VariedSteps c s0 0 s0
  | layout {n : Nat} {s : Conc.State K V} (m : List (UInt64 × Nat)) (p : UInt64 → UInt64 → Bool)
      (h : VariedSteps c s0 n s) (hm : m.Perm s.shard.map) (hp : ∀ x, p x x = true) :
      VariedSteps c s0 n { s with shard := s.shard.relayout m p }
  | extra {n : Nat} {s s' : Conc.State K V} {c' : Cfg K V RS} {act : Conc.Act K V} {ev : List (Conc.Ev K V)}
      (h : VariedSteps c s0 n s) (hk : Kin c c') (hx : Extra s act) (hs : Conc.exec c' s act = some (.ok (s', ev))) :
      VariedSteps c s0 n s'
  | act {n : Nat} {s s' : Conc.State K V} {c' : Cfg K V RS} {act : Conc.Act K V} {ev : List (Conc.Ev K V)}
      (h : VariedSteps c s0 n s) (hk : Kin c c') (hx : ¬ Extra s act) (hb : ∀ kind k, act ≠ .begin kind k)
      (hs : Conc.exec c' s act = some (.ok (s', ev))) : VariedSteps c s0 (n + 1) s'

end QuickCache.Spec
