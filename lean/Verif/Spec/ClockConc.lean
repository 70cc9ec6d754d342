import Verif.Spec.Clock
import Verif.Spec.Conc

/-!
# The replacement policy under concurrent use

`Clock.Sect` says what every critical section of the concurrent cache does to the abstract clock machine, `Clock.Trace` what
a whole trace of events does: only critical sections change the machine.
-/

namespace QuickCache.Spec
variable {K V RS : Type _}
open Conc

/-- The event is a critical section. -/
def isSect : Ev K V → Bool
  | .sect _ _ _ => true
  | _ => false

namespace Clock
variable [DecidableEq K]

/-- `Sect c gone m sec out log m'`: the section `sec` with outcome `out`, making the lifecycle calls `log`, leads from `m` to
`m'`. `gone k p` says that the load `p` of the key `k` was superseded. -/
inductive Sect (c : Cfg K V RS) (gone : K → Plh → Prop) (m : Clock K V) :
    Section K V → SOut K V → List (Event K V) → Clock K V → Prop
  | call {op : Op K V} {out : Out K V} {log : List (Event K V)} {m' : Clock K V} (step : Step c m op out log m') :
      Sect c gone m (.call op) (.call out) log m'
  /-- a caller about to load the key finds a value -/
  | found {k : K} {v : V} {m' : Clock K V} (look : Lookup c m k (some v) m') :
      Sect c gone m (.upsert k) (.found v) [] m'
  /-- it begins to load the key -/
  | began {k : K} {p : Plh} {m' : Clock K V} (idle : m.pending k = none) (look : Lookup c m k none m') :
      Sect c gone m (.upsert k) (.pending p true) [] m'
  /-- it joins a load -/
  | joined {k : K} {p : Plh} {b : Bool} (pending : m.pending k = some b) (look : Lookup c m k none m) :
      Sect c gone m (.upsert k) (.pending p false) [] m
  /-- the end of a load -/
  | filled {k : K} {p : Plh} {waited : Bool} {v : V} {log : List (Event K V)} {m' : Clock K V} (here : ¬ gone k p)
      (fill : Fill c m k v waited log m') : Sect c gone m (.fill k p waited v) (.filled none) log m'
  | superseded {k : K} {p : Plh} {waited : Bool} {v : V} (late : gone k p) :
      Sect c gone m (.fill k p waited v) (.filled (some v)) [] m
  /-- a load is given up -/
  | abandoned {k : K} {p : Plh} (here : ¬ gone k p) :
      Sect c gone m (.abandon k p) .unit [] { m with pending := del m.pending k }
  | abandonedLate {k : K} {p : Plh} (late : gone k p) : Sect c gone m (.abandon k p) .unit [] m
  /-- `get` reads an item, … -/
  | find {k : K} {r : Option (Nat × V)} (value : m.value k = r.map (·.2)) :
      Sect c gone m (.find k) (.located r) [] m
  /-- … then its reference counter, … -/
  | load {k : K} {t : Nat} {i : Item V} (here : m.items k = some i) :
      Sect c gone m (.load k t) (.counter i.refs) [] m
  /-- … and increments this 16-bit counter -/
  | bump {k : K} {t : Nat} {i : Item V} (here : m.items k = some i) :
      Sect c gone m (.bump k t) .unit [] (m.setItem k { i with refs := (i.refs + 1) % 2 ^ 16 })
  | count {hit : Bool} : Sect c gone m (.count hit) .unit [] m

/-- `Trace c m0 tr m`: the critical sections in the trace `tr`, one after the other, lead from `m0` to `m`. -/
inductive Trace (c : Cfg K V RS) (m0 : Clock K V) : List (Ev K V) → Clock K V → Prop
  | start : Trace c m0 [] m0
  | sect {tr : List (Ev K V)} {m m' : Clock K V} {sec : Section K V} {out : SOut K V} {log : List (Event K V)}
      (ht : Trace c m0 tr m) (hs : Sect c (Superseded c m0.target tr) m sec out log m') :
      Trace c m0 (tr ++ [.sect sec out log]) m'
  | other {tr : List (Ev K V)} {m : Clock K V} {e : Ev K V} (ht : Trace c m0 tr m) (he : isSect e = false) :
      Trace c m0 (tr ++ [e]) m

end Clock
end QuickCache.Spec
