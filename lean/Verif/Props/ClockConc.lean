import Verif.Proofs.ClockConc
import Verif.Proofs.ConcFacts
import Verif.Props.ConcExample

/-!
# Property C60: the replacement policy under concurrent use
-/

namespace QuickCache.Props
open Conc Spec
variable {K V RS : Type} [DecidableEq K] {c : Cfg K V RS} {target cap gcap : Nat} {tr evs : List (Ev K V)}
  {s s' : State K V}

/-! ### C60: the concurrent cache follows the clock policy -/

/-- In every interleaving the critical sections - with their results and the lifecycle calls they make, evictions
included - act on the abstract clock machine as `Clock.Sect` prescribes, and the contents and weights agree. -/
theorem C60_policy (hr : Conc.Run c (State.new (Shard.new target cap gcap)) tr s) (hq : c.ptrEq = true) :
    ∃ m : Clock K V, Clock.Trace c (.empty target cap gcap) tr m ∧ m.value = s.shard.contents ∧
      m.hotWeight c = s.shard.weightHot ∧ m.coldWeight c = s.shard.weightCold ∧
      m.ghosts.length = s.shard.numNonResident := by
  obtain ⟨m, h1, R, F, h2, rfl⟩ := hr.clock hq
  have hi := (hr.reach hq (.new c target cap gcap)).inv.shard.toInv0
  exact ⟨_, h1, Shard.abs_value _ R, Shard.abs_hotWeight hi h2, Shard.abs_coldWeight hi h2, Shard.abs_ghosts hi h2⟩

/-- The lifecycle calls in a run of the example. -/
def cxLog (acts : List (Act Nat Nat)) : List (Event Nat Nat) :=
  (cxRun acts).2.flatMap fun e => match e with
    | .sect _ _ log => log
    | _ => []

/-- Key 7 is loaded by one caller, nobody waiting for it. -/
def cxAlone : List (Act Nat Nat) := cxAsk 0 (.thread 0 false) 7 ++ [.startLoading 0, .publish 0 12, .store 0]

/-- Three heavy insertions. -/
def cxMore : List (Act Nat Nat) := [.call (.insert 1 55), .call (.insert 2 23), .call (.insert 3 34)]

/-- The item of key 7, loaded while others waited for it, outlasts the three insertions; otherwise it is evicted. -/
example : cxFine (cxDone ++ cxMore) = true ∧ cxFine (cxAlone ++ cxMore) = true ∧
    cxLog (cxDone ++ cxMore) = [.beforeEvict 2 23 23, .onEvict 2 23, .beforeEvict 1 55 50] ∧
    cxLog (cxAlone ++ cxMore) = [.beforeEvict 2 23 23, .onEvict 2 23, .beforeEvict 7 12 12, .onEvict 7 12] :=
  ⟨by decide +kernel, by decide +kernel, by decide +kernel, by decide +kernel⟩

/-- The item of a load counts as used exactly if somebody was waiting for it when its value was published. -/
theorem C60_waited (hr : Conc.Run c (State.new (Shard.new target cap gcap)) tr s) (hq : c.ptrEq = true) {a : Nat} {v : V}
    (hs : exec c s (.publish a v) = some (.ok (s', evs))) :
    ∃ k p waited, s'.ctl a = .inserting k p v waited ∧ (waited = true ↔ ∃ b, Waits s b p) := by
  have hi := (hr.reach hq (.new c target cap gcap)).inv
  cases hi.eff hq hs
  case publish k p ps hp hk hh hl h =>
    refine ⟨k, p, !ps.waiters.isEmpty, Function.update_self .., ?_⟩
    · have hw : ∀ b, Waits s b p ↔ b ∈ ps.waiters := fun b => (hi.mem_waits hp hh).symm
      simp only [hw]
      cases hl : ps.waiters with
      | nil => simp
      | cons b l => simp

/-- The value is stored with that mark. -/
theorem C60_fill (hr : Conc.Run c (State.new (Shard.new target cap gcap)) tr s) (hq : c.ptrEq = true) {a : Nat} {k : K}
    {p : Plh} {v : V} {waited : Bool} (hc : s.ctl a = .inserting k p v waited)
    (hs : exec c s (.store a) = some (.ok (s', evs))) :
    ∃ out log, evs.head? = some (.sect (.fill k p waited v) out log) := by
  have hi := (hr.reach hq (.new c target cap gcap)).inv
  cases hi.eff hq hs
  case superseded hw hr hg h => rw [hc] at h; cases h; exact ⟨_, _, rfl⟩
  case store hw hr hl he h => rw [hc] at h; cases h; exact ⟨_, _, rfl⟩

/-- A lookup increments the counter of its item exactly if it read less than 2 from it: the current value `n`, or an earlier
one. -/
theorem C60_use (hr : Conc.Run c (State.new (Shard.new target cap gcap)) tr s) (hq : c.ptrEq = true) {a : Nat} {k : K}
    {t : Nat} {v : V} {old : Option Nat} (hc : s.ctl a = .saw k t v) (hs : exec c s (.load a old) = some (.ok (s', evs))) :
    ∃ n, evs = [.sect (.load k t) (.counter n) []] ∧
      s'.ctl a = (if old.getD n < 2 then .bump k t v else .tally k (some v)) := by
  have hi := (hr.reach hq (.new c target cap gcap)).inv
  cases hi.eff hq hs
  case load n h =>
    rw [hc] at h; cases h
    exact ⟨n, rfl, Function.update_self ..⟩

/-- A value is published and stored with and without waiters; two lookups of an item read its counter before either of
them increments it. -/
example : cxNextFine cxHand (.publish 2 12) = true ∧ Waits (cxRun cxHand).1 1 (ld 0 0) ∧
    cxNextFine (cxHand ++ [.publish 2 12]) (.store 2) = true ∧
    (cxRun (cxHand ++ [.publish 2 12])).1.ctl 2 = .inserting 7 (ld 0 0) 12 true ∧
    (cxRun (cxAsk 0 (.thread 0 false) 7 ++ [.startLoading 0, .publish 0 12])).1.ctl 0 = .inserting 7 (ld 0 0) 12 false ∧
    cxFine (cxRead.take 8) = true ∧ (cxRun (cxRead.take 8)).1.ctl 0 = .saw 7 0 12 ∧
    (cxRun (cxRead.take 8)).1.ctl 1 = .bump 7 0 12 ∧ cxNextFine (cxRead.take 8) (.load 0) = true ∧
    (cxNext (cxRead.take 8) (.load 0)).1.ctl 0 = .bump 7 0 12 :=
  ⟨by decide +kernel, ⟨⟨7, by decide +kernel⟩, by decide +kernel⟩, by decide +kernel, by decide +kernel, by decide +kernel,
   by decide +kernel, by decide +kernel, by decide +kernel, by decide +kernel, by decide +kernel⟩

end QuickCache.Props
