import Verif.Model.Conc
import Verif.Props.Example

/-!
# Concrete runs of the concurrent protocol, used to show that the theorems are not vacuous
-/

namespace QuickCache
variable {K V RS : Type _}
open Conc

/-- Performing a list of actions, all of which must be possible. -/
def runActs [DecidableEq K] (c : Cfg K V RS) (s : State K V) : List (Act K V) → Option (State K V × List (Ev K V))
  | [] => some (s, [])
  | act :: acts =>
    match exec c s act with
    | some (.ok (s1, e1)) =>
      match runActs c s1 acts with
      | some (s2, e2) => some (s2, e1 ++ e2)
      | none => none
    | _ => none

theorem Conc.Run.append [DecidableEq K] {c : Cfg K V RS} {s0 s' : State K V} :
    ∀ {acts : List (Act K V)} {s : State K V} {t t' : List (Ev K V)}, Run c s0 t s →
      runActs c s acts = some (s', t') → Run c s0 (t ++ t') s' := by
  intro acts
  induction acts with
  | nil =>
    intro s t t' hr hs
    cases hs
    simpa using hr
  | cons act acts ih =>
    intro s t t' hr hs
    unfold runActs at hs
    split at hs
    · rename_i s1 e1 h1
      split at hs
      · rename_i s2 e2 h2
        cases hs
        have := ih (.act hr h1) h2
        simpa using this
      · cases hs
    · cases hs

/-- The example cache, with placeholders compared by address. -/
def cxCfg : Cfg Nat Nat (List Nat) := { exCfg with ptrEq := true }

/-- The shard of the example cache with nobody using it: hot target 8, capacity 10, at most 3 ghosts. -/
def cxNew : State Nat Nat := State.new (Shard.new 8 10 3)

/-- The example after a list of actions. -/
def cxRun (acts : List (Act Nat Nat)) : State Nat Nat × List (Ev Nat Nat) := (runActs cxCfg cxNew acts).getD (cxNew, [])

/-- All actions of the list are possible. -/
def cxFine (acts : List (Act Nat Nat)) : Bool := (runActs cxCfg cxNew acts).isSome

theorem cxRun_run {acts : List (Act Nat Nat)} (h : cxFine acts = true) :
    Run cxCfg (State.new (Shard.new 8 10 3)) (cxRun acts).2 (cxRun acts).1 := by
  unfold cxFine at h
  unfold cxRun
  rcases hr : runActs cxCfg cxNew acts with _ | ⟨s, t⟩
  · rw [hr] at h; cases h
  · have := Run.append (c := cxCfg) (s0 := cxNew) .start hr
    rw [List.nil_append] at this
    exact this

/-- One more action on the example. -/
def cxNext (acts : List (Act Nat Nat)) (act : Act Nat Nat) : State Nat Nat × List (Ev Nat Nat) :=
  match exec cxCfg (cxRun acts).1 act with
  | some (.ok x) => x
  | _ => (cxNew, [])

/-- The action is possible and does not panic. -/
def cxNextFine (acts : List (Act Nat Nat)) (act : Act Nat Nat) : Bool :=
  match exec cxCfg (cxRun acts).1 act with
  | some (.ok _) => true
  | _ => false

theorem cxNext_exec {acts : List (Act Nat Nat)} {act : Act Nat Nat} (h : cxNextFine acts act = true) :
    exec cxCfg (cxRun acts).1 act = some (.ok (cxNext acts act)) := by
  unfold cxNextFine at h
  unfold cxNext
  split at h
  · rename_i x hx; rw [hx]
  · cases h

/-- The load number `i` of key 7, in slot `t`. -/
abbrev ld (i t : Nat) : Plh := ⟨i, 7 % 3, t⟩

/-- A caller asks for a key that is not in the cache and gets as far as the shard's write lock. -/
def cxAsk (a : Nat) (kind : Kind) (k : Nat) : List (Act Nat Nat) :=
  [.begin kind k, .enter a (10 * a), .find a, .tally a, .upsert a]

/-- Key 7 is asked for by a thread (agent 0), which gets the guard, a future (agent 1) and a thread with a timeout
(agent 2), which wait. -/
def cxWait : List (Act Nat Nat) :=
  cxAsk 0 (.thread 0 false) 7 ++ [.startLoading 0] ++ cxAsk 1 .task 7 ++ [.join 1] ++ cxAsk 2 (.thread 2 true) 7 ++ [.join 2]

/-- The guard is dropped and handed over to agent 2, which gets it. -/
def cxHand : List (Act Nat Nat) :=
  cxWait ++ [.drop 0, .lockDrop 0, .finishDrop 0, .wake 2, .relock 2, .rejoin 2, .startLoading 2]

/-- Agent 2 inserts the value 12, and agent 1, polled once more in between, receives it. -/
def cxDone : List (Act Nat Nat) :=
  cxHand ++ [.poll 1 11, .publish 2 12, .store 2, .poll 1 13, .relock 1, .rejoin 1]

/-- While agent 0 loads key 7, the key is removed and agent 1 begins another load of it. -/
def cxTwo : List (Act Nat Nat) :=
  cxAsk 0 (.thread 0 false) 7 ++ [.startLoading 0, .call (.remove 7)] ++ cxAsk 1 .task 7 ++ [.startLoading 1]

/-- Key 7 is stored, and looked up by two callers at the same time. -/
def cxRead : List (Act Nat Nat) :=
  [.call (.insert 7 12), .begin .get 7, .begin .task 7, .enter 0 0, .enter 1 5, .find 0, .find 1, .load 1, .load 0,
   .bump 0, .bump 1, .tally 0, .tally 1]

/-- An event of the list satisfies the test. -/
def has (f : Ev Nat Nat → Bool) (t : List (Ev Nat Nat)) : Bool := t.any f

theorem has_split {f : Ev Nat Nat → Bool} {t : List (Ev Nat Nat)} (h : has f t = true) :
    ∃ t1 e t2, t = t1 ++ e :: t2 ∧ f e = true := by
  obtain ⟨e, he, hf⟩ := List.any_eq_true.mp h
  obtain ⟨t1, t2, rfl⟩ := List.append_of_mem he
  exact ⟨t1, e, t2, rfl, hf⟩

end QuickCache
