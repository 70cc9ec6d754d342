import Verif.Proofs.HerdEnd
import Verif.Props.ConcExample

/-!
# Properties C86, C87: the crate's own concurrent tests

`Herd.Run c T (State.new (Shard.new …)) s` says that `s` is the state of the test `T` after some interleaving of its callers on a
new cache. `solve` is the test's `solve_at`: the holder of a guard that finds this many predecessors inserts the value.
-/

namespace QuickCache.Props
variable {K V RS : Type} [DecidableEq K] [DecidableEq V] {c : Cfg K V RS} {target cap gcap solve : Nat} {T : Herd.Test K V}
  {s s' : Herd.State K V}
open Spec Herd

/-! ### C86: `test_get_or_insert`, `test_value_or_guard` and their async versions pass -/

/-- No step of the test fails, whatever the number of callers and the interleaving: every value returned is the good one,
`guard.insert` succeeds, and nothing panics in the cache. Provided that the value fits into the cache and that fewer than
`2^32 - 2` calls were made (an abandoned load can cost a slot for ever, see C23). -/
theorem C86_passes (hr : Herd.Run c T (State.new (Shard.new target cap gcap)) s) (hq : c.ptrEq = true) (hT : T.meddles = false)
    (hS : ∀ n, T.stores n = true ↔ n = solve) (hw : c.weight T.key T.good ≤ target) (htc : target ≤ cap) (h64 : target < 2 ^ 64)
    (hn : s.base.next < 2 ^ 32 - 2) (m : Move K V) (e : Panic) : step c T s m ≠ some (.error e) :=
  no_failure hr hq hT hS hw htc h64 hn

/-- In the end exactly `solve + 1` callers had a guard, and the cache has the value. -/
theorem C86_result (hr : Herd.Run c T (State.new (Shard.new target cap gcap)) s) (hq : c.ptrEq = true) (hT : T.meddles = false)
    (hS : ∀ n, T.stores n = true ↔ n = solve) (hw : c.weight T.key T.good ≤ target) (htc : target ≤ cap) (hn : solve < T.callers)
    (hd : ∀ j < T.callers, s.pos j = .done) : s.entered = solve + 1 ∧ s.base.shard.contents T.key = some T.good :=
  solved (phase hr hq hT hS hw htc) (good hr hq).link hn hd

/-- At no time are there more. -/
theorem C86_entered (hr : Herd.Run c T (State.new (Shard.new target cap gcap)) s) (hq : c.ptrEq = true) (hT : T.meddles = false)
    (hS : ∀ n, T.stores n = true ↔ n = solve) (hw : c.weight T.key T.good ≤ target) (htc : target ≤ cap) :
    s.entered ≤ solve + 1 := by
  cases phase hr hq hT hS hw htc with
  | before he hc hv hh hn => omega
  | after he hv hc => omega

/-- The test does not get stuck: as long as somebody is not done, somebody can go on, without any timeout. -/
theorem C86_progress (hr : Herd.Run c T (State.new (Shard.new target cap gcap)) s) (hq : c.ptrEq = true) {j : Nat}
    (hj : j < T.callers) (hd : s.pos j ≠ .done) : ∃ m, Steady s m ∧ step c T s m ≠ none :=
  carries_on hr hq hj hd

/-- Without further timeouts it comes to an end: there are at most this many more steps. -/
theorem C86_finite (hr : Herd.Run c T (State.new (Shard.new target cap gcap)) s) (hq : c.ptrEq = true) (hT : T.meddles = false)
    {n : Nat} (hs : Steadily c T s n s') : n ≤ 17 * T.callers + 14 * s.base.next := by
  have h1 := (Steadily.bound hs hr hq hT).1
  have h2 := effort_le T s
  omega

/-- So from every state the test can be completed, and its last assertions then hold. -/
theorem C86_completes (hr : Herd.Run c T (State.new (Shard.new target cap gcap)) s) (hq : c.ptrEq = true) (hT : T.meddles = false)
    (hS : ∀ n, T.stores n = true ↔ n = solve) (hw : c.weight T.key T.good ≤ target) (htc : target ≤ cap) (h64 : target < 2 ^ 64)
    (hn : solve < T.callers) (hb : 17 * T.callers + 15 * s.base.next < 2 ^ 32 - 2) :
    ∃ n s', Steadily c T s n s' ∧ (∀ j < T.callers, s'.pos j = .done) ∧ s'.entered = solve + 1 ∧
      s'.base.shard.contents T.key = some T.good := by
  have h1 := effort_le T s
  obtain ⟨n, s', h2, h3⟩ := finishes (gcap := gcap) hq hT hS hw htc h64 (effort T s) s hr (Nat.le_refl _) (by omega)
  exact ⟨n, s', h2, h3, C86_result (Steadily.run h2 hr) hq hT hS hw htc hn h3⟩

/-! An example: two threads, the second one with a timeout, and a task. -/

/-- Performing a list of moves, all of which must be possible. -/
def runMoves (c : Cfg K V RS) (T : Test K V) (s : Herd.State K V) : List (Move K V) → Option (Herd.State K V)
  | [] => some s
  | m :: ms =>
    match step c T s m with
    | some (.ok s1) => runMoves c T s1 ms
    | _ => none

theorem runMoves_run {s0 : Herd.State K V} : ∀ {ms : List (Move K V)} {s : Herd.State K V}, Herd.Run c T s0 s →
    runMoves c T s ms = some s' → Herd.Run c T s0 s' := by
  intro ms
  induction ms with
  | nil => intro s hr h; cases h; exact hr
  | cons m ms ih =>
    intro s hr h
    unfold runMoves at h
    split at h
    · rename_i s1 h1; exact ih (.move hr h1) h
    · cases h

/-- The test on key 7 with the value 12: the second guard is used. -/
def herdTest : Test Nat Nat where
  key := 7
  good := 12
  other := 23
  stores n := n == 1
  meddles := false
  callers := 3
  caller j := if j = 2 then .task else .thread (j == 1)

/-- A new cache: hot target 8, capacity 10, at most 3 ghosts. -/
def herdNew : Herd.State Nat Nat := State.new (Shard.new 8 10 3)

/-- Caller `j` calls, as agent `a`, and gets as far as `upsert_placeholder`. -/
def herdAsk (j a : Nat) : List (Move Nat Nat) :=
  [.ask j, .step j (.enter a 0), .step j (.find a), .step j (.tally a), .step j (.upsert a)]

/-- The first caller gets a guard and is about to drop it; the others wait; the task gives up and calls again; the second
caller times out and calls again. -/
def herdWait : List (Move Nat Nat) :=
  herdAsk 0 0 ++ [.step 0 (.startLoading 0), .count 0] ++ herdAsk 1 1 ++ [.step 1 (.join 1)] ++ herdAsk 2 2 ++ [.step 2 (.join 2),
    .lapse 2 false, .step 2 (.cancel 2)] ++ herdAsk 2 3 ++ [.step 2 (.join 3), .step 1 (.timeout 1), .meddle 1 false] ++
  herdAsk 1 4 ++ [.step 1 (.join 4)]

/-- The guard goes over to the second caller, who inserts; the task receives the value. -/
def herdDone : List (Move Nat Nat) :=
  herdWait ++ [.step 0 (.drop 0), .step 0 (.lockDrop 0), .step 0 (.finishDrop 0), .step 1 (.wake 4), .step 1 (.relock 4),
    .step 1 (.rejoin 4), .step 1 (.startLoading 4), .count 1, .step 1 (.publish 4 12), .step 2 (.poll 3 1), .step 1 (.store 4),
    .step 2 (.relock 3), .step 2 (.rejoin 3)]

/-- The hypotheses about the test. -/
example : cxCfg.ptrEq = true ∧ herdTest.meddles = false ∧ (∀ n, herdTest.stores n = true ↔ n = 1) ∧
    cxCfg.weight herdTest.key herdTest.good ≤ 8 ∧ 1 < herdTest.callers :=
  ⟨rfl, rfl, fun n => by simp [herdTest], by decide, by decide⟩

/-- The state in between: one guard so far, and a caller who is not done. -/
example : ∃ s, Herd.Run cxCfg herdTest (State.new (Shard.new 8 10 3)) s ∧ s.entered = 1 ∧ s.pos 0 = .holding 0 false ∧
    s.pos 1 = .asking 4 ∧ s.base.next = 5 := by
  refine ⟨(runMoves cxCfg herdTest herdNew herdWait).getD herdNew, ?_, by decide +kernel, by decide +kernel, by decide +kernel,
    by decide +kernel⟩
  have h : (runMoves cxCfg herdTest herdNew herdWait).isSome = true := by decide +kernel
  obtain ⟨s, hs⟩ := Option.isSome_iff_exists.mp h
  rw [hs]
  exact runMoves_run .start hs

/-- The end. -/
example : ∃ s, Herd.Run cxCfg herdTest (State.new (Shard.new 8 10 3)) s ∧ s.entered = 2 ∧
    (∀ j < herdTest.callers, s.pos j = .done) ∧ s.base.shard.contents 7 = some 12 := by
  refine ⟨(runMoves cxCfg herdTest herdNew herdDone).getD herdNew, ?_, by decide +kernel, by decide +kernel, by decide +kernel⟩
  have h : (runMoves cxCfg herdTest herdNew herdDone).isSome = true := by decide +kernel
  obtain ⟨s, hs⟩ := Option.isSome_iff_exists.mp h
  rw [hs]
  exact runMoves_run .start hs

/-- Performing a list of steady moves. -/
def runSteady (c : Cfg K V RS) (T : Test K V) (s : Herd.State K V) : List (Move K V) → Option (Herd.State K V)
  | [] => some s
  | m :: ms =>
    let steady : Bool := match m with
      | .step _ (.timeout _) => false
      | .step _ (.poll a _) => s.base.flag a
      | .meddle _ yes => !yes
      | .lapse _ _ => false
      | _ => true
    match steady, step c T s m with
    | true, some (.ok s1) => runSteady c T s1 ms
    | _, _ => none

theorem runSteady_steadily {s0 : Herd.State K V} : ∀ {ms : List (Move K V)} {s : Herd.State K V} {n : Nat}, Steadily c T s0 n s →
    runSteady c T s ms = some s' → Steadily c T s0 (n + ms.length) s' := by
  intro ms
  induction ms with
  | nil => intro s n hr h; cases h; exact hr
  | cons m ms ih =>
    intro s n hr h
    simp only [runSteady] at h
    split at h
    · rename_i s1 h1 h2
      have := ih (.move hr ?_ h2) h
      · rw [List.length_cons]
        rw [show n + (ms.length + 1) = n + 1 + ms.length by omega]
        exact this
      · cases m with
        | step j act => cases act <;> simp_all [Steady]
        | _ => simp_all [Steady]
    · cases h

/-- The rest of it is a steady execution of 13 moves. -/
example : ∃ s s', Herd.Run cxCfg herdTest (State.new (Shard.new 8 10 3)) s ∧ Steadily cxCfg herdTest s 13 s' ∧
    (∀ j < herdTest.callers, s'.pos j = .done) ∧ 17 * herdTest.callers + 15 * s.base.next < 2 ^ 32 - 2 := by
  obtain ⟨s, hs⟩ := Option.isSome_iff_exists.mp
    (show (runMoves cxCfg herdTest herdNew herdWait).isSome = true by decide +kernel)
  have h : (match runMoves cxCfg herdTest herdNew herdWait with
    | some s => match runSteady cxCfg herdTest s (herdDone.drop herdWait.length) with
      | some s' => (List.range 3).all (fun j => s'.pos j == .done) && s.base.next == 5
      | none => false
    | none => false) = true := by decide +kernel
  rw [hs] at h
  simp only at h
  split at h
  · rename_i s' hs'
    simp only [Bool.and_eq_true, List.all_eq_true, List.mem_range, beq_iff_eq] at h
    refine ⟨s, s', runMoves_run .start hs, ?_, h.1, ?_⟩
    · exact runSteady_steadily .start hs'
    · rw [h.2]; decide
  · cases h

/-- A test that could not pass is refused: had the callers expected another value, an assertion would have failed. -/
example : runMoves cxCfg { herdTest with good := 13 } herdNew herdDone = none := by decide +kernel

/-! ### C87: `test_guard_works` passes -/

/-- When all callers have left the loop, having seen the good value, the cache still has it: although they removed the key,
overwrote it and gave up in between. Whatever the capacity and the weights. -/
theorem C87_result (hr : Herd.Run c T (State.new (Shard.new target cap gcap)) s) (hq : c.ptrEq = true) (hT : T.meddles = true)
    (hn : 0 < T.callers) (hd : ∀ j < T.callers, s.pos j = .done) : s.base.shard.contents T.key = some T.good := by
  rcases settles hr hq hT hn with h | ⟨j, h⟩
  · exact h
  · exact absurd (hd j h.1) h.2.1

/-- No step of the test fails, unless the cache gets too large. -/
theorem C87_fails (hr : Herd.Run c T (State.new (Shard.new target cap gcap)) s) (hq : c.ptrEq = true) (hT : T.meddles = true)
    {m : Move K V} {e : Panic} (hs : step c T s m = some (.error e)) :
    (e = .overflow ∧ ∃ k v, 2 ^ 64 ≤ total c.weight s.base.shard.iter + enterWeight c target k v) ∨
    (e = .slabFull ∧ s.base.shard.entries.entries.length = 2 ^ 32 - 2) :=
  only_full hr hq hT hs

/-- The callers never wait for each other in vain. -/
theorem C87_progress (hr : Herd.Run c T (State.new (Shard.new target cap gcap)) s) (hq : c.ptrEq = true) {j : Nat}
    (hj : j < T.callers) (hd : s.pos j ≠ .done) : ∃ m, Steady s m ∧ step c T s m ≠ none :=
  carries_on hr hq hj hd

/-- The test with disturbances: the value is inserted by whoever has at least one predecessor. -/
def wildTest : Test Nat Nat := { herdTest with stores := fun n => decide (1 ≤ n), meddles := true }

/-- Caller `j` calls, as agent `a`, and finds a value. -/
def herdHit (j a : Nat) : List (Move Nat Nat) :=
  [.ask j, .step j (.enter a 0), .step j (.find a), .step j (.load a), .step j (.bump a), .step j (.tally a)]

/-- The first caller has a guard, the others wait; the task gives up and inserts the other value; the first caller drops its
guard, which is handed over to the task and from there to the second caller, who uses it in vain. -/
def wildWait : List (Move Nat Nat) :=
  herdAsk 0 0 ++ [.step 0 (.startLoading 0), .count 0] ++ herdAsk 1 1 ++ [.step 1 (.join 1)] ++ herdAsk 2 2 ++ [.step 2 (.join 2),
    .lapse 2 true, .step 0 (.drop 0), .step 0 (.lockDrop 0), .step 0 (.finishDrop 0), .step 2 (.cancel 2), .step 2 (.abandon 2),
    .step 2 (.lockDrop 2), .step 2 (.finishDrop 2), .step 1 (.wake 1), .step 1 (.relock 1), .step 1 (.rejoin 1),
    .step 1 (.startLoading 1), .count 1, .step 1 (.publish 1 12), .step 1 (.store 1)]

/-- The second caller calls again, removes what it finds, and loads the key once more; then all are content. -/
def wildDone : List (Move Nat Nat) :=
  wildWait ++ herdHit 1 3 ++ [.meddle 1 true] ++ herdAsk 1 4 ++ [.step 1 (.startLoading 4), .count 1, .step 1 (.publish 4 12),
    .step 1 (.store 4)] ++ herdHit 1 5 ++ herdHit 0 6 ++
  [.ask 2, .step 2 (.enter 7 0), .step 2 (.find 7), .step 2 (.load 7), .step 2 (.tally 7)]

example : (runMoves cxCfg wildTest herdNew wildWait).map (fun s => (s.entered, s.pos 1, s.base.shard.contents 7)) =
    some (2, .ready, some 23) := by decide +kernel

example : ∃ s, Herd.Run cxCfg wildTest (State.new (Shard.new 8 10 3)) s ∧ s.entered = 3 ∧ s.base.next = 8 ∧
    (∀ j < wildTest.callers, s.pos j = .done) := by
  refine ⟨(runMoves cxCfg wildTest herdNew wildDone).getD herdNew, ?_, by decide +kernel, by decide +kernel, by decide +kernel⟩
  have h : (runMoves cxCfg wildTest herdNew wildDone).isSome = true := by decide +kernel
  obtain ⟨s, hs⟩ := Option.isSome_iff_exists.mp h
  rw [hs]
  exact runMoves_run .start hs

end QuickCache.Props
