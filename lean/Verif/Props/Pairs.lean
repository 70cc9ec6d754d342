import Verif.Proofs.Pairs

/-!
# Property C95: `test_multiple_threads` passes
-/

namespace QuickCache.Props
open Conc Spec Pairs
variable {hash : Nat → UInt64} {par n : Nat} {T : Test} {s0 : SyncCache Nat Nat} {w : World}

theorem pairs_survives : Survives (Cfg.shared hash : Cfg Nat Nat _) (fun k v => v = k) := fun _ _ _ h => h

/-- No step of the test fails in any interleaving: no lookup finds a value other than the key, nothing panics in the cache.
`pairs * turns` is the number of insertions. -/
theorem C95_passes (hn : SyncCache.new par T.capacity = .ok (.ok s0)) (hr : Pairs.Run (.shared hash) T s0 n w)
    (hsmall : T.pairs * T.turns < 2 ^ 32 - 2) (m : Move) (e : Panic) : step (.shared hash) T w m ≠ some (.error e) := by
  refine no_failure hr (shared_new hn) rfl pairs_survives rfl (fun target k v => ?_) hsmall m e
  unfold enterWeight
  split <;> rfl

/-- It does not go on for ever: each of the `2 * pairs` threads makes at most 6 steps in each of its turns. -/
theorem C95_finite (hn : SyncCache.new par T.capacity = .ok (.ok s0)) (hr : Pairs.Run (.shared hash) T s0 n w) :
    n ≤ 2 * T.pairs * (6 * T.turns) :=
  bounded (good (shared_new hn) rfl pairs_survives hr)

/-- It does not get stuck: until all threads have come to their ends, some step is possible. -/
theorem C95_progress (hn : SyncCache.new par T.capacity = .ok (.ok s0)) (hr : Pairs.Run (.shared hash) T s0 n w)
    (hover : ¬ w.over T) : ∃ m, step (.shared hash) T w m ≠ none :=
  progress hr (shared_new hn) rfl pairs_survives hover

/-- The constants of the code. -/
def pairsTest : Test := ⟨8, 1000, 1000⟩

/-- Together, for the constants of the code, the hash function and the number of processors being arbitrary: the cache can be
built, and every execution can be continued to the end, without a failure, in at most 96 million steps. -/
theorem C95_test (hp : par * 4 ≤ 2 ^ 63) : ∃ s0 : SyncCache Nat Nat, SyncCache.new par pairsTest.capacity = .ok (.ok s0) ∧
    ∀ n w, Pairs.Run (.shared hash) pairsTest s0 n w → n ≤ 96000000 ∧ (∀ m e, step (.shared hash) pairsTest w m ≠ some (.error e)) ∧
      (w.over pairsTest ∨ ∃ m w', step (.shared hash) pairsTest w m = some (.ok w')) := by
  obtain ⟨s0, hn⟩ := C63_new_shared (K := Nat) (V := Nat) hp pairsTest.capacity
  refine ⟨s0, hn, fun n w hr => ?_⟩
  have hf := C95_passes hn hr (by decide)
  refine ⟨C95_finite hn hr, hf, ?_⟩
  by_cases ho : w.over pairsTest
  · exact .inl ho
  · obtain ⟨m, hm⟩ := C95_progress hn hr ho
    cases hs : step (.shared hash) pairsTest w m with
    | none => exact absurd hs hm
    | some r =>
      cases r with
      | error e => exact absurd hs (hf m e)
      | ok w' => exact .inr ⟨m, w', hs⟩

/-! ### A concrete run -/

/-- A test with two pairs, one round, and ten items for each thread. -/
def mxTest : Test := ⟨2, 1, 10⟩

/-- Its cache, on a machine with one processor: room for two items. -/
def mxNew : SyncCache Nat Nat :=
  match SyncCache.new 1 mxTest.capacity with
  | .ok (.ok s) => s
  | _ => ⟨[], 0⟩

theorem mxBuilt : SyncCache.new 1 mxTest.capacity = .ok (.ok mxNew) := by
  obtain ⟨s0, h0⟩ := C63_new_shared (K := Nat) (V := Nat) (par := 1) (by decide) mxTest.capacity
  have : mxNew = s0 := by unfold mxNew; rw [h0]
  rw [this, h0]

def mxCfg : Cfg Nat Nat (Option (Nat × Nat)) := .shared (fun k => UInt64.ofNat k)

/-- Performing steps, all of which must succeed. -/
def mxRun (w : World) : List Move → Option World
  | [] => some w
  | m :: ms =>
    match step mxCfg mxTest w m with
    | some (.ok w') => mxRun w' ms
    | _ => none

theorem mxRun_run : ∀ {ms : List Move} {w w' : World} {n : Nat}, Pairs.Run mxCfg mxTest mxNew n w → mxRun w ms = some w' →
    Pairs.Run mxCfg mxTest mxNew (n + ms.length) w'
  | [], w, w', n, hr, h => by cases h; exact hr
  | m :: ms, w, w', n, hr, h => by
    unfold mxRun at h
    split at h
    · rename_i w1 h1
      have := mxRun_run (.move hr h1) h
      rw [List.length_cons]
      rwa [Nat.add_assoc, Nat.add_comm 1] at this
    · cases h

/-- Both writers insert, both readers find the numbers, at the same time; both writers insert the next ones, so that an item has
to go; reader 2 does not find 1. -/
def mxMoves : List Move :=
  [.write 0, .write 1, .ask 2, .step 2 (.enter 0 0), .step 2 (.find 0), .ask 3, .step 3 (.enter 1 0), .step 2 (.load 0 none),
   .step 2 (.bump 0), .step 2 (.tally 0), .step 3 (.find 1), .step 3 (.load 1 none), .step 3 (.bump 1), .step 3 (.tally 1),
   .write 0, .write 1, .ask 2, .step 2 (.enter 2 0), .step 2 (.find 2), .step 2 (.tally 2)]

/-- The hypotheses of the theorems are met by a state in the middle of a test. -/
example : ∃ w, SyncCache.new 1 mxTest.capacity = .ok (.ok mxNew) ∧ Pairs.Run mxCfg mxTest mxNew 20 w ∧
    mxTest.pairs * mxTest.turns < 2 ^ 32 - 2 ∧ items w.cache = [(0, 0), (11, 11)] ∧ ¬ w.over mxTest ∧
    w.cache.shards.map (fun st => (st.shard.hits, st.shard.misses)) = [(2, 1)] := by
  have h : (mxRun (.start mxNew) mxMoves).map (fun w => (items w.cache, w.made 0,
      w.cache.shards.map (fun st => (st.shard.hits, st.shard.misses)))) = some ([(0, 0), (11, 11)], 2, [(2, 1)]) := by decide +kernel
  rw [Option.map_eq_some_iff] at h
  obtain ⟨w, h1, h2⟩ := h
  simp only [Prod.mk.injEq] at h2
  refine ⟨w, mxBuilt, mxRun_run .start h1, by decide, h2.1, fun ho => ?_, h2.2.2⟩
  have := ho 0 (by decide)
  rw [h2.2.1] at this
  cases this

end QuickCache.Props
