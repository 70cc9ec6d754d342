import Verif.Proofs.SharedMemory
import Verif.Props.Memory
import Verif.Props.Sharded

/-!
# Property C99: what a shared cache remembers
-/

namespace QuickCache.Props
section
variable {K V RS : Type} [DecidableEq K] {c : Cfg K V RS} {o : Options} {s0 : SyncCache K V} {tr : List (Nat × Conc.Ev K V)}
  {s : Conc.Cache K V} {i : Nat} {st : Conc.State K V}
open Conc Spec

/-- However many threads use a `sync::Cache`: the slots in use of each shard are those of its items, of the remembered hashes,
whose number is bounded by the options, and of the placeholders, of which there are no more than reservations that were not
used to store a loaded value. -/
theorem C99_memory (hb : SyncCache.withOptions o = .ok s0) (hr : Cache.Run c (Cache.start s0) tr s) (hq : c.ptrEq = true)
    (hi : s.shards[i]? = some st) :
    st.shard.slots = st.shard.len + st.shard.ghosts + st.shard.placeholders ∧
      st.shard.ghosts ≤ fracOf (share o.items s0.numShards) o.ghost ∧
      st.shard.placeholders + stored i tr ≤ reserved i tr := by
  have h := (C41_shard hb hr hq).2 i st hi
  exact ⟨(h.memory hq).1, (h.memory hq).2, h.placeholders hq⟩

/-- The number of remembered hashes of a shard is at most its share of the estimated number of items times the ghost
allocation, rounded up. (Up to `2^53` items; beyond, the product is rounded to 53 binary digits.) -/
theorem C99_ghosts (hb : SyncCache.withOptions o = .ok s0) (hr : Cache.Run c (Cache.start s0) tr s) (hq : c.ptrEq = true)
    (hi : s.shards[i]? = some st) (g0 : 0 ≤ o.ghost) (g1 : o.ghost ≤ 1) (hn : share o.items s0.numShards ≤ 2 ^ 53) :
    st.shard.ghosts ≤ ⌈(share o.items s0.numShards : ℚ) * o.ghost⌉₊ :=
  (C99_memory hb hr hq hi).2.1.trans (fracOf_bounds g0 g1 hn).2

/-- If every reservation was used, no slot is wasted: those in use are those of the items and the remembered hashes. In
particular if nobody asks with a loader or guard. -/
theorem C99_tidy (hb : SyncCache.withOptions o = .ok s0) (hr : Cache.Run c (Cache.start s0) tr s) (hq : c.ptrEq = true)
    (hi : s.shards[i]? = some st) (hu : reserved i tr ≤ stored i tr) :
    st.shard.slots = st.shard.len + st.shard.ghosts := by
  obtain ⟨h1, -, h2⟩ := C99_memory hb hr hq hi
  omega

end

/-! ### Cases -/

open Conc Spec

/-- In the example of C41 there was one reservation, on shard 0, and it was used. Shard 1 remembers a hash. -/
example : SyncCache.withOptions sxOptions = .ok sxNew ∧ Cache.Run sxCfg (Cache.start sxNew) (sxRun sxActs).2 (sxRun sxActs).1 ∧
    sxCfg.ptrEq = true ∧ reserved 0 (sxRun sxActs).2 = 1 ∧ stored 0 (sxRun sxActs).2 = 1 ∧ reserved 1 (sxRun sxActs).2 = 0 ∧
    (sxRun sxActs).1.shards.map (fun st => (st.shard.slots, st.shard.len, st.shard.ghosts)) = [(1, 1, 0), (1, 0, 1)] :=
  ⟨sxBuilt, sxRun_run (by decide +kernel), rfl, by decide +kernel, by decide +kernel, by decide +kernel, by decide +kernel⟩

/-- Each of its shards remembers at most 16 hashes. -/
example : 0 ≤ sxOptions.ghost ∧ sxOptions.ghost ≤ 1 ∧ share sxOptions.items sxNew.numShards = 32 := by
  refine ⟨?_, ?_, by decide +kernel⟩ <;> norm_num [sxOptions]

/-- Twice a thread asks shard 0 for key 4 and drops the guard. -/
def mxActs : List (Nat × Act Nat Nat) :=
  let round (a : Nat) : List (Act Nat Nat) :=
    cxAsk a (.thread 0 false) 4 ++ [.startLoading a, .drop a, .lockDrop a, .finishDrop a]
  (round 0 ++ round 1).map (fun a => (0, a))

/-- The cache is empty, but two slots are in use, as in C23_false: the condition of C99_tidy cannot be left out. -/
theorem C99_untidy : ¬ ∀ (tr : List (Nat × Ev Nat Nat)) (s : Conc.Cache Nat Nat) (st : State Nat Nat),
    Cache.Run sxCfg (Cache.start sxNew) tr s → s.shards[0]? = some st → st.shard.slots = st.shard.len + st.shard.ghosts := by
  intro h
  have hf : sxFine mxActs = true := by decide +kernel
  have h2 : ((sxRun mxActs).1.shards[0]?.map (fun st => (st.shard.slots, st.shard.len, st.shard.ghosts))) = some (2, 0, 0) := by
    decide +kernel
  rcases h3 : (sxRun mxActs).1.shards[0]? with _ | st
  · rw [h3] at h2; cases h2
  · rw [h3] at h2
    simp only [Option.map_some, Option.some.injEq, Prod.mk.injEq] at h2
    have := h _ _ st (sxRun_run hf) h3
    omega

/-- Two reservations, none used: the bound on placeholders is reached. -/
example : reserved 0 (sxRun mxActs).2 = 2 ∧ stored 0 (sxRun mxActs).2 = 0 ∧
    (sxRun mxActs).1.shards.map (fun st => st.shard.placeholders) = [2, 0] := by decide +kernel

end QuickCache.Props
