import Verif.Proofs.Longevity
import Verif.Props.Sharded

/-!
# Property C98: how long a shared cache lasts
-/

namespace QuickCache.Props
section
variable {K V RS : Type} [DecidableEq K] {c : Cfg K V RS} {o : Options} {s0 : SyncCache K V} {tr : List (Nat × Conc.Ev K V)}
  {s : Conc.Cache K V} {i : Nat} {st : Conc.State K V} {act : Conc.Act K V} {e : Panic}
open Conc Spec

/-- However many threads use a `sync::Cache`, and however they interleave: a shard never has more slots than the insertions
and reservations made on it. Lookups, removals, storing a loaded value, giving up a guard, `retain` and the rest take none. -/
theorem C98_slots (hb : SyncCache.withOptions o = .ok s0) (hr : Cache.Run c (Cache.start s0) tr s) (hq : c.ptrEq = true)
    (hi : s.shards[i]? = some st) : st.shard.entries.entries.length ≤ additions i tr :=
  ((C41_shard hb hr hq).2 i st hi).slots hq

/-- So a shard has no more items than that. -/
theorem C98_items (hb : SyncCache.withOptions o = .ok s0) (hr : Cache.Run c (Cache.start s0) tr s) (hq : c.ptrEq = true)
    (hi : s.shards[i]? = some st) : st.shard.iter.length ≤ additions i tr := by
  refine Nat.le_trans ?_ (C98_slots hb hr hq hi)
  unfold Shard.iter Slab.iter
  exact Nat.le_trans (List.length_filterMap_le _ _) (List.length_filterMap_le _ _)

/-- An action panics for want of a slot only on a shard that has seen `2^32 - 2` insertions and reservations. -/
theorem C98_full (hb : SyncCache.withOptions o = .ok s0) (hr : Cache.Run c (Cache.start s0) tr s) (hq : c.ptrEq = true)
    (hs : s.exec c i act = some (.error .slabFull)) : 2 ^ 32 - 2 ≤ additions i tr := by
  obtain ⟨st, h1, ⟨h2, -⟩ | ⟨-, h2⟩⟩ := C41_panics hb hr hq hs
  · cases h2
  · have := C98_slots hb hr hq h1
    omega

omit [DecidableEq K] in
theorem total_le {w : K → V → Nat} {b : Nat} (h : ∀ k v, w k v ≤ b) (l : List (K × V)) : total w l ≤ l.length * b := by
  unfold total
  induction l with
  | nil => exact Nat.zero_le _
  | cons x l ih =>
    rw [List.map_cons, List.sum_cons, List.length_cons, Nat.succ_mul]
    have := h x.1 x.2
    omega

/-- If no item weighs more than `2^32`, nothing at all panics on a shard before it has seen `2^32 - 2` insertions and
reservations. -/
theorem C98_safe (hb : SyncCache.withOptions o = .ok s0) (hr : Cache.Run c (Cache.start s0) tr s) (hq : c.ptrEq = true)
    (hw : ∀ k v, c.weight k v ≤ 2 ^ 32) (hn : additions i tr < 2 ^ 32 - 2) : s.exec c i act ≠ some (.error e) := by
  intro hs
  obtain ⟨st, h1, ⟨-, k, v, h2⟩ | ⟨-, h2⟩⟩ := C41_panics hb hr hq hs
  · have h3 := C98_items hb hr hq h1
    have h4 := total_le hw st.shard.iter
    have h5 : enterWeight c (hotTarget o s0) k v ≤ 2 ^ 32 := by
      unfold enterWeight
      split <;> exact hw ..
    have h6 : st.shard.iter.length * 2 ^ 32 ≤ (2 ^ 32 - 3) * 2 ^ 32 := Nat.mul_le_mul_right _ (by omega)
    omega
  · have := C98_slots hb hr hq h1
    omega

end

/-! ### A case -/

open Conc Spec

/-- The hypotheses of the theorems are met by the two shards of the example of C41: two additions on the first, one of which
is a reservation, and four on the second. The first has two slots, so the bound is reached; the second has three, as one was reused. That
C98_full's bound can be reached as well is C98_exact. -/
example : SyncCache.withOptions sxOptions = .ok sxNew ∧ Cache.Run sxCfg (Cache.start sxNew) (sxRun sxActs).2 (sxRun sxActs).1 ∧
    sxCfg.ptrEq = true ∧ additions 0 (sxRun sxActs).2 = 2 ∧ additions 1 (sxRun sxActs).2 = 4 ∧
    (sxRun sxActs).1.shards.map (fun st => st.shard.entries.entries.length) = [2, 3] :=
  ⟨sxBuilt, sxRun_run (by decide +kernel), rfl, by decide +kernel, by decide +kernel, by decide +kernel⟩

/-- No item of the example is too heavy, so nothing one could do next panics. -/
example (i : Nat) (hi : i < 2) (act : Act Nat Nat) (e : Panic) : (sxRun sxActs).1.exec sxCfg i act ≠ some (.error e) := by
  have hw : ∀ k v, sxCfg.weight k v ≤ 2 ^ 32 := fun k v => by
    show v % 10 ≤ 2 ^ 32
    omega
  refine C98_safe sxBuilt (sxRun_run (by decide +kernel)) rfl hw ?_
  rcases (by omega : i = 0 ∨ i = 1) with rfl | rfl
  · exact (by decide +kernel : additions 0 (sxRun sxActs).2 < 2 ^ 32 - 2)
  · exact (by decide +kernel : additions 1 (sxRun sxActs).2 < 2 ^ 32 - 2)

end QuickCache.Props
