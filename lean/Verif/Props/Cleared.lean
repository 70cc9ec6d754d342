import Verif.Proofs.Cleared
import Verif.Props.Panics
import Verif.Props.SharedMemory

/-!
# Properties C98 and C99: `clear` gives a shared cache a new life
-/

namespace QuickCache.Props
section
variable {K V RS : Type} [DecidableEq K] {c : Cfg K V RS} {o : Options} {s0 : SyncCache K V} {tr : List (Nat × Conc.Ev K V)}
  {s : Conc.Cache K V} {i : Nat} {st : Conc.State K V} {act : Conc.Act K V} {e : Panic}
open Conc Spec

/-- The slots of a shard, in use or not, are at most as many as the insertions and reservations since it was last cleared. -/
theorem C98_cleared (hb : SyncCache.withOptions o = .ok s0) (hr : Cache.Run c (Cache.start s0) tr s) (hq : c.ptrEq = true)
    (hi : s.shards[i]? = some st) : st.shard.entries.entries.length ≤ (afterClear (onShard i tr)).countP takesSlot :=
  (((C41_shard hb hr hq).2 i st hi).cleared hq).1

/-- So only those since then count for a panic for want of a slot. -/
theorem C98_renewed (hb : SyncCache.withOptions o = .ok s0) (hr : Cache.Run c (Cache.start s0) tr s) (hq : c.ptrEq = true)
    (hs : s.exec c i act = some (.error .slabFull)) : 2 ^ 32 - 2 ≤ (afterClear (onShard i tr)).countP takesSlot := by
  obtain ⟨st, h1, ⟨h2, -⟩ | ⟨-, -, h2⟩⟩ := C41_which hb hr hq hs
  · cases h2
  · have := C98_cleared hb hr hq h1
    omega

/-- And only the reservations since then can have left slots behind, even if some made before are used after it. -/
theorem C99_cleared (hb : SyncCache.withOptions o = .ok s0) (hr : Cache.Run c (Cache.start s0) tr s) (hq : c.ptrEq = true)
    (hi : s.shards[i]? = some st) :
    st.shard.slots + (afterClear (onShard i tr)).countP stores ≤
      st.shard.len + st.shard.ghosts + (afterClear (onShard i tr)).countP reserves := by
  have h1 := (((C41_shard hb hr hq).2 i st hi).cleared hq).2
  have h2 := (C99_memory hb hr hq hi).1
  omega

end

/-! ### Cases -/

open Conc Spec

/-- After the two dropped guards of C99_untidy, shard 0 is cleared. -/
def kxActs : List (Nat × Act Nat Nat) := mxActs ++ [(0, .call .clear), (0, .call (.insert 4 52))]

example : SyncCache.withOptions sxOptions = .ok sxNew ∧ Cache.Run sxCfg (Cache.start sxNew) (sxRun kxActs).2 (sxRun kxActs).1 ∧
    sxCfg.ptrEq = true ∧ (onShard 0 (sxRun kxActs).2).countP takesSlot = 3 ∧
    (afterClear (onShard 0 (sxRun kxActs).2)).countP takesSlot = 1 ∧
    (afterClear (onShard 0 (sxRun kxActs).2)).countP reserves = 0 ∧
    (sxRun mxActs).1.shards.map (fun st => st.shard.slots) = [2, 0] ∧
    (sxRun kxActs).1.shards.map (fun st => st.shard.slots) = [1, 0] :=
  ⟨sxBuilt, sxRun_run (by decide +kernel), rfl, by decide +kernel, by decide +kernel, by decide +kernel, by decide +kernel,
    by decide +kernel⟩

end QuickCache.Props
