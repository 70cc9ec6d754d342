import Verif.Proofs.Panics
import Verif.Props.Longevity

/-!
# Properties C41, C49 and C98: which action panics, and when
-/

namespace QuickCache.Props
section
variable {K V RS : Type} [DecidableEq K] {c : Cfg K V RS} {target cap gcap : Nat} {tr : List (Conc.Ev K V)} {s : Conc.State K V}
  {act : Conc.Act K V} {e : Panic}
open Conc Spec

/-- C49_asserts, more exactly: a panic by overflow is one of an `insert`, a `replace` or the storing of a loaded value, whose
weight and that of the items there reach `2^64`; a panic for want of a slot is one of the insertion or reservation of
a key that is absent, when all `2^32 - 2` slots exist. -/
theorem C49_panics (hr : Conc.Run c (State.new (Shard.new target cap gcap)) tr s) (hq : c.ptrEq = true)
    (hs : exec c s act = some (.error e)) :
    (e = .overflow ∧ ∃ w, MayAdd c target s act w ∧ 2 ^ 64 ≤ total c.weight s.shard.iter + w) ∨
    (e = .slabFull ∧ MayGrow s act ∧ s.shard.entries.entries.length = 2 ^ 32 - 2) :=
  (hr.reach hq (.new ..)).panics hq hs

end

section
variable {K V RS : Type} [DecidableEq K] {c : Cfg K V RS} {o : Options} {s0 : SyncCache K V} {tr : List (Nat × Conc.Ev K V)}
  {s : Conc.Cache K V} {i : Nat} {st : Conc.State K V} {act : Conc.Act K V} {e : Panic}
open Conc Spec

/-- C41_panics, more exactly, in the same way. -/
theorem C41_which (hb : SyncCache.withOptions o = .ok s0) (hr : Cache.Run c (Cache.start s0) tr s) (hq : c.ptrEq = true)
    (hs : s.exec c i act = some (.error e)) : ∃ st, s.shards[i]? = some st ∧
      ((e = .overflow ∧ ∃ w, MayAdd c (hotTarget o s0) st act w ∧ 2 ^ 64 ≤ total c.weight st.shard.iter + w) ∨
      (e = .slabFull ∧ MayGrow st act ∧ st.shard.entries.entries.length = 2 ^ 32 - 2)) := by
  obtain ⟨st, hst, -⟩ := C41_panics hb hr hq hs
  rcases Cache.exec_error hs with ⟨st', hst', he⟩ | ⟨k, -, -, hn⟩
  · exact ⟨st', hst', C49_panics ((C41_shard hb hr hq).2 i st' hst') hq he⟩
  · rw [hn] at hst; cases hst

/-- A shard on which fewer than `2^32 - 2` insertions and reservations were made, and in which there is numerical room for the
item to be stored, if any: the action does not panic. -/
theorem C98_returns (hb : SyncCache.withOptions o = .ok s0) (hr : Cache.Run c (Cache.start s0) tr s) (hq : c.ptrEq = true)
    (hi : s.shards[i]? = some st) (hw : ∀ w, MayAdd c (hotTarget o s0) st act w → total c.weight st.shard.iter + w < 2 ^ 64)
    (hn : additions i tr < 2 ^ 32 - 2) : s.exec c i act ≠ some (.error e) := by
  intro hs
  obtain ⟨st', h1, h2⟩ := C41_which hb hr hq hs
  rw [hi] at h1
  cases h1
  rcases h2 with ⟨-, w, h2, h3⟩ | ⟨-, -, h2⟩
  · have := hw w h2
    omega
  · have := C98_slots hb hr hq hi
    omega

/-- However full the cache is: lookups without loader, `remove`, `peek`, `contains_key`, `retain`, `clear`, `reserve`, waiting,
publishing, timing out, cancelling and dropping a guard never panic. -/
theorem C41_never (hb : SyncCache.withOptions o = .ok s0) (hr : Cache.Run c (Cache.start s0) tr s) (hq : c.ptrEq = true)
    (h1 : ∀ k v, act ≠ .call (.insert k v)) (h2 : ∀ k v b, act ≠ .call (.replace k v b)) (h3 : ∀ a, act ≠ .upsert a)
    (h4 : ∀ a, act ≠ .store a) : s.exec c i act ≠ some (.error e) := by
  intro hs
  obtain ⟨st, -, ⟨-, w, h, -⟩ | ⟨-, h, -⟩⟩ := C41_which hb hr hq hs
  · cases h with
    | insert k v => exact h1 k v rfl
    | replace k v b => exact h2 k v b rfl
    | store hc => exact h4 _ rfl
  · cases h with
    | insert v => exact h1 _ v rfl
    | reserve hc => exact h3 _ rfl

end

/-! ### Cases -/

open Conc Spec

/-- Items of weight `2^63`, which fit into a cache of one shard of capacity `2^64 - 1` and hot target as much: the second
`insert` panics, as the sum reaches `2^64`. -/
def hxCfg : Cfg Nat Nat (List Nat) := { cxCfg with weight := fun _ _ => 2 ^ 63 }

def hxPanics : Bool :=
  match runActs hxCfg (State.new (Shard.new (2 ^ 64 - 1) (2 ^ 64 - 1) 3)) [.call (.insert 1 5)] with
  | some (s, _) =>
    (match exec hxCfg s (.call (.insert 2 5)) with | some (.error .overflow) => true | _ => false) &&
    (match exec hxCfg s (.call (.remove 1)) with | some (.ok _) => true | _ => false) &&
    decide (total hxCfg.weight s.shard.iter = 2 ^ 63)
  | none => false

example : hxPanics = true := by decide +kernel

/-- In the example of two shards (C41): `remove` does not panic, whatever the shard. -/
example (i k : Nat) (e : Panic) : (sxRun sxActs).1.exec sxCfg i (.call (.remove k)) ≠ some (.error e) :=
  C41_never sxBuilt (sxRun_run (by decide +kernel)) rfl (fun _ _ h => by cases h) (fun _ _ _ h => by cases h)
    (fun _ h => by cases h) (fun _ h => by cases h)

/-- There, an `insert` into shard 0 does not panic either, as there is room for the numbers: C98_returns. -/
example (k v : Nat) (e : Panic) : (sxRun sxActs).1.exec sxCfg 0 (.call (.insert k v)) ≠ some (.error e) := by
  obtain ⟨st, hst, ht⟩ : ∃ st, (sxRun sxActs).1.shards[0]? = some st ∧ total sxCfg.weight st.shard.iter < 2 ^ 63 := by
    have : ((sxRun sxActs).1.shards[0]?.map fun st => decide (total sxCfg.weight st.shard.iter < 2 ^ 63)) = some true := by
      decide +kernel
    rcases h : (sxRun sxActs).1.shards[0]? with _ | st
    · rw [h] at this; cases this
    · rw [h] at this
      exact ⟨st, rfl, by simpa using this⟩
  refine C98_returns sxBuilt (sxRun_run (by decide +kernel)) rfl hst ?_ (by decide +kernel)
  intro w hw
  have : w ≤ 2 ^ 32 := by
    cases hw
    have hle : ∀ k v, sxCfg.weight k v ≤ 2 ^ 32 := fun k v => by
      show v % 10 ≤ 2 ^ 32
      omega
    unfold enterWeight
    split <;> exact hle ..
  omega

end QuickCache.Props
