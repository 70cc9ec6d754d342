import Verif.Proofs.Leak
import Verif.Proofs.Overwrite
import Verif.Props.Panics
import Verif.Props.Safety

/-!
# Properties C06, C41 and C49: when an insertion overflows
-/

namespace QuickCache.Props
section
variable {K V RS : Type} [DecidableEq K] {c : Cfg K V RS} {target cap gcap : Nat} {s : Shard K V} {h : List (Unsync.Call K V)}
open Unsync Spec

/-- The bound of C06_panics is exact: with a slot to spare, `insert` of an item that can be admitted, under a key that is
absent, panics if and only if its weight and that of the items there reach `2^64`, even if the eviction that follows would have
made room for it. -/
theorem C06_exact (hr : Run c (Shard.new target cap gcap) h s) {k : K} {v : V} (hk : s.contents k = none)
    (ha : Admissible c target k v) (hl : s.entries.entries.length < 2 ^ 32 - 2) :
    (∃ p, step c s (.insert k v) = .error p) ↔ 2 ^ 64 ≤ total c.weight s.iter + enterWeight c target k v := by
  have hre := hr.reach_new
  constructor
  · rintro ⟨p, hp⟩
    rcases C06_panics hr hp with ⟨-, w, hw, hle⟩ | ⟨-, -, h⟩
    · cases hw
      exact hle
    · omega
  · intro hw
    rw [hre.inv.toInv0.total_iter] at hw
    rw [← hre.target] at ha hw
    exact Unsync.over_step hre.inv.toInv0 hk ha hw

/-- Under a key that is there, with value `v0`, `insert` of an item that can be admitted panics if and only if its weight and
that of the *other* items reach `2^64`. The number of slots does not matter. -/
theorem C06_overwrite (hr : Run c (Shard.new target cap gcap) h s) {k : K} {v v0 : V} (hk : s.contents k = some v0)
    (ha : Admissible c target k v) :
    (∃ p, step c s (.insert k v) = .error p) ↔
      2 ^ 64 + c.weight k v0 ≤ total c.weight s.iter + enterWeight c target k v := by
  have hre := hr.reach_new
  rw [hre.inv.toInv0.total_iter]
  rw [← hre.target] at ha ⊢
  exact Unsync.overwrite_step hre.inv.toInv0 hk ha

/-- `replace` panics just like that if the key is there, and never if it is absent, however full the cache is. -/
theorem C06_replace (hr : Run c (Shard.new target cap gcap) h s) (k : K) (v : V) (soft : Bool) :
    (∀ v0, s.contents k = some v0 → Admissible c target k v →
      ((∃ p, step c s (.replace k v soft) = .error p) ↔
        2 ^ 64 + c.weight k v0 ≤ total c.weight s.iter + enterWeight c target k v)) ∧
    (s.contents k = none → ∃ x, step c s (.replace k v soft) = .ok x) := by
  have hre := hr.reach_new
  rw [hre.inv.toInv0.total_iter, ← hre.target]
  exact ⟨fun v0 hk ha => Unsync.replace_here hre.inv.toInv0 soft hk ha,
    fun hk => Unsync.replace_step hre.inv.toInv0 v soft hk⟩

/-- An item that cannot be admitted never makes `insert` or `replace` panic, however heavy it is and however full the cache. -/
theorem C06_rejected (hr : Run c (Shard.new target cap gcap) h s) {k : K} {v : V} (ha : ¬ Admissible c target k v) :
    (∃ x, step c s (.insert k v) = .ok x) ∧ ∀ soft, ∃ x, step c s (.replace k v soft) = .ok x := by
  have hre := hr.reach_new
  rw [← hre.target] at ha
  exact Unsync.rejected_step hre.inv.toInv0 ha

end

section
variable {K V RS : Type} [DecidableEq K] {c : Cfg K V RS} {target cap gcap : Nat} {tr : List (Conc.Ev K V)} {s : Conc.State K V}
open Conc Spec

/-- The same for a shard used by many threads, when its lock is free. -/
theorem C49_exact (hr : Conc.Run c (State.new (Shard.new target cap gcap)) tr s) (hq : c.ptrEq = true) {k : K} {v : V}
    (hk : ∀ w, (k, w) ∉ s.shard.iter) (ha : Admissible c target k v) (hl : s.shard.entries.entries.length < 2 ^ 32 - 2)
    (h1 : s.writer = none) (h2 : s.readers = []) :
    (∃ p, exec c s (.call (.insert k v)) = some (.error p)) ↔
      2 ^ 64 ≤ total c.weight s.shard.iter + enterWeight c target k v := by
  have hre := hr.reach hq (CReach.new c target cap gcap)
  have hi := hre.inv.shard.toInv0
  constructor
  · rintro ⟨p, hp⟩
    rcases C49_panics hr hq hp with ⟨-, w, hw, hle⟩ | ⟨-, -, h⟩
    · cases hw
      exact hle
    · omega
  · intro hw
    have hn : s.shard.contents k = none := by
      rcases hc : s.shard.contents k with _ | w
      · rfl
      · exact absurd (((lists_iter hi).2 k w).mpr hc) (hk w)
    rw [hi.total_iter] at hw
    rw [← hre.reach.target] at ha hw
    obtain ⟨e, he⟩ := Unsync.over_step hi hn ha hw
    refine ⟨e, ?_⟩
    have hu : s.unlocked = true := by simp [State.unlocked, h1, h2]
    simp only [exec, Conc.call, lockMode, hu, if_true, Sync.step, he]
    rfl

/-- As C06_overwrite, for a shard used by many threads. -/
theorem C49_overwrite (hr : Conc.Run c (State.new (Shard.new target cap gcap)) tr s) (hq : c.ptrEq = true) {k : K} {v v0 : V}
    (hk : (k, v0) ∈ s.shard.iter) (ha : Admissible c target k v) (h1 : s.writer = none) (h2 : s.readers = []) :
    (∃ p, exec c s (.call (.insert k v)) = some (.error p)) ↔
      2 ^ 64 + c.weight k v0 ≤ total c.weight s.shard.iter + enterWeight c target k v := by
  have hre := hr.reach hq (CReach.new c target cap gcap)
  have hi := hre.inv.shard.toInv0
  rw [hi.total_iter]
  rw [← hre.reach.target] at ha ⊢
  rw [← Unsync.overwrite_step hi (((lists_iter hi).2 k v0).mp hk) ha]
  have hu : s.unlocked = true := by simp [State.unlocked, h1, h2]
  simp only [exec, Conc.call, lockMode, hu, if_true, Sync.step]
  rcases Unsync.step c s.shard (.insert k v) with e | x
  · exact ⟨fun _ => ⟨e, rfl⟩, fun _ => ⟨e, rfl⟩⟩
  · constructor
    · rintro ⟨p, hp⟩; cases hp
    · rintro ⟨p, hp⟩; cases hp

end

section
variable {K V RS : Type} [DecidableEq K] {c : Cfg K V RS} {o : Options} {s0 : SyncCache K V} {tr : List (Nat × Conc.Ev K V)}
  {s : Conc.Cache K V} {st : Conc.State K V}
open Conc Spec

/-- And for the whole `sync::Cache`: what counts is the shard of the key. -/
theorem C41_exact (hb : SyncCache.withOptions o = .ok s0) (hr : Cache.Run c (Cache.start s0) tr s) (hq : c.ptrEq = true)
    {k : K} {v : V} (hi : s.shards[s.home c k]? = some st) (hk : ∀ w, (k, w) ∉ st.shard.iter)
    (ha : Admissible c (hotTarget o s0) k v) (hl : st.shard.entries.entries.length < 2 ^ 32 - 2) (h1 : st.writer = none)
    (h2 : st.readers = []) :
    (∃ p, s.exec c (s.home c k) (.call (.insert k v)) = some (.error p)) ↔
      2 ^ 64 ≤ total c.weight st.shard.iter + enterWeight c (hotTarget o s0) k v := by
  have h := (C41_shard hb hr hq).2 _ st hi
  constructor
  · rintro ⟨p, hp⟩
    obtain ⟨st', h3, ⟨-, w, hw, hle⟩ | ⟨-, -, h4⟩⟩ := C41_which hb hr hq hp
    · rw [hi] at h3
      cases h3
      cases hw
      exact hle
    · rw [hi] at h3
      cases h3
      omega
  · intro hw
    obtain ⟨p, hp⟩ := (C49_exact h hq hk ha hl h1 h2).mpr hw
    exact ⟨p, Cache.exec_lift hi rfl (Or.inr rfl) hp⟩

/-- As C06_overwrite, for the whole `sync::Cache`. -/
theorem C41_overwrite (hb : SyncCache.withOptions o = .ok s0) (hr : Cache.Run c (Cache.start s0) tr s) (hq : c.ptrEq = true)
    {k : K} {v v0 : V} (hi : s.shards[s.home c k]? = some st) (hk : (k, v0) ∈ st.shard.iter)
    (ha : Admissible c (hotTarget o s0) k v) (h1 : st.writer = none) (h2 : st.readers = []) :
    (∃ p, s.exec c (s.home c k) (.call (.insert k v)) = some (.error p)) ↔
      2 ^ 64 + c.weight k v0 ≤ total c.weight st.shard.iter + enterWeight c (hotTarget o s0) k v := by
  rw [← C49_overwrite ((C41_shard hb hr hq).2 _ st hi) hq hk ha h1 h2]
  constructor
  · rintro ⟨p, hp⟩
    rcases Cache.exec_error hp with ⟨st', h3, h4⟩ | ⟨k', -, -, hn⟩
    · rw [hi] at h3
      cases h3
      exact ⟨p, h4⟩
    · rw [hn] at hi
      cases hi
  · rintro ⟨p, hp⟩
    exact ⟨p, Cache.exec_lift hi rfl (Or.inr rfl) hp⟩

end

/-! ### Cases -/

open Conc Spec

/-- In the case of C49_panics the second insertion overflows although the shard has a slot to spare and its lock is free. -/
def oxState : State Nat Nat :=
  match runActs hxCfg (State.new (Shard.new (2 ^ 64 - 1) (2 ^ 64 - 1) 3)) [.call (.insert 1 5)] with
  | some (s, _) => s
  | none => State.new (Shard.new 0 0 0)

example : oxState.writer = none ∧ oxState.readers = [] ∧ oxState.shard.iter = [(1, 5)] ∧
    oxState.shard.entries.entries.length = 1 ∧ enterWeight hxCfg (2 ^ 64 - 1) 2 5 = 2 ^ 63 ∧
    total hxCfg.weight oxState.shard.iter = 2 ^ 63 := by decide +kernel

example : Admissible hxCfg (2 ^ 64 - 1) 2 5 := Or.inr (by decide +kernel)

/-- The same of the cache for one thread. -/
def oxUnsync : Bool :=
  match Unsync.step hxCfg (Shard.new (2 ^ 64 - 1) (2 ^ 64 - 1) 3) (.insert 1 5) with
  | .ok (s, _, _) =>
    decide (s.contents 2 = none) && decide (s.entries.entries.length = 1) &&
      (match Unsync.step hxCfg s (.insert 2 5) with | .error .overflow => true | _ => false)
  | .error _ => false

example : oxUnsync = true := by decide +kernel

/-- Overwriting that item does not panic, although the sum with the old weight reaches `2^64` (C06_overwrite). -/
def oxOver : Bool :=
  match Unsync.step hxCfg (Shard.new (2 ^ 64 - 1) (2 ^ 64 - 1) 3) (.insert 1 5) with
  | .ok (s, _, _) =>
    decide (s.contents 1 = some 5) && (match Unsync.step hxCfg s (.insert 1 6) with | .ok _ => true | _ => false)
  | .error _ => false

example : oxOver = true := by decide +kernel

/-- An item heavier than the hot target, which is not pinned and which `before_evict` leaves as it is, cannot be admitted. -/
example : ¬ Admissible hxCfg 10 2 5 := by
  intro h
  rcases h with h | h
  · exact absurd h (by decide +kernel)
  · exact absurd h (by decide +kernel)

/-- The hypotheses of C41_exact are met by shard 1 at the end of the example of C41, with key 9. -/
example : (sxRun sxActs).1.home sxCfg 9 = 1 ∧ ((sxRun sxActs).1.shards[1]?.map fun st =>
    st.writer.isNone && st.readers.isEmpty && decide (∀ x ∈ st.shard.iter, x.1 ≠ 9) &&
      decide (st.shard.entries.entries.length < 2 ^ 32 - 2)) = some true ∧ enterWeight sxCfg (hotTarget sxOptions sxNew) 9 1 = 1 ∧
    1 ≤ hotTarget sxOptions sxNew := by decide +kernel

end QuickCache.Props
