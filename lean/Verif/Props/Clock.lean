import Verif.Proofs.ClockRun
import Verif.Proofs.History
import Verif.Props.Example

/-!
# Properties C57, C58, C59: the replacement policy
-/

namespace QuickCache.Props
variable {K V RS : Type} [DecidableEq K] {c : Cfg K V RS} {target cap gcap : Nat} {h h' : List (Unsync.Call K V)}
  {s s' : Shard K V}
open Unsync Spec

/-! ### C57: the cache follows the clock policy -/

/-- Every history of the cache - all calls with their results and the lifecycle calls they make, evictions included - is a
history of the abstract clock machine `Clock`, and the contents and weights agree. -/
theorem C57_policy (hr : Run c (Shard.new target cap gcap) h s) :
    ∃ m : Clock K V, Clock.Run c (.empty target cap gcap) h m ∧ (∀ k v, (k, v) ∈ s.iter ↔ m.value k = some v) ∧
      (∀ w, s.weight = .ok w → w = m.hotWeight c + m.coldWeight c) ∧ m.ghosts.length = s.numNonResident := by
  obtain ⟨m, h1, R, F, h2, rfl⟩ := hr.clock_new
  have hinv := hr.reach_new.inv.toInv0
  refine ⟨_, h1, ?_, ?_, Shard.abs_ghosts hinv h2⟩
  · intro k v
    rw [Shard.abs_value]
    exact hr.lists.2 k v
  · intro w hw
    rw [Shard.abs_hotWeight hinv h2, Shard.abs_coldWeight hinv h2]
    unfold Shard.weight cadd at hw
    split at hw
    · cases hw; rfl
    · cases hw

/-- In the run of the example a heavy insertion makes the hand spare one item and evict another; later, items are evicted
from both lists. -/
example : exFine exOps = true ∧
    (exRun exOps).2[4]?.map (·.log) = some [.beforeEvict 2 53 50, .beforeEvict 4 24 24, .onEvict 4 24] ∧
    (exRun exOps).2[7]?.map (·.log) =
      some [.beforeEvict 1 13 13, .onEvict 1 13, .beforeEvict 3 32 32, .onEvict 3 32] := by decide +kernel

/-! ### C58: hash function and table layout do not show -/

/-- Two caches of the same size that get the same calls, but use different hash functions (and may lay out their hash
tables differently at any time), return the same results, call the lifecycle in the same way, and hold the same items; only
the order of the items that `drain` yields may differ. The hashes of the keys used must not collide. -/
theorem C58_hash_blind {hash' : K → UInt64} (hr : Run c (Shard.new target cap gcap) h s)
    (hr' : Run (c.rehash hash') (Shard.new target cap gcap) h' s') (hops : h.map (·.op) = h'.map (·.op))
    (hd : Distinct c.hash h) (hd' : Distinct hash' h) :
    List.Forall₂ SameCall h h' ∧ ∀ k v, (k, v) ∈ s'.iter ↔ (k, v) ∈ s.iter := by
  obtain ⟨m, h1, h2⟩ := hr.clock_new
  obtain ⟨m', h1', h2'⟩ := hr'.clock_new
  obtain ⟨a1, a2⟩ := Clock.Run.det (S := (· ∈ keysOf h)) (fun a b ha hb => hd a ha b hb) (fun a b ha hb => hd' a ha b hb)
    (Clock.Twin.empty target cap gcap) h1
    (fun x hx k hk => List.mem_filterMap.mpr ⟨x, hx, hk⟩) h1' hops
  refine ⟨a1, fun k v => ?_⟩
  rw [hr.lists.2, hr'.lists.2, ← h2.value, ← h2'.value, a2.value]

/-- In particular the layout of the hash table does not show, if the hashes of the keys used do not collide. -/
theorem C58_layout_blind (hr : Run c (Shard.new target cap gcap) h s)
    (hr' : Run c (Shard.new target cap gcap) h' s') (hops : h.map (·.op) = h'.map (·.op)) (hd : Distinct c.hash h) :
    List.Forall₂ SameCall h h' ∧ ∀ k v, (k, v) ∈ s'.iter ↔ (k, v) ∈ s.iter :=
  C58_hash_blind (hash' := c.hash) hr hr' hops hd hd

/-- Two hash functions without collisions of small keys. -/
def exHashA (k : Nat) : UInt64 := UInt64.ofNat k
def exHashB (k : Nat) : UInt64 := UInt64.ofNat (1000 - 7 * k)

/-- Overflow from both lists, return of a ghost, a removed ghost, a pinned item, a load, a drain and another insertion. -/
def exBlindOps : List (Op Nat Nat) :=
  [.insert 1 3, .insert 2 4, .get 1, .insert 3 5, .insert 4 2, .insert 5 3, .get 5, .insert 6 6, .insert 3 4, .remove 4,
   .insert 2 103, .getOrInsertWith 7 (some 2), .get 3, .insert 6 5, .drain, .insert 1 1]

/-- The example cache with another hash function. -/
def exBlind (hash : Nat → UInt64) (ops : List (Op Nat Nat)) : Shard Nat Nat × List (Call Nat Nat) :=
  match runOps (exCfg.rehash hash) exNew ops with
  | .ok x => x
  | .error _ => (exNew, [])

theorem exBlind_run {hash : Nat → UInt64} {ops : List (Op Nat Nat)}
    (h : (runOps (exCfg.rehash hash) exNew ops).isOk = true) :
    Run (exCfg.rehash hash) (Shard.new 8 10 3) (exBlind hash ops).2 (exBlind hash ops).1 := by
  unfold exBlind
  rcases hr : runOps (exCfg.rehash hash) exNew ops with p | ⟨s, h'⟩
  · rw [hr] at h; cases h
  · exact runOps_run hr

example : (runOps (exCfg.rehash exHashA) exNew exBlindOps).isOk = true ∧
    (runOps (exCfg.rehash exHashB) exNew exBlindOps).isOk = true ∧
    Distinct exHashA (exBlind exHashA exBlindOps).2 ∧ Distinct exHashB (exBlind exHashA exBlindOps).2 ∧
    (exBlind exHashA exBlindOps).2.map (·.log.length) = [0, 0, 0, 2, 0, 2, 0, 4, 2, 0, 0, 2, 0, 2, 0, 0] ∧
    (exBlind exHashA exBlindOps).2.map (·.out) = (exBlind exHashB exBlindOps).2.map (·.out) := by decide +kernel

/-- With collisions, the choice of the hash function does show: here the ghost of one key is taken for another one's. -/
example : (exBlind exHashA exBlindOps).2.map (·.log) ≠ (exBlind (fun _ => 0) exBlindOps).2.map (·.log) := by
  decide +kernel

/-! ### C59: an emptied cache behaves like a new one -/

/-- After `clear` or `drain`, whatever happened before, the cache reacts to all further calls like a new cache: the same
results, the same evictions, the same items. -/
theorem C59_like_new {op : Op K V} {out : Out K V} {q : Req K V RS} {s1 s2 s2' : Shard K V}
    {h0 : List (Unsync.Call K V)} (hr0 : Run c (Shard.new target cap gcap) h0 s) (hop : op = .clear ∨ op = .drain)
    (hs : step c s op = .ok (s1, out, q)) (hr : Run c s1 h s2) (hr' : Run c (Shard.new target cap gcap) h' s2')
    (hops : h.map (·.op) = h'.map (·.op)) (hd : Distinct c.hash h) :
    List.Forall₂ SameCall h h' ∧ ∀ k v, (k, v) ∈ s2'.iter ↔ (k, v) ∈ s2.iter := by
  have hre := hr0.reach_new
  have hrun1 : Run c (Shard.new target cap gcap) (h0 ++ [⟨op, out, q.log⟩]) s1 := .call hr0 hs
  have himp : s1.Implements c (.empty target cap gcap) := by
    have := drain_sim hre.inv.toInv0
    rw [hre.target, hre.capacity, hre.ghostCap] at this
    rcases hop with rfl | rfl
    · cases hs; exact this
    · cases hs; exact this
  obtain ⟨m, h1, h2⟩ := hr.clock hrun1.reach_new himp
  obtain ⟨m', h1', h2'⟩ := hr'.clock_new
  obtain ⟨a1, a2⟩ := Clock.Run.det (c := c) (hash' := c.hash) (S := (· ∈ keysOf h)) (fun a b ha hb => hd a ha b hb)
    (fun a b ha hb => hd a ha b hb) (Clock.Twin.empty target cap gcap) h1
    (fun x hx k hk => List.mem_filterMap.mpr ⟨x, hx, hk⟩) h1' hops
  refine ⟨a1, fun k v => ?_⟩
  have hl : Lists s2.iter s2.contents := lists_iter (hr.reach hrun1.reach_new).inv.toInv0
  rw [hl.2, hr'.lists.2, ← h2.value, ← h2'.value, a2.value]

/-- A cache with a past, emptied, then used as in the previous example: the same lifecycle calls as in a new cache, but
without `clear` they would differ. -/
example : (runOps (exCfg.rehash exHashA) exNew (exOps ++ .clear :: exBlindOps)).isOk = true ∧
    ((exBlind exHashA (exOps ++ .clear :: exBlindOps)).2.drop (exOps.length + 1)).map (·.log) =
      (exBlind exHashA exBlindOps).2.map (·.log) ∧
    ((exBlind exHashA (exOps ++ .reserve :: exBlindOps)).2.drop (exOps.length + 1)).map (·.log) ≠
      (exBlind exHashA exBlindOps).2.map (·.log) := by decide +kernel

end QuickCache.Props
