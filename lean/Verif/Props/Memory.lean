import Verif.Proofs.Memory
import Verif.Proofs.Slots
import Verif.Proofs.Options
import Verif.Props.Example

/-!
# Properties C22, C23 and C24 for the whole cache: memory
-/

namespace QuickCache.Props
variable {K V RS : Type _} [DecidableEq K] {c : Cfg K V RS} {target cap gcap : Nat} {h : List (Unsync.Call K V)}
  {s s' : Shard K V}
open Unsync Spec

/-! ### C22: ghost memory is bounded -/

/-- In every state of every run the number of remembered hashes of evicted items is at most the ghost capacity, and it
is exactly what the counter `num_non_resident` says. -/
theorem C22_ghosts (hr : Run c (Shard.new target cap gcap) h s) : s.ghosts ≤ gcap ∧ s.ghosts = s.numNonResident := by
  have hre := hr.reach_new
  have h1 := hre.inv.ghosts
  rw [hre.inv.toInv0.ghosts_eq, ← hre.ghostCap]
  exact ⟨h1, rfl⟩

/-- For a cache built from `Options`: the number of remembered hashes is at most the estimated number of items times the
ghost allocation, rounded up. (Up to `2^53` items; beyond, the product is rounded to 53 binary digits.) -/
theorem C22_options {o : Options} (hr : Run c o.unsync h s) (g0 : 0 ≤ o.ghost) (g1 : o.ghost ≤ 1) (hi : o.items ≤ 2 ^ 53) :
    s.ghosts ≤ ⌈(o.items : ℚ) * o.ghost⌉₊ :=
  (C22_ghosts hr).1.trans (fracOf_bounds g0 g1 hi).2

/-- Every remembered hash is that of an item evicted since the last `clear` or `drain`. -/
theorem C22_origin (hr : Run c (Shard.new target cap gcap) h s) {g : UInt64} (hg : .ghost g ∈ s.entries.iter) :
    ∃ x ∈ sinceClear h, ∃ k v, .onEvict k v ∈ x.log ∧ c.hash k = g := by
  obtain ⟨t, ht⟩ := Slab.mem_iter.mp hg
  exact hr.prov.gho t g ht

/-- Three evictions from the cold queue, three hashes remembered. -/
example : exFine [.insert 1 18, .insert 2 12, .insert 3 22, .insert 4 32, .insert 7 42] = true ∧
    (exRun [.insert 1 18, .insert 2 12, .insert 3 22, .insert 4 32, .insert 7 42]).1.ghosts = 3
    := by decide

/-- Built for 6 items with ghost allocation 1/2: three hashes remembered. -/
example : ∃ s h, Run exCfg (⟨1, 4 / 5, 1 / 2, 6, 10⟩ : Options).unsync h s ∧ s.ghosts = 3 := by
  have : (match runOps exCfg (⟨1, 4 / 5, 1 / 2, 6, 10⟩ : Options).unsync
      [.insert 1 18, .insert 2 12, .insert 3 22, .insert 4 32, .insert 7 42] with
    | .ok (s, _) => s.ghosts == 3
    | _ => false) = true := by decide +kernel
  split at this
  · rename_i s h e
    exact ⟨s, h, runOps_run e, beq_iff_eq.mp this⟩
  · cases this

/-! ### C23: memory is bounded by what is stored

The claim (slots in use at most `len()` plus the ghost bound plus the number of live guards) is false: every guard that
is dropped leaves its slot behind (`remove_placeholder`, `/repo/src/shard.rs:176-186`, takes the placeholder out of the
hash index but not out of the slab). -/

/-- For every configuration and every key: looking the key up `n` times and dropping the guard each time, which leaves no
live guard, leads to an empty cache with `n` slots in use. -/
theorem C23_false (c : Cfg K V RS) (k : K) (target cap gcap : Nat) {n : Nat} (hn : n + 1 < 2 ^ 32) :
    ∃ s : Shard K V, Run c (Shard.new target cap gcap) (List.replicate n ⟨.getRefOrGuard k .drop, .orGuard none, []⟩) s ∧
      s.iter = [] ∧ s.len = 0 ∧ s.ghosts = 0 ∧ s.slots = n := by
  have hr := leaked_run (V := V) c k target cap gcap n hn
  have hi := hr.reach_new.inv.toInv0
  have hlen : (leaked c k target cap gcap n : Shard K V).len = 0 := rfl
  refine ⟨_, hr, ?_, hlen, ?_, leaked_slots c k target cap gcap n⟩
  · have := hi.len_iter
    rw [hlen] at this
    exact List.eq_nil_of_length_eq_zero this
  · rw [hi.ghosts_eq]; rfl

/-- After `2^32 - 2` such lookups the next one panics, although the cache is empty. -/
theorem C23_false_panic (c : Cfg K V RS) (k : K) (target cap gcap : Nat) :
    ∃ (h : List (Call K V)) (s : Shard K V), Run c (Shard.new target cap gcap) h s ∧ s.len = 0 ∧
      (∀ x ∈ h, x.op = .getRefOrGuard k .drop) ∧ step c s (.getRefOrGuard k .drop) = .error .slabFull := by
  obtain ⟨n, hn⟩ : ∃ n, n + 2 = 2 ^ 32 := ⟨4294967294, rfl⟩
  refine ⟨_, _, leaked_run c k target cap gcap n (by omega), rfl, ?_, leaked_full c k target cap gcap n hn .drop⟩
  intro x hx
  rw [List.eq_of_mem_replicate hx]

/-- What does hold: the slots in use are exactly those of the items, the ghosts (at most the ghost capacity) and the
placeholders, and there are at most as many placeholders as loads given up (failed loaders, dropped or leaked guards)
since the last `clear` or `drain`. Missing to the full statement: that dropped guards and failed loaders cost nothing. -/
theorem C23_partial (hr : Run c (Shard.new target cap gcap) h s) :
    s.slots = s.len + s.ghosts + s.placeholders ∧ s.ghosts ≤ gcap ∧
      s.placeholders ≤ ((sinceClear h).filter givesUp).length :=
  ⟨hr.reach_new.inv.toInv0.slots_eq, (C22_ghosts hr).1, hr.placeholders⟩

/-- A dropped guard, a failed loader and its retry: 3 items, no ghost, 2 placeholders. -/
example : exFine [.insert 1 12, .getRefOrGuard 2 .drop, .getOrInsertWith 3 none, .getOrInsertWith 3 none, .insert 4 11,
      .getOrInsertWith 5 (some 11)] = true ∧
    (exRun [.insert 1 12, .getRefOrGuard 2 .drop, .getOrInsertWith 3 none, .getOrInsertWith 3 none, .insert 4 11,
      .getOrInsertWith 5 (some 11)]).1.slots = 5 ∧
    (exRun [.insert 1 12, .getRefOrGuard 2 .drop, .getOrInsertWith 3 none, .getOrInsertWith 3 none, .insert 4 11,
      .getOrInsertWith 5 (some 11)]).1.len = 3 := by decide

/-! ### C24 for the whole cache -/

/-- A call of the cache makes the vector behind it longer only if all its slots are in use, and then by one slot. -/
theorem C24_cache (hr : Run c (Shard.new target cap gcap) h s) {op : Op K V} {out : Out K V} {q : Req K V RS}
    (hs : step c s op = .ok (s', out, q)) :
    s'.allocated ≤ s.allocated ∨ (s.slots = s.allocated ∧ s'.allocated = s.allocated + 1) := by
  have h1 := (gr_step c s op).res _ hs
  dsimp only [Shard.Gr, Slab.Gr] at h1
  have h2 := nextFree_lt hr.reach_new.inv.toInv0
  have h3 : s.slots ≤ s.allocated := List.length_filterMap_le ..
  unfold Shard.allocated at *
  by_cases h4 : s.slots < s.entries.entries.length
  · exact Or.inl (h1.2 (h2 h4))
  · by_cases h5 : s'.entries.entries.length ≤ s.entries.entries.length
    · exact Or.inl h5
    · exact Or.inr ⟨by omega, by have := h1.1; omega⟩

/-- So there are never more slots than there were calls. -/
theorem C24_calls (hr : Run c (Shard.new target cap gcap) h s) : s.allocated ≤ h.length := by
  have := hr.slots_le
  simpa [Shard.allocated, Shard.new, Slab.new] using this

/-- Three items are stored and one is removed: three slots, two in use; the next two insertions of new keys take the free
one and a new one. -/
example : exFine [.insert 1 12, .insert 2 11, .insert 3 11, .remove 2] = true ∧
    (exRun [.insert 1 12, .insert 2 11, .insert 3 11, .remove 2]).1.allocated = 3 ∧
    (exRun [.insert 1 12, .insert 2 11, .insert 3 11, .remove 2]).1.slots = 2 ∧
    (exRun [.insert 1 12, .insert 2 11, .insert 3 11, .remove 2, .insert 4 11]).1.allocated = 3 ∧
    (exRun [.insert 1 12, .insert 2 11, .insert 3 11, .remove 2, .insert 4 11, .insert 5 11]).1.allocated = 4 := by decide

end QuickCache.Props
