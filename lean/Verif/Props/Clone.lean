import Verif.Proofs.Clone
import Verif.Proofs.Weight
import Verif.Proofs.Calls
import Verif.Props.Example

/-!
# Property C70: clones of an `unsync::Cache`

`ck` and `cv` are `Clone::clone` of the key and value types. A clone of a key is equal to the key (`Eq`), as the model
identifies equal keys: `hk`.
-/

namespace QuickCache.Props
variable {K V RS : Type _} [DecidableEq K] {c : Cfg K V RS} {target cap gcap : Nat} {h h' : List (Unsync.Call K V)}
  {s s' s'' : Shard K V} {ck : K → K} {cv : V → V}
open Unsync Spec

/-- The clone holds the clones of the values under the same keys, in the same order, with the same queue and reference
counter for every item, the same number of remembered hashes, and the same sizes and statistics. -/
theorem C70_copy (hk : ∀ k, ck k = k) :
    (s.clone ck cv).iter = s.iter.map (fun x => (x.1, cv x.2)) ∧
    (∀ k, (s.clone ck cv).contents k = (s.contents k).map cv) ∧
    (s.clone ck cv).residents = s.residents.map (fun r => { r with value := cv r.value }) ∧
    (s.clone ck cv).ghosts = s.ghosts ∧
    (s.clone ck cv).len = s.len ∧ (s.clone ck cv).weight = s.weight ∧ (s.clone ck cv).capacity = s.capacity ∧
    (s.clone ck cv).hits = s.hits ∧ (s.clone ck cv).misses = s.misses := by
  refine ⟨Shard.clone_iter hk, Shard.clone_contents hk, ?_, ?_, rfl, rfl, rfl, rfl, rfl⟩
  · simp only [Shard.residents, Shard.clone, Slab.clone_iter, List.filterMap_map, List.map_filterMap]
    congr 1
    funext e
    cases e <;> simp [Entry.clone, Resident.clone, hk]
  · simp only [Shard.ghosts, Shard.clone, Slab.clone_iter, List.filter_map, List.length_map]
    congr 2
    funext e
    cases e <;> rfl

/-- If clones of values are indistinguishable from the originals, so is the clone of the cache: whatever calls are made on
it, it answers as the original would, and ends up in the same state. -/
theorem C70_same (hk : ∀ k, ck k = k) (hv : ∀ v, cv v = v) :
    Run c (s.clone ck cv) h s' ↔ Run c s h s' := by
  rw [Shard.clone_id hk hv]

/-- If cloning a value keeps its weight, every history of calls on the clone is a history of a map with limited capacity
that begins with the clones of the items. -/
theorem C70_history (hr : Run c (Shard.new target cap gcap) h s) (hk : ∀ k, ck k = k)
    (hw : ∀ k v, c.weight k (cv v) = c.weight k v) (hr' : Run c (s.clone ck cv) h' s') :
    Replays c target (fun k => (s.contents k).map cv) h' s'.contents := by
  have := hr'.replays (hr.reach_new.clone hk hw)
  rwa [funext (Shard.clone_contents hk)] at this

/-- … its `weight()` and `len()` stay exact, … -/
theorem C70_sizes (hr : Run c (Shard.new target cap gcap) h s) (hk : ∀ k, ck k = k)
    (hw : ∀ k v, c.weight k (cv v) = c.weight k v) (hr' : Run c (s.clone ck cv) h' s') :
    s'.len = s'.iter.length ∧ ∀ w, s'.weight = .ok w → w = total c.weight s'.iter := by
  have hre := hr'.reach (hr.reach_new.clone hk hw)
  refine ⟨hre.inv.toInv0.len_iter.symm, fun w hw => ?_⟩
  unfold Shard.weight cadd at hw
  rw [hre.inv.toInv0.total_iter]
  split at hw
  · cases hw; rfl
  · cases hw

/-- … and its calls panic only if the cache is too large. -/
theorem C70_panics (hr : Run c (Shard.new target cap gcap) h s) (hk : ∀ k, ck k = k)
    (hw : ∀ k v, c.weight k (cv v) = c.weight k v) (hr' : Run c (s.clone ck cv) h' s') {op : Op K V} {p : Panic}
    (hs : step c s' op = .error p) :
    (p = .overflow ∧ ∃ w, Adds c target s'.contents op w ∧ 2 ^ 64 ≤ total c.weight s'.iter + w) ∨
    (p = .slabFull ∧ Grows s'.contents op ∧ s'.entries.entries.length = 2 ^ 32 - 2) := by
  have hre := hr'.reach (hr.reach_new.clone hk hw)
  rcases step_sat hre.inv.toInv0 op with ⟨x, hx, -⟩ | ⟨p', hp', he⟩
  · rw [hx] at hs; cases hs
  · rw [hp'] at hs
    cases hs
    rcases he with ⟨rfl, w, hw, hle⟩ | ⟨rfl, hg, hlen⟩
    · rw [hre.target] at hw
      exact Or.inl ⟨rfl, w, hw, by rw [hre.inv.toInv0.total_iter]; exact hle⟩
    · exact Or.inr ⟨rfl, hg, by omega⟩

/-- Cloning the example cache, with values that come back 10 greater and as heavy as before: another history of calls on
the clone, which evicts some of the clones. -/
example : (∀ k v, exCfg.weight k (v + 10) = exCfg.weight k v) ∧ exFine exOps = true ∧
    (exRun exOps).1.iter.length = 4 ∧
    ((exRun exOps).1.clone id (· + 10)).iter = (exRun exOps).1.iter.map (fun x => (x.1, x.2 + 10)) ∧
    (match runOps exCfg ((exRun exOps).1.clone id (· + 10)) [.insert 30 13, .insert 31 14, .get 30] with
      | .ok (s, _) => decide (s.weight = .ok (total exCfg.weight s.iter) ∧ s.contents 31 = some 14 ∧ s.len = 3)
      | _ => false) = true := by
  refine ⟨fun k v => ?_, by decide, by decide, by decide, by decide⟩
  simp [exCfg]

/-- The condition on the weights is needed. Clones may be lighter, for instance if the weight of a vector is its allocated
capacity: cloning a vector allocates only what is needed. Here two items of weight 4 have clones of weight 2. After they
were removed from the clone, it is empty and its `weight()` is 4; two items of weight 5 and 2 no longer fit into the capacity
of 10. -/
theorem C70_lighter :
    (match runOps exCfg ((exRun [.insert 1 14, .insert 2 14]).1.clone id (fun v => v / 10 * 10 + v % 10 / 2))
        [.remove 1, .remove 2] with
      | .ok (s, _) => decide (s.iter = [] ∧ s.len = 0 ∧ s.weight = .ok 4)
      | _ => false) = true ∧
    (match runOps exCfg ((exRun [.insert 1 14, .insert 2 14]).1.clone id (fun v => v / 10 * 10 + v % 10 / 2))
        [.remove 1, .remove 2, .insert 3 15, .insert 4 12] with
      | .ok (s, _) => decide (s.iter = [(4, 12)])
      | _ => false) = true := by decide

/-- Clones may be heavier: then the subtraction in `remove` overflows, which is a panic in a debug build. -/
theorem C70_heavier :
    (match runOps exCfg ((exRun [.insert 1 14, .insert 2 14]).1.clone id (· + 1)) [.remove 1, .remove 2] with
      | .error .underflow => true
      | _ => false) = true := by decide

end QuickCache.Props
