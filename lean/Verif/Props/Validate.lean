import Verif.Proofs.Validate
import Verif.Props.Sharded
import Verif.Props.Weight

/-!
# Property C61: the crate's own consistency check never fails

`validate` is the check that the crate's tests and fuzzers run. Here it is shown to pass in every state of every execution.
-/

namespace QuickCache.Props
section
variable {K V RS : Type _} [DecidableEq K] {c : Cfg K V RS} {target cap gcap : Nat} {h : List (Unsync.Call K V)}
  {s s' : Shard K V}
open Unsync Spec

/-- Every state of every run of `unsync::Cache` passes `validate(true)`, as long as the weights add up to less than `2^64`. -/
theorem C61_unsync (hr : Run c (Shard.new target cap gcap) h s) (hw : total c.weight s.iter < 2 ^ 64) :
    s.validate c true = .ok () := by
  have hi := hr.reach_new.inv
  rw [hi.toInv0.total_iter] at hw
  exact hi.validate hw (by simp)

example : exFine exOps = true ∧ total exCfg.weight (exRun exOps).1.iter < 2 ^ 64 ∧ (exRun exOps).1.iter.length = 4 := by decide

/-- If in addition no item was made heavier through a mutable reference, `validate(false)` passes, too. -/
theorem C61_calm (hr : Run c (Shard.new target cap gcap) h s) (ht : target ≤ cap) (hc : ∀ x ∈ h, Calm c x)
    (hw : total c.weight s.iter < 2 ^ 64) : s.validate c false = .ok () := by
  have hi := hr.reach_new.inv
  have h1 := C03_evictable hr ht hc
  rw [hi.toInv0.total_iter] at hw
  rw [← evW_iter] at h1
  exact hi.validate hw (fun _ => h1)

/-- The check can fail: an item grows from weight 1 to 8 through a mutable reference, next to one of weight 5; the capacity is 10. -/
example : exFine [.insert 1 11, .insert 2 15, .getMut 1 (fun _ => 18)] = true ∧
    (exRun [.insert 1 11, .insert 2 15, .getMut 1 (fun _ => 18)]).1.validate exCfg true = .ok () ∧
    (exRun [.insert 1 11, .insert 2 15, .getMut 1 (fun _ => 18)]).1.validate exCfg false = .error .assertion := by decide

omit [DecidableEq K] in
/-- What it means to pass, for any shard whatsoever: the counters are the number and the weight of the items in each of
the two queues and the number of remembered hashes, and the bounds hold. -/
theorem C61_checks {over : Bool} (hv : s.validate c over = .ok ()) :
    (s.numHot = (s.residents.filter (·.state == .hot)).length ∧ s.numCold = (s.residents.filter (·.state == .cold)).length) ∧
      (s.weightHot = ((s.residents.filter (·.state == .hot)).map (fun r => c.weight r.key r.value)).sum ∧
        s.weightCold = ((s.residents.filter (·.state == .cold)).map (fun r => c.weight r.key r.value)).sum) ∧
      s.numNonResident = s.ghosts ∧ s.ghosts ≤ s.capacityNonResident ∧
      (over = false → total (evictable c) s.iter ≤ s.capacity) := by
  obtain ⟨h1, h2, h3, h4, h5⟩ := Shard.validate_eq hv
  simp only [Shard.sumBy_numF, Shard.sumBy_wgtF]
  refine ⟨⟨h1 .hot, h1 .cold⟩, ⟨h2 .hot, h2 .cold⟩, ?_, ?_, ?_⟩
  · rw [h3, ghosts_sum]
  · rw [ghosts_sum, ← h3]; exact h4
  · rw [← evW_iter]; exact h5

end

section
open Unsync Spec Conc
variable {K V RS : Type} [DecidableEq K] {c : Cfg K V RS} {o : Options} {s0 : SyncCache K V} {s : Conc.Cache K V}
  {tr : List (Nat × Conc.Ev K V)}

/-- `sync::Cache::validate` passes at any moment of any concurrent execution, for capacities up to `2^53`. -/
theorem C61_sync (hb : SyncCache.withOptions o = .ok s0) (hcap : o.weight ≤ 2 ^ 53) (h0 : 0 ≤ o.hot) (h1 : o.hot ≤ 1)
    (hr : Cache.Run c (Cache.start s0) tr s) (hq : c.ptrEq = true) (hw : total c.weight (items s) < 2 ^ 64) :
    s.still.validate c = .ok () := by
  have ht := hotTarget_le hb hcap h0 h1
  have hR := (C41_shard hb hr hq).2
  have key : ∀ x ∈ s.still.shards, x.validate c false = .ok () := by
    intro x hx
    simp only [Cache.still, List.mem_map] at hx
    obtain ⟨st, hst, rfl⟩ := hx
    obtain ⟨i, hi⟩ := List.getElem?_of_mem hst
    have hrun := hR i st hi
    have hinv := (hrun.reach hq (.new ..)).inv.shard
    have hle := hrun.evW_le hq ht
    refine hinv.validate ?_ (fun _ => ?_)
    · rw [← hinv.toInv0.total_iter]
      refine Nat.lt_of_le_of_lt ?_ hw
      unfold total items
      obtain ⟨l1, l2, hl⟩ := List.append_of_mem hst
      rw [hl]
      simp only [List.flatMap_append, List.flatMap_cons, List.map_append, List.sum_append]
      omega
    · rw [(hrun.reach hq (.new ..)).reach.capacity]; exact hle
  unfold SyncCache.validate
  generalize s.still.shards = l at key
  induction l with
  | nil => rfl
  | cons x l ih =>
    show ((x.validate c false) >>= fun _ => l.forM (fun x => x.validate c false)) = .ok ()
    rw [key x (by simp), Res.ok_bind]
    exact ih (fun y hy => key y (by simp [hy]))

/-- The hypotheses are met by the example of C41 after `retain` has visited one of the two shards. -/
example : sxOptions.weight ≤ 2 ^ 53 ∧ 0 ≤ sxOptions.hot ∧ sxOptions.hot ≤ 1 ∧ sxFine sxActs.dropLast = true ∧
    total sxCfg.weight (items (sxRun sxActs.dropLast).1) < 2 ^ 64 ∧ (items (sxRun sxActs.dropLast).1).length = 2 := by
  decide +kernel

end
end QuickCache.Props
