import Verif.Proofs.Provenance
import Verif.Props.Contents
import Verif.Props.Dict
import Verif.Props.Sharded

/-!
# Property C94: what comes out was put in
-/

namespace QuickCache.Props
section
variable {K V RS : Type} [DecidableEq K] {c : Cfg K V RS} {target cap gcap : Nat} {h : List (Unsync.Call K V)}
  {s : Shard K V} {P : K → V → Prop}
open Unsync Spec

/-- If a relation between keys and values holds of all that callers put in (inserted, loaded, written through references), and
survives the lifecycle's `before_evict`, then it holds of all that callers and lifecycle ever see, and of all that is stored. -/
theorem C94_single (hr : Run c (Shard.new target cap gcap) h s) (hs : Survives c P) (hf : ∀ x ∈ h, Feeds P x.op) :
    (∀ x ∈ h, ∀ y ∈ seen x, P y.1 y.2) ∧ ∀ y ∈ s.iter, P y.1 y.2 := by
  obtain ⟨h1, h2⟩ := (C02_refines hr).keeps hs .none hf
  exact ⟨h2, fun y hy => h1 _ _ ((hr.lists.2 y.1 y.2).mp hy)⟩

/-- The example: the value is at least the key, or at least 50. -/
def pxRel (k v : Nat) : Prop := k ≤ v ∨ 50 ≤ v

theorem pxSurvives : Survives exCfg pxRel := by
  intro st k v h
  change pxRel k (if 50 ≤ v ∧ v < 60 then 50 else v)
  unfold pxRel at *
  split <;> omega

theorem pxFeeds : ∀ op ∈ exOps, Feeds pxRel op := by
  simp only [exOps, List.forall_mem_cons]
  refine ⟨?_, ?_, ?_, ?_, ?_, ?_, ?_, ?_, ?_, ?_, ?_, ?_, ?_, ?_, ?_, by simp⟩ <;> simp only [Feeds, pxRel]
  all_goals first
    | exact Or.inl (by norm_num)
    | exact Or.inr (by norm_num)
    | (intro v hv; cases hv; decide)
    | (intro v hv; omega)

/-- Items were returned, rewritten and evicted in that example. -/
example : Run exCfg (Shard.new 8 10 3) (exRun exOps).2 (exRun exOps).1 ∧ (∀ x ∈ (exRun exOps).2, Feeds pxRel x.op) ∧
    (2, 50) ∈ (exRun exOps).2.flatMap seen := by
  have hf : exFine exOps = true := by decide +kernel
  refine ⟨exRun_run hf, fun x hx => pxFeeds _ ?_, by decide +kernel⟩
  rw [← exRun_dictOps hf]
  exact List.mem_map_of_mem hx

end

section
variable {K V RS : Type} [DecidableEq K] {c : Cfg K V RS} {o : Options} {s0 : SyncCache K V} {tr : List (Nat × Conc.Ev K V)}
  {s : Conc.Cache K V} {P : K → V → Prop}
open Conc Spec

/-- The same for a `sync::Cache` used by any number of callers, with any interleaving. What is put in includes what is inserted
through guards, what is seen includes the values that waiting callers receive. -/
theorem C94_shared (hb : SyncCache.withOptions o = .ok s0) (hr : Cache.Run c (Cache.start s0) tr s) (hq : c.ptrEq = true)
    (hs : Survives c P) (hf : ∀ x ∈ shardCalls tr, Feeds P x.2.op)
    (hg : ∀ i b k p v, (i, .gotGuard b k p) ∈ tr → (i, .published b p v) ∈ tr → P k v) :
    (∀ x ∈ shardCalls tr, ∀ y ∈ seen x.2, P y.1 y.2) ∧ (∀ i a k p v, (i, .received a k p v) ∈ tr → P k v) ∧
      ∀ y ∈ items s, P y.1 y.2 := by
  obtain ⟨m, h1, h2⟩ := C41_refines hb hr hq
  obtain ⟨h3, h4⟩ := h1.keeps hs hf
  refine ⟨h4, ?_, fun y hy => h3 _ _ ((h2.2 y.1 y.2).mp hy)⟩
  intro i a k p v hm
  have on : ∀ {e : Ev K V}, e ∈ onShard i tr ↔ (i, e) ∈ tr := by
    intro e
    unfold onShard
    rw [List.mem_filterMap]
    constructor
    · rintro ⟨⟨j, e'⟩, h1, h2⟩
      simp only [Option.ite_none_right_eq_some, Option.some.injEq] at h2
      obtain ⟨rfl, rfl⟩ := h2
      exact h1
    · exact fun h => ⟨_, h, by simp⟩
  have hi : ∃ st, s.shards[i]? = some st := by
    have hlt : i < s.shards.length := by
      have h5 := C41_shard hb hr hq
      have h6 := (runs hb hr hq).keys _ hm k (by simp [evKeys])
      have h7 := home_lt (c := c) hb k
      rw [h5.1]
      have : shardIdx s0.mask (c.hash k) = i := h6
      rw [← this]
      exact h7
    exact ⟨_, List.getElem?_eq_getElem hlt⟩
  obtain ⟨st, hst⟩ := hi
  have hrun := (C41_shard hb hr hq).2 i st hst
  obtain ⟨t1, t2, ht⟩ := List.append_of_mem (on.mpr hm)
  obtain ⟨b, u1, u2, hu, hgd⟩ := C47_value hrun hq ht
  refine hg i b k p v (on.mp ?_) (on.mp ?_)
  · rw [ht, hu]; simp [hgd]
  · rw [ht, hu]; simp

/-- The events of the sharded example that put something in put in what is in the relation. -/
def pxEv : Ev Nat Nat → Bool
  | .published _ _ v => decide (50 ≤ v)
  | .sect (.call (.insert k v)) _ _ | .sect (.fill k _ _ v) _ _ => decide (k ≤ v)
  | .sect (.call (.remove _)) _ _ | .sect (.call (.retain _)) _ _ => true
  | .sect (.call _) _ _ => false
  | _ => true

theorem pxEv_feeds {e : Ev Nat Nat} (h : pxEv e = true) {x : Unsync.Call Nat Nat} (hx : asCall e = some x) : Feeds pxRel x.op := by
  unfold asCall at hx
  split at hx
  · cases hx
    rename_i op out log
    cases op <;> first | exact trivial | exact Or.inl (of_decide_eq_true h) | cases h
  · cases hx
    exact Or.inl (of_decide_eq_true h)
  · cases hx; exact trivial
  · cases hx; exact trivial
  · cases hx

theorem pxEv_all {tr : List (Nat × Ev Nat Nat)} (hall : tr.all (fun e => pxEv e.2) = true) :
    (∀ x ∈ shardCalls tr, Feeds pxRel x.2.op) ∧
    (∀ i b k p v, (i, .gotGuard b k p) ∈ tr → (i, .published b p v) ∈ tr → pxRel k v) := by
  rw [List.all_eq_true] at hall
  constructor
  · intro x hx
    unfold shardCalls at hx
    rw [List.mem_filterMap] at hx
    obtain ⟨e, he, h⟩ := hx
    rw [Option.map_eq_some_iff] at h
    obtain ⟨y, h1, rfl⟩ := h
    exact pxEv_feeds (hall e he) h1
  · intro i b k p v _ hm
    have : pxEv (.published b p v) = true := hall _ hm
    exact Or.inr (of_decide_eq_true this)

/-- The sharded example meets the hypotheses; values were evicted, another one was inserted through a guard. -/
example : Cache.Run sxCfg (Cache.start sxNew) (sxRun sxActs).2 (sxRun sxActs).1 ∧ Survives sxCfg pxRel ∧
    ((∀ x ∈ shardCalls (sxRun sxActs).2, Feeds pxRel x.2.op) ∧
    (∀ i b k p v, (i, .gotGuard b k p) ∈ (sxRun sxActs).2 → (i, .published b p v) ∈ (sxRun sxActs).2 → pxRel k v)) ∧
    (sxRun sxActs).2.any (fun e => match e.2 with | .published _ _ _ => true | _ => false) = true ∧
    ((shardCalls (sxRun sxActs).2).flatMap (fun x => seen x.2)).length = 9 :=
  ⟨sxRun_run (by decide +kernel), fun st k v h => pxSurvives st k v h, pxEv_all (by decide +kernel), by decide +kernel, by decide +kernel⟩

end

end QuickCache.Props
