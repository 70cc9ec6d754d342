import Verif.Proofs.Listener
import Verif.Props.Balance
import Verif.Props.Order
import Verif.Props.SoloSharded

/-!
# Property C97: what an eviction listener hears when threads insert different keys
-/

namespace QuickCache.Props
section
variable {K V RS : Type} [DecidableEq K] {hash : K → UInt64} {rs : RS} {f : RS → K → V → RS} {o : Options} {par n : Nat}
  {s0 : SyncCache K V} {tr : List (Nat × Conc.Ev K V)} {s : Conc.Cache K V} {i : Nat} {st : Conc.State K V}
open Conc Spec

omit [DecidableEq K] in
theorem on_shard {e : Ev K V} : e ∈ onShard i tr ↔ (i, e) ∈ tr := by
  unfold onShard
  rw [List.mem_filterMap]
  constructor
  · rintro ⟨⟨j, e'⟩, h1, h2⟩
    simp only [Option.ite_none_right_eq_some, Option.some.injEq] at h2
    obtain ⟨rfl, rfl⟩ := h2
    exact h1
  · exact fun h => ⟨_, h, by simp⟩

/-- Any number of threads insert items of weight one, with different hashes, into a `sync::Cache`, and nothing else happens.
Each shard then has, of the items that came to it, the first ones, as many as may be hot, and the last ones, up to its capacity;
and the listener was told of the others, in the order in which they were inserted. -/
theorem C97_scan (hb : SyncCache.withOptions o = .ok s0) (hr : Cache.Run (.listener hash rs f true) (Cache.start s0) tr s)
    (ho : ∀ e ∈ tr, (insertion e.2).isSome = true) (h1 : 1 ≤ hotTarget o s0) (ht : hotTarget o s0 < share o.weight s0.numShards)
    (hi : s.shards[i]? = some st) (hd : ((puts i tr).map (hash ·.1)).Nodup) :
    (∀ k v, (k, v) ∈ st.shard.iter ↔ (k, v) ∈ scanned (hotTarget o s0) (share o.weight s0.numShards) (puts i tr)) ∧
      heard i tr = ((puts i tr).drop (hotTarget o s0)).take ((puts i tr).length - share o.weight s0.numShards) := by
  obtain ⟨h, h2, h3, h4⟩ := ((C41_shard hb hr rfl).2 i st hi).inserts rfl (fun e he => ho _ (on_shard.mp he))
  obtain ⟨h5, h6⟩ := C82_scan h2 h1 ht h3 hd
  refine ⟨h5, ?_⟩
  rw [show heard i tr = _ from h4.symm]
  exact told_scan ht (by have := congrArg List.length h3; simpa [puts] using this) h6

/-- The same for a cache built by `Cache::new(n)`, or by `Cache::with(n, n, UnitWeighter, …)` as in the example. -/
theorem C97_new (hn : SyncCache.new par n = .ok (.ok s0)) (h2 : 2 ≤ n) {each : Nat} (hcap : s0.shardCapacity = .ok each)
    (hr : Cache.Run (.listener hash rs f true) (Cache.start s0) tr s)
    (ho : ∀ e ∈ tr, (insertion e.2).isSome = true) (hi : s.shards[i]? = some st) (hd : ((puts i tr).map (hash ·.1)).Nodup) :
    (∀ k v, (k, v) ∈ st.shard.iter ↔ (k, v) ∈ scanned (fracOf each defaultHot) each (puts i tr)) ∧
      heard i tr = ((puts i tr).drop (fracOf each defaultHot)).take ((puts i tr).length - each) := by
  obtain ⟨h3, h4⟩ := each_new hn h2 hcap
  have e : hotTarget (.ofNew par n) s0 = fracOf each defaultHot := by rw [h3]; rfl
  have e2 : share (Options.ofNew par n).weight s0.numShards = each := h3.symm
  have := C97_scan (shared_new hn) hr ho (by rw [e]; exact fracOf_default_pos h4)
    (by rw [e, e2]; exact (fracOf_default_le each).2 (by omega)) hi hd
  rw [e, e2] at this
  exact this

end

/-! ### `eviction_listener.rs` -/

section
variable {RS : Type} {hash : Nat → UInt64} {rs : RS} {f : RS → Nat → Nat → RS} {par each i : Nat} {s0 : SyncCache Nat Nat}
  {tr : List (Nat × Conc.Ev Nat Nat)} {s : Conc.Cache Nat Nat}
open Conc Spec

/-- What the listener of `/repo/examples/eviction_listener.rs:28-42` prints. `hs` says that the loop of `main` has ended: the numbers
below 110 were inserted, each as its own value, into `Cache::with(100, 100, UnitWeighter, …)`; `hd` that their hashes differ.
Each number was printed once or is still in the cache. Those printed that belong to the same shard were printed in increasing order,
and they are the first that came after those which stay for ever. -/
theorem C97_example (hn : SyncCache.new par 100 = .ok (.ok s0)) (hcap : s0.shardCapacity = .ok each)
    (hr : Cache.Run (.listener hash rs f true) (Cache.start s0) tr s) (ho : ∀ e ∈ tr, (insertion e.2).isSome = true)
    (hs : tr.filterMap (fun e => insertion e.2) = (List.range 110).map (fun i => (i, i)))
    (hd : ((List.range 110).map hash).Nodup) :
    (items s ++ tr.flatMap (fun e => toldBy e.2)).Perm ((List.range 110).map (fun i => (i, i))) ∧
      ∀ i < s.shards.length, (heard i tr).Pairwise (fun x y => x.1 < y.1) ∧
        heard i tr = ((puts i tr).drop (fracOf each defaultHot)).take ((puts i tr).length - each) := by
  obtain ⟨e1, e2, e3⟩ := shardCalls_inserts ho
  constructor
  · obtain ⟨m, h1, -⟩ := C41_refines (shared_new hn) hr rfl
    have := C96_shared_inserted (shared_new hn) hr rfl e1 (h1.asIs (fun _ _ _ => rfl) e1)
    rw [e2, e3, hs] at this
    exact this
  · intro i hi
    have hsub : (puts i tr).Sublist ((List.range 110).map (fun i => (i, i))) := hs ▸ puts_sublist i tr
    have h1 : (heard i tr) = _ := (C97_new hn (by decide) hcap hr ho (List.getElem?_eq_getElem hi) ?_).2
    · refine ⟨?_, h1⟩
      rw [h1]
      refine List.Pairwise.sublist ((List.take_sublist _ _).trans ((List.drop_sublist _ _).trans hsub)) ?_
      rw [List.pairwise_map]
      exact List.pairwise_lt_range
    · have := hsub.map (hash ·.1)
      rw [List.map_map] at this
      exact this.nodup hd

end

/-! ### Examples -/

section
open Conc Spec

/-- On a machine with one processor the cache has two shards; even and odd numbers go to different ones. -/
def lxCfg : Cfg Nat Nat Unit := .listener (fun k => UInt64.ofNat (k % 2 * 2 ^ 32 + k)) () (fun st _ _ => st) true

def lxNew : SyncCache Nat Nat :=
  match SyncCache.new 1 100 with
  | .ok (.ok s) => s
  | _ => ⟨[], 0⟩

theorem lxBuilt : SyncCache.new 1 100 = .ok (.ok lxNew) := by
  obtain ⟨s0, h0⟩ := C63_new_shared (K := Nat) (V := Nat) (par := 1) (by decide) 100
  have : lxNew = s0 := by unfold lxNew; rw [h0]
  rw [this, h0]

/-- The loop of `main`. -/
def lxActs : List (Nat × Act Nat Nat) := (List.range 110).map (fun i => (i % 2, .call (.insert i i)))

/-- The whole program: the hypotheses of the theorems are met, and this is what is printed. -/
example : ∃ s tr, SyncCache.new 1 100 = .ok (.ok lxNew) ∧ lxNew.shardCapacity = .ok 50 ∧
    Cache.Run lxCfg (Cache.start lxNew) tr s ∧ tr.all (fun e => (insertion e.2).isSome) = true ∧
    tr.filterMap (fun e => insertion e.2) = (List.range 110).map (fun i => (i, i)) ∧
    ((List.range 110).map lxCfg.hash).Nodup ∧
    heard 0 tr = [(96, 96), (98, 98), (100, 100), (102, 102), (104, 104)] ∧
    heard 1 tr = [(97, 97), (99, 99), (101, 101), (103, 103), (105, 105)] := by
  have h : (runShards lxCfg (Cache.start lxNew) lxActs).map (fun x => (x.2.all (fun e => (insertion e.2).isSome),
      x.2.filterMap (fun e => insertion e.2), heard 0 x.2, heard 1 x.2)) =
      some (true, (List.range 110).map (fun i => (i, i)), [(96, 96), (98, 98), (100, 100), (102, 102), (104, 104)],
        [(97, 97), (99, 99), (101, 101), (103, 103), (105, 105)]) := by decide +kernel
  rw [Option.map_eq_some_iff] at h
  obtain ⟨⟨s, tr⟩, h1, h2⟩ := h
  simp only [Prod.mk.injEq] at h2
  have hr := runShards_run (c := lxCfg) (s0 := Cache.start lxNew) .start h1
  rw [List.nil_append] at hr
  exact ⟨s, tr, lxBuilt, by decide +kernel, hr, h2.1, h2.2.1, by decide +kernel, h2.2.2.1, h2.2.2.2⟩

end

end QuickCache.Props
