import Batteries.Data.List.Perm
import Verif.Proofs.Balance
import Verif.Props.Contents
import Verif.Props.Dict
import Verif.Props.Sharded

/-!
# Property C96: every item that enters the cache leaves it exactly once, or is in it
-/

namespace QuickCache.Props
section
variable {K V RS : Type} [DecidableEq K] {c : Cfg K V RS} {target cap gcap : Nat} {h : List (Unsync.Call K V)}
  {s : Shard K V}
open Unsync Spec

/-- Whatever calls were made, except `retain` and `clear`: the items in the cache, those returned by `remove`, `replace` and
`drain`, those handed to `on_evict` and the values since rewritten are, with multiplicities, what was put in. -/
theorem C96_balance (hr : Run c (Shard.new target cap gcap) h s) (hs : ∀ x ∈ h, Op.silent x.op = false) :
    (s.iter ++ h.flatMap goes).Perm (h.flatMap comes) := by
  classical
  rw [List.perm_iff_count]
  intro y
  rw [List.count_append, Lists.count hr.lists]
  exact (Replays.even (C02_refines hr)).2 hs

/-- In general some items are lost (dropped by `retain` and `clear`), but none comes out twice and none appears from nowhere. -/
theorem C96_once (hr : Run c (Shard.new target cap gcap) h s) : ∃ lost, (s.iter ++ h.flatMap goes ++ lost).Perm (h.flatMap comes) := by
  classical
  refine ⟨_, List.subperm_append_diff_self_of_count_le (fun y _ => ?_)⟩
  rw [List.count_append, Lists.count hr.lists]
  exact (Replays.even (C02_refines hr)).1

/-- If nothing but `insert` and `get` is called and `before_evict` changed no value, then what was inserted is in the cache or
was handed to `on_evict`, and not both. An item counts as often as it was inserted. -/
theorem C96_inserted (hr : Run c (Shard.new target cap gcap) h s) (ho : ∀ x ∈ h, (∃ k v, x.op = .insert k v) ∨ ∃ k, x.op = .get k)
    (hb : ∀ x ∈ h, ∀ k v v', Event.beforeEvict k v v' ∈ x.log → v' = v) :
    (s.iter ++ h.flatMap (fun x => evicted x.log)).Perm (h.filterMap (fun x => inserted x.op)) := by
  classical
  rw [List.perm_iff_count]
  intro y
  have h1 := (Replays.even (y := y) (C02_refines hr)).2 (fun x hx => by
    rcases ho x hx with ⟨k, v, h⟩ | ⟨k, h⟩ <;> rw [h] <;> rfl)
  have h2 := count_inserted (y := y) (C02_refines hr) ho hb
  rw [List.count_append, Lists.count hr.lists]
  omega

/-- The example: items were rewritten, removed, replaced, evicted. -/
example : Run exCfg (Shard.new 8 10 3) (exRun exOps).2 (exRun exOps).1 ∧ (∀ x ∈ (exRun exOps).2, Op.silent x.op = false) ∧
    (exRun exOps).1.iter = [(4, 11), (7, 106), (2, 50), (8, 12)] ∧ ((exRun exOps).2.flatMap goes).length = 14 ∧
    ((exRun exOps).2.flatMap comes).length = 18 := by
  refine ⟨exRun_run (by decide +kernel), by decide +kernel, by decide +kernel, by decide +kernel, by decide +kernel⟩

/-- Another one, with insertions and lookups only. -/
def bxOps : List (Op Nat Nat) :=
  [.insert 1 13, .insert 4 24, .get 1, .insert 7 105, .insert 3 32, .get 3, .insert 5 44, .insert 6 63, .insert 9 9, .insert 4 11]

/-- It meets the hypotheses of `C96_inserted`. -/
def bxCall : Call Nat Nat → Bool
  | ⟨.insert _ _, _, log⟩ => log.all (fun | .beforeEvict _ v v' => v' == v | .onEvict _ _ => true)
  | ⟨.get _, _, log⟩ => log.isEmpty
  | _ => false

theorem bxCall_op {x : Call Nat Nat} (h : bxCall x = true) :
    ((∃ k v, x.op = .insert k v) ∨ ∃ k, x.op = .get k) ∧ ∀ k v v', Event.beforeEvict k v v' ∈ x.log → v' = v := by
  obtain ⟨op, out, log⟩ := x
  cases op with
  | insert k v =>
    refine ⟨Or.inl ⟨_, _, rfl⟩, fun k v v' hm => ?_⟩
    have := List.all_eq_true.mp h _ hm
    simpa using this
  | get k =>
    refine ⟨Or.inr ⟨_, rfl⟩, fun k v v' hm => ?_⟩
    have : log = [] := List.isEmpty_iff.mp h
    simp only [this] at hm
    cases hm
  | _ => cases h

example : Run exCfg (Shard.new 8 10 3) (exRun bxOps).2 (exRun bxOps).1 ∧
    (∀ x ∈ (exRun bxOps).2, (∃ k v, x.op = .insert k v) ∨ ∃ k, x.op = .get k) ∧
    (∀ x ∈ (exRun bxOps).2, ∀ k v v', Event.beforeEvict k v v' ∈ x.log → v' = v) ∧
    (exRun bxOps).1.iter = [(6, 63), (7, 105), (4, 11)] ∧
    (exRun bxOps).2.flatMap (fun x => evicted x.log) = [(4, 24), (1, 13), (3, 32), (5, 44), (9, 9)] := by
  have hall : (exRun bxOps).2.all bxCall = true := by decide +kernel
  rw [List.all_eq_true] at hall
  exact ⟨exRun_run (by decide +kernel), fun x hx => (bxCall_op (hall x hx)).1, fun x hx => (bxCall_op (hall x hx)).2,
    by decide +kernel, by decide +kernel⟩

end

section
variable {K V RS : Type} [DecidableEq K] {c : Cfg K V RS} {o : Options} {s0 : SyncCache K V} {tr : List (Nat × Conc.Ev K V)}
  {s : Conc.Cache K V}
open Conc Spec

/-- `sync::Cache` has no `drain`. -/
theorem no_drain (hb : SyncCache.withOptions o = .ok s0) (hr : Cache.Run c (Cache.start s0) tr s) (hq : c.ptrEq = true) :
    ∀ x ∈ shardCalls tr, x.2.op ≠ .drain := by
  induction hr with
  | start => simp [shardCalls]
  | layout m p hr hi hm hp ih => exact ih
  | @act tr s s' i act evs hr hs ih =>
    intro x hx
    unfold shardCalls at hx ih
    rw [List.filterMap_append, List.mem_append] at hx
    rcases hx with hx | hx
    · exact ih x hx
    · obtain ⟨-, st, st', hst, hex, -⟩ := Cache.exec_some hs
      have he := (((C41_shard hb hr hq).2 i st hst).reach hq (CReach.new c _ _ _)).inv.eff hq hex
      rw [List.filterMap_map, List.mem_filterMap] at hx
      obtain ⟨e, h1, h2⟩ := hx
      simp only [Function.comp, Option.map_eq_some_iff] at h2
      obtain ⟨y, h2, rfl⟩ := h2
      unfold asCall at h2
      split at h2
      · cases h2
        obtain ⟨b, h3⟩ := he.lockMode h1
        intro h4
        simp only at h4
        subst h4
        cases h3
      all_goals cases h2
      all_goals (intro h; cases h)

/-- The same for a `sync::Cache` used by any number of callers, with any interleaving. -/
theorem C96_shared_balance (hb : SyncCache.withOptions o = .ok s0) (hr : Cache.Run c (Cache.start s0) tr s) (hq : c.ptrEq = true)
    (hs : ∀ x ∈ shardCalls tr, Op.silent x.2.op = false) :
    (items s ++ (shardCalls tr).flatMap (fun x => goes x.2)).Perm ((shardCalls tr).flatMap (fun x => comes x.2)) := by
  classical
  obtain ⟨m, h1, h2⟩ := C41_refines hb hr hq
  rw [List.perm_iff_count]
  intro y
  rw [List.count_append, Lists.count h2]
  exact (ShardReplays.even h1 (no_drain hb hr hq)).2 hs

theorem C96_shared_once (hb : SyncCache.withOptions o = .ok s0) (hr : Cache.Run c (Cache.start s0) tr s) (hq : c.ptrEq = true) :
    ∃ lost, (items s ++ (shardCalls tr).flatMap (fun x => goes x.2) ++ lost).Perm ((shardCalls tr).flatMap (fun x => comes x.2)) := by
  classical
  obtain ⟨m, h1, h2⟩ := C41_refines hb hr hq
  refine ⟨_, List.subperm_append_diff_self_of_count_le (fun y _ => ?_)⟩
  rw [List.count_append, Lists.count h2]
  exact (ShardReplays.even h1 (no_drain hb hr hq)).1

/-- With any number of threads that only insert (also through guards) and look up. -/
theorem C96_shared_inserted (hb : SyncCache.withOptions o = .ok s0) (hr : Cache.Run c (Cache.start s0) tr s) (hq : c.ptrEq = true)
    (ho : ∀ x ∈ shardCalls tr, (∃ k v, x.2.op = .insert k v) ∨ ∃ k, x.2.op = .get k)
    (he : ∀ x ∈ shardCalls tr, ∀ k v v', Event.beforeEvict k v v' ∈ x.2.log → v' = v) :
    (items s ++ (shardCalls tr).flatMap (fun x => evicted x.2.log)).Perm ((shardCalls tr).filterMap (fun x => inserted x.2.op)) := by
  classical
  obtain ⟨m, h1, h2⟩ := C41_refines hb hr hq
  rw [List.perm_iff_count]
  intro y
  have h3 := (ShardReplays.even (y := y) h1 (no_drain hb hr hq)).2 (fun x hx => by
    rcases ho x hx with ⟨k, v, h⟩ | ⟨k, h⟩ <;> rw [h] <;> rfl)
  have h4 := count_shared_inserted (y := y) h1 ho he
  rw [List.count_append, Lists.count h2]
  omega

/-- The sharded example without the removal and `retain`, which meets the hypotheses of all three theorems: three items
were evicted, one was inserted through a guard. -/
def bxActs : List (Nat × Act Nat Nat) := sxActs.dropLast.dropLast.dropLast

example : SyncCache.withOptions sxOptions = .ok sxNew ∧ Cache.Run sxCfg (Cache.start sxNew) (sxRun bxActs).2 (sxRun bxActs).1 ∧
    (∀ x ∈ shardCalls (sxRun bxActs).2, (∃ k v, x.2.op = .insert k v) ∨ ∃ k, x.2.op = .get k) ∧
    (∀ x ∈ shardCalls (sxRun bxActs).2, ∀ k v v', Event.beforeEvict k v v' ∈ x.2.log → v' = v) ∧
    (∀ x ∈ shardCalls (sxRun bxActs).2, Op.silent x.2.op = false) ∧
    items (sxRun bxActs).1 = [(2, 13), (4, 52), (7, 68)] ∧
    (shardCalls (sxRun bxActs).2).flatMap (fun x => evicted x.2.log) = [(3, 25), (1, 14), (5, 33)] := by
  have hall : (shardCalls (sxRun bxActs).2).all (fun x => bxCall x.2) = true := by decide +kernel
  rw [List.all_eq_true] at hall
  exact ⟨sxBuilt, sxRun_run (by decide +kernel), fun x hx => (bxCall_op (hall x hx)).1, fun x hx => (bxCall_op (hall x hx)).2,
    by decide +kernel, by decide +kernel, by decide +kernel⟩

end

end QuickCache.Props
