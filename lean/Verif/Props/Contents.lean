import Verif.Proofs.History
import Verif.Props.Example

/-!
# Properties C01, C02, C10, C11, C20: what the cache contains

All statements are about every run `Run c (Shard.new target cap gcap) h s` of the unsync cache: any finite sequence `h`
of API calls on a freshly built cache, with any hash function, weighter and lifecycle (`c`), any capacity, and any
layout of the hash table at any time.
-/

namespace QuickCache.Props
variable {K V RS : Type _} [DecidableEq K] {c : Cfg K V RS} {target cap gcap : Nat} {h : List (Unsync.Call K V)}
  {s s' : Shard K V}
open Unsync Spec

/-! ### C01: lookups return the last stored value -/

/-- An item yielded by `iter` carries the value last stored for its key. -/
theorem C01_iter (hr : Run c (Shard.new target cap gcap) h s) {k : K} {v : V} (hm : (k, v) ∈ s.iter) :
    lastStored k h = some v :=
  hr.replays_new.latest k v ((hr.lists.2 k v).mp hm)

/-- A call that returns an item it found returns the value last stored for its key. -/
theorem C01_lookup (hr : Run c (Shard.new target cap gcap) h s) {op : Op K V} {out : Out K V} {q : Req K V RS}
    (hs : step c s op = .ok (s', out, q)) {k : K} {v : V} (hy : Yields op out k v) : lastStored k h = some v := by
  have ho := hr.opSpec hs
  apply hr.replays_new.latest k v
  cases hy with
  | get => obtain ⟨h, -, -⟩ := ho; rw [Out.value.injEq] at h; exact h.symm
  | peek => obtain ⟨h, -, -⟩ := ho; rw [Out.value.injEq] at h; exact h.symm
  | getMut => obtain ⟨h, -, -⟩ := ho; rw [Out.value.injEq] at h; exact h.symm
  | peekMut => obtain ⟨h, -, -⟩ := ho; rw [Out.value.injEq] at h; exact h.symm
  | load _ load =>
    simp only [OpSpec] at ho
    cases hm : s.contents k with
    | some w => rw [hm] at ho; obtain ⟨h, -, -⟩ := ho; cases h; rfl
    | none => rw [hm] at ho; cases load <;> simp at ho
  | loadMut _ load f =>
    simp only [OpSpec] at ho
    cases hm : s.contents k with
    | some w => rw [hm] at ho; obtain ⟨h, -, -⟩ := ho; cases h; rfl
    | none => rw [hm] at ho; cases load <;> simp at ho
  | guard _ use =>
    simp only [OpSpec] at ho
    cases hm : s.contents k with
    | some w => rw [hm] at ho; obtain ⟨h, -, -⟩ := ho; cases h; rfl
    | none => rw [hm] at ho; cases use <;> simp at ho
  | guardMut _ f use =>
    simp only [OpSpec] at ho
    cases hm : s.contents k with
    | some w => rw [hm] at ho; obtain ⟨h, -, -⟩ := ho; cases h; rfl
    | none => rw [hm] at ho; cases use <;> simp at ho
  | remove k0 =>
    obtain ⟨h, -, -⟩ := ho
    cases hm : s.contents k0 with
    | none => rw [hm] at h; cases h
    | some w => rw [hm] at h; cases h; exact hm
  | drain l _ _ mem =>
    obtain ⟨⟨l', h, hl⟩, -, -⟩ := ho
    cases h
    exact (hl.2 k v).mp mem

/-- A value that `get_or_insert_with` returns after loading it is the one last stored for the key, counting this call. -/
theorem C01_loaded (hr : Run c (Shard.new target cap gcap) h s) {k : K} {load : Option V} {q : Req K V RS} {v : V}
    (hs : step c s (.getOrInsertWith k load) = .ok (s', .loaded true (some (some v)), q)) :
    lastStored k (h ++ [⟨.getOrInsertWith k load, .loaded true (some (some v)), q.log⟩]) = some v := by
  have ho := hr.opSpec hs
  apply (Run.call hr hs).replays_new.latest k v
  simp only [OpSpec] at ho
  cases hm : s.contents k with
  | some w => rw [hm] at ho; simp at ho
  | none =>
    rw [hm] at ho
    cases load with
    | none => simp at ho
    | some w =>
      obtain ⟨-, h⟩ := ho
      simp only [Out.loaded.injEq, Option.some.injEq, true_and] at h
      exact h.symm

/-- After the example run (with collisions, evictions, a spared, a rejected and a pinned item) the key 2 holds the value
that `before_evict` left, and 7 the replaced one. -/
example : (2, 50) ∈ (exRun exOps).1.iter ∧ lastStored 2 (exRun exOps).2 = some 50 ∧
    (7, 106) ∈ (exRun exOps).1.iter ∧ lastStored 7 (exRun exOps).2 = some 106 := by decide

example : lastStored 2 (exRun exOps).2 = some 50 := C01_iter (exRun_run (ops := exOps) (by decide)) (by decide)

example : ∃ x, step exCfg (exRun exOps).1 (.get 7) = .ok (x, .value (some 106), exCfg.begin) ∧
    Yields (.get 7) (.value (some 106)) 7 106 :=
  ⟨_, rfl, .get ..⟩

example : ∃ s' q, step exCfg (exRun exOps).1 (.getOrInsertWith 5 (some 21)) = .ok (s', .loaded true (some (some 21)), q) :=
  ⟨_, _, rfl⟩

/-! ### C02: the cache is exactly a map minus the evicted items -/

/-- The contents are computed from the history alone: the writes and removals of the calls and the items handed to
`on_evict` or rewritten by `before_evict`. -/
theorem C02_contents (hr : Run c (Shard.new target cap gcap) h s) (k : K) (v : V) :
    (k, v) ∈ s.iter ↔ playAll h k = some v := by
  rw [hr.lists.2 k v, hr.replays_new.playAll]

/-- The whole history is a possible behaviour of a plain map from which items are evicted as specified. -/
theorem C02_refines (hr : Run c (Shard.new target cap gcap) h s) : Replays c target (fun _ => none) h s.contents :=
  hr.replays_new

/-- Nothing disappears silently: an item gone after a call that does not explicitly concern it was handed to
`on_evict`, and an item no lifecycle call was made for is unchanged. -/
theorem C02_not_lost (hr : Run c (Shard.new target cap gcap) h s) {op : Op K V} {out : Out K V} {q : Req K V RS}
    (hs : step c s op = .ok (s', out, q)) {k : K} {v : V} (hm : (k, v) ∈ s.iter)
    (ht : ¬ Touches k v ⟨op, out, q.log⟩) :
    ((∀ w, (k, w) ∉ s'.iter) → ∃ w, .onEvict k w ∈ q.log) ∧
      ((∀ e ∈ q.log, eventKey e ≠ k) → (k, v) ∈ s'.iter) := by
  have hl' := (Run.call hr hs).lists
  have := (hr.opSpec hs).spared ((hr.lists.2 k v).mp hm) ht
  refine ⟨fun hno => this.lost ?_, fun hq => (hl'.2 k v).mpr (this.quiet hq)⟩
  cases hk : s'.contents k with
  | none => rfl
  | some w => exact absurd ((hl'.2 k w).mpr hk) (hno w)

/-- Nothing comes back or appears on its own: a key that was absent before a call and is present afterwards is the key
the call stores. -/
theorem C02_nothing_appears (hr : Run c (Shard.new target cap gcap) h s) {op : Op K V} {out : Out K V} {q : Req K V RS}
    (hs : step c s op = .ok (s', out, q)) {k : K} {v : V} (hno : ∀ w, (k, w) ∉ s.iter) (hm : (k, v) ∈ s'.iter) :
    StoresKey k op := by
  refine (hr.opSpec hs).appears ?_ (by rw [((Run.call hr hs).lists.2 k v).mp hm]; simp)
  cases hk : s.contents k with
  | none => rfl
  | some w => exact absurd ((hr.lists.2 k w).mpr hk) (hno w)

/-- The example run: four keys are left and six were evicted or removed; the history tells which. -/
example : (List.range 10).map (playAll (exRun exOps).2) =
    [none, none, some 50, none, some 11, none, none, some 106, some 12, none] := by decide

/-- In the example the item (1, 13) leaves during the insertion of 5, which does not concern it, and is handed out. -/
example : step exCfg (exRun (exOps.take 7)).1 (.insert 5 44) = .ok (exNext (exOps.take 7) (.insert 5 44)) ∧
    (1, 13) ∈ (exRun (exOps.take 7)).1.iter ∧ 1 ∉ (exNext (exOps.take 7) (.insert 5 44)).1.iter.map (·.1) ∧
    .onEvict 1 13 ∈ (exNext (exOps.take 7) (.insert 5 44)).2.2.log :=
  ⟨exNext_step (by decide), by decide, by decide, by decide⟩

/-! ### C10: at most one entry per key -/

theorem C10_iter (hr : Run c (Shard.new target cap gcap) h s) : (s.iter.map (·.1)).Nodup := hr.lists.1

theorem C10_drain (hr : Run c (Shard.new target cap gcap) h s) {l : List (K × V)} {q : Req K V RS}
    (hs : step c s .drain = .ok (s', .items l, q)) : (l.map (·.1)).Nodup := by
  obtain ⟨⟨l', h, hl⟩, -, -⟩ := hr.opSpec hs
  cases h
  exact hl.1

example : (exRun exOps).1.iter.map (·.1) = [4, 7, 2, 8] := by decide

/-! ### C11: all read APIs agree -/

/-- The lookups never panic, and all of them report what `iter` shows. -/
theorem C11_lookups (hr : Run c (Shard.new target cap gcap) h s) (k : K) :
    (∀ v, s.contents k = some v ↔ (k, v) ∈ s.iter) ∧
    (∃ s1 q, step c s (.get k) = .ok (s1, .value (s.contents k), q)) ∧
    (∃ q, step c s (.peek k) = .ok (s, .value (s.contents k), q)) ∧
    (∃ q, step c s (.containsKey k) = .ok (s, .bool (s.contents k).isSome, q)) := by
  have hi := hr.reach_new.inv.toInv0
  refine ⟨fun v => ((hr.lists.2 k v)).symm, ?_, ?_, ?_⟩
  · rcases step_sat hi (.get k) with ⟨⟨s1, out, q⟩, hb, -⟩ | ⟨p, -, he⟩
    · have := hr.opSpec hb
      exact ⟨s1, q, by rw [hb, this.1]⟩
    · rcases he with ⟨-, w, hw, -⟩ | ⟨-, hg, -⟩
      · cases hw
      · cases hg
  · rcases step_sat hi (.peek k) with ⟨⟨s1, out, q⟩, hb, -⟩ | ⟨p, -, he⟩
    · have := hr.opSpec hb
      have h1 : s1 = s := by
        simp only [step] at hb
        cases hp : s.peek (c.hash k) (fun x => x == k) <;> rw [hp] at hb <;> cases hb
        rfl
      exact ⟨q, by rw [hb, this.1, h1]⟩
    · rcases he with ⟨-, w, hw, -⟩ | ⟨-, hg, -⟩
      · cases hw
      · cases hg
  · rcases step_sat hi (.containsKey k) with ⟨⟨s1, out, q⟩, hb, -⟩ | ⟨p, -, he⟩
    · have := hr.opSpec hb
      have h1 : s1 = s := by
        simp only [step] at hb
        cases hp : s.contains (c.hash k) (fun x => x == k) <;> rw [hp] at hb <;> cases hb
        rfl
      exact ⟨q, by rw [hb, this.1, h1]⟩
    · rcases he with ⟨-, w, hw, -⟩ | ⟨-, hg, -⟩
      · cases hw
      · cases hg

/-- The references returned by `get_mut` and `peek_mut` show the same value (they may only panic when dropped, through
overflow of the weight of the value written, see C06). -/
theorem C11_mutable (hr : Run c (Shard.new target cap gcap) h s) (k : K) (f : V → V) {out : Out K V} {q : Req K V RS}
    (hs : step c s (.getMut k f) = .ok (s', out, q) ∨ step c s (.peekMut k f) = .ok (s', out, q)) :
    out = .value (s.contents k) := by
  rcases hs with hs | hs
  · exact (hr.opSpec hs).1
  · exact (hr.opSpec hs).1

example : (exRun exOps).1.contents 2 = some 50 ∧ (exRun exOps).1.contents 1 = none := by decide

/-! ### C20: every stored item is accounted for exactly once -/

/-- Storing calls: insertion, loading, filling through a guard. The items stored before together with the new item are
exactly the items stored afterwards and those handed to `on_evict`, each lifecycle call acting on an item really there. -/
theorem C20_insert (hr : Run c (Shard.new target cap gcap) h s) {k : K} {v : V} {out : Out K V} {q : Req K V RS}
    (hs : step c s (.insert k v) = .ok (s', out, q)) : Process ((k, v) :: s.iter) q.log s'.iter :=
  (hr.opSpec hs).2.process hr.lists (Run.call hr hs).lists

/-- `get_or_insert_with` and inserting through a guard, on an absent key. -/
theorem C20_fill (hr : Run c (Shard.new target cap gcap) h s) {k : K} {v : V} (hk : s.contents k = none) {op : Op K V}
    (hop : op = .getOrInsertWith k (some v) ∨ op = .getRefOrGuard k (.insert v) ∨
      (∃ f, op = .getMutOrGuard k f (.insert v)) ∨ op = .getMutOrInsertWith k (some v) id) {out : Out K V} {q : Req K V RS}
    (hs : step c s op = .ok (s', out, q)) : Process ((k, v) :: s.iter) q.log s'.iter := by
  have ho := hr.opSpec hs
  have hl' := (Run.call hr hs).lists
  rcases hop with rfl | rfl | ⟨f, rfl⟩ | rfl <;> simp only [OpSpec, hk] at ho
  · exact ho.1.process hr.lists hl'
  · exact ho.2.process hr.lists hl'
  · exact ho.2.process hr.lists hl'
  · obtain ⟨m1, h, -, h2⟩ := ho
    rw [alter_id] at h2
    rw [← h2] at h
    exact h.process hr.lists hl'

/-- Loading and then writing `f` through the reference: as above up to the item of `k`, if it is still there, which is
then rewritten by `f`. -/
theorem C20_fill_write (hr : Run c (Shard.new target cap gcap) h s) {k : K} {v : V} (hk : s.contents k = none)
    {f : V → V} {out : Out K V} {q : Req K V RS}
    (hs : step c s (.getMutOrInsertWith k (some v) f) = .ok (s', out, q)) :
    ∃ bag, Process ((k, v) :: s.iter) q.log bag ∧
      s'.iter.Perm (bag.map fun p => if p.1 = k then (p.1, f p.2) else p) := by
  have ho := hr.opSpec hs
  have hl' := (Run.call hr hs).lists
  simp only [OpSpec, hk] at ho
  obtain ⟨m1, h, -, h2⟩ := ho
  rw [h2] at hl'
  obtain ⟨bag, hbag⟩ : ∃ bag, Lists bag m1 := by
    refine ⟨s'.iter.filterMap (fun p => (m1 p.1).map fun w => (p.1, w)), ?_, ?_⟩
    · have : ∀ l : List (K × V), (l.map (·.1)).Nodup →
          ((l.filterMap (fun p => (m1 p.1).map fun w => (p.1, w))).map (·.1)).Nodup := by
        intro l
        induction l with
        | nil => simp
        | cons p l ih =>
          intro hn
          simp only [List.map_cons, List.nodup_cons] at hn
          rw [List.filterMap_cons]
          cases hp : m1 p.1 with
          | none => simpa using ih hn.2
          | some w =>
            simp only [Option.map_some, List.map_cons, List.nodup_cons]
            refine ⟨?_, ih hn.2⟩
            intro hmem
            apply hn.1
            obtain ⟨x, hx, hxp⟩ := List.mem_map.mp hmem
            obtain ⟨y, hy, hyx⟩ := List.mem_filterMap.mp hx
            cases hy' : m1 y.1 with
            | none => rw [hy'] at hyx; cases hyx
            | some w' =>
              rw [hy'] at hyx
              cases hyx
              exact List.mem_map.mpr ⟨y, hy, hxp⟩
      exact this _ hl'.1
    · intro x w
      constructor
      · intro hx
        obtain ⟨y, hy, hyx⟩ := List.mem_filterMap.mp hx
        cases hy' : m1 y.1 with
        | none => rw [hy'] at hyx; cases hyx
        | some w' => rw [hy'] at hyx; cases hyx; exact hy'
      · intro hx
        have : ∃ w', alter m1 k f x = some w' := by
          by_cases hxk : x = k
          · subst hxk; exact ⟨f w, by simp [alter, hx]⟩
          · exact ⟨w, by rw [alter_other _ _ hxk, hx]⟩
        obtain ⟨w', hw'⟩ := this
        exact List.mem_filterMap.mpr ⟨(x, w'), (hl'.2 x w').mpr hw', by simp [hx]⟩
  refine ⟨bag, h.process hr.lists hbag, ?_⟩
  apply hl'.perm
  constructor
  · have : (bag.map fun p => if p.1 = k then (p.1, f p.2) else p).map (·.1) = bag.map (·.1) := by
      rw [List.map_map]
      apply List.map_congr_left
      intro p _
      simp only [Function.comp]
      split <;> rfl
    rw [this]; exact hbag.1
  · intro x w
    constructor
    · intro hx
      obtain ⟨y, hy, hyx⟩ := List.mem_map.mp hx
      have hy' := (hbag.2 y.1 y.2).mp hy
      by_cases hyk : y.1 = k
      · rw [if_pos hyk] at hyx
        cases hyx
        simp [alter, hyk]
        rw [← hyk, hy']; exact ⟨_, rfl, rfl⟩
      · rw [if_neg hyk] at hyx
        subst hyx
        rw [alter_other _ _ hyk, hy']
    · intro hx
      by_cases hxk : x = k
      · subst hxk
        simp only [alter, if_true] at hx
        cases hm : m1 x with
        | none => rw [hm] at hx; cases hx
        | some w' =>
          rw [hm] at hx
          cases hx
          exact List.mem_map.mpr ⟨(x, w'), (hbag.2 _ _).mpr hm, by simp⟩
      · rw [alter_other _ _ hxk] at hx
        exact List.mem_map.mpr ⟨(x, w), (hbag.2 _ _).mpr hx, by simp [hxk]⟩

/-- `replace`: the value handed back with `Err` is accounted for as well. -/
theorem C20_replace (hr : Run c (Shard.new target cap gcap) h s) {k : K} {v : V} {soft : Bool} {err : Option (K × V)}
    {q : Req K V RS} (hs : step c s (.replace k v soft) = .ok (s', .replaced err, q)) :
    Process ((k, v) :: s.iter) q.log (err.toList ++ s'.iter) := by
  obtain ⟨r, h, hrep⟩ := hr.opSpec hs
  cases h
  have := hrep.process hr.lists (Run.call hr hs).lists
  cases r <;> simpa using this

/-- Every other call makes no lifecycle call at all; what it does to the items is stated in C12, C18, C19, C28, C32. -/
theorem C20_silent (hr : Run c (Shard.new target cap gcap) h s) {op : Op K V} {out : Out K V} {q : Req K V RS}
    (hs : step c s op = .ok (s', out, q)) (hlog : q.log ≠ []) :
    (∃ k v, op = .insert k v) ∨ (∃ k v soft, op = .replace k v soft) ∨
      ∃ k v, s.contents k = none ∧ StoresKey k op ∧
        (op = .getOrInsertWith k (some v) ∨ op = .getRefOrGuard k (.insert v) ∨
          (∃ f, op = .getMutOrGuard k f (.insert v)) ∨ ∃ f, op = .getMutOrInsertWith k (some v) f) := by
  have ho := hr.opSpec hs
  cases op with
  | insert k v => exact .inl ⟨k, v, rfl⟩
  | replace k v soft => exact .inr (.inl ⟨k, v, soft, rfl⟩)
  | remove k => exact absurd ho.2.1 hlog
  | get k => exact absurd ho.2.1 hlog
  | peek k => exact absurd ho.2.1 hlog
  | containsKey k => exact absurd ho.2.1 hlog
  | getMut k f => exact absurd ho.2.1 hlog
  | peekMut k f => exact absurd ho.2.1 hlog
  | retain f => exact absurd ho.2.1 hlog
  | clear => exact absurd ho.2.1 hlog
  | drain => exact absurd ho.2.1 hlog
  | reserve => exact absurd ho.2.1 hlog
  | getOrInsertWith k load =>
    simp only [OpSpec] at ho
    cases hm : s.contents k with
    | some w => rw [hm] at ho; exact absurd ho.2.1 hlog
    | none =>
      rw [hm] at ho
      cases load with
      | none => exact absurd ho.2.1 hlog
      | some v => exact .inr (.inr ⟨k, v, hm, .load _, .inl rfl⟩)
  | getMutOrInsertWith k load f =>
    simp only [OpSpec] at ho
    cases hm : s.contents k with
    | some w => rw [hm] at ho; exact absurd ho.2.1 hlog
    | none =>
      rw [hm] at ho
      cases load with
      | none => exact absurd ho.2.1 hlog
      | some v => exact .inr (.inr ⟨k, v, hm, .loadMut _ _, .inr (.inr (.inr ⟨f, rfl⟩))⟩)
  | getRefOrGuard k use =>
    simp only [OpSpec] at ho
    cases hm : s.contents k with
    | some w => rw [hm] at ho; exact absurd ho.2.1 hlog
    | none =>
      rw [hm] at ho
      cases use with
      | insert v => exact .inr (.inr ⟨k, v, hm, .guard _, .inr (.inl rfl)⟩)
      | drop => exact absurd ho.2.1 hlog
      | forget => exact absurd ho.2.1 hlog
  | getMutOrGuard k f use =>
    simp only [OpSpec] at ho
    cases hm : s.contents k with
    | some w => rw [hm] at ho; exact absurd ho.2.1 hlog
    | none =>
      rw [hm] at ho
      cases use with
      | insert v => exact .inr (.inr ⟨k, v, hm, .guardMut _ _, .inr (.inr (.inl ⟨f, rfl⟩))⟩)
      | drop => exact absurd ho.2.1 hlog
      | forget => exact absurd ho.2.1 hlog

/-- In the example the insertion of 5 takes an item, and the insertion of 9 rejects the item itself. -/
example : exNextFine (exOps.take 7) (.insert 5 44) = true ∧
    (exNext (exOps.take 7) (.insert 5 44)).2.2.log ≠ [] ∧
    (exNext (exOps.take 12) (.insert 9 9)).2.2.log = [.beforeEvict 9 9 9, .onEvict 9 9] := by decide

end QuickCache.Props
