import Verif.Proofs.Calls
import Verif.Props.Example

/-!
# Properties C12, C13, C16, C18, C19, C26, C27, C28, C30, C31, C32, C36: what single calls do
-/

namespace QuickCache.Props
variable {K V RS : Type _} [DecidableEq K] {c : Cfg K V RS} {target cap gcap : Nat} {h : List (Unsync.Call K V)}
  {s s' : Shard K V}
open Unsync Spec

/-- The keys of the items are not duplicated and `contents` reads them. -/
private theorem mem_iff (hr : Run c (Shard.new target cap gcap) h s) (k : K) (v : V) :
    (k, v) ∈ s.iter ↔ s.contents k = some v := hr.lists.2 k v

private theorem absent_iff (hr : Run c (Shard.new target cap gcap) h s) (k : K) :
    (∀ v, (k, v) ∉ s.iter) ↔ s.contents k = none := by
  simp only [mem_iff hr]
  cases s.contents k <;> simp

/-! ### C12: `remove` removes exactly one key -/

theorem C12_remove (hr : Run c (Shard.new target cap gcap) h s) (k : K) :
    ∃ s' r q, step c s (.remove k) = .ok (s', .removed r, q) ∧ q.log = [] ∧
      (∀ k' v, r = some (k', v) ↔ k' = k ∧ (k, v) ∈ s.iter) ∧
      (∀ k' v, (k', v) ∈ s'.iter ↔ (k', v) ∈ s.iter ∧ k' ≠ k) := by
  obtain ⟨s', out, q, hs⟩ := hr.returns (op := .remove k) (by intro w h; cases h) (by intro h; cases h)
  obtain ⟨rfl, h2, h3⟩ := hr.opSpec hs
  refine ⟨s', _, q, hs, h2, ?_, ?_⟩
  · intro k' v
    rw [mem_iff hr]
    cases s.contents k <;> simp [eq_comm]
  · intro k' v
    rw [mem_iff (.call hr hs), mem_iff hr, h3]
    unfold del
    by_cases hk : k' = k <;> simp [hk]

example : exNextFine exOps (.remove 7) = true ∧ (exNext exOps (.remove 7)).2.1 = .removed (some (7, 106)) ∧
    (exNext exOps (.remove 7)).1.iter.length = 3 ∧ (exNext exOps (.remove 1)).2.1 = .removed none := by decide

/-! ### C13: `replace` only touches existing keys -/

/-- On an absent key: `Err` with the key and the value (possibly rewritten by `before_evict` if it was too heavy, which
is then the only lifecycle call); no item changes. -/
theorem C13_absent (hr : Run c (Shard.new target cap gcap) h s) {k : K} {v : V} {soft : Bool} {out : Out K V}
    {q : Req K V RS} (hs : step c s (.replace k v soft) = .ok (s', out, q)) (hk : ∀ w, (k, w) ∉ s.iter) :
    out = .replaced (some (k, enterValue c target k v)) ∧ (∀ p, p ∈ s'.iter ↔ p ∈ s.iter) ∧
      q.log = if target < c.weight k v ∧ c.pinned k v = false then [.beforeEvict k v (enterValue c target k v)] else [] := by
  obtain ⟨r, rfl, h1⟩ := hr.opSpec hs
  have hc := (absent_iff hr k).mp hk
  have hm : ∀ {m' : K → Option V}, s'.contents = m' → m' = s.contents → ∀ p, p ∈ s'.iter ↔ p ∈ s.iter := by
    rintro m' h1 h2 ⟨k', v'⟩
    rw [mem_iff (.call hr hs), mem_iff hr, h1, h2]
  generalize hm' : s'.contents = m' at h1
  generalize q.log = L at h1 hs ⊢
  cases h1 with
  | absent enter absent =>
    obtain ⟨rfl, rfl, -⟩ := enter.det
    exact ⟨rfl, hm hm' rfl, rfl⟩
  | rejected enter asked heavy here => rw [hc] at here; cases here
  | overwritten enter fits here after => rw [hc] at here; cases here

/-- On a present key with an admissible value: `Ok`, the old value is handed to `on_evict`, and the new value is stored;
if the item is too much, victims are then evicted from the map that holds the new value. -/
theorem C13_replaced (hr : Run c (Shard.new target cap gcap) h s) {k : K} {v old : V} {soft : Bool} {out : Out K V}
    {q : Req K V RS} (hs : step c s (.replace k v soft) = .ok (s', out, q)) (hk : (k, old) ∈ s.iter)
    (hadm : Admissible c target k v) :
    out = .replaced none ∧ ∃ st st' L, q.log = preamble c target s.contents k v ++ L ∧ .onEvict k old ∈ q.log ∧
      Evicts c (put s.contents k (enterValue c target k v)) st L s'.contents st' := by
  obtain ⟨r, rfl, h1⟩ := hr.opSpec hs
  have hc := (mem_iff hr k old).mp hk
  generalize s'.contents = m' at h1 ⊢
  generalize q.log = L at h1 hs ⊢
  cases h1 with
  | absent enter absent => rw [hc] at absent; cases absent
  | rejected enter asked heavy here => exact absurd hadm (inadmissible_of_heavy enter asked heavy)
  | overwritten enter fits here after =>
    obtain ⟨st, st', L', h1, h2⟩ := (Store.overwritten enter fits here after).admissible hadm
    rw [hc] at here; cases here
    refine ⟨rfl, st, st', L', h1, by simp, h2⟩

/-- On a present key with an inadmissible value: `Err` with the (rewritten) value, the old item is evicted, nothing else
changes. -/
theorem C13_rejected (hr : Run c (Shard.new target cap gcap) h s) {k : K} {v old : V} {soft : Bool} {out : Out K V}
    {q : Req K V RS} (hs : step c s (.replace k v soft) = .ok (s', out, q)) (hk : (k, old) ∈ s.iter)
    (hadm : ¬ Admissible c target k v) :
    out = .replaced (some (k, enterValue c target k v)) ∧
      q.log = [.beforeEvict k v (enterValue c target k v), .onEvict k old] ∧
      ∀ k' v', (k', v') ∈ s'.iter ↔ (k', v') ∈ s.iter ∧ k' ≠ k := by
  obtain ⟨r, rfl, h1⟩ := hr.opSpec hs
  have hc := (mem_iff hr k old).mp hk
  have hm : ∀ {m' : K → Option V}, s'.contents = m' → m' = del s.contents k →
      ∀ k' v', (k', v') ∈ s'.iter ↔ (k', v') ∈ s.iter ∧ k' ≠ k := by
    rintro m' h1 h2 k' v'
    rw [mem_iff (.call hr hs), mem_iff hr, h1, h2]
    unfold del
    by_cases hk : k' = k <;> simp [hk]
  generalize hm' : s'.contents = m' at h1
  generalize q.log = L at h1 hs ⊢
  cases h1 with
  | absent enter absent => rw [hc] at absent; cases absent
  | rejected enter asked heavy here =>
    obtain ⟨rfl, h2, h3⟩ := enter.det
    rw [hc] at here; cases here
    refine ⟨rfl, ?_, hm hm' rfl⟩
    rw [h2]
    unfold checkLog
    rw [if_pos (h3.mp asked)]
    rfl
  | overwritten enter fits here after => exact absurd (admissible_of_admitted enter fits) hadm

/-- The three cases: key 1 absent; key 4 replaced; key 4 evicted because 39 is too heavy. -/
example : (exNext exOps (.replace 1 12 false)).2.1 = .replaced (some (1, 12)) ∧
    (exNext exOps (.replace 4 12 false)).2.1 = .replaced none ∧
    (exNext exOps (.replace 4 39 false)).2.1 = .replaced (some (4, 39)) ∧ 1 ∉ (exRun exOps).1.iter.map (·.1) ∧
    (4, 11) ∈ (exRun exOps).1.iter ∧ (exNext exOps (.replace 4 39 false)).1.iter.length = 3 := by decide

example : Admissible exCfg 8 4 12 ∧ ¬ Admissible exCfg 8 4 39 := by
  refine ⟨Or.inr (by decide), ?_⟩
  rintro (h | h)
  · revert h; decide
  · revert h; decide

/-! ### C16: overweight items are rejected and replace nothing silently -/

/-- Storing (by insertion, loader or guard) an item that cannot be admitted: `before_evict` gets its chance, then the
previous value of the key, if any, and the new one are handed to `on_evict`; the key is absent afterwards and every other
item is unchanged. -/
theorem C16_rejected (hr : Run c (Shard.new target cap gcap) h s) {op : Op K V} {out : Out K V} {q : Req K V RS}
    (hs : step c s op = .ok (s', out, q)) {k : K} {v : V} {f : V → V} (hst : StoresThen s.contents op out k v f)
    (hadm : ¬ Admissible c target k v) :
    q.log = .beforeEvict k v (enterValue c target k v) :: (s.contents k).toList.map (.onEvict k) ++
      [.onEvict k (enterValue c target k v)] ∧
    ∀ k' v', (k', v') ∈ s'.iter ↔ (k', v') ∈ s.iter ∧ k' ≠ k := by
  have ho := hr.opSpec hs
  suffices H : q.log = .beforeEvict k v (enterValue c target k v) :: (s.contents k).toList.map (.onEvict k) ++
      [.onEvict k (enterValue c target k v)] ∧ s'.contents = del s.contents k by
    refine ⟨H.1, fun k' v' => ?_⟩
    rw [mem_iff (.call hr hs), mem_iff hr, H.2]
    unfold del
    by_cases hk : k' = k <;> simp [hk]
  cases hst with
  | plain hst =>
    cases hst with
    | insert => exact ho.2.inadmissible hadm
    | replace k v soft =>
      exfalso
      obtain ⟨r, h1, h2⟩ := ho
      generalize s'.contents = m' at h2
      generalize q.log = L at h2 hs
      cases h2 with
      | absent => cases h1
      | rejected => cases h1
      | overwritten enter fits => exact hadm (admissible_of_admitted enter fits)
    | load v out absent =>
      simp only [OpSpec, absent] at ho
      exact ho.1.inadmissible hadm
    | guard v out absent =>
      simp only [OpSpec, absent] at ho
      exact ho.2.inadmissible hadm
    | guardMut f v out absent =>
      simp only [OpSpec, absent] at ho
      exact ho.2.inadmissible hadm
  | loadMut v f out absent =>
    simp only [OpSpec, absent] at ho
    obtain ⟨m1, h1, -, h3⟩ := ho
    obtain ⟨h4, rfl⟩ := h1.inadmissible hadm
    refine ⟨h4, h3.trans ?_⟩
    funext x
    unfold alter del
    by_cases hx : x = k <;> simp [hx]

/-- Inserting the overweight value 39 under key 4 hands out the old value 11 and the new one. -/
example : exNextFine exOps (.insert 4 39) = true ∧
    (exNext exOps (.insert 4 39)).2.2.log = [.beforeEvict 4 39 39, .onEvict 4 11, .onEvict 4 39] ∧
    (exNext exOps (.insert 4 39)).1.contents 4 = none := by decide

/-! ### C18: `retain` is an exact filter -/

theorem C18_retain (hr : Run c (Shard.new target cap gcap) h s) (f : K → V → Bool) :
    ∃ s' q, step c s (.retain f) = .ok (s', .unit, q) ∧ q.log = [] ∧
      ∀ k v, (k, v) ∈ s'.iter ↔ (k, v) ∈ s.iter ∧ f k v = true := by
  obtain ⟨s', out, q, hs⟩ := hr.returns (op := .retain f) (by intro w h; cases h) (by intro h; cases h)
  obtain ⟨rfl, h2, h3⟩ := hr.opSpec hs
  refine ⟨s', q, hs, h2, fun k v => ?_⟩
  rw [mem_iff (.call hr hs), mem_iff hr, h3]
  exact Option.filter_eq_some_iff

example : (exRun exOps).1.iter.length = 4 ∧
    (exNext exOps (.retain fun k _ => decide (k < 5))).1.iter.length = 2 := by decide

/-! ### C19: `clear` and `drain` empty the cache -/

/-- `clear`: no items, weight zero; nothing of the past is left except the statistics counters, the layout of the hash
table and the supply of identities for placeholders. -/
theorem C19_clear (hr : Run c (Shard.new target cap gcap) h s) :
    ∃ s' q, step c s .clear = .ok (s', .unit, q) ∧ q.log = [] ∧ s'.iter = [] ∧ s'.len = 0 ∧ s'.weight = .ok 0 ∧
      s' = { (Shard.new target cap gcap : Shard K V) with
        hits := s.hits, misses := s.misses, nextPlh := s.nextPlh, probe := s.probe } := by
  have hre := hr.reach_new
  refine ⟨s.clear, c.begin, rfl, rfl, rfl, rfl, rfl, ?_⟩
  have h1 := hre.target
  have h2 := hre.capacity
  have h3 := hre.ghostCap
  cases s
  simp only at h1 h2 h3
  subst h1 h2 h3
  rfl

/-- `drain` moreover yields every item exactly once. -/
theorem C19_drain (hr : Run c (Shard.new target cap gcap) h s) :
    ∃ s' l q, step c s .drain = .ok (s', .items l, q) ∧ q.log = [] ∧ s'.iter = [] ∧ s'.len = 0 ∧ s'.weight = .ok 0 ∧
      (l.map (·.1)).Nodup ∧ (∀ p, p ∈ l ↔ p ∈ s.iter) ∧
      s' = { (Shard.new target cap gcap : Shard K V) with
        hits := s.hits, misses := s.misses, nextPlh := s.nextPlh, probe := s.probe } := by
  obtain ⟨s', q, hs, h1, h2, h3, h4, h5⟩ := C19_clear hr
  have hs' : step c s .drain = .ok (s', .items s.drain.2, c.begin) := by
    cases hs
    rfl
  obtain ⟨⟨l, hl, hl'⟩, -, -⟩ := hr.opSpec hs'
  cases hl
  refine ⟨s', _, _, hs', rfl, h2, h3, h4, hl'.1, ?_, h5⟩
  rintro ⟨k, v⟩
  rw [hl'.2, mem_iff hr]

example : (exNext exOps .drain).2.1 = .items (exRun exOps).1.iter ∧ (exRun exOps).1.iter.length = 4 := by decide

/-! ### C26: `get_or_insert_with` computes only on a miss -/

/-- Present key: the value is returned, the loader is not called, nothing changes. -/
theorem C26_hit (hr : Run c (Shard.new target cap gcap) h s) {k : K} {v : V} (hk : (k, v) ∈ s.iter) (load : Option V) :
    ∃ s' q, step c s (.getOrInsertWith k load) = .ok (s', .loaded false (some (some v)), q) ∧ q.log = [] ∧
      ∀ p, p ∈ s'.iter ↔ p ∈ s.iter := by
  have hc := (mem_iff hr k v).mp hk
  obtain ⟨s', out, q, hs⟩ := hr.returns (op := .getOrInsertWith k load)
    (by intro w h; cases h with | load _ absent => rw [hc] at absent; cases absent)
    (by intro h; cases h with | load _ absent => rw [hc] at absent; cases absent)
  have ho := hr.opSpec hs
  simp only [OpSpec, hc] at ho
  obtain ⟨rfl, h2, h3⟩ := ho
  refine ⟨s', q, hs, h2, ?_⟩
  rintro ⟨k', v'⟩
  rw [mem_iff (.call hr hs), mem_iff hr, h3]

/-- Absent key, failing loader: it is called, its error passed on, and no item changes. -/
theorem C26_fail (hr : Run c (Shard.new target cap gcap) h s) {k : K} (hk : ∀ v, (k, v) ∉ s.iter) {out : Out K V}
    {q : Req K V RS} (hs : step c s (.getOrInsertWith k none) = .ok (s', out, q)) :
    out = .loaded true none ∧ q.log = [] ∧ ∀ p, p ∈ s'.iter ↔ p ∈ s.iter := by
  have hc := (absent_iff hr k).mp hk
  have ho := hr.opSpec hs
  simp only [OpSpec, hc] at ho
  obtain ⟨rfl, h2, h3⟩ := ho
  refine ⟨rfl, h2, ?_⟩
  rintro ⟨k', v'⟩
  rw [mem_iff (.call hr hs), mem_iff hr, h3]

/-- Absent key, loader yielding `v`: it is called, `v` is stored as by an insertion, and what is returned is exactly what
the cache then holds for the key. -/
theorem C26_load (hr : Run c (Shard.new target cap gcap) h s) {k : K} (hk : ∀ v, (k, v) ∉ s.iter) {v : V}
    {out : Out K V} {q : Req K V RS} (hs : step c s (.getOrInsertWith k (some v)) = .ok (s', out, q)) :
    (∃ r, out = .loaded true (some r) ∧ ∀ w, r = some w ↔ (k, w) ∈ s'.iter) ∧ Store c target s.contents k v q.log s'.contents := by
  have hc := (absent_iff hr k).mp hk
  have ho := hr.opSpec hs
  simp only [OpSpec, hc] at ho
  obtain ⟨h1, rfl⟩ := ho
  refine ⟨⟨_, rfl, fun w => ?_⟩, h1⟩
  rw [mem_iff (.call hr hs)]

/-- The mutable version on a present key: the value reported is the one before the write through the reference. -/
theorem C26_mut_hit (hr : Run c (Shard.new target cap gcap) h s) {k : K} {v : V} (hk : (k, v) ∈ s.iter)
    {load : Option V} {f : V → V} {out : Out K V} {q : Req K V RS}
    (hs : step c s (.getMutOrInsertWith k load f) = .ok (s', out, q)) :
    out = .loaded false (some (some v)) ∧ q.log = [] ∧ s'.contents = put s.contents k (f v) := by
  have hc := (mem_iff hr k v).mp hk
  have ho := hr.opSpec hs
  simp only [OpSpec, hc] at ho
  exact ⟨ho.1, ho.2.1, ho.2.2.trans (alter_put _ f hc)⟩

/-- The mutable version on an absent key: as by an insertion, then the write through the reference if the item is there. -/
theorem C26_mut_load (hr : Run c (Shard.new target cap gcap) h s) {k : K} (hk : ∀ v, (k, v) ∉ s.iter) {v : V}
    {f : V → V} {out : Out K V} {q : Req K V RS}
    (hs : step c s (.getMutOrInsertWith k (some v) f) = .ok (s', out, q)) :
    ∃ m1, Store c target s.contents k v q.log m1 ∧ out = .loaded true (some (m1 k)) ∧ s'.contents = alter m1 k f := by
  have hc := (absent_iff hr k).mp hk
  have ho := hr.opSpec hs
  simp only [OpSpec, hc] at ho
  exact ho

theorem C26_mut_fail (hr : Run c (Shard.new target cap gcap) h s) {k : K} (hk : ∀ v, (k, v) ∉ s.iter) {f : V → V}
    {out : Out K V} {q : Req K V RS} (hs : step c s (.getMutOrInsertWith k none f) = .ok (s', out, q)) :
    out = .loaded true none ∧ q.log = [] ∧ s'.contents = s.contents := by
  have hc := (absent_iff hr k).mp hk
  have ho := hr.opSpec hs
  simp only [OpSpec, hc] at ho
  exact ho

/-- Key 7 present; key 1 loaded; key 1 loaded with a value too heavy to be admitted; key 1 with a failing loader. -/
example : (exNext exOps (.getOrInsertWith 7 (some 1))).2.1 = .loaded false (some (some 106)) ∧
    (exNext exOps (.getOrInsertWith 1 (some 11))).2.1 = .loaded true (some (some 11)) ∧
    (exNext exOps (.getOrInsertWith 1 (some 39))).2.1 = .loaded true (some none) ∧
    (exNext exOps (.getOrInsertWith 1 none)).2.1 = .loaded true none ∧
    (exNext exOps (.getMutOrInsertWith 1 (some 11) (· + 1))).1.contents 1 = some 12 := by decide

/-! ### C27: guards insert or leave no trace -/

/-- The key is present: the value is returned and no item changes. -/
theorem C27_hit (hr : Run c (Shard.new target cap gcap) h s) {k : K} {v : V} (hk : (k, v) ∈ s.iter) (use : GuardUse V) :
    ∃ s' q, step c s (.getRefOrGuard k use) = .ok (s', .orGuard (some v), q) ∧ q.log = [] ∧
      ∀ p, p ∈ s'.iter ↔ p ∈ s.iter := by
  have hc := (mem_iff hr k v).mp hk
  obtain ⟨s', out, q, hs⟩ := hr.returns (op := .getRefOrGuard k use)
    (by intro w h; cases h with | guard _ absent => rw [hc] at absent; cases absent)
    (by intro h; cases h with | guard _ absent => rw [hc] at absent; cases absent)
  have ho := hr.opSpec hs
  simp only [OpSpec, hc] at ho
  obtain ⟨rfl, h2, h3⟩ := ho
  refine ⟨s', q, hs, h2, ?_⟩
  rintro ⟨k', v'⟩
  rw [mem_iff (.call hr hs), mem_iff hr, h3]

/-- The key is absent: a guard is returned. Inserting through it stores the value as `insert` does; dropping (or leaking)
it changes no item. -/
theorem C27_guard (hr : Run c (Shard.new target cap gcap) h s) {k : K} (hk : ∀ v, (k, v) ∉ s.iter) {use : GuardUse V}
    {out : Out K V} {q : Req K V RS} (hs : step c s (.getRefOrGuard k use) = .ok (s', out, q)) :
    out = .orGuard none ∧ (∀ v, use = .insert v → Store c target s.contents k v q.log s'.contents) ∧
      ((∀ v, use ≠ .insert v) → q.log = [] ∧ ∀ p, p ∈ s'.iter ↔ p ∈ s.iter) := by
  have hc := (absent_iff hr k).mp hk
  have ho := hr.opSpec hs
  have hl := mem_iff (.call hr hs)
  cases use with
  | insert v =>
    simp only [OpSpec, hc] at ho
    exact ⟨ho.1, (by intro v' h; cases h; exact ho.2), fun h => absurd rfl (h v)⟩
  | drop =>
    simp only [OpSpec, hc] at ho
    refine ⟨ho.1, (by intro v' h; cases h), fun _ => ⟨ho.2.1, ?_⟩⟩
    rintro ⟨k', v'⟩
    rw [hl, mem_iff hr, ho.2.2]
  | forget =>
    simp only [OpSpec, hc] at ho
    refine ⟨ho.1, (by intro v' h; cases h), fun _ => ⟨ho.2.1, ?_⟩⟩
    rintro ⟨k', v'⟩
    rw [hl, mem_iff hr, ho.2.2]

/-- The same for the mutable version; on a hit the write through the reference takes place. -/
theorem C27_mut_hit (hr : Run c (Shard.new target cap gcap) h s) {k : K} {v : V} (hk : (k, v) ∈ s.iter) {f : V → V}
    {use : GuardUse V} {out : Out K V} {q : Req K V RS} (hs : step c s (.getMutOrGuard k f use) = .ok (s', out, q)) :
    out = .orGuard (some v) ∧ q.log = [] ∧ s'.contents = put s.contents k (f v) := by
  have hc := (mem_iff hr k v).mp hk
  have ho := hr.opSpec hs
  simp only [OpSpec, hc] at ho
  exact ⟨ho.1, ho.2.1, ho.2.2.trans (alter_put _ f hc)⟩

theorem C27_mut_guard (hr : Run c (Shard.new target cap gcap) h s) {k : K} (hk : ∀ v, (k, v) ∉ s.iter) {f : V → V}
    {use : GuardUse V} {out : Out K V} {q : Req K V RS} (hs : step c s (.getMutOrGuard k f use) = .ok (s', out, q)) :
    out = .orGuard none ∧ (∀ v, use = .insert v → Store c target s.contents k v q.log s'.contents) ∧
      ((∀ v, use ≠ .insert v) → q.log = [] ∧ ∀ p, p ∈ s'.iter ↔ p ∈ s.iter) := by
  have hc := (absent_iff hr k).mp hk
  have ho := hr.opSpec hs
  have hl := mem_iff (.call hr hs)
  cases use with
  | insert v =>
    simp only [OpSpec, hc] at ho
    exact ⟨ho.1, (by intro v' h; cases h; exact ho.2), fun h => absurd rfl (h v)⟩
  | drop =>
    simp only [OpSpec, hc] at ho
    refine ⟨ho.1, (by intro v' h; cases h), fun _ => ⟨ho.2.1, ?_⟩⟩
    rintro ⟨k', v'⟩
    rw [hl, mem_iff hr, ho.2.2]
  | forget =>
    simp only [OpSpec, hc] at ho
    refine ⟨ho.1, (by intro v' h; cases h), fun _ => ⟨ho.2.1, ?_⟩⟩
    rintro ⟨k', v'⟩
    rw [hl, mem_iff hr, ho.2.2]

example : (exNext exOps (.getRefOrGuard 7 .drop)).2.1 = .orGuard (some 106) ∧
    (exNext exOps (.getRefOrGuard 1 .drop)).2.1 = .orGuard none ∧
    (exNext exOps (.getRefOrGuard 1 .drop)).1.iter.length = 4 ∧
    (exNext exOps (.getRefOrGuard 1 (.insert 11))).1.contents 1 = some 11 ∧
    (exNext exOps (.getMutOrGuard 7 (· + 1) .drop)).1.contents 7 = some 107 := by decide

/-! ### C28: writes through mutable references keep the accounting exact -/

/-- A write `f` through `get_mut`/`peek_mut` to the item of `k`: the call reports the value before, the new value is
stored, no other item changes, nothing is evicted, and `weight()` changes by exactly the difference. -/
theorem C28_write (hr : Run c (Shard.new target cap gcap) h s) {k : K} {v : V} (hk : (k, v) ∈ s.iter) {f : V → V}
    {op : Op K V} (hop : op = .getMut k f ∨ op = .peekMut k f) {out : Out K V} {q : Req K V RS}
    (hs : step c s op = .ok (s', out, q)) :
    out = .value (some v) ∧ q.log = [] ∧ s'.contents = put s.contents k (f v) ∧ s'.len = s.len ∧
      total c.weight s'.iter + c.weight k v = total c.weight s.iter + c.weight k (f v) := by
  have hi := hr.reach_new.inv.toInv0
  have hi' := (Run.call hr hs).reach_new.inv.toInv0
  have hc := (mem_iff hr k v).mp hk
  have ho : OpSpec c target s.contents (.getMut k f) out q.log s'.contents := by
    have := hr.opSpec hs
    rcases hop with rfl | rfl <;> exact this
  refine ⟨by rw [ho.1, hc], ho.2.1, ho.2.2.trans (alter_put _ f hc), ?_⟩
  obtain ⟨t, r, ht, hrk, hrv⟩ := hi.contents_slot.mp hc
  have hyes : ¬ Shard.NoRes s k := fun hno => hno t r ht hrk
  rw [← hi.len_iter, ← hi'.len_iter, hi.len_iter, hi'.len_iter, hi.total_iter, hi'.total_iter]
  have heff := step_eff hr.reach_new.inv hs
  generalize hx : (s', out, q) = x at heff
  cases heff with
  | hit hop' t' r' hk' wrote =>
    have hkf : ∀ {k' : K} {b' : Bool} {f' : V → V} {out' : V → Out K V}, HitOp op k' b' f' out' → k' = k ∧ f' = f := by
      intro k' b' f' out' h'
      rcases hop with rfl | rfl <;> cases h' <;> exact ⟨rfl, rfl⟩
    obtain ⟨rfl, rfl⟩ := hkf hop'
    cases hx
    have hv : r'.value = v := by
      have := slot_contents hi wrote.upd.before hk'
      rw [hc] at this
      exact (Option.some.inj this).symm
    have h1 := wrote.total hi
    have h2 := wrote.len hi
    simp only [totF, lenF, numF, hv, hk'] at h1 h2
    omega
  | miss hop' hno => exfalso; rcases hop with rfl | rfl <;> cases hop' <;> exact hyes hno
  | leave hop' => exfalso; rcases hop with rfl | rfl <;> cases hop'
  | drop hop' => exfalso; rcases hop with rfl | rfl <;> cases hop'
  | fill hop' => exfalso; rcases hop with rfl | rfl <;> cases hop'
  | _ => exfalso; rcases hop with h | h <;> cases h

/-- In every state of every run the candidates for eviction, that is the items met when walking around the hot and cold
queues, are exactly those of non-zero weight, each in the queue of its state. So an item that became weightless through a
write has left its queue, and one that regained weight is in it. -/
theorem C28_candidates (hr : Run c (Shard.new target cap gcap) h s) {t : Nat} {r : Resident K V}
    (ht : s.entries.item t = some (.resident r)) : s.Candidate r.state t ↔ c.weight r.key r.value ≠ 0 :=
  hr.reach_new.inv.toInv0.candidate ht

/-- Key 4 has value 11 in slot 3; written to 20 it is weightless and no candidate any more. -/
example : exNextFine exOps (.getMut 4 (· + 9)) = true ∧ (exNext exOps (.getMut 4 (· + 9))).1.contents 4 = some 20 ∧
    (exNext exOps (.getMut 4 (· + 9))).1.weight = .ok 8 := by decide

/-! ### C30: equivalent keys are interchangeable -/

/-- A query that hashes like `k` and is equivalent to exactly the key `k`. -/
structure Like (c : Cfg K V RS) (hash : UInt64) (eqv : K → Bool) (k : K) : Prop where
  hash : hash = c.hash k
  eqv : ∀ x, eqv x = true ↔ x = k

/-- All lookups of a shard with such a query behave exactly as those with the key itself. -/
theorem C30_equivalent {hash : UInt64} {eqv : K → Bool} {k : K} (hq : Like c hash eqv k) (s : Shard K V) :
    s.get hash eqv = s.get (c.hash k) (fun x => x == k) ∧ s.peek hash eqv = s.peek (c.hash k) (fun x => x == k) ∧
    s.contains hash eqv = s.contains (c.hash k) (fun x => x == k) ∧
    s.getMut c hash eqv = s.getMut c (c.hash k) (fun x => x == k) ∧
    s.peekMut c hash eqv = s.peekMut c (c.hash k) (fun x => x == k) ∧
    s.remove c hash eqv = s.remove c (c.hash k) (fun x => x == k) ∧
    s.upsertPlaceholder c hash eqv k = s.upsertPlaceholder c (c.hash k) (fun x => x == k) k := by
  have : eqv = fun x => x == k := by
    funext x
    rw [Bool.eq_iff_iff, hq.eqv x]
    simp
  rw [this, hq.hash]
  exact ⟨rfl, rfl, rfl, rfl, rfl, rfl, rfl⟩

/-- In a reachable cache a lookup with such a query therefore returns what is stored under `k`. -/
theorem C30_lookup (hr : Run c (Shard.new target cap gcap) h s) {hash : UInt64} {eqv : K → Bool} {k : K}
    (hq : Like c hash eqv k) : ∃ r, s.peek hash eqv = .ok r ∧ ∀ v, r = some v ↔ (k, v) ∈ s.iter := by
  rw [(C30_equivalent hq s).2.1]
  obtain ⟨s', out, q, hs⟩ := hr.returns (op := .peek k) (by intro w h; cases h) (by intro h; cases h)
  obtain ⟨h1, -, -⟩ := hr.opSpec hs
  simp only [step] at hs
  cases hp : s.peek (c.hash k) (fun x => x == k) with
  | error p => rw [hp] at hs; cases hs
  | ok r =>
    rw [hp] at hs
    cases hs
    cases h1
    exact ⟨_, rfl, fun v => (mem_iff hr k v).symm⟩

/-- A query type of strings of digits, say: hash and comparison through the length. -/
example : Like exCfg (UInt64.ofNat ("1111111".length % 3)) (fun x => decide ("1111111".length = x)) 7 :=
  ⟨by decide, fun x => by
    simp only [decide_eq_true_eq]
    exact ⟨fun h => h.symm, fun h => h.symm⟩⟩

example : (exRun exOps).1.peek (UInt64.ofNat ("1111111".length % 3)) (fun x => decide ("1111111".length = x)) =
    .ok (some 106) := by decide

/-! ### C31: the hash-table layout is irrelevant -/

/-- `reserve` always returns and changes no item, nor weight or length. -/
theorem C31_reserve (hr : Run c (Shard.new target cap gcap) h s) :
    ∃ s' q, step c s .reserve = .ok (s', .unit, q) ∧ q.log = [] ∧ s'.iter = s.iter ∧ s'.len = s.len ∧
      s'.weight = s.weight := by
  obtain ⟨s', out, q, hs⟩ := hr.returns (op := .reserve) (by intro w h; cases h) (by intro h; cases h)
  obtain ⟨rfl, h2, h3⟩ := hr.opSpec hs
  refine ⟨s', q, hs, h2, ?_⟩
  simp only [step, Shard.reserve] at hs
  cases hm : Shard.rehash c s.entries s.map with
  | error p => rw [hm] at hs; cases hs
  | ok m => rw [hm] at hs; cases hs; exact ⟨rfl, rfl, rfl⟩

/-- Any reordering of the buckets with any tag collisions leads to a state with the same items, length and weight, in
which all theorems hold again (it belongs to a run with the same history), and every lookup returns the same. -/
theorem C31_layout (hr : Run c (Shard.new target cap gcap) h s) {m : List (UInt64 × Nat)} {p : UInt64 → UInt64 → Bool}
    (hm : m.Perm s.map) (hp : ∀ x, p x x = true) :
    Run c (Shard.new target cap gcap) h (s.relayout m p) ∧ (s.relayout m p).iter = s.iter ∧
      (s.relayout m p).len = s.len ∧ (s.relayout m p).weight = s.weight ∧
      ∀ k, ((s.relayout m p).peek (c.hash k) (fun x => x == k) = s.peek (c.hash k) (fun x => x == k)) ∧
        ((s.relayout m p).contains (c.hash k) (fun x => x == k) = s.contains (c.hash k) (fun x => x == k)) ∧
        ((s.relayout m p).get (c.hash k) (fun x => x == k)).map (·.2) =
          (s.get (c.hash k) (fun x => x == k)).map (·.2) := by
  have hr' := Run.layout m p hr hm hp
  refine ⟨hr', rfl, rfl, rfl, fun k => ?_⟩
  have key : ∀ {s1 s2 : Shard K V} (h1 : Run c (Shard.new target cap gcap) h s1)
      (h2 : Run c (Shard.new target cap gcap) h s2) (heq : s1.iter = s2.iter) (op : Op K V)
      (hop : op = .peek k ∨ op = .containsKey k ∨ op = .get k),
      (step c s1 op).map (·.2.1) = (step c s2 op).map (·.2.1) := by
    intro s1 s2 h1 h2 heq op hop
    have hc : s1.contents = s2.contents := by funext x; unfold Shard.contents; rw [heq]
    obtain ⟨a1, o1, q1, e1⟩ := h1.returns (op := op)
      (by intro w h; rcases hop with rfl | rfl | rfl <;> cases h) (by intro h; rcases hop with rfl | rfl | rfl <;> cases h)
    obtain ⟨a2, o2, q2, e2⟩ := h2.returns (op := op)
      (by intro w h; rcases hop with rfl | rfl | rfl <;> cases h) (by intro h; rcases hop with rfl | rfl | rfl <;> cases h)
    have g1 := h1.opSpec e1
    have g2 := h2.opSpec e2
    rw [e1, e2]
    rw [hc] at g1
    rcases hop with rfl | rfl | rfl <;> simp only [Except.map, g1.1, g2.1]
  have k1 := key hr' hr rfl (.peek k) (Or.inl rfl)
  have k2 := key hr' hr rfl (.containsKey k) (Or.inr (Or.inl rfl))
  have k3 := key hr' hr rfl (.get k) (Or.inr (Or.inr rfl))
  refine ⟨?_, ?_, ?_⟩
  · simp only [step] at k1
    revert k1
    cases (s.relayout m p).peek (c.hash k) (fun x => x == k) <;> cases s.peek (c.hash k) (fun x => x == k) <;>
      simp [Except.map]
  · simp only [step] at k2
    revert k2
    cases (s.relayout m p).contains (c.hash k) (fun x => x == k) <;> cases s.contains (c.hash k) (fun x => x == k) <;>
      simp [Except.map]
  · simp only [step] at k3
    revert k3
    cases (s.relayout m p).get (c.hash k) (fun x => x == k) <;> cases s.get (c.hash k) (fun x => x == k) <;>
      simp [Except.map]

/-- Reversing the four buckets of the example and letting every hash collide with every other. -/
example : ((exRun exOps).1.relayout (exRun exOps).1.map.reverse (fun _ _ => true)).peek (exCfg.hash 7) (fun x => x == 7) =
    .ok (some 106) ∧ (exRun exOps).1.map.length = 4 := by decide

/-! ### C32: reads do not change contents -/

/-- `peek` and `contains_key` change nothing at all. -/
theorem C32_peek (k : K) {op : Op K V} (hop : op = .peek k ∨ op = .containsKey k) {out : Out K V} {q : Req K V RS}
    (hs : step c s op = .ok (s', out, q)) : s' = s := by
  rcases hop with rfl | rfl
  · simp only [step] at hs
    cases hp : s.peek (c.hash k) (fun x => x == k) with
    | error p => rw [hp] at hs; cases hs
    | ok r => rw [hp] at hs; cases hs; rfl
  · simp only [step] at hs
    cases hp : s.contains (c.hash k) (fun x => x == k) with
    | error p => rw [hp] at hs; cases hs
    | ok r => rw [hp] at hs; cases hs; rfl

/-- `get` always returns, and changes no item, length or weight, nor any queue (all links between slots and all heads of
queues are as before). -/
theorem C32_get (hr : Run c (Shard.new target cap gcap) h s) (k : K) :
    ∃ s' v q, step c s (.get k) = .ok (s', .value v, q) ∧ q.log = [] ∧ s'.iter = s.iter ∧ s'.len = s.len ∧
      s'.weight = s.weight ∧ s'.entries.nxt = s.entries.nxt ∧ s'.entries.prv = s.entries.prv ∧ s'.head = s.head := by
  obtain ⟨s', out, q, hs⟩ := hr.returns (op := .get k) (by intro w h; cases h) (by intro h; cases h)
  have ho := hr.opSpec hs
  refine ⟨s', s.contents k, q, by rw [hs, ho.1], ho.2.1, ?_⟩
  simp only [step] at hs
  cases hg : s.get (c.hash k) (fun x => x == k) with
  | error p => rw [hg] at hs; cases hs
  | ok x =>
    rw [hg] at hs
    have hx : s' = x.1 := by cases hs; rfl
    rw [hx]
    exact get_links hr.reach_new.inv.toInv0 hg

example : exNextFine exOps (.get 7) = true ∧ (exNext exOps (.get 7)).2.1 = .value (some 106) ∧
    (exNext exOps (.get 7)).1.iter = (exRun exOps).1.iter := by decide

/-! ### C36: statistics count every lookup once -/

/-- `get` and `get_mut`: one hit if the key is present, otherwise one miss. -/
theorem C36_lookup (hr : Run c (Shard.new target cap gcap) h s) {k : K} {op : Op K V}
    (hop : op = .get k ∨ ∃ f, op = .getMut k f) {out : Out K V} {q : Req K V RS} (hs : step c s op = .ok (s', out, q)) :
    ((∃ v, (k, v) ∈ s.iter) → s'.hits = s.hits + 1 ∧ s'.misses = s.misses) ∧
    ((∀ v, (k, v) ∉ s.iter) → s'.hits = s.hits ∧ s'.misses = s.misses + 1) := by
  have hi := hr.reach_new.inv.toInv0
  simp only [mem_iff hr]
  have heff := step_eff hr.reach_new.inv hs
  generalize hx : (s', out, q) = x at heff
  cases heff with
  | hit hop' t' r' hk' wrote hits misses =>
    cases hx
    have hkb : ∀ {k' : K} {b' : Bool} {f' : V → V} {out' : V → Out K V}, HitOp op k' b' f' out' → k' = k ∧ b' = true := by
      intro k' b' f' out' h'
      rcases hop with rfl | ⟨f, rfl⟩ <;> cases h' <;> exact ⟨rfl, rfl⟩
    obtain ⟨rfl, rfl⟩ := hkb hop'
    exact ⟨fun _ => ⟨hits, misses⟩, fun h => absurd (slot_contents hi wrote.upd.before hk') (h _)⟩
  | miss hop' hno =>
    cases hx
    have hkb : ∀ {k' : K} {b' : Bool} {out' : Out K V}, MissOp op k' b' out' → k' = k ∧ b' = true := by
      intro k' b' out' h'
      rcases hop with rfl | ⟨f, rfl⟩ <;> cases h' <;> exact ⟨rfl, rfl⟩
    obtain ⟨rfl, rfl⟩ := hkb hop'
    refine ⟨?_, fun _ => ⟨rfl, rfl⟩⟩
    rintro ⟨v, hv⟩
    rw [hi.contents_none.mpr hno] at hv
    cases hv
  | leave hop' => exfalso; rcases hop with rfl | ⟨f, rfl⟩ <;> cases hop'
  | drop hop' => exfalso; rcases hop with rfl | ⟨f, rfl⟩ <;> cases hop'
  | fill hop' => exfalso; rcases hop with rfl | ⟨f, rfl⟩ <;> cases hop'
  | _ => exfalso; rcases hop with h | ⟨f, h⟩ <;> cases h

/-- The lookups that prepare a load if the key is absent. -/
inductive Loads (k : K) : Op K V → Prop
  | load (load : Option V) : Loads k (.getOrInsertWith k load)
  | loadMut (load : Option V) (f : V → V) : Loads k (.getMutOrInsertWith k load f)
  | guard (use : GuardUse V) : Loads k (.getRefOrGuard k use)
  | guardMut (f : V → V) (use : GuardUse V) : Loads k (.getMutOrGuard k f use)

/-- A load of `k` is pending: the hash index holds a placeholder for it. -/
def PendingLoad (c : Cfg K V RS) (s : Shard K V) (k : K) : Prop :=
  ∃ t ph, s.entries.item t = some (.placeholder ph) ∧ ph.key = k ∧ (c.hash k, t) ∈ s.map

/-- Placeholder lookups: one hit if the key is present or a load of it is pending, otherwise one miss; whatever happens
afterwards (loading, guard use) is not counted. -/
theorem C36_load (hr : Run c (Shard.new target cap gcap) h s) {k : K} {op : Op K V} (hop : Loads k op) {out : Out K V}
    {q : Req K V RS} (hs : step c s op = .ok (s', out, q)) :
    ((∃ v, (k, v) ∈ s.iter) ∨ PendingLoad c s k → s'.hits = s.hits + 1 ∧ s'.misses = s.misses) ∧
    ((∀ v, (k, v) ∉ s.iter) → ¬ PendingLoad c s k → s'.hits = s.hits ∧ s'.misses = s.misses + 1) := by
  have hi := hr.reach_new.inv.toInv0
  simp only [mem_iff hr]
  have heff := step_eff hr.reach_new.inv hs
  have pend : ∀ {s1 : Shard K V} {p : Plh}, Pending c s k s1 p → s'.hits = s1.hits ∧ s'.misses = s1.misses →
      ((∃ v, s.contents k = some v) ∨ PendingLoad c s k → s'.hits = s.hits + 1 ∧ s'.misses = s.misses) ∧
      ((∀ v, ¬ s.contents k = some v) → ¬ PendingLoad c s k → s'.hits = s.hits ∧ s'.misses = s.misses + 1) := by
    intro s1 p hp he
    rcases hp.stats with ⟨h1, h2, h3⟩ | ⟨h1, h2, h3⟩
    · exact ⟨fun _ => ⟨he.1.trans h1, he.2.trans h2⟩, fun _ hn => absurd h3 hn⟩
    · refine ⟨?_, fun _ _ => ⟨he.1.trans h1, he.2.trans h2⟩⟩
      rintro (⟨v, hv⟩ | ⟨t, ph, h4, h5, h6⟩)
      · rw [hi.contents_none.mpr hp.noRes] at hv; cases hv
      · exact absurd (by simp [keyAt, h4, keyOf, h5]) (h3 _ t h6)
  generalize hx : (s', out, q) = x at heff
  cases heff with
  | hit hop' t' r' hk' wrote hits misses =>
    cases hx
    have hkb : ∀ {k' : K} {b' : Bool} {f' : V → V} {out' : V → Out K V}, HitOp op k' b' f' out' → k' = k ∧ b' = true := by
      intro k' b' f' out' h'
      cases hop <;> cases h' <;> exact ⟨rfl, rfl⟩
    obtain ⟨rfl, rfl⟩ := hkb hop'
    exact ⟨fun _ => ⟨hits, misses⟩, fun h _ => absurd (slot_contents hi wrote.upd.before hk') (h _)⟩
  | miss hop' hno => cases hop <;> cases hop'
  | leave hop' hp => cases hx; cases hop <;> cases hop' <;> exact pend hp ⟨rfl, rfl⟩
  | drop hop' hp inv same => cases hx; cases hop <;> cases hop' <;> exact pend hp ⟨same.hits, same.misses⟩
  | fill hop' hp h => cases hx; cases hop <;> cases hop' <;> exact pend hp h.stats
  | fillMutOut hp h => cases hx; cases hop; exact pend hp h.stats
  | fillMut hp h taken t r hk wrote same =>
    cases hx; cases hop
    exact pend hp ⟨same.hits.trans h.stats.1, same.misses.trans h.stats.2⟩
  | _ => cases hop

/-- A pending load of `k` was left behind by a failed loader or a leaked guard since the last `clear`/`drain`. -/
theorem C36_pending (hr : Run c (Shard.new target cap gcap) h s) {k : K} (hp : PendingLoad c s k) :
    ∃ x ∈ sinceClear h, Unfinished k x := by
  obtain ⟨t, ph, h1, h2, h3⟩ := hp
  exact hr.prov.plh k ⟨t, ph, _, h1, h2, h3⟩

/-- No other call changes the statistics. -/
theorem C36_other (hr : Run c (Shard.new target cap gcap) h s) {op : Op K V} (hg : ∀ k, op ≠ .get k)
    (hgm : ∀ k f, op ≠ .getMut k f) (hl : ∀ k, ¬ Loads k op) {out : Out K V} {q : Req K V RS}
    (hs : step c s op = .ok (s', out, q)) : s'.hits = s.hits ∧ s'.misses = s.misses := by
  have heff := step_eff hr.reach_new.inv hs
  generalize hx : (s', out, q) = x at heff
  cases heff with
  | insert h => cases hx; exact h.stats
  | replace h => cases hx; exact h.stats
  | removeHit t r hk wrote same => cases hx; exact ⟨same.hits, same.misses⟩
  | removeIdle t e he hno wrote same => cases hx; exact ⟨same.hits, same.misses⟩
  | removeNone => cases hx; exact ⟨rfl, rfl⟩
  | hit hop' t' r' hk' wrote hits misses =>
    cases hx
    cases hop' <;> first
      | exact ⟨hits, misses⟩
      | exact absurd rfl (hg _)
      | exact absurd rfl (hgm _ _)
      | exact absurd (by constructor) (hl _)
  | miss hop' hno =>
    cases hx
    cases hop' <;> first
      | exact ⟨rfl, rfl⟩
      | exact absurd rfl (hg _)
      | exact absurd rfl (hgm _ _)
  | peek => cases hx; exact ⟨rfl, rfl⟩
  | contains => cases hx; exact ⟨rfl, rfl⟩
  | retain inv same => cases hx; exact ⟨same.hits, same.misses⟩
  | clear => cases hx; exact ⟨rfl, rfl⟩
  | drain => cases hx; exact ⟨rfl, rfl⟩
  | reserve => cases hx; exact ⟨rfl, rfl⟩
  | leave hop' hp => exfalso; cases hop' <;> exact hl _ (by constructor)
  | drop hop' hp => exfalso; cases hop' <;> exact hl _ (by constructor)
  | fill hop' hp h => exfalso; cases hop' <;> exact hl _ (by constructor)
  | fillMutOut hp h => exact absurd (.loadMut ..) (hl _)
  | fillMut hp h => exact absurd (.loadMut ..) (hl _)

/-- A hit, a miss, a failed load, and the pending load it leaves found by the next lookup. -/
example : (exRun [.insert 1 13, .get 1, .get 2, .getOrInsertWith 3 none, .getRefOrGuard 3 .forget, .peek 1]).1.hits = 2 ∧
    (exRun [.insert 1 13, .get 1, .get 2, .getOrInsertWith 3 none, .getRefOrGuard 3 .forget, .peek 1]).1.misses = 2 := by
  decide

end QuickCache.Props
