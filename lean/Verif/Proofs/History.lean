import Verif.Proofs.Run
import Verif.Spec.History

/-!
# From the specification of single calls to histories
-/

namespace QuickCache
namespace Spec
variable {K V RS : Type _} [DecidableEq K] {c : Cfg K V RS}
open Unsync

theorem put_put (m : K → Option V) (k : K) (v w : V) : put (put m k v) k w = put m k w := by
  funext x; by_cases h : x = k <;> simp [put, h]

theorem del_put (m : K → Option V) (k : K) (v : V) : del (put m k v) k = del m k := by
  funext x; by_cases h : x = k <;> simp [put, del, h]

theorem put_comm (m : K → Option V) {k k' : K} (h : k ≠ k') (v w : V) : put (put m k v) k' w = put (put m k' w) k v := by
  funext x
  by_cases h1 : x = k
  · subst h1; simp [put, h]
  · by_cases h2 : x = k'
    · subst h2; simp [put, h1]
    · simp [put, h1, h2]

theorem del_put_comm (m : K → Option V) {k k' : K} (h : k ≠ k') (v : V) : del (put m k v) k' = put (del m k') k v := by
  funext x
  by_cases h1 : x = k
  · subst h1; simp [put, del, h]
  · by_cases h2 : x = k'
    · subst h2; simp [put, del, h1]
    · simp [put, del, h1, h2]

/-! ### Properties of `Evicts` -/

theorem Evicts.trans {m m1 m2 : K → Option V} {st st1 st2 : RS} {L1 L2 : List (Event K V)}
    (h1 : Evicts c m st L1 m1 st1) (h2 : Evicts c m1 st1 L2 m2 st2) : Evicts c m st (L1 ++ L2) m2 st2 := by
  induction h1 with
  | nil => exact h2
  | spare here heavy free before light rest ih => exact .spare here heavy free before light (ih h2)
  | evict here heavy free before still rest ih => exact .evict here heavy free before still (ih h2)

/-- Evictions do not notice an item that is not there. -/
theorem Evicts.put {m m' : K → Option V} {st st' : RS} {L : List (Event K V)} (h : Evicts c m st L m' st') {k : K}
    (hk : m k = none) (v : V) : Evicts c (put m k v) st L (Spec.put m' k v) st' := by
  induction h with
  | nil => exact .nil
  | @spare m m' st st1 st' x w w' log here heavy free before light rest ih =>
    have hx : k ≠ x := by rintro rfl; rw [hk] at here; cases here
    refine .spare (v := w) (by simp [Spec.put, Ne.symm hx, here]) heavy free before light ?_
    rw [put_comm _ hx]
    exact ih (by simp [Spec.put, hx, hk])
  | @evict m m' st st1 st' x w w' log here heavy free before still rest ih =>
    have hx : k ≠ x := by rintro rfl; rw [hk] at here; cases here
    refine .evict (v := w) (by simp [Spec.put, Ne.symm hx, here]) heavy free before still ?_
    rw [del_put_comm _ hx]
    exact ih (by simp [del, hx, hk])

/-- Evictions never add an item. -/
theorem Evicts.absent {m m' : K → Option V} {st st' : RS} {L : List (Event K V)} (h : Evicts c m st L m' st') {k : K}
    (hk : m k = none) : m' k = none ∧ ∀ e ∈ L, eventKey e ≠ k := by
  induction h with
  | nil => exact ⟨hk, by simp⟩
  | @spare m m' st st1 st' x w w' log here heavy free before light rest ih =>
    have hx : k ≠ x := by rintro rfl; rw [hk] at here; cases here
    obtain ⟨h1, h2⟩ := ih (by simp [Spec.put, hx, hk])
    refine ⟨h1, fun e he => ?_⟩
    rcases List.mem_cons.mp he with rfl | he
    · exact fun h => hx h.symm
    · exact h2 e he
  | @evict m m' st st1 st' x w w' log here heavy free before still rest ih =>
    have hx : k ≠ x := by rintro rfl; rw [hk] at here; cases here
    obtain ⟨h1, h2⟩ := ih (by simp [del, hx, hk])
    refine ⟨h1, fun e he => ?_⟩
    rcases List.mem_cons.mp he with rfl | he
    · exact fun h => hx h.symm
    · rcases List.mem_cons.mp he with rfl | he
      · exact fun h => hx h.symm
      · exact h2 e he

/-- An item that is pinned or weightless is left alone. -/
theorem Evicts.kept {m m' : K → Option V} {st st' : RS} {L : List (Event K V)} (h : Evicts c m st L m' st') {k : K} {v : V}
    (hk : m k = some v) (hs : c.weight k v = 0 ∨ c.pinned k v = true) :
    m' k = some v ∧ ∀ e ∈ L, eventKey e ≠ k := by
  have no : ∀ {x : K} {w : V} {m : K → Option V}, m k = some v → m x = some w → c.weight x w ≠ 0 → c.pinned x w = false → k ≠ x := by
    rintro x w m h1 h2 h3 h4 rfl
    rw [h1] at h2; cases h2
    rcases hs with hs | hs
    · exact h3 hs
    · rw [hs] at h4; cases h4
  induction h with
  | nil => exact ⟨hk, by simp⟩
  | @spare m m' st st1 st' x w w' log here heavy free before light rest ih =>
    have hx := no hk here heavy free
    obtain ⟨h1, h2⟩ := ih (by simp [Spec.put, hx, hk])
    refine ⟨h1, fun e he => ?_⟩
    rcases List.mem_cons.mp he with rfl | he
    · exact fun h => hx h.symm
    · exact h2 e he
  | @evict m m' st st1 st' x w w' log here heavy free before still rest ih =>
    have hx := no hk here heavy free
    obtain ⟨h1, h2⟩ := ih (by simp [del, hx, hk])
    refine ⟨h1, fun e he => ?_⟩
    rcases List.mem_cons.mp he with rfl | he
    · exact fun h => hx h.symm
    · rcases List.mem_cons.mp he with rfl | he
      · exact fun h => hx h.symm
      · exact h2 e he

/-- An item nobody talked about is unchanged. -/
theorem Evicts.frame {m m' : K → Option V} {st st' : RS} {L : List (Event K V)} (h : Evicts c m st L m' st') {k : K}
    (hk : ∀ e ∈ L, eventKey e ≠ k) : m' k = m k := by
  induction h with
  | nil => rfl
  | @spare m m' st st1 st' x w w' log here heavy free before light rest ih =>
    have hx : k ≠ x := fun h => hk _ List.mem_cons_self h.symm
    rw [ih (fun e he => hk e (List.mem_cons_of_mem _ he))]
    simp [Spec.put, hx]
  | @evict m m' st st1 st' x w w' log here heavy free before still rest ih =>
    have hx : k ≠ x := fun h => hk _ List.mem_cons_self h.symm
    rw [ih (fun e he => hk e (List.mem_cons_of_mem _ (List.mem_cons_of_mem _ he)))]
    simp [del, hx]

/-- An item that is gone was handed to `on_evict`. -/
theorem Evicts.lost {m m' : K → Option V} {st st' : RS} {L : List (Event K V)} (h : Evicts c m st L m' st') {k : K} {v : V}
    (hk : m k = some v) (hk' : m' k = none) : ∃ v', .onEvict k v' ∈ L := by
  induction h generalizing v with
  | nil => rw [hk] at hk'; cases hk'
  | @spare m m' st st1 st' x w w' log here heavy free before light rest ih =>
    by_cases hx : k = x
    · subst hx
      obtain ⟨v', h⟩ := ih (v := w') (by simp [Spec.put]) hk'
      exact ⟨v', List.mem_cons_of_mem _ h⟩
    · obtain ⟨v', h⟩ := ih (v := v) (by simp [Spec.put, hx, hk]) hk'
      exact ⟨v', List.mem_cons_of_mem _ h⟩
  | @evict m m' st st1 st' x w w' log here heavy free before still rest ih =>
    by_cases hx : k = x
    · subst hx
      exact ⟨w', by simp⟩
    · obtain ⟨v', h⟩ := ih (v := v) (by simp [del, hx, hk]) hk'
      exact ⟨v', List.mem_cons_of_mem _ (List.mem_cons_of_mem _ h)⟩

theorem Evicts.replay {m m' : K → Option V} {st st' : RS} {L : List (Event K V)} (h : Evicts c m st L m' st') :
    m' = replay m L := by
  induction h with
  | nil => rfl
  | spare here heavy free before light rest ih => exact ih
  | evict here heavy free before still rest ih => rw [ih]; simp only [Spec.replay, del_put]

/-- The first part of a storing call in which the key was absent can be seen as happening after the item was added. -/
theorem Evicts.merge {m m1 m' : K → Option V} {st st1 st2 : RS} {L1 L2 : List (Event K V)} {k : K} {v : V}
    (absent : m k = none) (first : Evicts c m st L1 m1 st1) (after : Evicts c (Spec.put m1 k v) st1 L2 m' st2) :
    Evicts c (Spec.put m k v) st (L1 ++ L2) m' st2 := (first.put absent v).trans after

/-! ### The last stored value -/

theorem rewrites_append (k : K) (cur : Option V) (L1 L2 : List (Event K V)) :
    rewrites k cur (L1 ++ L2) = rewrites k (rewrites k cur L1) L2 := by
  induction L1 generalizing cur with
  | nil => rfl
  | cons e L ih => cases e <;> exact ih _

/-- The map `m` holds only last stored values. -/
def Latest (m : K → Option V) (cur : K → Option V) : Prop := ∀ k v, m k = some v → cur k = some v

theorem Evicts.latest {m m' : K → Option V} {st st' : RS} {L : List (Event K V)} (h : Evicts c m st L m' st')
    {cur : K → Option V} (hl : Latest m cur) : Latest m' (fun k => rewrites k (cur k) L) := by
  induction h generalizing cur with
  | nil => exact hl
  | @spare m m' st st1 st' x w w' log here heavy free before light rest ih =>
    refine ih (cur := fun k => if x = k then some w' else cur k) ?_
    intro k v hk
    by_cases hx : k = x
    · subst hx; simpa [Spec.put] using hk
    · simp only [if_neg (Ne.symm hx)]
      exact hl k v (by simpa [Spec.put, hx] using hk)
  | @evict m m' st st1 st' x w w' log here heavy free before still rest ih =>
    refine ih (cur := fun k => if x = k then some w' else cur k) ?_
    intro k v hk
    by_cases hx : k = x
    · subst hx; simp [del] at hk
    · simp only [if_neg (Ne.symm hx)]
      exact hl k v (by simpa [del, hx] using hk)

theorem Enter.rewrites {target : Nat} {k : K} {v v1 : V} {st : RS} {pre : List (Event K V)}
    (h : Enter c target k v st pre v1) (x : K) (cur : Option V) :
    Spec.rewrites x (if k = x then some v else cur) pre = if k = x then some v1 else cur := by
  cases h with
  | direct fits => rfl
  | rewritten heavy free before =>
    simp only [Spec.rewrites]
    split <;> rfl

theorem Store.latest {target : Nat} {m m' : K → Option V} {k : K} {v : V} {log : List (Event K V)}
    (h : Store c target m k v log m') {cur : K → Option V} (hl : Latest m cur) :
    Latest m' (fun x => afterStore x (cur x) k v log) := by
  have hput : ∀ v1, Latest (Spec.put m k v1) (fun x => if k = x then some v1 else cur x) := by
    intro v1 x w hx
    by_cases hk : x = k
    · subst hk; simpa [Spec.put] using hx
    · simp only [if_neg (Ne.symm hk)]
      exact hl x w (by simpa [Spec.put, hk] using hx)
  unfold afterStore
  cases h with
  | rejected enter asked heavy =>
    intro x w hx
    have hk : x ≠ k := by rintro rfl; simp [del] at hx
    have hx' : m x = some w := by simpa [del, hk] using hx
    have he := enter.rewrites x (cur x)
    simp only [rewrites_append, he]
    rw [if_neg (Ne.symm hk), hl x w hx']
    cases hm : m k <;> rfl
  | overwritten enter fits here after =>
    have := after.latest (hput _)
    intro x w hx
    have := this x w hx
    simpa only [rewrites_append, enter.rewrites, rewrites] using this
  | added enter fits absent first after either =>
    have := (Evicts.merge absent first after).latest (hput _)
    intro x w hx
    have := this x w hx
    simpa only [List.append_assoc, rewrites_append, enter.rewrites] using this

theorem Latest.alter {m cur : K → Option V} (h : Latest m cur) (k : K) (f : V → V) :
    Latest (alter m k f) (fun x => afterWrite x (cur x) k f) := by
  intro x w hx
  unfold afterWrite
  by_cases hk : x = k
  · subst hk
    simp only [Spec.alter, if_true] at hx ⊢
    rcases Option.map_eq_some_iff.mp hx with ⟨v, h1, h2⟩
    rw [h x v h1, ← h2]; rfl
  · simp only [if_neg (Ne.symm hk)]
    exact h x w (by simpa [Spec.alter, hk] using hx)

theorem OpSpec.latest {target : Nat} {m m' : K → Option V} {x : Call K V} (h : OpSpec c target m x.op x.out x.log m')
    {cur : K → Option V} (hl : Latest m cur) : Latest m' (fun k => afterCall k (cur k) x) := by
  obtain ⟨op, out, log⟩ := x
  have hdel : ∀ k, Latest (del m k) cur := by
    intro k x w hx
    by_cases hk : x = k
    · subst hk; simp [del] at hx
    · exact hl x w (by simpa [del, hk] using hx)
  cases op with
  | insert k v => obtain ⟨rfl, h⟩ := h; exact h.latest hl
  | replace k v soft =>
    obtain ⟨r, rfl, h⟩ := h
    cases h with
    | absent enter absent => exact hl
    | rejected enter asked heavy here => exact hdel k
    | overwritten enter fits here after => exact (Store.overwritten enter fits here after).latest hl
  | remove k =>
    obtain ⟨rfl, rfl, rfl⟩ := h
    intro x w hx
    by_cases hk : x = k
    · subst hk; simp [del] at hx
    · simp only [afterCall, if_neg (Ne.symm hk)]
      exact hl x w (by simpa [del, hk] using hx)
  | get k => obtain ⟨rfl, rfl, rfl⟩ := h; exact hl
  | peek k => obtain ⟨rfl, rfl, rfl⟩ := h; exact hl
  | containsKey k => obtain ⟨rfl, rfl, rfl⟩ := h; exact hl
  | getMut k f =>
    obtain ⟨rfl, rfl, rfl⟩ := h
    cases hm : m k with
    | none => rw [alter_none _ _ hm]; exact hl
    | some v => exact hl.alter k f
  | peekMut k f =>
    obtain ⟨rfl, rfl, rfl⟩ := h
    cases hm : m k with
    | none => rw [alter_none _ _ hm]; exact hl
    | some v => exact hl.alter k f
  | retain f =>
    obtain ⟨rfl, rfl, rfl⟩ := h
    intro x w hx
    simp only [afterCall]
    rcases Option.filter_eq_some_iff.mp hx with ⟨h1, h2⟩
    rw [hl x w h1]
    exact Option.filter_eq_some_iff.mpr ⟨rfl, h2⟩
  | clear => obtain ⟨rfl, rfl, rfl⟩ := h; intro x w hx; cases hx
  | drain => obtain ⟨-, rfl, rfl⟩ := h; intro x w hx; cases hx
  | reserve => obtain ⟨rfl, rfl, rfl⟩ := h; exact hl
  | getOrInsertWith k load =>
    simp only [OpSpec] at h
    cases hm : m k with
    | some v =>
      rw [hm] at h
      obtain ⟨rfl, rfl, rfl⟩ := h
      cases load <;> exact hl
    | none =>
      rw [hm] at h
      cases load with
      | none => obtain ⟨rfl, rfl, rfl⟩ := h; exact hl
      | some v => obtain ⟨h, rfl⟩ := h; exact h.latest hl
  | getMutOrInsertWith k load f =>
    simp only [OpSpec] at h
    cases hm : m k with
    | some v =>
      rw [hm] at h
      obtain ⟨rfl, rfl, rfl⟩ := h
      cases load <;> exact hl.alter k f
    | none =>
      rw [hm] at h
      cases load with
      | none => obtain ⟨rfl, rfl, rfl⟩ := h; exact hl
      | some v =>
        obtain ⟨m1, h, rfl, rfl⟩ := h
        cases hm : m1 k with
        | none => rw [alter_none _ _ hm]; exact h.latest hl
        | some w => exact (h.latest hl).alter k f
  | getRefOrGuard k use =>
    simp only [OpSpec] at h
    cases hm : m k with
    | some v =>
      rw [hm] at h
      obtain ⟨rfl, rfl, rfl⟩ := h
      cases use <;> exact hl
    | none =>
      rw [hm] at h
      cases use with
      | insert v => obtain ⟨rfl, h⟩ := h; exact h.latest hl
      | drop => obtain ⟨rfl, rfl, rfl⟩ := h; exact hl
      | forget => obtain ⟨rfl, rfl, rfl⟩ := h; exact hl
  | getMutOrGuard k f use =>
    simp only [OpSpec] at h
    cases hm : m k with
    | some v =>
      rw [hm] at h
      obtain ⟨rfl, rfl, rfl⟩ := h
      cases use <;> exact hl.alter k f
    | none =>
      rw [hm] at h
      cases use with
      | insert v => obtain ⟨rfl, h⟩ := h; exact h.latest hl
      | drop => obtain ⟨rfl, rfl, rfl⟩ := h; exact hl
      | forget => obtain ⟨rfl, rfl, rfl⟩ := h; exact hl

theorem Replays.latest {target : Nat} {m : K → Option V} {h : List (Call K V)} (hr : Replays c target (fun _ => none) h m) :
    Latest m (fun k => lastStored k h) := by
  induction hr with
  | start => intro k v hk; cases hk
  | call hr hx ih =>
    intro k v hk
    have := hx.latest ih k v hk
    simpa [lastStored, List.foldl_append] using this

/-! ### The map of a history -/

theorem Enter.handsOut {target : Nat} {k : K} {v v1 : V} {st : RS} {pre : List (Event K V)}
    (h : Enter c target k v st pre v1) : ∀ e ∈ pre, ¬ Spec.handsOut k e = true := by
  cases h with
  | direct fits => simp
  | rewritten heavy free before => simp [Spec.handsOut]

theorem replay_append (m : K → Option V) (L1 L2 : List (Event K V)) : replay m (L1 ++ L2) = replay (replay m L1) L2 := by
  induction L1 generalizing m with
  | nil => rfl
  | cons e L ih => cases e <;> exact ih _

theorem Enter.replay {target : Nat} {k : K} {v v1 : V} {st : RS} {pre : List (Event K V)}
    (h : Enter c target k v st pre v1) (m : K → Option V) : Spec.replay (Spec.put m k v) pre = Spec.put m k v1 := by
  cases h with
  | direct fits => rfl
  | rewritten heavy free before => simp only [Spec.replay, put_put]

theorem Store.play {target : Nat} {m m' : K → Option V} {k : K} {v : V} {log : List (Event K V)}
    (h : Store c target m k v log m') : m' = playStore m k v log := by
  unfold playStore
  cases h with
  | @rejected st v1 pre enter asked heavy =>
    cases hm : m k with
    | none =>
      simp only [Option.isSome_none, Bool.false_eq_true, if_false, Option.toList_none, List.map_nil, List.append_nil]
      rw [replay_append, enter.replay]
      simp only [Spec.replay, del_put]
    | some old =>
      simp only [Option.isSome_some, if_true, Option.toList_some, List.map_cons, List.map_nil, List.append_assoc]
      rw [List.eraseP_append_right _ enter.handsOut]
      simp only [List.cons_append, List.nil_append, List.eraseP_cons, Spec.handsOut, beq_self_eq_true, cond_true]
      rw [replay_append, enter.replay]
      simp only [Spec.replay, del_put]
  | @overwritten st st' v1 old pre L m' enter fits here after =>
    simp only [here, Option.isSome_some, if_true]
    rw [List.eraseP_append_right _ enter.handsOut]
    simp only [List.eraseP_cons, Spec.handsOut, beq_self_eq_true, cond_true]
    rw [replay_append, enter.replay]
    exact after.replay
  | @added st st1 st2 v1 pre L1 L2 m1 m' enter fits absent first after either =>
    simp only [absent, Option.isSome_none, Bool.false_eq_true, if_false, List.append_assoc]
    rw [replay_append, enter.replay]
    exact (Evicts.merge absent first after).replay

theorem OpSpec.play {target : Nat} {m m' : K → Option V} {x : Call K V} (h : OpSpec c target m x.op x.out x.log m') :
    m' = play m x := by
  obtain ⟨op, out, log⟩ := x
  cases op with
  | insert k v => obtain ⟨rfl, h⟩ := h; exact h.play
  | replace k v soft =>
    obtain ⟨r, rfl, h⟩ := h
    cases h with
    | absent enter absent => exact (del_self _ absent).symm
    | rejected enter asked heavy here => rfl
    | overwritten enter fits here after => exact (Store.overwritten enter fits here after).play
  | remove k => obtain ⟨rfl, rfl, rfl⟩ := h; rfl
  | get k => obtain ⟨rfl, rfl, rfl⟩ := h; rfl
  | peek k => obtain ⟨rfl, rfl, rfl⟩ := h; rfl
  | containsKey k => obtain ⟨rfl, rfl, rfl⟩ := h; rfl
  | getMut k f => obtain ⟨rfl, rfl, rfl⟩ := h; rfl
  | peekMut k f => obtain ⟨rfl, rfl, rfl⟩ := h; rfl
  | retain f => obtain ⟨rfl, rfl, rfl⟩ := h; rfl
  | clear => obtain ⟨rfl, rfl, rfl⟩ := h; rfl
  | drain => obtain ⟨-, rfl, rfl⟩ := h; rfl
  | reserve => obtain ⟨rfl, rfl, rfl⟩ := h; rfl
  | getOrInsertWith k load =>
    simp only [OpSpec] at h
    cases hm : m k with
    | some v =>
      rw [hm] at h
      obtain ⟨rfl, rfl, rfl⟩ := h
      cases load <;> rfl
    | none =>
      rw [hm] at h
      cases load with
      | none => obtain ⟨rfl, rfl, rfl⟩ := h; rfl
      | some v => obtain ⟨h, rfl⟩ := h; exact h.play
  | getMutOrInsertWith k load f =>
    simp only [OpSpec] at h
    cases hm : m k with
    | some v =>
      rw [hm] at h
      obtain ⟨rfl, rfl, rfl⟩ := h
      cases load <;> rfl
    | none =>
      rw [hm] at h
      cases load with
      | none => obtain ⟨rfl, rfl, rfl⟩ := h; rfl
      | some v =>
        obtain ⟨m1, h, rfl, rfl⟩ := h
        rw [h.play]; rfl
  | getRefOrGuard k use =>
    simp only [OpSpec] at h
    cases hm : m k with
    | some v =>
      rw [hm] at h
      obtain ⟨rfl, rfl, rfl⟩ := h
      cases use <;> rfl
    | none =>
      rw [hm] at h
      cases use with
      | insert v => obtain ⟨rfl, h⟩ := h; exact h.play
      | drop => obtain ⟨rfl, rfl, rfl⟩ := h; rfl
      | forget => obtain ⟨rfl, rfl, rfl⟩ := h; rfl
  | getMutOrGuard k f use =>
    simp only [OpSpec] at h
    cases hm : m k with
    | some v =>
      rw [hm] at h
      obtain ⟨rfl, rfl, rfl⟩ := h
      cases use <;> rfl
    | none =>
      rw [hm] at h
      cases use with
      | insert v => obtain ⟨rfl, h⟩ := h; exact h.play
      | drop => obtain ⟨rfl, rfl, rfl⟩ := h; rfl
      | forget => obtain ⟨rfl, rfl, rfl⟩ := h; rfl

theorem Replays.playAll {target : Nat} {m : K → Option V} {h : List (Call K V)}
    (hr : Replays c target (fun _ => none) h m) : m = playAll h := by
  induction hr with
  | start => rfl
  | call hr hx ih =>
    rw [hx.play, ih]
    simp [Spec.playAll, List.foldl_append]

/-! ### Bags -/

theorem Lists.cons {l : List (K × V)} {m : K → Option V} {k : K} (v : V) (h : Lists l (del m k)) :
    Lists ((k, v) :: l) (put m k v) := by
  obtain ⟨h1, h2⟩ := h
  refine ⟨?_, ?_⟩
  · rw [List.map_cons, List.nodup_cons]
    refine ⟨?_, h1⟩
    intro hk
    obtain ⟨⟨k', w⟩, hm, rfl⟩ := List.mem_map.mp hk
    have := (h2 _ _).mp hm
    simp [del] at this
  · intro x w
    rw [List.mem_cons, h2]
    by_cases hx : x = k
    · subst hx; simp [put, del, eq_comm]
    · simp [put, del, hx]

/-- An item of the map can be brought to the front of its list. -/
theorem Lists.split {l : List (K × V)} {m : K → Option V} {k : K} {v : V} (h : Lists l m) (hk : m k = some v) :
    ∃ rest, l.Perm ((k, v) :: rest) ∧ Lists rest (del m k) := by
  obtain ⟨h1, h2⟩ := h
  obtain ⟨a, b, rfl⟩ := List.append_of_mem ((h2 k v).mpr hk)
  refine ⟨a ++ b, List.perm_middle, ?_⟩
  have hp : ((k, v) :: (a ++ b)).Perm (a ++ (k, v) :: b) := List.perm_middle.symm
  have hn := (hp.map (·.1)).nodup_iff.mpr h1
  rw [List.map_cons, List.nodup_cons] at hn
  refine ⟨hn.2, ?_⟩
  intro x w
  have hx := h2 x w
  rw [← hp.mem_iff, List.mem_cons] at hx
  by_cases hxk : x = k
  · subst hxk
    simp only [del, if_true]
    constructor
    · intro hm; exact absurd (List.mem_map_of_mem (f := (·.1)) hm) hn.1
    · intro hm; cases hm
  · simp only [del, if_neg hxk]
    rw [← hx]
    simp [hxk]

theorem Lists.perm {l l' : List (K × V)} {m : K → Option V} (h : Lists l m) (h' : Lists l' m) : l.Perm l' := by
  induction l generalizing l' m with
  | nil =>
    cases l' with
    | nil => exact .refl _
    | cons p l' => exact absurd ((h.2 _ _).mpr ((h'.2 p.1 p.2).mp (by simp))) (by simp)
  | cons p l ih =>
    obtain ⟨k, v⟩ := p
    have hk : m k = some v := (h.2 _ _).mp (by simp)
    obtain ⟨r, h1, h2⟩ := h.split hk
    obtain ⟨r', h1', h2'⟩ := h'.split hk
    have hr : l.Perm r := h1.cons_inv
    have hl : Lists l (del m k) := by
      refine ⟨(hr.map (·.1)).nodup_iff.mpr h2.1, fun x w => ?_⟩
      rw [hr.mem_iff]; exact h2.2 x w
    exact ((ih hl h2').cons _).trans h1'.symm

omit [DecidableEq K] in
theorem Process.perm_left {bag bag1 bag' : List (K × V)} {log : List (Event K V)} (hp : bag.Perm bag1)
    (h : Process bag1 log bag') : Process bag log bag' := by
  cases h with
  | done same => exact .done (hp.trans same)
  | rewrite here after => exact .rewrite (hp.trans here) after
  | take here after => exact .take (hp.trans here) after

omit [DecidableEq K] in
theorem Process.perm_right {bag bag1 bag' : List (K × V)} {log : List (Event K V)} 
    (h : Process bag log bag1) (hp : bag1.Perm bag') : Process bag log bag' := by
  induction h with
  | done same => exact .done (same.trans hp)
  | rewrite here after ih => exact .rewrite here (ih hp)
  | take here after ih => exact .take here (ih hp)

omit [DecidableEq K] in
theorem Process.trans {bag bag1 bag' : List (K × V)} {L1 L2 : List (Event K V)} (h1 : Process bag L1 bag1)
    (h2 : Process bag1 L2 bag') : Process bag (L1 ++ L2) bag' := by
  induction h1 with
  | done same => exact h2.perm_left same
  | rewrite here after ih => exact .rewrite here (ih h2)
  | take here after ih => exact .take here (ih h2)

omit [DecidableEq K] in
/-- Items nobody talks about can be added. -/
theorem Process.append {bag bag' : List (K × V)} {log : List (Event K V)} (h : Process bag log bag') (l : List (K × V)) :
    Process (bag ++ l) log (bag' ++ l) := by
  induction h with
  | done same => exact .done (same.append_right l)
  | rewrite here after ih => exact .rewrite (here.append_right l) ih
  | take here after ih => exact .take (here.append_right l) ih

theorem Evicts.process {m m' : K → Option V} {st st' : RS} {L : List (Event K V)} (h : Evicts c m st L m' st')
    {l : List (K × V)} (hl : Lists l m) : ∃ l', Lists l' m' ∧ Process l L l' := by
  induction h generalizing l with
  | nil => exact ⟨l, hl, .done (.refl _)⟩
  | @spare m m' st st1 st' x w w' log here heavy free before light rest ih =>
    obtain ⟨r, h1, h2⟩ := hl.split here
    obtain ⟨l', h3, h4⟩ := ih (h2.cons w')
    exact ⟨l', h3, .rewrite h1 h4⟩
  | @evict m m' st st1 st' x w w' log here heavy free before still rest ih =>
    obtain ⟨r, h1, h2⟩ := hl.split here
    obtain ⟨l', h3, h4⟩ := ih h2
    exact ⟨l', h3, .rewrite h1 (.take (.refl _) h4)⟩

omit [DecidableEq K] in
theorem Enter.process {target : Nat} {k : K} {v v1 : V} {st : RS} {pre : List (Event K V)}
    (h : Enter c target k v st pre v1) (l : List (K × V)) : Process ((k, v) :: l) pre ((k, v1) :: l) := by
  cases h with
  | direct fits => exact .done (.refl _)
  | rewritten heavy free before => exact .rewrite (.refl _) (.done (.refl _))

theorem Store.process {target : Nat} {m m' : K → Option V} {k : K} {v : V} {log : List (Event K V)}
    (h : Store c target m k v log m') {l l' : List (K × V)} (hl : Lists l m) (hl' : Lists l' m') :
    Process ((k, v) :: l) log l' := by
  cases h with
  | @rejected st v1 pre enter asked heavy =>
    rw [List.append_assoc]
    refine (enter.process l).trans ?_
    cases hm : m k with
    | none =>
      refine .take (.refl _) (.done ?_)
      rw [del_self _ hm] at hl'
      exact hl.perm hl'
    | some old =>
      obtain ⟨r, h1, h2⟩ := hl.split hm
      refine .take (rest := (k, v1) :: r) ((h1.cons _).trans (.swap _ _ _)) ?_
      exact .take (.refl _) (.done (h2.perm hl'))
  | @overwritten st st' v1 old pre L m' enter fits here after =>
    refine (enter.process l).trans ?_
    obtain ⟨r, h1, h2⟩ := hl.split here
    refine .take (rest := (k, v1) :: r) ((h1.cons _).trans (.swap _ _ _)) ?_
    obtain ⟨l2, h3, h4⟩ := after.process (h2.cons v1)
    exact h4.perm_right (h3.perm hl')
  | @added st st1 st2 v1 pre L1 L2 m1 m' enter fits absent first after either =>
    rw [List.append_assoc]
    refine (enter.process l).trans ?_
    have hd : del m k = m := del_self _ absent
    rw [← hd] at hl
    obtain ⟨l2, h3, h4⟩ := (Evicts.merge absent first after).process (hl.cons v1)
    exact h4.perm_right (h3.perm hl')

theorem Replace.process {target : Nat} {m m' : K → Option V} {k : K} {v : V} {log : List (Event K V)} {r : Option V}
    (h : Replace c target m k v log m' r) {l l' : List (K × V)} (hl : Lists l m) (hl' : Lists l' m') :
    Process ((k, v) :: l) log (r.toList.map (fun w => (k, w)) ++ l') := by
  cases h with
  | @absent st v1 _ enter absent => exact (enter.process l).perm_right ((hl.perm hl').cons _)
  | @rejected st v1 old pre enter asked heavy here =>
    refine (enter.process l).trans ?_
    obtain ⟨r, h1, h2⟩ := hl.split here
    exact .take (rest := (k, v1) :: r) ((h1.cons _).trans (.swap _ _ _)) (.done ((h2.perm hl').cons _))
  | overwritten enter fits here after => exact (Store.overwritten enter fits here after).process hl hl'

/-! ### Single items under single calls -/

omit [DecidableEq K] in
theorem Enter.keys {target : Nat} {k : K} {v v1 : V} {st : RS} {pre : List (Event K V)}
    (h : Enter c target k v st pre v1) : ∀ e ∈ pre, eventKey e = k := by
  cases h with
  | direct fits => simp
  | rewritten heavy free before => simp [eventKey]

/-- A storing call leaves every pinned or weightless item of another key alone. -/
theorem Store.kept {target : Nat} {m m' : K → Option V} {k : K} {v : V} {log : List (Event K V)}
    (h : Store c target m k v log m') {x : K} {w : V} (hx : m x = some w) (hxk : x ≠ k)
    (hs : c.weight x w = 0 ∨ c.pinned x w = true) : m' x = some w ∧ ∀ e ∈ log, eventKey e ≠ x := by
  cases h with
  | @rejected st v1 pre enter asked heavy =>
    refine ⟨by simp [del, hxk, hx], ?_⟩
    intro e he
    simp only [List.append_assoc, List.mem_append, List.mem_map, List.mem_singleton] at he
    rcases he with he | ⟨_, _, rfl⟩ | rfl
    · rw [enter.keys e he]; exact Ne.symm hxk
    · exact Ne.symm hxk
    · exact Ne.symm hxk
  | @overwritten st st' v1 old pre L m' enter fits here after =>
    obtain ⟨h1, h2⟩ := after.kept (k := x) (v := w) (by simp [Spec.put, hxk, hx]) hs
    refine ⟨h1, ?_⟩
    intro e he
    rcases List.mem_append.mp he with he | he
    · rw [enter.keys e he]; exact Ne.symm hxk
    · rcases List.mem_cons.mp he with rfl | he
      · exact Ne.symm hxk
      · exact h2 e he
  | @added st st1 st2 v1 pre L1 L2 m1 m' enter fits absent first after either =>
    obtain ⟨h1, h2⟩ := (Evicts.merge absent first after).kept (k := x) (v := w) (by simp [Spec.put, hxk, hx]) hs
    refine ⟨h1, ?_⟩
    intro e he
    rw [List.append_assoc] at he
    rcases List.mem_append.mp he with he | he
    · rw [enter.keys e he]; exact Ne.symm hxk
    · exact h2 e he

/-- A storing call only takes away items it tells `on_evict` about. -/
theorem Store.lost {target : Nat} {m m' : K → Option V} {k : K} {v : V} {log : List (Event K V)}
    (h : Store c target m k v log m') {x : K} {w : V} (hx : m x = some w) (hx' : m' x = none) :
    ∃ w', .onEvict x w' ∈ log := by
  cases h with
  | @rejected st v1 pre enter asked heavy =>
    by_cases hxk : x = k
    · subst hxk; exact ⟨v1, by simp⟩
    · simp [del, hxk, hx] at hx'
  | @overwritten st st' v1 old pre L m' enter fits here after =>
    by_cases hxk : x = k
    · subst hxk; exact ⟨old, by simp⟩
    · obtain ⟨w', h1⟩ := after.lost (k := x) (v := w) (by simp [Spec.put, hxk, hx]) hx'
      exact ⟨w', by simp [h1]⟩
  | @added st st1 st2 v1 pre L1 L2 m1 m' enter fits absent first after either =>
    have hxk : x ≠ k := by rintro rfl; rw [hx] at absent; cases absent
    obtain ⟨w', h1⟩ := (Evicts.merge absent first after).lost (k := x) (v := w) (by simp [Spec.put, hxk, hx]) hx'
    exact ⟨w', by rw [List.append_assoc]; exact List.mem_append_right _ h1⟩

/-- A storing call changes an item of another key only if it tells the lifecycle. -/
theorem Store.frame {target : Nat} {m m' : K → Option V} {k : K} {v : V} {log : List (Event K V)}
    (h : Store c target m k v log m') {x : K} (hxk : x ≠ k) (hx : ∀ e ∈ log, eventKey e ≠ x) : m' x = m x := by
  cases h with
  | @rejected st v1 pre enter asked heavy => simp [del, hxk]
  | @overwritten st st' v1 old pre L m' enter fits here after =>
    rw [after.frame (k := x) (fun e he => hx e (by simp [he]))]
    simp [Spec.put, hxk]
  | @added st st1 st2 v1 pre L1 L2 m1 m' enter fits absent first after either =>
    rw [(Evicts.merge absent first after).frame (k := x)
      (fun e he => hx e (by rw [List.append_assoc]; exact List.mem_append_right _ he))]
    simp [Spec.put, hxk]

/-- What happens to an item that a call does not explicitly touch. -/
structure Spared (c : Cfg K V RS) (k : K) (v : V) (log : List (Event K V)) (m' : K → Option V) : Prop where
  lost : m' k = none → ∃ w, .onEvict k w ∈ log
  quiet : (∀ e ∈ log, eventKey e ≠ k) → m' k = some v
  safe : c.weight k v = 0 ∨ c.pinned k v = true → m' k = some v ∧ ∀ e ∈ log, eventKey e ≠ k

omit [DecidableEq K] in
theorem Spared.same {k : K} {v : V} {m' : K → Option V} (h : m' k = some v) : Spared c k v [] m' where
  lost h' := by rw [h] at h'; cases h'
  quiet _ := h
  safe _ := ⟨h, by simp⟩

theorem Store.spared {target : Nat} {m m' : K → Option V} {k : K} {v : V} {log : List (Event K V)}
    (h : Store c target m k v log m') {x : K} {w : V} (hx : m x = some w) (hxk : x ≠ k) : Spared c x w log m' where
  lost h' := h.lost hx h'
  quiet h' := (h.frame hxk h').trans hx
  safe h' := h.kept hx hxk h'

theorem Replace.spared {target : Nat} {m m' : K → Option V} {k : K} {v : V} {log : List (Event K V)} {r : Option V}
    (h : Replace c target m k v log m' r) {x : K} {w : V} (hx : m x = some w) (hxk : x ≠ k) : Spared c x w log m' := by
  cases h with
  | absent enter absent =>
    exact ⟨fun h' => (by rw [hx] at h'; cases h'), fun _ => hx, fun _ => ⟨hx, fun e he => by
      rw [enter.keys e he]; exact Ne.symm hxk⟩⟩
  | rejected enter asked heavy here =>
    have hx' : del m k x = some w := by simp [del, hxk, hx]
    refine ⟨fun h' => (by rw [hx'] at h'; cases h'), fun _ => hx', fun _ => ⟨hx', fun e he => ?_⟩⟩
    rcases List.mem_append.mp he with he | he
    · rw [enter.keys e he]; exact Ne.symm hxk
    · rw [List.mem_singleton.mp he]; exact Ne.symm hxk
  | overwritten enter fits here after => exact (Store.overwritten enter fits here after).spared hx hxk

theorem alter_other (m : K → Option V) {k x : K} (f : V → V) (h : x ≠ k) : alter m k f x = m x := by simp [alter, h]

theorem OpSpec.spared {target : Nat} {m m' : K → Option V} {op : Op K V} {out : Out K V} {log : List (Event K V)}
    (h : OpSpec c target m op out log m') {x : K} {w : V} (hx : m x = some w) (ht : ¬ Touches x w ⟨op, out, log⟩) :
    Spared c x w log m' := by
  cases op with
  | insert k v =>
    obtain ⟨rfl, h⟩ := h
    exact h.spared hx (by rintro rfl; exact ht (.insert ..))
  | replace k v soft =>
    obtain ⟨r, rfl, h⟩ := h
    exact h.spared hx (by rintro rfl; exact ht (.replace ..))
  | remove k =>
    obtain ⟨rfl, rfl, rfl⟩ := h
    have hxk : x ≠ k := by rintro rfl; exact ht (.remove ..)
    exact .same (by simp [del, hxk, hx])
  | get k => obtain ⟨rfl, rfl, rfl⟩ := h; exact .same hx
  | peek k => obtain ⟨rfl, rfl, rfl⟩ := h; exact .same hx
  | containsKey k => obtain ⟨rfl, rfl, rfl⟩ := h; exact .same hx
  | getMut k f =>
    obtain ⟨rfl, rfl, rfl⟩ := h
    have hxk : x ≠ k := by rintro rfl; exact ht (.getMut ..)
    exact .same (by rw [alter_other _ _ hxk, hx])
  | peekMut k f =>
    obtain ⟨rfl, rfl, rfl⟩ := h
    have hxk : x ≠ k := by rintro rfl; exact ht (.peekMut ..)
    exact .same (by rw [alter_other _ _ hxk, hx])
  | retain f =>
    obtain ⟨rfl, rfl, rfl⟩ := h
    refine .same (Option.filter_eq_some_iff.mpr ⟨hx, ?_⟩)
    cases hf : f x w with
    | true => rfl
    | false => exact absurd (.retain f _ _ hf) ht
  | clear => exact absurd (.clear ..) ht
  | drain => exact absurd (.drain ..) ht
  | reserve => obtain ⟨rfl, rfl, rfl⟩ := h; exact .same hx
  | getOrInsertWith k load =>
    simp only [OpSpec] at h
    cases hm : m k with
    | some v =>
      rw [hm] at h
      obtain ⟨rfl, rfl, rfl⟩ := h
      exact .same hx
    | none =>
      rw [hm] at h
      cases load with
      | none => obtain ⟨rfl, rfl, rfl⟩ := h; exact .same hx
      | some v =>
        obtain ⟨h, rfl⟩ := h
        exact h.spared hx (by rintro rfl; rw [hx] at hm; cases hm)
  | getMutOrInsertWith k load f =>
    have hxk : x ≠ k := by rintro rfl; exact ht (.loadMut ..)
    simp only [OpSpec] at h
    cases hm : m k with
    | some v =>
      rw [hm] at h
      obtain ⟨rfl, rfl, rfl⟩ := h
      exact .same (by rw [alter_other _ _ hxk, hx])
    | none =>
      rw [hm] at h
      cases load with
      | none => obtain ⟨rfl, rfl, rfl⟩ := h; exact .same hx
      | some v =>
        obtain ⟨m1, h, rfl, rfl⟩ := h
        have := h.spared hx hxk
        refine ⟨?_, ?_, ?_⟩
        · rw [alter_other _ _ hxk]; exact this.lost
        · rw [alter_other _ _ hxk]; exact this.quiet
        · rw [alter_other _ _ hxk]; exact this.safe
  | getRefOrGuard k use =>
    simp only [OpSpec] at h
    cases hm : m k with
    | some v =>
      rw [hm] at h
      obtain ⟨rfl, rfl, rfl⟩ := h
      exact .same hx
    | none =>
      rw [hm] at h
      cases use with
      | insert v =>
        obtain ⟨rfl, h⟩ := h
        exact h.spared hx (by rintro rfl; rw [hx] at hm; cases hm)
      | drop => obtain ⟨rfl, rfl, rfl⟩ := h; exact .same hx
      | forget => obtain ⟨rfl, rfl, rfl⟩ := h; exact .same hx
  | getMutOrGuard k f use =>
    have hxk : x ≠ k := by rintro rfl; exact ht (.guardMut ..)
    simp only [OpSpec] at h
    cases hm : m k with
    | some v =>
      rw [hm] at h
      obtain ⟨rfl, rfl, rfl⟩ := h
      exact .same (by rw [alter_other _ _ hxk, hx])
    | none =>
      rw [hm] at h
      cases use with
      | insert v => obtain ⟨rfl, h⟩ := h; exact h.spared hx hxk
      | drop => obtain ⟨rfl, rfl, rfl⟩ := h; exact .same hx
      | forget => obtain ⟨rfl, rfl, rfl⟩ := h; exact .same hx

/-- Only storing calls add a key, and only their own. -/
theorem Store.added_key {target : Nat} {m m' : K → Option V} {k : K} {v : V} {log : List (Event K V)}
    (h : Store c target m k v log m') {x : K} (hx : m x = none) (hx' : m' x ≠ none) : x = k := by
  by_cases hxk : x = k
  · exact hxk
  · exfalso
    cases h with
    | rejected enter asked heavy => simp [del, hxk, hx] at hx'
    | overwritten enter fits here after => exact hx' (after.absent (k := x) (by simp [Spec.put, hxk, hx])).1
    | added enter fits absent first after either =>
      exact hx' ((Evicts.merge absent first after).absent (k := x) (by simp [Spec.put, hxk, hx])).1

/-- A key that was absent before a call and is present afterwards is the key the call stores. -/
theorem OpSpec.appears {target : Nat} {m m' : K → Option V} {op : Op K V} {out : Out K V} {log : List (Event K V)}
    (ho : OpSpec c target m op out log m') {k : K} (hk : m k = none) (hk' : m' k ≠ none) : StoresKey k op := by
  have alt : ∀ (m : K → Option V) (k' : K) (f : V → V), alter m k' f k ≠ none → m k ≠ none := by
    intro m k' f h
    by_cases hkk : k = k'
    · subst hkk
      intro h0
      simp [alter, h0] at h
    · rwa [alter_other _ _ hkk] at h
  cases op with
  | insert k' v' => obtain ⟨-, h⟩ := ho; obtain rfl := h.added_key hk hk'; exact .insert _
  | replace k' v' soft =>
    obtain ⟨r, -, h⟩ := ho
    exfalso
    cases h with
    | absent enter absent => exact hk' hk
    | rejected enter asked heavy here =>
      by_cases hkk : k = k'
      · subst hkk; rw [hk] at here; cases here
      · simp [del, hkk, hk] at hk'
    | overwritten enter fits here after =>
      have := (Store.overwritten enter fits here after).added_key hk hk'
      subst this
      rw [hk] at here; cases here
  | remove k' =>
    obtain ⟨-, -, h⟩ := ho
    rw [h] at hk'
    by_cases hkk : k = k' <;> simp [del, hkk, hk] at hk'
  | get k' => obtain ⟨-, -, h⟩ := ho; rw [h] at hk'; exact absurd hk hk'
  | peek k' => obtain ⟨-, -, h⟩ := ho; rw [h] at hk'; exact absurd hk hk'
  | containsKey k' => obtain ⟨-, -, h⟩ := ho; rw [h] at hk'; exact absurd hk hk'
  | getMut k' f => obtain ⟨-, -, h⟩ := ho; rw [h] at hk'; exact absurd hk (alt _ _ _ hk')
  | peekMut k' f => obtain ⟨-, -, h⟩ := ho; rw [h] at hk'; exact absurd hk (alt _ _ _ hk')
  | retain f => obtain ⟨-, -, h⟩ := ho; rw [h] at hk'; simp [hk] at hk'
  | clear => obtain ⟨-, -, h⟩ := ho; rw [h] at hk'; simp at hk'
  | drain => obtain ⟨-, -, h⟩ := ho; rw [h] at hk'; simp at hk'
  | reserve => obtain ⟨-, -, h⟩ := ho; rw [h] at hk'; exact absurd hk hk'
  | getOrInsertWith k' load =>
    simp only [OpSpec] at ho
    cases hm : m k' with
    | some w => rw [hm] at ho; obtain ⟨-, -, h⟩ := ho; rw [h] at hk'; exact absurd hk hk'
    | none =>
      rw [hm] at ho
      cases load with
      | none => obtain ⟨-, -, h⟩ := ho; rw [h] at hk'; exact absurd hk hk'
      | some w => obtain ⟨h, -⟩ := ho; obtain rfl := h.added_key hk hk'; exact .load _
  | getMutOrInsertWith k' load f =>
    simp only [OpSpec] at ho
    cases hm : m k' with
    | some w => rw [hm] at ho; obtain ⟨-, -, h⟩ := ho; rw [h] at hk'; exact absurd hk (alt _ _ _ hk')
    | none =>
      rw [hm] at ho
      cases load with
      | none => obtain ⟨-, -, h⟩ := ho; rw [h] at hk'; exact absurd hk hk'
      | some w =>
        obtain ⟨m1, h, -, h2⟩ := ho
        rw [h2] at hk'
        obtain rfl := h.added_key hk (alt _ _ _ hk')
        exact .loadMut _ _
  | getRefOrGuard k' use =>
    simp only [OpSpec] at ho
    cases hm : m k' with
    | some w => rw [hm] at ho; obtain ⟨-, -, h⟩ := ho; rw [h] at hk'; exact absurd hk hk'
    | none =>
      rw [hm] at ho
      cases use with
      | insert w => obtain ⟨-, h⟩ := ho; obtain rfl := h.added_key hk hk'; exact .guard _
      | drop => obtain ⟨-, -, h⟩ := ho; rw [h] at hk'; exact absurd hk hk'
      | forget => obtain ⟨-, -, h⟩ := ho; rw [h] at hk'; exact absurd hk hk'
  | getMutOrGuard k' f use =>
    simp only [OpSpec] at ho
    cases hm : m k' with
    | some w => rw [hm] at ho; obtain ⟨-, -, h⟩ := ho; rw [h] at hk'; exact absurd hk (alt _ _ _ hk')
    | none =>
      rw [hm] at ho
      cases use with
      | insert w => obtain ⟨-, h⟩ := ho; obtain rfl := h.added_key hk hk'; exact .guardMut _ _
      | drop => obtain ⟨-, -, h⟩ := ho; rw [h] at hk'; exact absurd hk hk'
      | forget => obtain ⟨-, -, h⟩ := ho; rw [h] at hk'; exact absurd hk hk'

end Spec

section
variable {K V RS : Type _} [DecidableEq K] {c : Cfg K V RS} {target cap gcap : Nat} {h : List (Unsync.Call K V)} {s : Shard K V}
open Unsync Spec

theorem new_contents : (Shard.new target cap gcap : Shard K V).contents = fun _ => none := rfl

theorem Unsync.Run.reach_new (hr : Run c (Shard.new target cap gcap) h s) : Reach c target cap gcap s :=
  hr.reach (Reach.new ..)

theorem Unsync.Run.replays_new (hr : Run c (Shard.new target cap gcap) h s) :
    Replays c target (fun _ => none) h s.contents := hr.replays (Reach.new ..)

theorem Unsync.Run.lists (hr : Run c (Shard.new target cap gcap) h s) : Lists s.iter s.contents :=
  lists_iter hr.reach_new.inv.toInv0

theorem Unsync.Run.opSpec (hr : Run c (Shard.new target cap gcap) h s) {op : Op K V} {s' : Shard K V} {out : Out K V}
    {q : Req K V RS} (hs : step c s op = .ok (s', out, q)) : OpSpec c target s.contents op out q.log s'.contents := by
  have hre := hr.reach_new
  have := (step_eff hre.inv hs).opSpec hre.inv.toInv0
  rwa [hre.target] at this
end

end QuickCache
