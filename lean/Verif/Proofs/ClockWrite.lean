import Verif.Proofs.ClockEvict
import Verif.Proofs.Store

/-!
# Changes of single slots, on the abstract clock machine
-/

namespace QuickCache
variable {K V RS : Type}
open Spec

/-! ### Rings -/

section
variable {c : Cfg K V RS} {s s' : Shard K V} {R : RingId → List Nat} {F : List Nat} {t : Nat} {old new : Option (Entry K V)}

theorem Shard.HasRings.off (hr : s.HasRings c R F) {x : Option (Entry K V)} (ht : s.entries.item t = x) {i : RingId}
    (h : x.bind c.ringOf ≠ some i) : t ∉ R i := by
  intro hm
  rw [hr.mem] at hm
  unfold Cfg.rho at hm
  rw [ht] at hm
  exact h hm

theorem Shard.HasRings.on (hr : s.HasRings c R F) {x : Option (Entry K V)} (ht : s.entries.item t = x) {i : RingId}
    (h : x.bind c.ringOf = some i) : t ∈ R i := by
  rw [hr.mem]
  unfold Cfg.rho
  rw [ht]
  exact h

theorem Rings.erase_off {T : Type _} {sl : Slab T} {hd : RingId → Option Nat} {rho : Nat → Option RingId}
    {R : RingId → List Nat} {F : List Nat} (h : Rings sl hd rho R F) (i : RingId) : t ∉ (R i).erase t := by
  intro hm
  exact ((h.links.nodup i).mem_erase_iff.mp hm).1 rfl

/-- An entry is removed. -/
theorem Wrote.rings_remove {e : Entry K V} (h : Wrote c s s' t (some e) none) (hr : s.HasRings c R F) :
    ∃ F', s'.HasRings c (fun i => (R i).erase t) F' := by
  obtain ⟨F', h1⟩ := h.rings R F hr
  refine ⟨F', ?_⟩
  have : ringMove t ((some e).bind c.ringOf) ((none : Option (Entry K V)).bind c.ringOf) (none : Option (Entry K V)).isSome R =
      fun i => (R i).erase t := by
    funext j
    simp only [Option.bind_some, Option.bind_none, Option.isSome_none]
    cases he : c.ringOf e with
    | none =>
      have := hr.off (i := j) h.upd.before (by simp [he])
      simp [ringMove, List.erase_of_not_mem this]
    | some i =>
      simp only [ringMove, Bool.false_eq_true, false_and, if_false]
      by_cases hj : j = i
      · subst hj; simp
      · rw [upd_other _ _ hj, List.erase_of_not_mem]
        exact hr.off h.upd.before (by simp [he, Ne.symm hj])
  rwa [this] at h1

/-- A slot that is free, or holds a ghost or a placeholder, is filled. -/
theorem Wrote.rings_join {e : Entry K V} (h : Wrote c s s' t old (some e)) (hr : s.HasRings c R F)
    (ho : ∀ i, old.bind c.ringOf = some i → i = .ghost) (hn : c.ringOf e ≠ some .ghost) :
    ∃ F', s'.HasRings c (fun i => (R i).erase t ++ if c.ringOf e = some i then [t] else []) F' := by
  obtain ⟨F', h1⟩ := h.rings R F hr
  refine ⟨F', ?_⟩
  have : ringMove t (old.bind c.ringOf) ((some e).bind c.ringOf) (some e).isSome R =
      fun i => (R i).erase t ++ if c.ringOf e = some i then [t] else [] := by
    funext j
    simp only [Option.bind_some, Option.isSome_some]
    cases hb : old.bind c.ringOf with
    | none =>
      have hoff := fun j => hr.off (i := j) h.upd.before (by simp [hb])
      cases he : c.ringOf e with
      | none => simp [ringMove, List.erase_of_not_mem (hoff j)]
      | some i =>
        simp only [ringMove, Option.some.injEq]
        by_cases hj : j = i
        · subst hj; simp [List.erase_of_not_mem (hoff j)]
        · simp [upd_other _ _ hj, List.erase_of_not_mem (hoff j), Ne.symm hj]
    | some g =>
      obtain rfl := ho g hb
      have hoff := fun j (hj : j ≠ .ghost) => hr.off (i := j) h.upd.before (by simp [hb, Ne.symm hj])
      cases he : c.ringOf e with
      | none =>
        simp only [ringMove, ne_eq, not_true_eq_false, and_false, if_false, reduceCtorEq, List.append_nil]
        by_cases hj : j = .ghost
        · subst hj; simp
        · simp [upd_other _ _ hj, List.erase_of_not_mem (hoff j hj)]
      | some i =>
        have hi : i ≠ .ghost := by rintro rfl; exact hn he
        simp only [ringMove, if_neg (Ne.symm hi), Option.some.injEq]
        by_cases hj : j = i
        · subst hj; simp [upd_other _ _ hi, List.erase_of_not_mem (hoff j hi)]
        · rw [upd_other _ _ hj, if_neg (Ne.symm hj), List.append_nil]
          by_cases hg : j = .ghost
          · subst hg; simp
          · simp [upd_other _ _ hg, List.erase_of_not_mem (hoff j hg)]
  rwa [this] at h1

/-- An entry of one kind is rewritten. -/
theorem Wrote.rings_rewrite {r r' : Resident K V} (h : Wrote c s s' t (some (.resident r)) (some (.resident r')))
    (hk : r'.key = r.key) (hst : r'.state = r.state) (hr : s.HasRings c R F) :
    ∃ F', s'.HasRings c (if c.weight r.key r.value = 0 then
        if c.weight r.key r'.value = 0 then R else QuickCache.upd R r.state.ring (R r.state.ring ++ [t])
      else if c.weight r.key r'.value = 0 then QuickCache.upd R r.state.ring (skipSlot t (R r.state.ring)) else R) F' := by
  obtain ⟨F', h1⟩ := h.rings R F hr
  refine ⟨F', ?_⟩
  simp only [Option.bind_some, Option.isSome_some, Cfg.ringOf, hk, hst] at h1
  by_cases h0 : c.weight r.key r.value = 0 <;> by_cases h2 : c.weight r.key r'.value = 0 <;>
    simpa [h0, h2, ringMove, Shard.ring_ne_ghost] using h1

/-! ### Lists of keys -/

/-- Skipping a slot and skipping its key. -/
theorem klist_skip (h : Inv0 c s) [DecidableEq K] (hr : s.HasRings c R F) {i : RingId} (hi : i ≠ .ghost) {r : Resident K V}
    (ht : s.entries.item t = some (.resident r)) (hm : t ∈ R i) :
    klist s.entries.item (skipSlot t (R i)) = Clock.skip (klist s.entries.item (R i)) r.key := by
  obtain ⟨A, B, hR⟩ := List.append_of_mem hm
  have hnd := hr.links.nodup i
  rw [hR] at hnd
  have htA : t ∉ A := fun hm => (List.nodup_cons.mp (List.perm_middle.nodup_iff.mp hnd)).1 (by simp [hm])
  have hkA : r.key ∉ klist s.entries.item A := h.key_off hr ht (fun x hx => by rw [hR]; simp [hx]) hi htA
  rw [hR, skipSlot_split htA, klist_append, klist_append, klist_cons (keyAt_res ht), Clock.skip]
  obtain ⟨d1, d2⟩ := Shard.dropWhile_split (p := fun x => decide (x ≠ r.key)) (A := klist s.entries.item A)
    (B := klist s.entries.item B) (k := r.key)
    (fun x hx => by rw [decide_eq_true_iff]; rintro rfl; exact hkA hx) (by simp)
  rw [d1, d2, List.tail_cons]

/-- Erasing a slot and filtering out its key. -/
theorem klist_erase (h : Inv0 c s) [DecidableEq K] (hr : s.HasRings c R F) {i : RingId} (hi : i ≠ .ghost) {r : Resident K V}
    (ht : s.entries.item t = some (.resident r)) :
    klist s.entries.item ((R i).erase t) = (klist s.entries.item (R i)).filter (· ≠ r.key) := by
  have hid : ∀ l, (∀ x ∈ l, x ∈ R i) → t ∉ l →
      (klist s.entries.item l).filter (· ≠ r.key) = klist s.entries.item l := by
    intro l hl hm
    rw [List.filter_eq_self]
    intro x hx
    rw [decide_eq_true_iff]
    rintro rfl
    exact h.key_off hr ht hl hi hm hx
  by_cases hm : t ∈ R i
  · obtain ⟨A, B, hR⟩ := List.append_of_mem hm
    have hnd := hr.links.nodup i
    rw [hR] at hnd
    have hnd' := (List.nodup_cons.mp (List.perm_middle.nodup_iff.mp hnd)).1
    have htA : t ∉ A := fun hm => hnd' (by simp [hm])
    have htB : t ∉ B := fun hm => hnd' (by simp [hm])
    have e1 := hid A (fun x hx => by rw [hR]; simp [hx]) htA
    have e2 := hid B (fun x hx => by rw [hR]; simp [hx]) htB
    rw [hR, erase_split htA, klist_append, klist_append, klist_cons (keyAt_res ht), List.filter_append, List.filter_cons, e1, e2]
    simp
  · rw [List.erase_of_not_mem hm, hid _ (fun _ h => h) hm]

/-- Erasing a ghost. -/
theorem glist_erase {g : UInt64} (ht : s.entries.item t = some (.ghost g)) (hr : s.HasRings c R F) :
    Clock.Unhaunt g (glist s.entries.item (R .ghost)) (glist s.entries.item ((R .ghost).erase t)) := by
  have hm : t ∈ R .ghost := hr.on ht (by simp [Cfg.ringOf])
  obtain ⟨A, B, hR⟩ := List.append_of_mem hm
  have hnd := hr.links.nodup .ghost
  rw [hR] at hnd
  have htA : t ∉ A := fun hm => (List.nodup_cons.mp (List.perm_middle.nodup_iff.mp hnd)).1 (by simp [hm])
  refine ⟨glist s.entries.item A, glist s.entries.item B, ?_, ?_⟩
  · rw [hR, glist_append, glist_cons ht]
  · rw [hR, erase_split htA, glist_append]

end

/-! ### The abstract cache -/

section
variable [DecidableEq K] {c : Cfg K V RS} {s s' : Shard K V} {R : RingId → List Nat} {F : List Nat} {t : Nat}
  {old new : Option (Entry K V)}

omit [DecidableEq K] in
theorem Spec.Clock.enlist_eq (m : Clock K V) (hot : Bool) (k : K) (w : Nat) :
    m.enlist hot k w = { m with
      hot := m.hot ++ (if hot = true ∧ w ≠ 0 then [k] else []),
      cold := m.cold ++ (if hot = false ∧ w ≠ 0 then [k] else []) } := by
  unfold Clock.enlist Clock.setList Clock.list
  by_cases hw : w = 0 <;> cases hot <;> simp [hw]

theorem Shard.abs_none (h : Inv0 c s) {k : K} (hn : NoRes s k) : (s.abs R).items k = none := by
  simp [Shard.abs, h.info_none.mpr hn]

theorem Shard.abs_some (h : Inv0 c s) {k : K} {i : Item V} (hi : (s.abs R).items k = some i) :
    ∃ t r, s.entries.item t = some (.resident r) ∧ r.key = k ∧ r.item = i := by
  simp only [Shard.abs, Option.map_eq_some_iff] at hi
  obtain ⟨r, h1, h2⟩ := hi
  obtain ⟨h3, t, h4⟩ := (h.rep k r).mp h1
  exact ⟨t, r, h4, h3, h2⟩

theorem Shard.abs_idle (h : Inv0 c s) {k : K} (hn : NoKey s k) : (s.abs R).pending k = none := by
  cases hp : (s.abs R).pending k with
  | none => rfl
  | some b =>
    obtain ⟨x, hx, h1⟩ := (Shard.pend_some h).mp hp
    obtain ⟨ph, h2, h3, -⟩ := plhAt_some.mp h1
    exact absurd (by simp [keyAt, h2, keyOf, h3]) (hn x.1 x.2 hx)

theorem Shard.abs_pending (h : Inv0 c s) {ph : Placeholder K} (ht : s.entries.item t = some (.placeholder ph))
    (hm : InMap s.map t) : (s.abs R).pending ph.key = some (decide (ph.hot = .hot)) := by
  obtain ⟨hh, hm⟩ := hm
  exact (Shard.pend_some h).mpr ⟨_, hm, plhAt_some.mpr ⟨ph, ht, rfl, rfl⟩⟩

theorem Shard.abs_noGhost {hh : UInt64} (hn : NoGhost s hh) : hh ∉ (s.abs R).ghosts := by
  intro hm
  obtain ⟨t, -, h1⟩ := mem_glist.mp hm
  exact hn t h1

/-- Keys in the lists have items. -/
theorem Shard.abs_mem (h : Inv0 c s) (hr : s.HasRings c R F) {k : K} (hk : k ∈ (s.abs R).hot ∨ k ∈ (s.abs R).cold) :
    (s.abs R).items k ≠ none := by
  rcases hk with hk | hk
  · obtain ⟨t, h1, h2⟩ := mem_klist.mp hk
    obtain ⟨r, h3, -⟩ := hr.hot h1
    rw [keyAt_res h3] at h2; cases h2
    rw [h.abs_item R h3]; simp
  · obtain ⟨t, h1, h2⟩ := mem_klist.mp hk
    obtain ⟨r, h3, -⟩ := hr.cold h1
    rw [keyAt_res h3] at h2; cases h2
    rw [h.abs_item R h3]; simp

/-- Removing an absent item changes nothing. -/
theorem Shard.abs_delist (h : Inv0 c s) (hr : s.HasRings c R F) {k : K} (hk : (s.abs R).items k = none) :
    ((s.abs R).dropItem k).delist k = s.abs R := by
  have h1 : del (s.abs R).items k = (s.abs R).items := by
    funext x; by_cases hx : x = k
    · subst hx; simp [hk]
    · rw [del_other _ hx]
  have h2 : (s.abs R).hot.filter (· ≠ k) = (s.abs R).hot := by
    rw [List.filter_eq_self]; intro x hx; rw [decide_eq_true_iff]; rintro rfl
    exact abs_mem h hr (Or.inl hx) hk
  have h3 : (s.abs R).cold.filter (· ≠ k) = (s.abs R).cold := by
    rw [List.filter_eq_self]; intro x hx; rw [decide_eq_true_iff]; rintro rfl
    exact abs_mem h hr (Or.inr hx) hk
  simp only [Clock.delist, Clock.dropItem, h1, h2, h3]

omit [DecidableEq K] in
theorem ringOf_res (r : Resident K V) (i : RingId) : c.ringOf (.resident r) = some i ↔
    c.weight r.key r.value ≠ 0 ∧ r.state.ring = i := by
  simp only [Cfg.ringOf]
  by_cases h : c.weight r.key r.value = 0 <;> simp [h]

/-- Rewriting a resident. -/
theorem Wrote.sim_rewrite {r r' : Resident K V} (h : Wrote c s s' t (some (.resident r)) (some (.resident r')))
    (hi : Inv0 c s) (hk : r'.key = r.key) (hst : r'.state = r.state) (hr : s.HasRings c R F) :
    ∃ R' F', s'.HasRings c R' F' ∧ s'.abs R' = ((s.abs R).setItem r.key r'.item).relist (decide (r.state = .hot)) r.key
      (c.weight r.key r.value) (c.weight r.key r'.value) := by
  obtain ⟨F', h1⟩ := h.rings_rewrite hk hst hr
  refine ⟨_, F', h1, ?_⟩
  rw [h.chg.abs_same hi hk]
  have ht := h.upd.before
  unfold Clock.relist
  by_cases h0 : c.weight r.key r.value = 0 <;> by_cases h2 : c.weight r.key r'.value = 0
  · simp only [h0, h2, if_true, Clock.enlist]
  · simp only [h0, h2, if_true, if_false, Clock.enlist]
    cases hs : r.state with
    | hot =>
      simp only [St.ring, Shard.abs_hot, klist_append, klist_cons (keyAt_res ht), klist_nil, decide_true]
      rfl
    | cold =>
      simp only [St.ring, Shard.abs_cold, klist_append, klist_cons (keyAt_res ht), klist_nil]
      rfl
  · simp only [h0, h2, if_true, if_false]
    cases hs : r.state with
    | hot =>
      have hm : t ∈ R .hot := hr.on ht (by simp [Cfg.ringOf, h0, hs, St.ring])
      simp only [St.ring, Shard.abs_hot, klist_skip hi hr (by simp) ht hm]
      rfl
    | cold =>
      have hm : t ∈ R .cold := hr.on ht (by simp [Cfg.ringOf, h0, hs, St.ring])
      simp only [St.ring, Shard.abs_cold, klist_skip hi hr (by simp) ht hm]
      rfl
  · simp only [h0, h2, if_false]

/-- Removing a resident. -/
theorem Wrote.sim_remove {r : Resident K V} (h : Wrote c s s' t (some (.resident r)) none)
    (hi : Inv0 c s) (hr : s.HasRings c R F) :
    ∃ R' F', s'.HasRings c R' F' ∧ s'.abs R' = ((s.abs R).dropItem r.key).delist r.key := by
  obtain ⟨F', h1⟩ := h.rings_remove hr
  refine ⟨_, F', h1, ?_⟩
  have ht := h.upd.before
  have hg : (R .ghost).erase t = R .ghost := List.erase_of_not_mem (hr.off ht (by
    simp only [Option.bind_some, ne_eq, ringOf_res, not_and]
    intro _; exact Shard.ring_ne_ghost _))
  have hg' : t ∉ R .ghost := by rw [← hg]; exact hr.erase_off _
  rw [h.chg.abs_del hi (by simp) (by simp), h.upd.fn]
  simp only [klist_upd_off _ _ (hr.erase_off _), hg, glist_upd_off _ _ hg', klist_erase hi hr (i := .hot) (by simp) ht,
    klist_erase hi hr (i := .cold) (by simp) ht]
  rfl

theorem ring_inj : ∀ {a b : St}, a.ring = b.ring → a = b
  | .hot, .hot, _ => rfl
  | .cold, .cold, _ => rfl

/-- The lists after a slot that was not in the hot or cold list was filled with a resident. -/
theorem Wrote.join_lists {r : Resident K V} (h : Wrote c s s' t old (some (.resident r))) (ho : ∀ r', old ≠ some (.resident r'))
    (hr : s.HasRings c R F) :
    ∃ R' F', s'.HasRings c R' F' ∧
      klist s'.entries.item (R' .hot) = (s.abs R).hot ++
        (if decide (r.state = .hot) = true ∧ c.weight r.key r.value ≠ 0 then [r.key] else []) ∧
      klist s'.entries.item (R' .cold) = (s.abs R).cold ++
        (if decide (r.state = .hot) = false ∧ c.weight r.key r.value ≠ 0 then [r.key] else []) ∧
      glist s'.entries.item (R' .ghost) = glist s.entries.item ((R .ghost).erase t) := by
  have hb : ∀ i, old.bind c.ringOf = some i → i = .ghost := by
    intro i hi
    cases old with
    | none => cases hi
    | some e =>
      cases e with
      | resident r' => exact absurd rfl (ho r')
      | placeholder p => cases hi
      | ghost g => simp only [Option.bind_some, Cfg.ringOf, Option.some.injEq] at hi; exact hi.symm
  have hng : c.ringOf (.resident r) ≠ some .ghost := by
    simp only [ne_eq, ringOf_res, not_and]; intro _; exact Shard.ring_ne_ghost _
  obtain ⟨F', h1⟩ := h.rings_join hr hb hng
  refine ⟨_, F', h1, ?_⟩
  have hk : keyAt s'.entries.item t = some r.key := keyAt_res h.upd.after
  have hoff : ∀ i, i ≠ RingId.ghost → (R i).erase t = R i := fun i hi =>
    List.erase_of_not_mem (hr.off h.upd.before (fun hx => hi (hb i hx)))
  have gen : ∀ i (st : St), st.ring = i → klist s'.entries.item ((R i).erase t ++ if c.ringOf (.resident r) = some i then [t] else []) =
      klist s.entries.item (R i) ++ (if r.state = st ∧ c.weight r.key r.value ≠ 0 then [r.key] else []) := by
    intro i st hi
    have hi' : i ≠ .ghost := by rw [← hi]; exact Shard.ring_ne_ghost st
    have hst : r.state.ring = i ↔ r.state = st := by
      rw [← hi]; exact ⟨ring_inj, fun h => by rw [h]⟩
    rw [klist_append]
    congr 1
    · rw [h.upd.fn, klist_upd_off _ _ (hr.erase_off _), hoff i hi']
    · simp only [ringOf_res, hst]
      by_cases hx : r.state = st ∧ c.weight r.key r.value ≠ 0
      · rw [if_pos hx.symm, if_pos hx, klist_cons hk, klist_nil]
      · rw [if_neg (fun h => hx h.symm), if_neg hx, klist_nil]
  refine ⟨?_, ?_, ?_⟩
  · rw [gen .hot .hot rfl]; simp [Shard.abs]
  · rw [gen .cold .cold rfl]
    have : (decide (r.state = .hot) = false) ↔ r.state = .cold := by cases r.state <;> simp
    simp only [this]; rfl
  · simp only [hng, if_false, List.append_nil]
    rw [h.upd.fn, glist_upd_off _ _ (hr.erase_off _)]

/-- Filling a free slot. -/
theorem Wrote.sim_new {r : Resident K V} (h : Wrote c s s' t none (some (.resident r))) (hi : Inv0 c s) (hr : s.HasRings c R F) :
    ∃ R' F', s'.HasRings c R' F' ∧ s'.abs R' = ((s.abs R).setItem r.key r.item).enlist (decide (r.state = .hot)) r.key
      (c.weight r.key r.value) := by
  obtain ⟨R', F', h1, h2, h3, h4⟩ := h.join_lists (by simp) hr
  refine ⟨R', F', h1, ?_⟩
  rw [h.chg.abs_put hi (by simp) (by simp), h2, h3, h4, List.erase_of_not_mem (hr.off h.upd.before (by simp)), Clock.enlist_eq]
  rfl

/-- A resident takes the place of a ghost. -/
theorem Wrote.sim_revive {r : Resident K V} {g : UInt64} (h : Wrote c s s' t (some (.ghost g)) (some (.resident r)))
    (hi : Inv0 c s) (hr : s.HasRings c R F) :
    ∃ R' F' gs, s'.HasRings c R' F' ∧ Clock.Unhaunt g (s.abs R).ghosts gs ∧
      s'.abs R' = Clock.enlist { (s.abs R).setItem r.key r.item with ghosts := gs } (decide (r.state = .hot)) r.key
        (c.weight r.key r.value) := by
  obtain ⟨R', F', h1, h2, h3, h4⟩ := h.join_lists (by simp) hr
  refine ⟨R', F', _, h1, glist_erase h.upd.before hr, ?_⟩
  rw [h.chg.abs_put hi (by simp) (by simp), h2, h3, h4, Clock.enlist_eq]
  rfl

/-- A resident takes the place of its placeholder. -/
theorem Wrote.sim_fill {r : Resident K V} {ph : Placeholder K} (h : Wrote c s s' t (some (.placeholder ph)) (some (.resident r)))
    (hi : Inv0 c s) (hm : InMap s.map t) (hk : r.key = ph.key) (hr : s.HasRings c R F) :
    ∃ R' F', s'.HasRings c R' F' ∧
      s'.abs R' = Clock.enlist { (s.abs R).setItem r.key r.item with pending := del (s.abs R).pending r.key }
        (decide (r.state = .hot)) r.key (c.weight r.key r.value) := by
  obtain ⟨R', F', h1, h2, h3, h4⟩ := h.join_lists (by simp) hr
  refine ⟨R', F', h1, ?_⟩
  rw [Clock.enlist_eq]
  have e1 := h.chg.info_put hi (by simp)
  have e2 := h.chg.pend_fill hi hm (by simp)
  unfold Shard.abs at h2 h3 ⊢
  simp only [h.target, h.capacity, h.ghostCap, e1, e2, put_map, h2, h3, h4, Clock.setItem, hk,
    List.erase_of_not_mem (hr.off (i := .ghost) h.upd.before (by simp [Cfg.ringOf]))]

/-- The lists after a change without residents. -/
theorem Wrote.idle_lists {ph : Placeholder K} (h : Wrote c s s' t old (some (.placeholder ph)))
    (ho : old = none ∨ ∃ g, old = some (.ghost g)) (hr : s.HasRings c R F) :
    ∃ R' F', s'.HasRings c R' F' ∧ klist s'.entries.item (R' .hot) = (s.abs R).hot ∧
      klist s'.entries.item (R' .cold) = (s.abs R).cold ∧
      glist s'.entries.item (R' .ghost) = glist s.entries.item ((R .ghost).erase t) := by
  have hb : ∀ i, old.bind c.ringOf = some i → i = .ghost := by
    intro i hi
    rcases ho with rfl | ⟨g, rfl⟩
    · cases hi
    · simp only [Option.bind_some, Cfg.ringOf, Option.some.injEq] at hi; exact hi.symm
  obtain ⟨F', h1⟩ := h.rings_join hr hb (by simp [Cfg.ringOf])
  refine ⟨_, F', h1, ?_⟩
  have hoff : ∀ i, i ≠ RingId.ghost → (R i).erase t = R i := fun i hi =>
    List.erase_of_not_mem (hr.off h.upd.before (fun hx => hi (hb i hx)))
  have hoff' : ∀ i, i ≠ RingId.ghost → t ∉ R i := fun i hi => hr.off h.upd.before (fun hx => hi (hb i hx))
  simp only [Cfg.ringOf, reduceCtorEq, if_false, List.append_nil]
  rw [h.upd.fn, hoff .hot (by simp), hoff .cold (by simp), klist_upd_off _ _ (hoff' .hot (by simp)),
    klist_upd_off _ _ (hoff' .cold (by simp)), glist_upd_off _ _ (hr.erase_off _)]
  exact ⟨rfl, rfl, rfl⟩

/-- A new placeholder. -/
theorem Wrote.sim_pending {ph : Placeholder K} (h : Wrote c s s' t none (some (.placeholder ph)))
    (hi : Inv0 c s) (hr : s.HasRings c R F) :
    ∃ R' F', s'.HasRings c R' F' ∧
      s'.abs R' = { s.abs R with pending := put (s.abs R).pending ph.key (decide (ph.hot = .hot)) } := by
  obtain ⟨R', F', h1, h2, h3, h4⟩ := h.idle_lists (Or.inl rfl) hr
  refine ⟨R', F', h1, ?_⟩
  have e1 := h.chg.info_idle hi (by simp) (by simp)
  have e2 := h.chg.pend_new hi ⟨_, (h.map (_, t)).mpr (Or.inr ⟨rfl, rfl⟩)⟩ (by simp)
  unfold Shard.abs at h2 h3 ⊢
  simp only [h.target, h.capacity, h.ghostCap, e1, e2, h2, h3, h4,
    List.erase_of_not_mem (hr.off (i := .ghost) h.upd.before (by simp))]

/-- A placeholder takes the place of a ghost. -/
theorem Wrote.sim_haunted {ph : Placeholder K} {g : UInt64} (h : Wrote c s s' t (some (.ghost g)) (some (.placeholder ph)))
    (hi : Inv0 c s) (hr : s.HasRings c R F) :
    ∃ R' F' gs, s'.HasRings c R' F' ∧ Clock.Unhaunt g (s.abs R).ghosts gs ∧
      s'.abs R' = { s.abs R with pending := put (s.abs R).pending ph.key (decide (ph.hot = .hot)), ghosts := gs } := by
  obtain ⟨R', F', h1, h2, h3, h4⟩ := h.idle_lists (Or.inr ⟨g, rfl⟩) hr
  refine ⟨R', F', _, h1, glist_erase h.upd.before hr, ?_⟩
  have e1 := h.chg.info_idle hi (by simp) (by simp)
  have e2 := h.chg.pend_new hi ⟨_, (h.map (_, t)).mpr (Or.inr ⟨rfl, rfl⟩)⟩ (by simp)
  unfold Shard.abs at h2 h3 ⊢
  simp only [h.target, h.capacity, h.ghostCap, e1, e2, h2, h3, h4]

/-- A placeholder leaves. -/
theorem Wrote.sim_give {ph : Placeholder K} (h : Wrote c s s' t (some (.placeholder ph)) none) (hi : Inv0 c s)
    (hm : InMap s.map t) (hr : s.HasRings c R F) :
    ∃ R' F', s'.HasRings c R' F' ∧ s'.abs R' = { s.abs R with pending := del (s.abs R).pending ph.key } := by
  obtain ⟨F', h1⟩ := h.rings_remove hr
  refine ⟨_, F', h1, ?_⟩
  have hoff : ∀ i, t ∉ R i := fun i => hr.off h.upd.before (by simp [Cfg.ringOf])
  have e1 := h.chg.info_idle hi (by simp) (by simp)
  have e2 := h.chg.pend_fill hi hm (by simp)
  unfold Shard.abs
  simp only [h.target, h.capacity, h.ghostCap, e1, e2, List.erase_of_not_mem (hoff _)]
  rw [h.upd.fn, klist_upd_off _ _ (hoff _), klist_upd_off _ _ (hoff _), glist_upd_off _ _ (hoff _)]

/-- A ghost leaves. -/
theorem Wrote.sim_exorcise {g : UInt64} (h : Wrote c s s' t (some (.ghost g)) none) (hi : Inv0 c s) (hr : s.HasRings c R F) :
    ∃ R' F' gs, s'.HasRings c R' F' ∧ Clock.Unhaunt g (s.abs R).ghosts gs ∧ s'.abs R' = { s.abs R with ghosts := gs } := by
  obtain ⟨F', h1⟩ := h.rings_remove hr
  refine ⟨_, F', _, h1, glist_erase h.upd.before hr, ?_⟩
  have hoff : ∀ i, i ≠ RingId.ghost → t ∉ R i := fun i hi =>
    hr.off h.upd.before (by simp [Cfg.ringOf, Ne.symm hi])
  rw [h.chg.abs_idle hi (by simp) (by simp) (by simp) (by simp), h.upd.fn]
  simp only [List.erase_of_not_mem (hoff .hot (by simp)), List.erase_of_not_mem (hoff .cold (by simp)),
    klist_upd_off _ _ (hoff .hot (by simp)), klist_upd_off _ _ (hoff .cold (by simp)), glist_upd_off _ _ (hr.erase_off _)]
  rfl

end
end QuickCache
