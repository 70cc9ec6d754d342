import Verif.Spec.Cache
import Verif.Proofs.Placeholder

/-!
# From slots to the map of items
-/

namespace QuickCache
variable {K V RS : Type _}
open Spec

section PutDel
variable {α : Type _} [DecidableEq K]

@[simp] theorem put_same (m : K → Option α) (k : K) (v : α) : put m k v k = some v := by simp [put]
theorem put_other (m : K → Option α) {k x : K} (v : α) (h : x ≠ k) : put m k v x = m x := by simp [put, h]
@[simp] theorem del_same (m : K → Option α) (k : K) : del m k k = none := by simp [del]
theorem del_other (m : K → Option α) {k x : K} (h : x ≠ k) : del m k x = m x := by simp [del, h]

theorem put_map {β : Type _} (f : α → β) (m : K → Option α) (k : K) (v : α) :
    (fun x => (put m k v x).map f) = put (fun x => (m x).map f) k (f v) := by
  funext x; by_cases h : x = k <;> simp [put, h]

theorem del_map {β : Type _} (f : α → β) (m : K → Option α) (k : K) :
    (fun x => (del m k x).map f) = del (fun x => (m x).map f) k := by
  funext x; by_cases h : x = k <;> simp [del, h]

theorem put_self (m : K → Option α) {k : K} {v : α} (h : m k = some v) : put m k v = m := by
  funext x; by_cases hx : x = k
  · subst hx; simp [h]
  · rw [put_other _ _ hx]

theorem del_self (m : K → Option α) {k : K} (h : m k = none) : del m k = m := by
  funext x; by_cases hx : x = k
  · subst hx; simp [h]
  · rw [del_other _ hx]

@[simp] theorem put_put (m : K → Option α) (k : K) (v w : α) : put (put m k v) k w = put m k w := by
  funext x; by_cases hx : x = k <;> simp [put, hx]

@[simp] theorem put_del (m : K → Option α) (k : K) (v : α) : put (del m k) k v = put m k v := by
  funext x; by_cases hx : x = k <;> simp [put, del, hx]

@[simp] theorem del_put (m : K → Option α) (k : K) (v : α) : del (put m k v) k = del m k := by
  funext x; by_cases hx : x = k <;> simp [put, del, hx]

end PutDel

/-! ### Residents by key -/

/-- No two slots hold residents of the same key. -/
def UniqRes (I : Nat → Option (Entry K V)) : Prop :=
  ∀ t t' r r', I t = some (.resident r) → I t' = some (.resident r') → r.key = r'.key → t = t'

/-- `M` is the map of the residents in `I`. -/
def Rep (I : Nat → Option (Entry K V)) (M : K → Option (Resident K V)) : Prop :=
  ∀ k r, M k = some r ↔ r.key = k ∧ ∃ t, I t = some (.resident r)

theorem Rep.inj {I : Nat → Option (Entry K V)} {M M' : K → Option (Resident K V)} (h : Rep I M) (h' : Rep I M') :
    M = M' := by
  funext k
  apply Option.ext
  intro r
  rw [h, h']

theorem Rep.none {I : Nat → Option (Entry K V)} {M : K → Option (Resident K V)} (h : Rep I M) {k : K} :
    M k = none ↔ ∀ t r, I t = some (.resident r) → r.key ≠ k := by
  constructor
  · intro hn t r ht hk
    have := (h k r).mpr ⟨hk, t, ht⟩
    rw [hn] at this; cases this
  · intro hn
    cases hm : M k with
    | none => rfl
    | some r =>
      obtain ⟨h1, t, h2⟩ := (h k r).mp hm
      exact absurd h1 (hn t r h2)

theorem Inv0.uniqRes {c : Cfg K V RS} {s : Shard K V} (h : Inv0 c s) : UniqRes s.entries.item := by
  intro t t' r r' h1 h2 hk
  exact h.idx.resident_uniq h1 h2 hk

theorem UniqRes.upd {I : Nat → Option (Entry K V)} (h : UniqRes I) {t : Nat} {new : Option (Entry K V)}
    (hn : ∀ r', new = some (.resident r') → ∀ u r, u ≠ t → I u = some (.resident r) → r.key ≠ r'.key) :
    UniqRes (upd I t new) := by
  intro u u' r r' h1 h2 hk
  by_cases hu : u = t
  · by_cases hu' : u' = t
    · rw [hu, hu']
    · rw [hu, upd_same] at h1; rw [upd_other _ _ hu'] at h2
      exact absurd hk.symm (hn r h1 u' r' hu' h2)
  · by_cases hu' : u' = t
    · rw [hu', upd_same] at h2; rw [upd_other _ _ hu] at h1
      exact absurd hk (hn r' h2 u r hu h1)
    · rw [upd_other _ _ hu] at h1; rw [upd_other _ _ hu'] at h2
      exact h u u' r r' h1 h2 hk

section
variable [DecidableEq K]

theorem Rep.put {I : Nat → Option (Entry K V)} {M : K → Option (Resident K V)} (h : Rep I M) {t : Nat}
    {r' : Resident K V} (hu : UniqRes (upd I t (some (.resident r'))))
    (hold : ∀ r, I t = some (.resident r) → r.key = r'.key) :
    Rep (upd I t (some (.resident r'))) (put M r'.key r') := by
  intro k r
  by_cases hk : k = r'.key
  · subst hk
    rw [put_same]
    constructor
    · intro he; cases he; exact ⟨rfl, t, upd_same ..⟩
    · rintro ⟨h1, u, h2⟩
      have := hu u t r r' h2 (upd_same ..) h1
      subst this
      rw [upd_same] at h2; cases h2; rfl
  · rw [put_other _ _ hk, h]
    constructor
    · rintro ⟨h1, u, h2⟩
      refine ⟨h1, u, ?_⟩
      by_cases hut : u = t
      · subst hut; exact absurd (h1.symm.trans (hold r h2)) hk
      · rw [upd_other _ _ hut]; exact h2
    · rintro ⟨h1, u, h2⟩
      refine ⟨h1, u, ?_⟩
      by_cases hut : u = t
      · subst hut; rw [upd_same] at h2; cases h2; exact absurd h1.symm hk
      · rw [upd_other _ _ hut] at h2; exact h2

theorem Rep.del {I : Nat → Option (Entry K V)} {M : K → Option (Resident K V)} (h : Rep I M) (hu : UniqRes I) {t : Nat}
    {r : Resident K V} {new : Option (Entry K V)} (ht : I t = some (.resident r)) (hn : ∀ r', new ≠ some (.resident r')) :
    Rep (upd I t new) (del M r.key) := by
  intro k r'
  by_cases hk : k = r.key
  · subst hk
    rw [del_same]
    constructor
    · intro h; cases h
    · rintro ⟨h1, u, h2⟩
      by_cases hut : u = t
      · subst hut; rw [upd_same] at h2; exact absurd h2 (hn r')
      · rw [upd_other _ _ hut] at h2
        exact absurd (hu u t r' r h2 ht h1) hut
  · rw [del_other _ hk, h]
    constructor
    · rintro ⟨h1, u, h2⟩
      refine ⟨h1, u, ?_⟩
      by_cases hut : u = t
      · subst hut; rw [ht] at h2; cases h2; exact absurd h1.symm hk
      · rw [upd_other _ _ hut]; exact h2
    · rintro ⟨h1, u, h2⟩
      refine ⟨h1, u, ?_⟩
      by_cases hut : u = t
      · subst hut; rw [upd_same] at h2; exact absurd h2 (hn r')
      · rw [upd_other _ _ hut] at h2; exact h2

omit [DecidableEq K] in
theorem Rep.idle {I : Nat → Option (Entry K V)} {M : K → Option (Resident K V)} (h : Rep I M) {t : Nat}
    {new : Option (Entry K V)} (ht : ∀ r, I t ≠ some (.resident r)) (hn : ∀ r', new ≠ some (.resident r')) :
    Rep (upd I t new) M := by
  intro k r'
  rw [h]
  constructor
  · rintro ⟨h1, u, h2⟩
    refine ⟨h1, u, ?_⟩
    by_cases hut : u = t
    · subst hut; exact absurd h2 (ht r')
    · rw [upd_other _ _ hut]; exact h2
  · rintro ⟨h1, u, h2⟩
    refine ⟨h1, u, ?_⟩
    by_cases hut : u = t
    · subst hut; rw [upd_same] at h2; exact absurd h2 (hn r')
    · rw [upd_other _ _ hut] at h2; exact h2

end

/-! ### The lists yielded by a shard -/

theorem Slab.mem_iter {T : Type _} {sl : Slab T} {x : T} : x ∈ sl.iter ↔ ∃ t, sl.item t = some x := by
  unfold Slab.iter Slab.item
  rw [List.mem_filterMap]
  constructor
  · rintro ⟨e, he, hx⟩
    obtain ⟨t, ht, rfl⟩ := List.mem_iff_getElem.mp he
    exact ⟨t, by rw [List.getElem?_eq_getElem ht]; exact hx⟩
  · rintro ⟨t, ht⟩
    cases he : sl.entries[t]? with
    | none => rw [he] at ht; cases ht
    | some e =>
      rw [he] at ht
      exact ⟨e, List.mem_of_getElem? he, ht⟩

theorem Shard.mem_residents {s : Shard K V} {r : Resident K V} :
    r ∈ s.residents ↔ ∃ t, s.entries.item t = some (.resident r) := by
  unfold Shard.residents
  rw [List.mem_filterMap]
  constructor
  · rintro ⟨e, he, hx⟩
    obtain ⟨t, ht⟩ := Slab.mem_iter.mp he
    cases e <;> simp at hx
    subst hx; exact ⟨t, ht⟩
  · rintro ⟨t, ht⟩
    exact ⟨_, Slab.mem_iter.mpr ⟨t, ht⟩, rfl⟩

theorem Shard.iter_eq (s : Shard K V) : s.iter = s.residents.map (fun r => (r.key, r.value)) := by
  unfold Shard.iter Shard.residents
  rw [List.map_filterMap]
  congr 1
  funext e
  cases e <;> rfl

theorem Inv0.nodup_keys {c : Cfg K V RS} {s : Shard K V} (h : Inv0 c s) : (s.residents.map (·.key)).Nodup := by
  have hu := h.uniqRes
  unfold Shard.residents Slab.iter
  rw [List.filterMap_filterMap, List.map_filterMap, List.nodup_iff_pairwise_ne, List.pairwise_filterMap,
    List.pairwise_iff_getElem]
  intro i j hi hj hij
  intro a ha b hb hab
  simp only [Option.map_eq_some_iff, Option.bind_eq_some_iff] at ha hb
  obtain ⟨r, ⟨e, he, hr⟩, rfl⟩ := ha
  obtain ⟨r', ⟨e', he', hr'⟩, rfl⟩ := hb
  have item : ∀ (i : Nat) (hi : i < s.entries.entries.length) (e : Entry K V) (r : Resident K V),
      s.entries.entries[i].item = some e →
      (match e with | .resident r => some r | _ => none) = some r → s.entries.item i = some (.resident r) := by
    intro i hi e r he hr
    cases e <;> simp at hr
    subst hr
    unfold Slab.item; rw [List.getElem?_eq_getElem hi]; exact he
  have := hu i j r r' (item i hi e r he hr) (item j hj e' r' he' hr') hab
  omega

theorem Inv0.nodup_iter {c : Cfg K V RS} {s : Shard K V} (h : Inv0 c s) : (s.iter.map (·.1)).Nodup := by
  rw [Shard.iter_eq, List.map_map]; exact h.nodup_keys

section
variable [DecidableEq K]

theorem Inv0.rep {c : Cfg K V RS} {s : Shard K V} (h : Inv0 c s) : Rep s.entries.item s.info := by
  intro k r
  unfold Shard.info
  constructor
  · intro hf
    have h1 := List.find?_some hf
    have h2 := List.mem_of_find?_eq_some hf
    exact ⟨by simpa using h1, Shard.mem_residents.mp h2⟩
  · rintro ⟨rfl, t, ht⟩
    have hm : r ∈ s.residents := Shard.mem_residents.mpr ⟨t, ht⟩
    cases hf : s.residents.find? (fun r' => r'.key == r.key) with
    | none => have := List.find?_eq_none.mp hf r hm; simp at this
    | some r' =>
      have h1 : r'.key = r.key := by simpa using List.find?_some hf
      obtain ⟨t', ht'⟩ := Shard.mem_residents.mp (List.mem_of_find?_eq_some hf)
      have := h.uniqRes t' t r' r ht' ht h1
      subst this
      rw [ht] at ht'; cases ht'; rfl

theorem lookup_map_find (l : List (Resident K V)) (k : K) :
    (l.map (fun r => (r.key, r.value))).lookup k = (l.find? (fun r => r.key == k)).map (·.value) := by
  induction l with
  | nil => rfl
  | cons a l ih =>
    simp only [List.map_cons, List.lookup, List.find?]
    by_cases hk : k = a.key
    · subst hk; simp
    · have h1 : (k == a.key) = false := by simp [hk]
      have h2 : (a.key == k) = false := by simp [Ne.symm hk]
      rw [h1, h2]; exact ih

theorem Shard.contents_eq (s : Shard K V) : s.contents = fun k => (s.info k).map (·.value) := by
  funext k
  unfold Shard.contents Shard.info
  rw [Shard.iter_eq]
  exact lookup_map_find _ k

theorem lookup_eq_some {l : List (K × V)} (hn : (l.map (·.1)).Nodup) {k : K} {v : V} :
    l.lookup k = some v ↔ (k, v) ∈ l := by
  induction l with
  | nil => simp
  | cons a l ih =>
    obtain ⟨k', v'⟩ := a
    simp only [List.map_cons, List.nodup_cons] at hn
    simp only [List.lookup, List.mem_cons, Prod.mk.injEq]
    by_cases hk : k = k'
    · subst hk
      simp only [beq_self_eq_true, true_and, Option.some.injEq]
      constructor
      · intro h; exact Or.inl h.symm
      · rintro (h | h)
        · exact h.symm
        · exact absurd (List.mem_map.mpr ⟨_, h, rfl⟩) hn.1
    · have h1 : (k == k') = false := by simp [hk]
      rw [h1]
      simp only [hk, false_and, false_or]
      exact ih hn.2

theorem Inv0.contents_iff {c : Cfg K V RS} {s : Shard K V} (h : Inv0 c s) {k : K} {v : V} :
    s.contents k = some v ↔ (k, v) ∈ s.iter := lookup_eq_some h.nodup_iter

theorem Inv0.contents_slot {c : Cfg K V RS} {s : Shard K V} (h : Inv0 c s) {k : K} {v : V} :
    s.contents k = some v ↔ ∃ t r, s.entries.item t = some (.resident r) ∧ r.key = k ∧ r.value = v := by
  rw [Shard.contents_eq]
  simp only [Option.map_eq_some_iff]
  constructor
  · rintro ⟨r, h1, h2⟩
    obtain ⟨h3, t, h4⟩ := (h.rep k r).mp h1
    exact ⟨t, r, h4, h3, h2⟩
  · rintro ⟨t, r, h1, h2, h3⟩
    exact ⟨r, (h.rep k r).mpr ⟨h2, t, h1⟩, h3⟩

theorem Inv0.info_none {c : Cfg K V RS} {s : Shard K V} (h : Inv0 c s) {k : K} : s.info k = none ↔ Shard.NoRes s k :=
  h.rep.none

theorem Inv0.contents_none {c : Cfg K V RS} {s : Shard K V} (h : Inv0 c s) {k : K} :
    s.contents k = none ↔ Shard.NoRes s k := by
  rw [Shard.contents_eq]; simp only [Option.map_eq_none_iff]; exact h.info_none

end

/-! ### Eviction on maps -/

section
variable [DecidableEq K]

omit [DecidableEq K] in
theorem EvStep.uniqRes {c : Cfg K V RS} {I I' : Nat → Option (Entry K V)} {st st' : RS} {L : List (Event K V)}
    (h : EvStep c I st L I' st') (hu : UniqRes I) : UniqRes I' := by
  have hf := h.frame.2.1
  intro t t' r r' h1 h2 hk
  have g : ∀ t r, I' t = some (.resident r) → ∃ e, I t = some e ∧ keyOf e = some r.key := by
    intro t r ht
    have := hf t r.key (by simp [keyAt, ht, keyOf])
    unfold keyAt at this
    cases hi : I t with
    | none => rw [hi] at this; cases this
    | some e => rw [hi] at this; exact ⟨e, rfl, this⟩
  have g' : ∀ t r, I' t = some (.resident r) → ∃ r0, I t = some (.resident r0) ∧ r0.key = r.key := by
    intro t r ht
    obtain ⟨e, he, hk⟩ := g t r ht
    cases e with
    | resident r0 => exact ⟨r0, he, by simpa [keyOf] using hk⟩
    | placeholder p =>
      have := (h.frame.1 t p).mp he
      rw [ht] at this; cases this
    | ghost _ => simp [keyOf] at hk
  obtain ⟨r0, a1, a2⟩ := g' t r h1
  obtain ⟨r0', b1, b2⟩ := g' t' r' h2
  exact hu t t' r0 r0' a1 b1 (by rw [a2, b2, hk])

theorem EvSteps.scans {c : Cfg K V RS} {I I' : Nat → Option (Entry K V)} {st st' : RS} {L : List (Event K V)}
    (h : EvSteps c I st L I' st') : ∀ {M : K → Option (Resident K V)}, UniqRes I → Rep I M →
    ∃ tr M', Scans c M st L tr M' st' ∧ Rep I' M' := by
  induction h with
  | nil => intro M _ hr; exact ⟨[], M, .nil, hr⟩
  | cons h hs ih =>
    intro M hu hr
    have hu' := h.uniqRes hu
    cases h with
    | touch t r n st1 ht hst =>
      have hm : M r.key = some r := (hr r.key r).mpr ⟨rfl, t, ht⟩
      have hr' := hr.put (r' := { r with referenced := n, state := st1 }) hu'
        (fun r0 h0 => by rw [ht] at h0; cases h0; rfl)
      obtain ⟨tr, M', g1, g2⟩ := ih hu' hr'
      rcases hst with ⟨h1, h2, rfl, rfl⟩ | ⟨h1, h2, rfl, rfl⟩
      · refine ⟨_, M', .pass hm h1 h2 (tr := tr) ?_, g2⟩
        have : ({ r with referenced := min r.referenced MAX_F - 1, state := St.hot } : Resident K V) =
            { r with referenced := min r.referenced 2 - 1 } := by rw [← h1]; rfl
        rw [← this]; exact g1
      · exact ⟨_, M', .promote hm h1 h2 g1, g2⟩
    | spare t r v ht h0 hw hp hb hw' =>
      have hm : M r.key = some r := (hr r.key r).mpr ⟨rfl, t, ht⟩
      have hr' := hr.put (r' := { r with value := v }) hu' (fun r0 h0 => by rw [ht] at h0; cases h0; rfl)
      obtain ⟨tr, M', g1, g2⟩ := ih hu' hr'
      exact ⟨_, M', .spare hm h0 hw hp hb hw' g1, g2⟩
    | evict t r v ht h0 hw hp hb hw' new hnew =>
      have hm : M r.key = some r := (hr r.key r).mpr ⟨rfl, t, ht⟩
      have hr' := hr.del hu (new := new) ht (by rcases hnew with ⟨rfl, -⟩ | ⟨rfl, -⟩ <;> simp)
      obtain ⟨tr, M', g1, g2⟩ := ih hu' hr'
      exact ⟨_, M', .evict hm h0 hw hp hb hw' g1, g2⟩
    | dropGhost t g ht =>
      have hr' := hr.idle (t := t) (new := none) (by simp [ht]) (by simp)
      obtain ⟨tr, M', g1, g2⟩ := ih hu' hr'
      exact ⟨tr, M', g1, g2⟩

theorem Spec.Scans.evicts {c : Cfg K V RS} {M M' : K → Option (Resident K V)} {st st' : RS} {L : List (Event K V)}
    {tr : List (Visit K)} (h : Scans c M st L tr M' st') :
    Evicts c (fun k => (M k).map (·.value)) st L (fun k => (M' k).map (·.value)) st' := by
  induction h with
  | nil => exact .nil
  | pass here hot kept rest ih =>
    rw [put_map, put_self] at ih
    · exact ih
    · simp [here]
  | promote here cold referenced rest ih =>
    rw [put_map, put_self] at ih
    · exact ih
    · simp [here]
  | spare here unref heavy free before light rest ih =>
    rw [put_map] at ih
    exact .spare (by simp [here]) heavy free before light ih
  | evict here unref heavy free before still rest ih =>
    rw [del_map] at ih
    exact .evict (by simp [here]) heavy free before still ih

theorem EvPost.scans {c : Cfg K V RS} {s s' : Shard K V} {q q' : Req K V RS} (h : EvPost c s q s' q') (hi : Inv0 c s) :
    ∃ L tr, q'.log = q.log ++ L ∧ Scans c s.info q.st L tr s'.info q'.st := by
  obtain ⟨L, h1, h2⟩ := h.log
  obtain ⟨tr, M', h3, h4⟩ := h2.scans hi.uniqRes hi.rep
  have := h4.inj h.inv.rep
  subst this
  exact ⟨L, tr, h1, h3⟩

theorem EvPost.evicts {c : Cfg K V RS} {s s' : Shard K V} {q q' : Req K V RS} (h : EvPost c s q s' q') (hi : Inv0 c s) :
    ∃ L, q'.log = q.log ++ L ∧ Evicts c s.contents q.st L s'.contents q'.st := by
  obtain ⟨L, tr, h1, h2⟩ := h.scans hi
  refine ⟨L, h1, ?_⟩
  rw [Shard.contents_eq, Shard.contents_eq]
  exact h2.evicts

/-! ### Writing one slot -/

namespace Wrote
variable {c : Cfg K V RS} {s s' : Shard K V} {t : Nat} {old : Option (Entry K V)}

theorem info_put {r' : Resident K V} (h : Wrote c s s' t old (some (.resident r'))) (hi : Inv0 c s)
    (hold : ∀ r, old = some (.resident r) → r.key = r'.key) : s'.info = put s.info r'.key r' := by
  have h1 := h.inv.rep
  have h2 := h.inv.uniqRes
  rw [h.upd.fn] at h1 h2
  exact h1.inj (hi.rep.put h2 (fun r hr => hold r (by rw [← h.upd.before, hr])))

theorem info_del {r : Resident K V} {new : Option (Entry K V)} (h : Wrote c s s' t (some (.resident r)) new)
    (hi : Inv0 c s) (hn : ∀ r', new ≠ some (.resident r')) : s'.info = del s.info r.key := by
  have h1 := h.inv.rep
  rw [h.upd.fn] at h1
  exact h1.inj (hi.rep.del hi.uniqRes h.upd.before hn)

theorem info_idle {new : Option (Entry K V)} (h : Wrote c s s' t old new)
    (hi : Inv0 c s) (ho : ∀ r', old ≠ some (.resident r')) (hn : ∀ r', new ≠ some (.resident r')) : s'.info = s.info := by
  have h1 := h.inv.rep
  rw [h.upd.fn] at h1
  exact h1.inj (hi.rep.idle (fun r => by rw [h.upd.before]; exact ho r) hn)

theorem contents_put {r' : Resident K V} (h : Wrote c s s' t old (some (.resident r'))) (hi : Inv0 c s)
    (hold : ∀ r, old = some (.resident r) → r.key = r'.key) : s'.contents = put s.contents r'.key r'.value := by
  rw [Shard.contents_eq, h.info_put hi hold, put_map, ← Shard.contents_eq]

theorem contents_del {r : Resident K V} {new : Option (Entry K V)} (h : Wrote c s s' t (some (.resident r)) new)
    (hi : Inv0 c s) (hn : ∀ r', new ≠ some (.resident r')) : s'.contents = del s.contents r.key := by
  rw [Shard.contents_eq, h.info_del hi hn, del_map, ← Shard.contents_eq]

theorem contents_idle {new : Option (Entry K V)} (h : Wrote c s s' t old new)
    (hi : Inv0 c s) (ho : ∀ r', old ≠ some (.resident r')) (hn : ∀ r', new ≠ some (.resident r')) :
    s'.contents = s.contents := by
  rw [Shard.contents_eq, h.info_idle hi ho hn, ← Shard.contents_eq]

end Wrote
end

/-! ### Sums over the items -/

theorem sum_residents (f : Resident K V → Nat) (g : Option (Entry K V) → Nat)
    (h : ∀ r, g (some (.resident r)) = f r) (h0 : ∀ e : Option (Entry K V), (∀ r, e ≠ some (.resident r)) → g e = 0)
    (s : Shard K V) : (s.residents.map f).sum = Slab.sumBy g s.entries := by
  unfold Shard.residents Slab.iter Slab.sumBy Slab.items
  rw [List.filterMap_filterMap]
  generalize s.entries.entries = l
  induction l with
  | nil => rfl
  | cons a l ih =>
    simp only [List.map_cons, List.sum_cons, List.filterMap_cons]
    cases hi : a.item with
    | none => rw [h0 none (by simp)]; simpa using ih
    | some e =>
      cases e with
      | resident r => simp only [Option.bind_some, List.map_cons, List.sum_cons, h]; rw [ih]
      | placeholder p => rw [h0 (some (.placeholder p)) (by simp)]; simpa using ih
      | ghost g' => rw [h0 (some (.ghost g')) (by simp)]; simpa using ih

theorem Inv0.total_iter {c : Cfg K V RS} {s : Shard K V} (h : Inv0 c s) :
    Spec.total c.weight s.iter = s.weightHot + s.weightCold := by
  rw [h.total, Shard.iter_eq]
  unfold Spec.total
  rw [List.map_map]
  refine sum_residents _ (totF c) (fun r => rfl) ?_ s
  intro e he
  cases e with
  | none => rfl
  | some e => cases e with
    | resident r => exact absurd rfl (he r)
    | placeholder p => rfl
    | ghost g => rfl

/-- Whether a slot counts as an item. -/
def lenF (e : Option (Entry K V)) : Nat := numF .hot e + numF .cold e

theorem Inv0.len_sum {c : Cfg K V RS} {s : Shard K V} (h : Inv0 c s) : s.len = Slab.sumBy lenF s.entries := by
  have a := h.cnt.num .hot
  have b := h.cnt.num .cold
  have : s.len = s.num .hot + s.num .cold := rfl
  rw [this, a, b]
  unfold Slab.sumBy lenF
  generalize s.entries.items = l
  induction l with
  | nil => rfl
  | cons a l ih => simp only [List.map_cons, List.sum_cons]; omega

theorem Wrote.len {c : Cfg K V RS} {s s' : Shard K V} {t : Nat} {old new : Option (Entry K V)}
    (h : Wrote c s s' t old new) (hi : Inv0 c s) : s'.len + lenF old = s.len + lenF new := by
  rw [h.inv.len_sum, hi.len_sum]
  exact h.upd.sum lenF rfl

theorem Inv0.len_iter {c : Cfg K V RS} {s : Shard K V} (h : Inv0 c s) : s.iter.length = s.len := by
  have h1 := h.len_sum
  have h2 := sum_residents (fun _ => 1) lenF
    (fun r => by cases hs : r.state <;> simp [lenF, numF, hs])
    (fun e he => by
      cases e with
      | none => rfl
      | some e => cases e with
        | resident r => exact absurd rfl (he r)
        | placeholder p => rfl
        | ghost g => rfl) s
  rw [h1, ← h2, Shard.iter_eq, List.length_map]
  generalize s.residents = l
  induction l with
  | nil => rfl
  | cons a l ih => simp only [List.length_cons, List.map_cons, List.sum_cons, ← ih]; omega

end QuickCache
