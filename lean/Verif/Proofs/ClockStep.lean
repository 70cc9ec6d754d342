import Verif.Proofs.ClockStore
import Verif.Proofs.OpSpec

/-!
# Every call, on the abstract clock machine
-/

namespace QuickCache
variable {K V RS : Type}
open Spec Shard Unsync

theorem Res.Sat.and {α : Type _} {x : Res α} {P Q : α → Prop} {E E' : Panic → Prop} (h : Res.Sat x P E) (h' : Res.Sat x Q E') :
    Res.Sat x (fun a => P a ∧ Q a) (fun _ => True) := by
  rcases h with ⟨a, rfl, ha⟩ | ⟨p, rfl, hp⟩
  · rcases h' with ⟨b, hb, hb'⟩ | ⟨p, hp, -⟩
    · cases hb; exact .ok ⟨ha, hb'⟩
    · cases hp
  · exact Or.inr ⟨p, rfl, trivial⟩

theorem Res.Sat.free {α : Type _} {x : Res α} {P : α → Prop} {E : Panic → Prop} (h : Res.Sat x P E) :
    Res.Sat x P (fun _ => True) := h.mono (fun _ h => h) (fun _ _ => trivial)

section
variable [DecidableEq K] {c : Cfg K V RS} {s s' : Shard K V} {R : RingId → List Nat} {F : List Nat}

theorem Shard.abs_value (s : Shard K V) (R : RingId → List Nat) : (s.abs R).value = s.contents := by
  funext k
  rw [contents_eq]
  simp [Clock.value, Shard.abs, Resident.item, Function.comp_def]

theorem Inv0.abs_touch_some (h : Inv0 c s) {t : Nat} {r : Resident K V} (ht : s.entries.item t = some (.resident r)) :
    (s.abs R).touch r.key = (s.abs R).setItem r.key r.item.warm := by
  unfold Clock.touch
  rw [h.abs_item R ht]

theorem Inv0.abs_touch_none (h : Inv0 c s) {k : K} (hn : NoRes s k) : (s.abs R).touch k = s.abs R := by
  unfold Clock.touch
  rw [abs_none h hn]

theorem Inv0.abs_write_none (h : Inv0 c s) {k : K} (f : V → V) (hn : NoRes s k) : (s.abs R).write c k f = s.abs R := by
  unfold Clock.write
  rw [abs_none h hn]

theorem Inv0.abs_value_some (h : Inv0 c s) {t : Nat} {r : Resident K V} (ht : s.entries.item t = some (.resident r)) :
    (s.abs R).value r.key = some r.value := by
  unfold Clock.value
  rw [h.abs_item R ht]; rfl

theorem Inv0.abs_value_none (h : Inv0 c s) {k : K} (hn : NoRes s k) : (s.abs R).value k = none := by
  unfold Clock.value
  rw [abs_none h hn]; rfl

theorem Wrote.sim_write {t : Nat} {r : Resident K V} {f : V → V}
    (h : Wrote c s s' t (some (.resident r)) (some (.resident { r with value := f r.value }))) (hi : Inv0 c s)
    (hr : s.HasRings c R F) : s'.Implements c ((s.abs R).write c r.key f) := by
  obtain ⟨R', F', e1, e2⟩ := h.sim_rewrite hi rfl rfl hr
  refine ⟨R', F', e1, ?_⟩
  rw [e2]
  unfold Clock.write
  rw [hi.abs_item R h.upd.before]
  rfl

/-- Writing through a reference. -/
theorem refMutWrite_sim (h : Inv0 c s) (hr : s.HasRings c R F) {t : Nat} {r : Resident K V} (f : V → V)
    (ht : s.entries.item t = some (.resident r)) :
    Res.Sat (s.refMutWrite c t (c.weight r.key r.value) f) (fun s' => s'.Implements c ((s.abs R).write c r.key f))
      (fun _ => True) :=
  (refMutWrite_spec h f ht).mono (fun _ hx => hx.1.sim_write h hr) (fun _ _ => trivial)

/-- Removing. -/
theorem remove_sim (h : Inv0 c s) (hr : s.HasRings c R F) (k : K) :
    ∃ s' m', s.remove c (c.hash k) (fun x => x == k) = .ok (s', ((s.abs R).value k).map fun v => (k, v)) ∧
      s'.Implements c m' ∧ Clock.Remove c (s.abs R) k m' := by
  unfold Shard.remove
  have hq := Lawful.key c k
  rcases search_spec h.idx hq with ⟨t, e, k', h1, h2, h3, h4, h5⟩ | ⟨h0, ⟨t, h1, h2, h3⟩ | ⟨h1, h2⟩⟩
  · obtain ⟨s', g1, g2, g3⟩ := removeInternal_spec h h3 h2
    have hk : k' = k := by simpa using h5
    subst hk
    rw [h1]
    simp only [Res.ok_bind, g1]
    cases e with
    | resident r =>
      simp only [keyOf, Option.some.injEq] at h4
      subst h4
      obtain ⟨R', F', e1, e2⟩ := g2.sim_remove h hr
      refine ⟨s', _, ?_, ⟨R', F', e1, rfl⟩, ?_⟩
      · rw [h.abs_value_some h3]; rfl
      · rw [e2]; exact .item (h.abs_item R h3)
    | placeholder ph =>
      simp only [keyOf, Option.some.injEq] at h4
      subst h4
      have hno := plh_noRes h h3 h2
      obtain ⟨R', F', e1, e2⟩ := g2.sim_give h ⟨_, h2⟩ hr
      refine ⟨s', _, ?_, ⟨R', F', e1, rfl⟩, ?_⟩
      · rw [h.abs_value_none hno]; rfl
      · rw [e2]; exact .loading (abs_none h hno) (abs_pending h h3 ⟨_, h2⟩)
    | ghost g => cases h4
  · have hno : NoKey s k := by
      intro h' t' hm hk
      have := h0 h' t' k hm hk
      simp at this
    obtain ⟨s', g1, g2, g3⟩ := removeInternal_spec h h3 h2
    rw [h1]
    simp only [Res.ok_bind, g1]
    obtain ⟨R', F', gs, e1, e2, e3⟩ := g2.sim_exorcise h hr
    refine ⟨s', _, ?_, ⟨R', F', e1, rfl⟩, ?_⟩
    · rw [h.abs_value_none (hno.noRes h)]; rfl
    · rw [e3]; exact .ghost (abs_none h (hno.noRes h)) (abs_idle h hno) e2
  · have hno : NoKey s k := by
      intro h' t' hm hk
      have := h0 h' t' k hm hk
      simp at this
    rw [h1]
    refine ⟨s, _, ?_, ⟨R, F, hr, rfl⟩, .nothing (abs_none h (hno.noRes h)) (abs_idle h hno) (abs_noGhost h2)⟩
    rw [h.abs_value_none (hno.noRes h)]; rfl

/-! ### Dropping a guard -/

theorem removePlaceholder_sim (h : Inv0 c s) (hr : s.HasRings c R F) {p : Plh} {ph : Placeholder K}
    (ht : s.entries.item p.idx = some (.placeholder ph)) (hs : ph.shared = p) (hm : InMap s.map p.idx) :
    ∃ s', s.removePlaceholder c p = .ok s' ∧ s'.Implements c { s.abs R with pending := del (s.abs R).pending ph.key } := by
  obtain ⟨s1, h1, h2, h3, h4, h5, h6, h7, h8, -⟩ := removePlaceholder_spec h (p := p) (by
    intro ph' h1 h2
    rw [ht] at h1; cases h1
    rw [hs])
  have hmap := h8 ⟨ph, ht, by rw [hs]; unfold Cfg.sameAs; cases c.ptrEq <;> simp⟩
  have hs1 : ∃ m, s1 = { s with map := m } := by
    unfold removePlaceholder at h1
    split at h1
    · cases h1
    · cases h1; exact ⟨_, rfl⟩
  obtain ⟨m, hs1⟩ := hs1
  refine ⟨s1, h1, R, F, by rw [hs1]; exact hr, ?_⟩
  have hpend : s1.pend = del s.pend ph.key := by
    obtain ⟨hh, hm⟩ := hm
    funext k
    apply option_ext'
    intro b
    rw [pend_some h2]
    by_cases hk : k = ph.key
    · subst hk
      simp only [del_same, reduceCtorEq, iff_false, not_exists, not_and]
      intro x hx hb
      rw [hmap, List.mem_filter] at hx
      rw [h4] at hb
      obtain ⟨ph', b1, b2, -⟩ := plhAt_some.mp hb
      have := h.idx.uniq _ x.2 _ p.idx ph.key hx.1 hm (by simp [keyAt, b1, keyOf, b2]) (by simp [keyAt, ht, keyOf])
      simp [this] at hx
    · rw [del_other _ hk, pend_some h, h4, hmap]
      constructor
      · rintro ⟨x, hx, hb⟩
        exact ⟨x, (List.mem_filter.mp hx).1, hb⟩
      · rintro ⟨x, hx, hb⟩
        refine ⟨x, List.mem_filter.mpr ⟨hx, ?_⟩, hb⟩
        rw [bne_iff_ne]
        intro he
        obtain ⟨ph', b1, b2, -⟩ := plhAt_some.mp hb
        rw [he, ht] at b1; cases b1
        exact hk b2.symm
  have hinfo : s1.info = s.info := by rw [hs1]; rfl
  unfold Shard.abs
  simp only [hpend, hinfo, h3.target, h3.capacity, h3.ghostCap, h4]

/-! ### Retaining -/

omit [DecidableEq K] in
theorem retainLoop_rings : ∀ (l : List (Nat × UInt64)) (s s' : Shard K V) (R : RingId → List Nat) (F : List Nat), Inv0 c s →
    s.HasRings c R F → (l.map (·.1)).Nodup →
    (∀ t hh, (t, hh) ∈ l → ∃ r, s.entries.item t = some (.resident r) ∧ hh = c.hash r.key) → retainLoop c l s = .ok s' →
    ∃ F', s'.HasRings c (fun i => (R i).filter (fun t => t ∉ l.map (·.1))) F'
  | [], s, s', R, F, h, hr, _, _, hs => by
    cases hs
    refine ⟨F, ?_⟩
    have : (fun i => (R i).filter (fun t => t ∉ ([] : List (Nat × UInt64)).map (·.1))) = R := by
      funext i
      rw [List.filter_eq_self]; simp
    rw [this]; exact hr
  | (t, hh) :: l, s, s', R, F, h, hr, hn, hl, hs => by
    obtain ⟨r, h1, h2⟩ := hl t hh (by simp)
    subst h2
    obtain ⟨s1, g1, g2, g3⟩ := removeInternal_spec h h1 (h.idx.mapped t _ h1 (by simp))
    simp only [List.map_cons, List.nodup_cons] at hn
    have hl' : ∀ t' hh', (t', hh') ∈ l → ∃ r, s1.entries.item t' = some (.resident r) ∧ hh' = c.hash r.key := by
      intro t' hh' hm
      have hne : t' ≠ t := by
        rintro rfl
        exact hn.1 (List.mem_map_of_mem (f := fun x : Nat × UInt64 => x.1) hm)
      obtain ⟨r', e1, e2⟩ := hl t' hh' (by simp [hm])
      exact ⟨r', by rw [g2.upd.other hne]; exact e1, e2⟩
    unfold retainLoop at hs
    simp only [hashOf] at g1
    rw [g1] at hs
    obtain ⟨F1, hr1⟩ := g2.rings_remove hr
    obtain ⟨F', hr'⟩ := retainLoop_rings l s1 s' _ F1 g2.inv hr1 hn.2 hl' hs
    refine ⟨F', ?_⟩
    have : (fun i => ((R i).erase t).filter (fun t => t ∉ l.map (·.1))) =
        fun i => (R i).filter (fun u => u ∉ ((t, c.hash r.key) :: l).map (·.1)) := by
      funext i
      rw [(hr.links.nodup i).erase_eq_filter, List.filter_filter]
      congr 1
      funext u
      simp only [List.map_cons, List.mem_cons, not_or, Bool.decide_and]
      by_cases hu : u = t <;> simp [hu]
    rwa [this] at hr'

omit [DecidableEq K] in
theorem klist_filter {I I' : Nat → Option (Entry K V)} {p : Nat → Bool} {q : K → Bool} : ∀ (l : List Nat),
    (∀ t ∈ l, ∃ k, keyAt I t = some k ∧ q k = p t ∧ (p t = true → I' t = I t)) →
    klist I' (l.filter p) = (klist I l).filter q
  | [], _ => rfl
  | t :: l, h => by
    obtain ⟨k, h1, h2, h3⟩ := h t (by simp)
    have ih := klist_filter l (fun u hu => h u (by simp [hu]))
    rw [klist_cons h1]
    cases hp : p t with
    | true =>
      have hk : keyAt I' t = some k := by rw [← h1]; simp [keyAt, h3 hp]
      rw [List.filter_cons_of_pos hp, List.filter_cons_of_pos (by rw [h2, hp]), klist_cons hk, ih]
    | false =>
      rw [List.filter_cons_of_neg (by simp [hp]), List.filter_cons_of_neg (by simp [h2, hp]), ih]

theorem retain_sim (h : Inv0 c s) (hr : s.HasRings c R F) (f : K → V → Bool) :
    ∃ s', s.retain c f = .ok s' ∧ s'.Implements c ((s.abs R).filter f) := by
  have hmem : ∀ t, t ∈ (retainTokens c s.entries f s.map).map (·.1) ↔
      ∃ r, s.entries.item t = some (.resident r) ∧ f r.key r.value = false := by
    intro t
    simp only [List.mem_map, Prod.exists]
    constructor
    · rintro ⟨t', hh, h1, rfl⟩
      obtain ⟨r, h2, h3, -⟩ := (mem_retainTokens h).mp h1
      exact ⟨r, h2, h3⟩
    · rintro ⟨r, h2, h3⟩
      exact ⟨t, _, (mem_retainTokens h).mpr ⟨r, h2, h3, rfl⟩, rfl⟩
  obtain ⟨s', k1, k2, k3, k4, k5, k6, k7⟩ := retain_spec h f
  obtain ⟨F', hr'⟩ := retainLoop_rings (retainTokens c s.entries f s.map) s s' R F h hr
    (nodup_retainTokens _ _ _ h.idx.nodup) (fun t hh hm => by
      obtain ⟨r, h1, -, h3⟩ := (mem_retainTokens h).mp hm
      exact ⟨r, h1, h3⟩) k1
  refine ⟨s', k1, _, F', hr', ?_⟩
  have hinfo : ∀ k, (s'.info k).map Resident.item = ((s.info k).map Resident.item).filter (fun i => f k i.value) := by
    intro k
    apply option_ext'
    intro i
    simp only [Option.map_eq_some_iff, Option.filter_eq_some_iff]
    constructor
    · rintro ⟨r, e1, rfl⟩
      obtain ⟨e2, t, e3⟩ := (k2.rep k r).mp e1
      have e4 : s.entries.item t = some (.resident r) ∧ f r.key r.value = true := by
        cases e5 : s.entries.item t with
        | none => rw [k6 t (by simp [e5]), e5] at e3; cases e3
        | some e =>
          cases e with
          | resident r' =>
            cases e6 : f r'.key r'.value with
            | true =>
              rw [k6 t (by intro r2 h2; rw [e5] at h2; cases h2; exact e6), e5] at e3
              cases e3
              exact ⟨rfl, e6⟩
            | false => rw [k5 t r' e5 e6] at e3; cases e3
          | placeholder ph => rw [k6 t (by simp [e5]), e5] at e3; cases e3
          | ghost g => rw [k6 t (by simp [e5]), e5] at e3; cases e3
      refine ⟨⟨r, (h.rep k r).mpr ⟨e2, t, e4.1⟩, rfl⟩, ?_⟩
      rw [← e2]; exact e4.2
    · rintro ⟨⟨r, e1, rfl⟩, e2⟩
      obtain ⟨e3, t, e4⟩ := (h.rep k r).mp e1
      refine ⟨r, (k2.rep k r).mpr ⟨e3, t, ?_⟩, rfl⟩
      rw [k6 t, e4]
      intro r2 h2
      rw [e4] at h2; cases h2
      rw [e3]; exact e2
  have hpend : s'.pend = s.pend := by
    funext k
    refine pend_congr h k2 (fun b => ?_)
    have hi : ∀ t ph, s'.entries.item t = some (.placeholder ph) ↔ s.entries.item t = some (.placeholder ph) := by
      intro t ph
      cases e5 : s.entries.item t with
      | none => rw [k6 t (by simp [e5]), e5]
      | some e =>
        cases e with
        | resident r' =>
          cases e6 : f r'.key r'.value with
          | true => rw [k6 t (by intro r2 h2; rw [e5] at h2; cases h2; exact e6), e5]
          | false => rw [k5 t r' e5 e6]; simp
        | placeholder ph => rw [k6 t (by simp [e5]), e5]
        | ghost g => rw [k6 t (by simp [e5]), e5]
    constructor
    · rintro ⟨x, hx, hb⟩
      obtain ⟨ph, b1, b2⟩ := plhAt_some.mp hb
      exact ⟨x, ((k7 x).mp hx).1, plhAt_some.mpr ⟨ph, (hi _ _).mp b1, b2⟩⟩
    · rintro ⟨x, hx, hb⟩
      obtain ⟨ph, b1, b2⟩ := plhAt_some.mp hb
      have b3 := (hi _ _).mpr b1
      exact ⟨x, (k7 x).mpr ⟨hx, by simp [b3]⟩, plhAt_some.mpr ⟨ph, b3, b2⟩⟩
  have hlist : ∀ i, (∀ t ∈ R i, ∃ r, s.entries.item t = some (.resident r)) →
      klist s'.entries.item ((R i).filter (fun t => t ∉ (retainTokens c s.entries f s.map).map (·.1))) =
        (klist s.entries.item (R i)).filter (fun k => ((s.abs R).items k).any (fun i => f k i.value)) := by
    intro i hR
    apply klist_filter
    intro t ht
    obtain ⟨r, h1⟩ := hR t ht
    refine ⟨r.key, keyAt_res h1, ?_, ?_⟩
    · rw [h.abs_item R h1, Option.any_some]
      show f r.key r.value = _
      cases hf : f r.key r.value with
      | true =>
        symm
        rw [decide_eq_true_iff, hmem]
        rintro ⟨r2, h2, h3⟩
        rw [h1] at h2; cases h2
        rw [hf] at h3; cases h3
      | false =>
        symm
        rw [decide_eq_false_iff_not, not_not, hmem]
        exact ⟨r, h1, hf⟩
    · intro hd
      rw [decide_eq_true_iff, hmem] at hd
      refine k6 t ?_
      intro r2 h2
      cases hf : f r2.key r2.value with
      | true => rfl
      | false => exact absurd ⟨r2, h2, hf⟩ hd
  have hg : (R .ghost).filter (fun t => t ∉ (retainTokens c s.entries f s.map).map (·.1)) = R .ghost := by
    rw [List.filter_eq_self]
    intro t ht
    obtain ⟨g, h1⟩ := Shard.of_rho_ghost ((hr.mem _ _).mp ht)
    rw [decide_eq_true_iff, hmem, h1]
    rintro ⟨r, h2, -⟩; cases h2
  have hg' : glist s'.entries.item (R .ghost) = glist s.entries.item (R .ghost) := by
    refine filterMap_congr_mem (fun t ht => ?_)
    obtain ⟨g, h1⟩ := Shard.of_rho_ghost ((hr.mem _ _).mp ht)
    unfold ghostAt
    rw [k6 t (by simp [h1])]
  have e1 := hlist .hot (fun t ht => by obtain ⟨r, h1, -⟩ := hr.hot ht; exact ⟨r, h1⟩)
  have e2 := hlist .cold (fun t ht => by obtain ⟨r, h1, -⟩ := hr.cold ht; exact ⟨r, h1⟩)
  have key : s'.abs (fun i => (R i).filter (fun t => t ∉ (retainTokens c s.entries f s.map).map (·.1))) =
      { target := s'.weightTargetHot, cap := s'.weightCapacity, ghostCap := s'.capacityNonResident,
        items := fun k => (s'.info k).map Resident.item, pending := s'.pend,
        hot := klist s'.entries.item ((R .hot).filter (fun t => t ∉ (retainTokens c s.entries f s.map).map (·.1))),
        cold := klist s'.entries.item ((R .cold).filter (fun t => t ∉ (retainTokens c s.entries f s.map).map (·.1))),
        ghosts := glist s'.entries.item ((R .ghost).filter (fun t => t ∉ (retainTokens c s.entries f s.map).map (·.1))) } :=
    rfl
  rw [key, hg, hg', e1, e2, k3.target, k3.capacity, k3.ghostCap, hpend]
  simp only [hinfo]
  rfl

/-! ### Clearing, and the layout of the table -/

theorem drain_sim (h : Inv0 c s) : s.drain.1.Implements c (.empty s.weightTargetHot s.weightCapacity s.capacityNonResident) := by
  obtain ⟨h1, h2, h3, h4, -, -⟩ := drain_spec h
  obtain ⟨R, F, hr⟩ := h1.str
  refine ⟨R, F, hr, ?_⟩
  have hR : ∀ i, R i = [] := by
    intro i
    rw [List.eq_nil_iff_forall_not_mem]
    intro t ht
    have := (hr.mem _ _).mp ht
    unfold Cfg.rho at this
    rw [h3] at this; cases this
  unfold Shard.abs
  rw [hR, hR, hR, h2.target, h2.capacity, h2.ghostCap]
  have hinfo : ∀ k, s.drain.1.info k = none := by
    intro k
    rw [h1.info_none]
    intro t r ht; rw [h3] at ht; cases ht
  have hpend : s.drain.1.pend = fun _ => none := by
    funext k
    unfold Shard.pend
    rw [h4]; rfl
  simp only [hpend, hinfo]
  rfl

theorem Shard.abs_relayout (h : Inv0 c s) {m : List (UInt64 × Nat)} {p : UInt64 → UInt64 → Bool} (hm : m.Perm s.map)
    (hp : ∀ x, p x x = true) : (s.relayout m p).abs R = s.abs R := by
  have hpend : (s.relayout m p).pend = s.pend := by
    funext k
    refine pend_congr h (relayout_spec h hm hp) (fun b => ?_)
    constructor
    · rintro ⟨x, hx, hb⟩
      exact ⟨x, hm.mem_iff.mp hx, hb⟩
    · rintro ⟨x, hx, hb⟩
      exact ⟨x, hm.mem_iff.mpr hx, hb⟩
  unfold Shard.abs
  rw [hpend]
  rfl

/-! ### Calls -/

/-- The lookup of the loading calls. -/
theorem upsert_sim (h : Inv0 c s) (hr : s.HasRings c R F) (k : K) :
    Res.Sat (s.upsertPlaceholder c (c.hash k) (fun x => x == k) k)
      (fun x => Inv0 c x.1 ∧ ∃ R' F', x.1.HasRings c R' F' ∧
        ((∃ t r, x.2 = .found t r.value ∧ r.key = k ∧ x.1.entries.item t = some (.resident r) ∧
          Clock.Lookup c (s.abs R) k (some r.value) (x.1.abs R')) ∨
        ∃ p b, x.2 = .pending p b ∧ Pending c s k x.1 p ∧ Clock.Lookup c (s.abs R) k none (x.1.abs R')))
      (fun _ => True) := by
  refine ((upsertPlaceholder_spec h (Lawful.key c k) (by simp)).and (upsert_sat h k)).mono ?_ (fun _ h => h)
  rintro ⟨s1, u⟩ ⟨hx, hy⟩
  obtain ⟨R', F', e1, e2⟩ := hx.sim h hr
  rcases hy with ⟨t, r, hu, hk, -, -, wrote⟩ | ⟨p, b, hu, hp⟩
  · simp only at hu
    subst hu
    exact ⟨wrote.inv, R', F', e1, Or.inl ⟨t, { r with referenced := bumpRef r.referenced }, rfl, hk, wrote.upd.after, e2⟩⟩
  · simp only at hu
    subst hu
    exact ⟨hp.inv, R', F', e1, Or.inr ⟨p, b, rfl, hp, e2⟩⟩

/-- The end of a load. -/
theorem Pending.fill_sim {s1 : Shard K V} {k : K} {p : Plh} (h : Pending c s k s1 p) (hr : s1.HasRings c R F) (v : V) :
    Res.Sat (Unsync.fill c s1 p v)
      (fun x => Inv0 c x.1 ∧ x.1.peekToken p.idx = x.1.contents k ∧
        (∀ r, x.1.entries.item p.idx = some (.resident r) → r.key = k) ∧
        ∃ R' F', x.1.HasRings c R' F' ∧ Clock.Fill c (s1.abs R) k v false x.2.log (x.1.abs R'))
      (fun _ => True) := by
  obtain ⟨ph, h1, h2, h3⟩ := h.holds
  have hh : Holds c s1 p ph := ⟨h1, by rw [h2]; unfold Cfg.sameAs; cases c.ptrEq <;> simp⟩
  have hm : (p.hash, p.idx) ∈ s1.map := by rw [h.hash]; exact h.mapped
  have hfill : Res.Sat (Unsync.fill c s1 p v)
      (fun x => ∃ R' F', x.1.HasRings c R' F' ∧ Clock.Fill c (s1.abs R) k v false x.2.log (x.1.abs R')) (fun _ => True) := by
    unfold Unsync.fill
    refine Res.Sat.bind (P := fun x => Replaced c s1 c.begin p false v x) ?_ ?_
    · refine (replacePlaceholder_spec h.inv c.begin false v ?_).free
      intro ph' hp'
      have := hp'.1.symm.trans h1
      cases this
      exact ⟨by rw [h.hash, h3], hm⟩
    · rintro ⟨s', q', r⟩ hx
      obtain ⟨m', ⟨R', F', e1, rfl⟩, e2⟩ := hx.sim h.inv hr hh ⟨_, hm⟩
      cases hr : r.isSome with
      | true => exact Or.inr ⟨.debugAssert, by simp [hr], trivial⟩
      | false =>
        simp only [hr, Bool.false_eq_true, if_false]
        exact .ok ⟨R', F', e1, by rw [← h3]; exact e2⟩
  exact ((h.fill v).and hfill).mono (fun x hx => ⟨hx.1.2.1, hx.1.2.2.1, hx.1.2.2.2.1, hx.2⟩) (fun _ h => h)

theorem useGuard_sim {s1 : Shard K V} {k : K} {p : Plh} (h : Pending c s k s1 p) (hr : s1.HasRings c R F) (use : GuardUse V) :
    Res.Sat (useGuard c s1 p use)
      (fun x => ∃ m', x.1.Implements c m' ∧ Clock.Guarded c (s1.abs R) k use x.2.log m') (fun _ => True) := by
  cases use with
  | insert v =>
    refine (h.fill_sim hr v).mono ?_ (fun _ h => h)
    rintro x ⟨-, -, -, R', F', e1, e2⟩
    exact ⟨_, ⟨R', F', e1, rfl⟩, .insert e2⟩
  | drop =>
    obtain ⟨ph, h1, h2, h3⟩ := h.holds
    obtain ⟨s', e1, e2⟩ := removePlaceholder_sim h.inv hr h1 h2 ⟨_, h.mapped⟩
    unfold useGuard
    rw [e1]
    refine .ok ⟨_, e2, ?_⟩
    rw [h3]
    exact .drop
  | forget => exact .ok ⟨_, ⟨R, F, hr, rfl⟩, .forget⟩

/-- What a call does to the shard is what it does to the abstract cache. -/
theorem step_sim (h : Inv0 c s) (hr : s.HasRings c R F) (op : Op K V) :
    Res.Sat (step c s op)
      (fun x => ∃ m', x.1.Implements c m' ∧ Clock.Step c (s.abs R) op x.2.1 x.2.2.log m') (fun _ => True) := by
  have here : s.Implements c (s.abs R) := ⟨R, F, hr, rfl⟩
  cases op with
  | insert k v =>
    unfold step Unsync.insert
    refine Res.Sat.bind (P := fun x => ∃ m', x.1.Implements c m' ∧ Clock.Insert c (s.abs R) k v x.2.log m') ?_ ?_
    · refine Res.Sat.bind (insert_spec h c.begin k v .insert).free ?_
      rintro ⟨s', q, r⟩ hx
      obtain ⟨s1, q1, m1, e0, e1, e2⟩ := hx.sim_insert h hr
      cases e0
      exact .ok ⟨m1, e1, e2⟩
    · rintro ⟨s', q⟩ ⟨m1, e1, e2⟩
      exact .ok ⟨m1, e1, .insert e2⟩
  | replace k v soft =>
    unfold step Unsync.replace
    refine Res.Sat.bind (P := fun x => ∃ r m', x.2.2 = r.map (fun v' => (k, v')) ∧ x.1.Implements c m' ∧
      Clock.Replacing c (s.abs R) k v soft x.2.1.log m' r) ?_ ?_
    · refine Res.Sat.bind (insert_spec h c.begin k v (.replace soft)).free ?_
      rintro ⟨s', q, r⟩ hx
      obtain ⟨m1, e1, e2⟩ := hx.sim_replace h hr
      exact .ok ⟨r, m1, rfl, e1, e2⟩
    · rintro ⟨s', q, r⟩ ⟨r', m1, h1, e1, e2⟩
      simp only at h1
      subst h1
      exact .ok ⟨m1, e1, .replace e2⟩
  | remove k =>
    unfold step
    simp only
    obtain ⟨s', m1, e0, e1, e2⟩ := remove_sim h hr k
    rw [e0]
    exact .ok ⟨m1, e1, .remove e2⟩
  | get k =>
    unfold step
    simp only
    rcases get_spec h (Lawful.key c k) with ⟨t, r, s', h1, h2, h3, h4, -⟩ | ⟨h1, h2⟩
    · have hk : r.key = k := by simpa using h3
      subst hk
      rw [h1]
      obtain ⟨R', F', e1, e2⟩ := h4.sim_warm h hr
      refine .ok ⟨_, ⟨R', F', e1, rfl⟩, ?_⟩
      rw [e2, ← h.abs_touch_some h2, ← h.abs_value_some (R := R) h2]
      exact .get
    · rw [h1]
      refine .ok ⟨_, ⟨R, F, hr, rfl⟩, ?_⟩
      have := Clock.Step.get (c := c) (m := s.abs R) (k := k)
      rw [h.abs_touch_none (eqv_false h2), h.abs_value_none (eqv_false h2)] at this
      exact this
  | peek k =>
    unfold step
    simp only
    rcases peek_spec h (Lawful.key c k) with ⟨t, r, h1, -, -, h2, h3⟩ | ⟨h1, -, -, h2⟩
    · have hk : r.key = k := by simpa using h3
      subst hk
      rw [h1]
      refine .ok ⟨_, here, ?_⟩
      rw [← h.abs_value_some (R := R) h2]
      exact .peek
    · rw [h1]
      refine .ok ⟨_, here, ?_⟩
      have := Clock.Step.peek (c := c) (m := s.abs R) (k := k)
      rw [h.abs_value_none (eqv_false h2)] at this
      exact this
  | containsKey k =>
    unfold step
    simp only
    have := Clock.Step.containsKey (c := c) (m := s.abs R) (k := k)
    rcases peek_spec h (Lawful.key c k) with ⟨t, r, -, h1, -, h2, h3⟩ | ⟨-, h1, -, h2⟩
    · have hk : r.key = k := by simpa using h3
      subst hk
      rw [h1]
      refine .ok ⟨_, here, ?_⟩
      rw [h.abs_value_some h2] at this
      exact this
    · rw [h1]
      refine .ok ⟨_, here, ?_⟩
      rw [h.abs_value_none (eqv_false h2)] at this
      exact this
  | getMut k f =>
    unfold step
    simp only
    have hst := Clock.Step.getMut (c := c) (m := s.abs R) (k := k) (f := f)
    rcases getMut_spec h (Lawful.key c k) with ⟨t, r, s1, h1, h2, h3, h4, -⟩ | ⟨h1, h2⟩
    · have hk : r.key = k := by simpa using h3
      subst hk
      rw [h1]
      simp only [Res.ok_bind, writeRef]
      obtain ⟨R', F', e1, e2⟩ := h4.sim_warm h hr
      refine Res.Sat.bind (refMutWrite_sim (r := { r with referenced := bumpRef r.referenced }) h4.inv e1 f h4.upd.after) ?_
      intro s2 hs2
      simp only [Option.bind_some, peekToken_res h4.upd.after]
      refine .ok ⟨_, hs2, ?_⟩
      rw [h.abs_touch_some h2, h.abs_value_some h2] at hst
      rw [e2]
      exact hst
    · rw [h1]
      refine .ok ⟨_, ⟨R, F, hr, rfl⟩, ?_⟩
      rw [h.abs_touch_none (eqv_false h2), h.abs_value_none (eqv_false h2), h.abs_write_none f (eqv_false h2)] at hst
      exact hst
  | peekMut k f =>
    unfold step
    simp only
    have hst := Clock.Step.peekMut (c := c) (m := s.abs R) (k := k) (f := f)
    rcases peek_spec h (Lawful.key c k) with ⟨t, r, -, -, h1, h2, h3⟩ | ⟨-, -, h1, h2⟩
    · have hk : r.key = k := by simpa using h3
      subst hk
      rw [h1]
      simp only [Res.ok_bind, writeRef]
      refine Res.Sat.bind (refMutWrite_sim h hr f h2) ?_
      intro s2 hs2
      simp only [Option.bind_some, peekToken_res h2]
      refine .ok ⟨_, hs2, ?_⟩
      rw [h.abs_value_some h2] at hst
      exact hst
    · rw [h1]
      refine .ok ⟨_, here, ?_⟩
      rw [h.abs_value_none (eqv_false h2), h.abs_write_none f (eqv_false h2)] at hst
      exact hst
  | retain f =>
    unfold step
    simp only
    obtain ⟨s', e1, e2⟩ := retain_sim h hr f
    rw [e1]
    exact .ok ⟨_, e2, .retain⟩
  | clear => exact .ok ⟨_, drain_sim h, .clear⟩
  | drain =>
    unfold step
    refine .ok ⟨_, drain_sim h, ?_⟩
    obtain ⟨-, -, -, -, -, h1⟩ := drain_spec h
    rw [h1]
    refine Clock.Step.drain (m := s.abs R) ?_
    rw [abs_value]
    exact lists_iter h
  | reserve =>
    unfold step
    simp only [reserve_spec h]
    exact .ok ⟨_, here, .reserve⟩
  | getOrInsertWith k load =>
    unfold step Unsync.getOrInsertWith getOrInsertToken
    simp only [bind_assoc]
    refine Res.Sat.bind (upsert_sim h hr k) ?_
    rintro ⟨s1, x2⟩ ⟨hi, R', F', e1, ⟨t, r, hx, hk, ht, e2⟩ | ⟨p, b, hx, hp, e2⟩⟩
    · simp only at hx hi e1 e2 ht
      subst hx
      simp only [Res.ok_bind, Option.map_some, peekToken_res ht]
      exact .ok ⟨_, ⟨R', F', e1, rfl⟩, .loadHit e2⟩
    · simp only at hx hi e1 e2 hp
      subst hx
      cases load with
      | none => exact .ok ⟨_, ⟨R', F', e1, rfl⟩, .loadFail e2⟩
      | some v =>
        simp only [bind_assoc]
        refine Res.Sat.bind (hp.fill_sim e1 v) ?_
        rintro ⟨s2, q⟩ ⟨-, f1, -, R2, F2, f2, f3⟩
        simp only at f1 f2 f3
        simp only [Res.ok_bind, Option.map_some, f1]
        refine .ok ⟨_, ⟨R2, F2, f2, rfl⟩, ?_⟩
        rw [← abs_value s2 R2]
        exact .load e2 f3
  | getMutOrInsertWith k load f =>
    unfold step Unsync.getMutOrInsertWith getOrInsertToken
    simp only [bind_assoc]
    refine Res.Sat.bind (upsert_sim h hr k) ?_
    rintro ⟨s1, x2⟩ ⟨hi, R', F', e1, ⟨t, r, hx, hk, ht, e2⟩ | ⟨p, b, hx, hp, e2⟩⟩
    · simp only at hx hi e1 e2 ht
      subst hx
      simp only [Res.ok_bind, bind_assoc, peekTokenMut_res ht, writeRef, peekToken_res ht]
      refine Res.Sat.bind (refMutWrite_sim hi e1 f ht) ?_
      intro s2 hs2
      rw [hk] at hs2
      exact .ok ⟨_, hs2, .loadMutHit e2⟩
    · simp only at hx hi e1 e2 hp
      subst hx
      cases load with
      | none => exact .ok ⟨_, ⟨R', F', e1, rfl⟩, .loadMutFail e2⟩
      | some v =>
        simp only [bind_assoc]
        refine Res.Sat.bind (hp.fill_sim e1 v) ?_
        rintro ⟨s2, q⟩ ⟨f0, f1, f4, R2, F2, f2, f3⟩
        simp only at f0 f1 f2 f3 f4
        simp only [Res.ok_bind, bind_assoc]
        have hst := Clock.Step.loadMut (f := f) e2 f3
        rw [abs_value, ← f1] at hst
        cases hv : s2.peekToken p.idx with
        | none =>
          simp only [peekTokenMut_none hv, writeRef, Res.ok_bind]
          refine .ok ⟨_, ⟨R2, F2, f2, rfl⟩, ?_⟩
          rw [hv, f0.abs_write_none f (by rw [← f0.contents_none, ← f1, hv])] at hst
          exact hst
        | some w =>
          obtain ⟨r, hr2, rfl⟩ := (peekToken_eq _ _ _).mp hv
          have hk : r.key = k := f4 r hr2
          simp only [peekTokenMut_res hr2, writeRef]
          refine Res.Sat.bind (refMutWrite_sim f0 f2 f hr2) ?_
          intro s3 hs3
          rw [hk] at hs3
          rw [hv] at hst
          exact .ok ⟨_, hs3, hst⟩
  | getRefOrGuard k use =>
    unfold step Unsync.getRefOrGuard
    simp only [bind_assoc]
    refine Res.Sat.bind (upsert_sim h hr k) ?_
    rintro ⟨s1, x2⟩ ⟨hi, R', F', e1, ⟨t, r, hx, hk, ht, e2⟩ | ⟨p, b, hx, hp, e2⟩⟩
    · simp only at hx hi e1 e2 ht
      subst hx
      exact .ok ⟨_, ⟨R', F', e1, rfl⟩, .guardHit e2⟩
    · simp only at hx hi e1 e2 hp
      subst hx
      simp only [bind_assoc]
      refine Res.Sat.bind (useGuard_sim hp e1 use) ?_
      rintro ⟨s2, q⟩ ⟨m', f1, f2⟩
      exact .ok ⟨m', f1, .guard e2 f2⟩
  | getMutOrGuard k f use =>
    unfold step Unsync.getMutOrGuard
    simp only [bind_assoc]
    refine Res.Sat.bind (upsert_sim h hr k) ?_
    rintro ⟨s1, x2⟩ ⟨hi, R', F', e1, ⟨t, r, hx, hk, ht, e2⟩ | ⟨p, b, hx, hp, e2⟩⟩
    · simp only at hx hi e1 e2 ht
      subst hx
      simp only [bind_assoc, peekTokenMut_res ht, writeRef]
      refine Res.Sat.bind (refMutWrite_sim hi e1 f ht) ?_
      intro s2 hs2
      rw [hk] at hs2
      exact .ok ⟨_, hs2, .guardMutHit e2⟩
    · simp only at hx hi e1 e2 hp
      subst hx
      simp only [bind_assoc]
      refine Res.Sat.bind (useGuard_sim hp e1 use) ?_
      rintro ⟨s2, q⟩ ⟨m', f1, f2⟩
      exact .ok ⟨m', f1, .guardMut e2 f2⟩

end
end QuickCache
