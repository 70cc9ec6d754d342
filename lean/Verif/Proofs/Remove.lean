import Verif.Proofs.Ops

/-!
# Removal, retain, drain, reads
-/

namespace QuickCache
variable {K V RS : Type _}

namespace Shard
variable {c : Cfg K V RS} {s : Shard K V}

theorem map_filter_iff {m : List (UInt64 × Nat)} {t : Nat} (b : UInt64 × Nat) :
    b ∈ m.filter (fun b => b.2 != t) ↔ (b.2 ≠ t ∧ b ∈ m) ∨
      (b.2 = t ∧ (none : Option (Entry K V)).map (hashOf c) = some b.1) := by
  simp only [List.mem_filter, bne_iff_ne, ne_eq, Option.map_none, reduceCtorEq, and_false, or_false]
  exact and_comm

theorem setHead_if (s : Shard K V) (i : RingId) (t : Nat) (next : Option Nat) :
    (if s.head i = some t then s.setHead i next else s) =
      s.setHead i (if s.head i = some t then next else s.head i) := by
  split
  · rfl
  · cases i <;> rfl

theorem removeInternal_spec (h : Inv0 c s) {hh : UInt64} {t : Nat} {e : Entry K V} (ht : s.entries.item t = some e)
    (hm : (hh, t) ∈ s.map) :
    ∃ s', s.removeInternal c hh t = .ok (s', residentPair e) ∧ Wrote c s s' t (some e) none ∧ Same s s' := by
  have hmr := mapRemove_spec h.idx hm
  unfold removeInternal
  rw [hmr]
  simp only [Res.ok_bind]
  have hg : ∀ b, b ∈ s.map.filter (fun b => b.2 != t) ↔ (b.2 ≠ t ∧ b ∈ s.map) ∨
      (b.2 = t ∧ (none : Option (Entry K V)).map (hashOf c) = some b.1) := map_filter_iff
  cases e with
  | resident r =>
    obtain ⟨f1, f2, f3, f4⟩ := res_facts h ht
    -- both ring cases give a struct with the conditional head
    obtain ⟨e1, next, h1, h2, h3, h4⟩ : ∃ e1 next, s.entries.remove t = .ok (e1, some (.resident r, next)) ∧
        Slab.Upd s.entries e1 t (some (.resident r)) none ∧ e1.entries.length = s.entries.entries.length ∧
        Moves s.entries s.head (c.rho s.entries.item) e1
          (upd s.head r.state.ring (if s.head r.state.ring = some t then next else s.head r.state.ring))
          (upd (c.rho s.entries.item) t none) (ringMove t (c.ringOf (.resident r)) none false) := by
      by_cases hw : c.weight r.key r.value = 0
      · rw [if_pos hw] at f4
        obtain ⟨e1, h1, h2, h3, h4⟩ := h.str.remove_off f4 ht
        refine ⟨e1, none, h1, h2, h3, ?_⟩
        have hne : s.head r.state.ring ≠ some t := by
          intro hh
          obtain ⟨R, F, hr⟩ := h.str
          rw [hr.heads] at hh
          have := (hr.mem _ _).mp (List.mem_of_head? hh)
          rw [f4] at this; cases this
        rw [if_neg hne, upd_self _ _ _ rfl, upd_self _ _ _ f4]
        simp only [Cfg.ringOf, if_pos hw]
        exact Moves.remove_off f4 h1 ht
      · rw [if_neg hw] at f4
        obtain ⟨e1, next, h1, h2, h3, -, h4⟩ := h.str.remove f4 ht
        refine ⟨e1, next, h1, h2, h3, ?_⟩
        simp only [Cfg.ringOf, if_neg hw]
        exact Moves.remove_keep f4 h1 ht
    simp only [h1, Res.ok_bind]
    have hn : csub (Shard.num { s with map := s.map.filter (fun b => b.2 != t), entries := e1 } r.state) 1 =
        .ok (s.num r.state - 1) := by
      have : Shard.num { s with map := s.map.filter (fun b => b.2 != t), entries := e1 } r.state = s.num r.state := by
        cases r.state <;> rfl
      rw [this]; exact csub_ok f2
    have hw : csub (Shard.wgt { s with map := s.map.filter (fun b => b.2 != t), entries := e1 } r.state)
        (c.weight r.key r.value) = .ok (s.wgt r.state - c.weight r.key r.value) := by
      have : Shard.wgt { s with map := s.map.filter (fun b => b.2 != t), entries := e1 } r.state = s.wgt r.state := by
        cases r.state <;> rfl
      rw [this]; exact csub_ok f1
    simp only [hn, hw, Res.ok_bind, residentPair]
    obtain ⟨s2, hs2⟩ : ∃ s2 : Shard K V, s2 = Shard.setWgt (Shard.setNum { s with
        map := s.map.filter (fun b => b.2 != t), entries := e1 } r.state (s.num r.state - 1)) r.state
        (s.wgt r.state - c.weight r.key r.value) := ⟨_, rfl⟩
    rw [← hs2, setHead_if]
    have hhd : s2.head = s.head := by
      rw [hs2, head_setWgt, head_setNum]; funext i; cases i <;> rfl
    refine ⟨_, rfl, ⟨?_, ?_, ?_, ?_, ?_, ?_, ?_, ?_⟩, ?_⟩
    · refine h.step (t := t) (old := some (.resident r)) (new := none) ?_ ?_ ?_ ?_ ?_ ?_
      · rw [hs2]; simpa using h2
      · rw [entries_setHead, head_setHead, hhd]
        have : s2.entries = e1 := by rw [hs2]; simp
        rw [this]; exact h4.struct h.str
      · rw [hs2]; simp only [map_setHead, map_setWgt, map_setNum, probe_setHead, probe_setWgt, probe_setNum,
          nextPlh_setHead, nextPlh_setWgt, nextPlh_setNum]
        exact h.idx.del t
      · intro st
        rw [num_setHead, hs2, num_setWgt, num_setNum]
        by_cases hst : st = r.state
        · subst hst; simp [numF]; omega
        · rw [upd_other _ _ hst]; simp only [numF, if_neg (Ne.symm hst)]; cases st <;> rfl
      · intro st
        rw [wgt_setHead, hs2, wgt_setWgt]
        by_cases hst : st = r.state
        · subst hst; simp [wgtF]; omega
        · rw [upd_other _ _ hst, wgt_setNum]; simp only [wgtF, if_neg (Ne.symm hst)]; cases st <;> rfl
      · rw [numNonResident_setHead, hs2]; simp [ghostF]
    · rw [hs2]; simpa using h2
    · rw [hs2]; simp
    · rw [hs2]; simp
    · rw [hs2]; simp
    · rw [hs2]; simp
    · rw [hs2]; simpa using hg
    · rw [entries_setHead, head_setHead, hhd]
      have : s2.entries = e1 := by rw [hs2]; simp
      rw [this]; exact h4.congr_rho (by rw [h2.fn, Cfg.rho_upd]; rfl)
    · rw [hs2]; constructor <;> simp
  | ghost g =>
    have f4 : c.rho s.entries.item t = some .ghost := rho_ghost ht
    obtain ⟨e1, next, h1, h2, h3, -, h4⟩ := h.str.remove f4 ht
    have f2 : 1 ≤ s.numNonResident := by
      have g1 := h.cnt.ghost
      have g2 := Slab.le_sumBy (ghostF) rfl s.entries t
      rw [ht] at g2
      simp [ghostF] at g1 g2
      omega
    simp only [h1, Res.ok_bind, csub_ok f2, residentPair]
    rw [setHead_if]
    refine ⟨_, rfl, ⟨?_, ?_, rfl, rfl, rfl, rfl, hg, ?_⟩, ⟨rfl, rfl, rfl, rfl, rfl, rfl, rfl⟩⟩
    · refine h.step (t := t) (old := some (.ghost g)) (new := none) (by simpa using h2) ?_ ?_ ?_ ?_ ?_
      · rw [entries_setHead, head_setHead]; exact h4
      · exact h.idx.del t
      · intro st; cases st <;> simp [numF, num]
      · intro st; cases st <;> simp [wgtF, wgt]
      · simp [ghostF]; omega
    · simpa using h2
    · rw [entries_setHead, head_setHead]
      exact (Moves.remove_keep f4 h1 ht).congr_rho (by rw [h2.fn, Cfg.rho_upd]; rfl)
  | placeholder p =>
    have f4 : c.rho s.entries.item t = none := rho_placeholder ht
    obtain ⟨e1, h1, h2, h3, h4⟩ := h.str.remove_off f4 ht
    simp only [h1, Res.ok_bind, residentPair]
    refine ⟨_, rfl, ⟨?_, h2, rfl, rfl, rfl, rfl, hg, (Moves.remove_off f4 h1 ht).congr_rho
      (by simp only; rw [h2.fn, Cfg.rho_upd, Option.bind_none, upd_self _ _ _ f4])⟩, ⟨rfl, rfl, rfl, rfl, rfl, rfl, rfl⟩⟩
    refine h.step (t := t) (old := some (.placeholder p)) (new := none) h2 ?_ (h.idx.del t) ?_ ?_ ?_
    · simp only [Option.bind_none]; rw [upd_self _ _ _ f4]; exact h4
    · intro st; cases st <;> simp [numF, num]
    · intro st; cases st <;> simp [wgtF, wgt]
    · simp [ghostF]

/-- `remove`: the indexed entry of the key, or failing that a ghost of the same hash, goes. -/
theorem remove_spec (h : Inv0 c s) {hh : UInt64} {eqv : K → Bool} (hq : Lawful c hh eqv) :
    (s.remove c hh eqv = .ok (s, none) ∧
      ∀ h' t k, (h', t) ∈ s.map → keyAt s.entries.item t = some k → eqv k = false) ∨
    ∃ s' t e, s.remove c hh eqv = .ok (s', residentPair e) ∧ s.entries.item t = some e ∧ (hh, t) ∈ s.map ∧
      Wrote c s s' t (some e) none ∧ Same s s' ∧
      ((∃ k, keyOf e = some k ∧ eqv k = true) ∨ (e = .ghost hh ∧
        ∀ h' t k, (h', t) ∈ s.map → keyAt s.entries.item t = some k → eqv k = false)) := by
  unfold remove
  rcases search_spec h.idx hq with ⟨t, e, k, h1, h2, h3, h4, h5⟩ | ⟨h0, ⟨t, h1, h2, h3⟩ | ⟨h1, h2⟩⟩
  · right
    obtain ⟨s', g1, g2, g3⟩ := removeInternal_spec h h3 h2
    refine ⟨s', t, e, ?_, h3, h2, g2, g3, Or.inl ⟨k, h4, h5⟩⟩
    rw [h1]; simpa using g1
  · right
    obtain ⟨s', g1, g2, g3⟩ := removeInternal_spec h h3 h2
    refine ⟨s', t, _, ?_, h3, h2, g2, g3, Or.inr ⟨rfl, h0⟩⟩
    rw [h1]; simpa using g1
  · left
    exact ⟨by rw [h1]; rfl, h0⟩

/-- `remove_placeholder` drops the index entry of the placeholder. -/
theorem removePlaceholder_spec (h : Inv0 c s) {p : Plh}
    (hp : ∀ ph, s.entries.item p.idx = some (.placeholder ph) → c.sameAs ph.shared p = true →
      p.hash = ph.shared.hash) :
    ∃ s', s.removePlaceholder c p = .ok s' ∧ Inv0 c s' ∧ Same s s' ∧ s'.entries = s.entries ∧
      s'.wgt = s.wgt ∧ s'.num = s.num ∧ s'.numNonResident = s.numNonResident ∧
      ((∃ ph, s.entries.item p.idx = some (.placeholder ph) ∧ c.sameAs ph.shared p = true) →
        s'.map = s.map.filter (fun b => b.2 != p.idx)) ∧
      ((¬ ∃ ph, s.entries.item p.idx = some (.placeholder ph) ∧ c.sameAs ph.shared p = true) → s'.map = s.map) := by
  have hnone : s.map.any (fun b => s.probe p.hash b.1 && b.2 == p.idx && (s.entries.get b.2).isNone) = false := by
    rw [List.any_eq_false]
    intro b hb
    have := h.map_occ hb
    rw [Slab.get_eq]
    cases hx : s.entries.item b.2 with
    | none => rw [hx] at this; simp at this
    | some e => simp
  have key : ∀ m, s.removePlaceholder c p = .ok { s with map := m } → Index c s.entries.item m s.probe s.nextPlh →
      Inv0 c { s with map := m } := by
    intro m _ hm
    exact ⟨h.str, hm, ⟨h.cnt.num, h.cnt.wgt, h.cnt.ghost⟩⟩
  by_cases hx : ∃ ph, s.entries.item p.idx = some (.placeholder ph) ∧ c.sameAs ph.shared p = true
  · obtain ⟨ph, h1, h2⟩ := hx
    have hr : s.removePlaceholder c p = .ok { s with map := s.map.filter (fun b => b.2 != p.idx) } := by
      unfold removePlaceholder
      rw [hnone]
      simp only [Bool.false_eq_true, if_false]
      rw [eraseP_eq_filter (t := p.idx) _ h.idx.nodup]
      · intro b _ hb
        simp only [Bool.and_eq_true, beq_iff_eq] at hb
        exact hb.1.2
      · intro b hb hbt
        obtain ⟨e, g1, g2⟩ := h.idx.hashed b.1 b.2 hb
        rw [hbt, h1] at g1; cases g1
        have g3 := (h.idx.plh p.idx ph h1).2.1
        have : b.1 = p.hash := by rw [← g2, hp ph h1 h2, g3]; rfl
        simp only [this, h.idx.refl, hbt, beq_self_eq_true, Bool.and_self, Bool.true_and]
        rw [Slab.get_eq, h1]
        simpa using h2
    refine ⟨_, hr, key _ hr (h.idx.unmap h1), ⟨rfl, rfl, rfl, rfl, rfl, rfl, rfl⟩, rfl, ?_, ?_, rfl, fun _ => rfl,
      fun hne => absurd ⟨ph, h1, h2⟩ hne⟩
    · funext st; cases st <;> rfl
    · funext st; cases st <;> rfl
  · have hr : s.removePlaceholder c p = .ok { s with map := s.map } := by
      unfold removePlaceholder
      rw [hnone]
      simp only [Bool.false_eq_true, if_false]
      rw [List.eraseP_of_forall_not]
      intro b hb
      simp only [Bool.and_eq_true, beq_iff_eq, not_and, Bool.not_eq_true]
      rintro ⟨-, hbt⟩
      rw [Slab.get_eq, hbt]
      cases hit : s.entries.item p.idx with
      | none => simp
      | some e =>
        cases e with
        | placeholder ph =>
          simp only [Option.map_some]
          cases hsa : c.sameAs ph.shared p with
          | false => rfl
          | true => exact absurd ⟨ph, hit, hsa⟩ hx
        | resident r => simp
        | ghost g => simp
    refine ⟨_, hr, key _ hr h.idx, ⟨rfl, rfl, rfl, rfl, rfl, rfl, rfl⟩, rfl, ?_, ?_, rfl, fun h => absurd h hx,
      fun _ => rfl⟩
    · funext st; cases st <;> rfl
    · funext st; cases st <;> rfl

/-! ### retain -/

theorem mem_retainTokens (h : Inv0 c s) {f : K → V → Bool} {t : Nat} {hh : UInt64} :
    (t, hh) ∈ retainTokens c s.entries f s.map ↔
      ∃ r, s.entries.item t = some (.resident r) ∧ f r.key r.value = false ∧ hh = c.hash r.key := by
  unfold retainTokens
  rw [List.mem_filterMap]
  constructor
  · rintro ⟨⟨h', t'⟩, hm, hx⟩
    simp only [Slab.get_eq] at hx
    cases hit : s.entries.item t' with
    | none => rw [hit] at hx; simp at hx
    | some e =>
      rw [hit] at hx
      cases e with
      | resident r =>
        simp only [Option.map_some] at hx
        split at hx
        · cases hx
        · rename_i hf
          simp only [Option.some.injEq, Prod.mk.injEq] at hx
          obtain ⟨rfl, rfl⟩ := hx
          exact ⟨r, hit, by simpa using hf, rfl⟩
      | placeholder p => simp at hx
      | ghost g => simp at hx
  · rintro ⟨r, h1, h2, rfl⟩
    refine ⟨(c.hash r.key, t), h.idx.mapped t _ h1 (by simp), ?_⟩
    simp [Slab.get_eq, h1, h2]

theorem nodup_retainTokens (e : Slab (Entry K V)) (f : K → V → Bool) : ∀ (m : List (UInt64 × Nat)),
    (m.map (·.2)).Nodup → ((retainTokens c e f m).map (·.1)).Nodup
  | [], _ => by simp [retainTokens]
  | b :: m, hn => by
    simp only [List.map_cons, List.nodup_cons] at hn
    have ih := nodup_retainTokens e f m hn.2
    have hsub : ∀ x ∈ (retainTokens c e f m).map (·.1), x ∈ m.map (·.2) := by
      intro x hx
      unfold retainTokens at hx
      simp only [List.mem_map, List.mem_filterMap] at hx ⊢
      obtain ⟨⟨x', hh⟩, ⟨b', hb', hx'⟩, rfl⟩ := hx
      refine ⟨b', hb', ?_⟩
      simp only [Slab.get_eq] at hx'
      cases hit : e.item b'.2 with
      | none => rw [hit] at hx'; simp at hx'
      | some en =>
        rw [hit] at hx'
        cases en with
        | resident r =>
          simp only [Option.map_some] at hx'
          split at hx'
          · cases hx'
          · simp only [Option.some.injEq, Prod.mk.injEq] at hx'; exact hx'.1
        | placeholder p => simp at hx'
        | ghost g => simp at hx'
    have hcons : retainTokens c e f (b :: m) = retainTokens c e f m ∨
        ∃ hh, retainTokens c e f (b :: m) = (b.2, hh) :: retainTokens c e f m := by
      unfold retainTokens
      simp only [List.filterMap_cons]
      split
      · left; rfl
      · rename_i x hx
        right
        simp only [Slab.get_eq] at hx
        cases hit : e.item b.2 with
        | none => rw [hit] at hx; simp at hx
        | some en =>
          rw [hit] at hx
          cases en with
          | resident r =>
            simp only [Option.map_some] at hx
            split at hx
            · cases hx
            · simp only [Option.some.injEq] at hx; exact ⟨c.hash r.key, by rw [← hx]⟩
          | placeholder p => simp at hx
          | ghost g => simp at hx
    rcases hcons with hc | ⟨hh, hc⟩
    · rw [hc]; exact ih
    · rw [hc]
      simp only [List.map_cons, List.nodup_cons]
      exact ⟨fun hx => hn.1 (hsub _ hx), ih⟩

/-- The removal loop of `retain`. -/
theorem retainLoop_spec : ∀ (l : List (Nat × UInt64)) (s : Shard K V), Inv0 c s → (l.map (·.1)).Nodup →
    (∀ t hh, (t, hh) ∈ l → ∃ r, s.entries.item t = some (.resident r) ∧ hh = c.hash r.key) →
    ∃ s', retainLoop c l s = .ok s' ∧ Inv0 c s' ∧ Same s s' ∧ s'.numNonResident = s.numNonResident ∧
      (∀ t, s'.entries.item t = if t ∈ l.map (·.1) then none else s.entries.item t) ∧
      (∀ b, b ∈ s'.map ↔ b ∈ s.map ∧ b.2 ∉ l.map (·.1))
  | [], s, h, _, _ => ⟨s, rfl, h, .refl s, rfl, by simp, by simp⟩
  | (t, hh) :: l, s, h, hn, hl => by
    obtain ⟨r, h1, h2⟩ := hl t hh (by simp)
    subst h2
    obtain ⟨s1, g1, g2, g3⟩ := removeInternal_spec h h1 (h.idx.mapped t _ h1 (by simp))
    simp only [List.map_cons, List.nodup_cons] at hn
    have hl' : ∀ t' hh', (t', hh') ∈ l → ∃ r, s1.entries.item t' = some (.resident r) ∧ hh' = c.hash r.key := by
      intro t' hh' hm
      have hne : t' ≠ t := by
        rintro rfl
        exact hn.1 (List.mem_map_of_mem (f := fun x : Nat × UInt64 => x.1) hm)
      obtain ⟨r', e1, e2⟩ := hl t' hh' (by simp [hm])
      exact ⟨r', by rw [g2.upd.other hne]; exact e1, e2⟩
    obtain ⟨s2, k1, k2, k3, k4, k5, k6⟩ := retainLoop_spec l s1 g2.inv hn.2 hl'
    refine ⟨s2, ?_, k2, g3.trans k3, ?_, ?_, ?_⟩
    · unfold retainLoop
      simp only [hashOf] at g1
      rw [g1]; exact k1
    · have := g2.ghosts h; simp [ghostF] at this; omega
    · intro u
      rw [k5, g2.upd.item]
      simp only [List.map_cons, List.mem_cons]
      by_cases hu : u = t
      · simp [hu]
      · simp only [hu, if_false, false_or]
    · intro b
      rw [k6, g2.map]
      simp only [Option.map_none, reduceCtorEq, and_false, or_false, List.map_cons, List.mem_cons, not_or]
      constructor
      · rintro ⟨⟨a1, a2⟩, a3⟩; exact ⟨a2, a1, a3⟩
      · rintro ⟨a1, a2, a3⟩; exact ⟨⟨a2, a1⟩, a3⟩

/-- `retain` deletes exactly the residents rejected by the predicate. -/
theorem retain_spec (h : Inv0 c s) (f : K → V → Bool) :
    ∃ s', s.retain c f = .ok s' ∧ Inv0 c s' ∧ Same s s' ∧ s'.numNonResident = s.numNonResident ∧
      (∀ t r, s.entries.item t = some (.resident r) → f r.key r.value = false → s'.entries.item t = none) ∧
      (∀ t, (∀ r, s.entries.item t = some (.resident r) → f r.key r.value = true) →
        s'.entries.item t = s.entries.item t) ∧
      (∀ b, b ∈ s'.map ↔ b ∈ s.map ∧ (s'.entries.item b.2).isSome) := by
  have hmem : ∀ t, t ∈ (retainTokens c s.entries f s.map).map (·.1) ↔
      ∃ r, s.entries.item t = some (.resident r) ∧ f r.key r.value = false := by
    intro t
    simp only [List.mem_map, Prod.exists]
    constructor
    · rintro ⟨t', hh, h1, rfl⟩
      obtain ⟨r, h2, h3, -⟩ := (mem_retainTokens h).mp h1
      exact ⟨r, h2, h3⟩
    · rintro ⟨r, h2, h3⟩
      exact ⟨t, _, (mem_retainTokens h).mpr ⟨r, h2, h3, rfl⟩, rfl⟩
  obtain ⟨s', k1, k2, k3, k4, k5, k6⟩ := retainLoop_spec (retainTokens c s.entries f s.map) s h
    (nodup_retainTokens _ _ _ h.idx.nodup) (fun t hh hm => by
      obtain ⟨r, h1, -, h3⟩ := (mem_retainTokens h).mp hm
      exact ⟨r, h1, h3⟩)
  refine ⟨s', k1, k2, k3, k4, ?_, ?_, ?_⟩
  · intro t r h1 h2
    rw [k5, if_pos ((hmem t).mpr ⟨r, h1, h2⟩)]
  · intro t h1
    rw [k5, if_neg]
    rw [hmem]; rintro ⟨r, h2, h3⟩
    rw [h1 r h2] at h3; cases h3
  · intro b
    rw [k6, k5]
    constructor
    · rintro ⟨h1, h2⟩
      exact ⟨h1, by rw [if_neg h2]; exact h.map_occ h1⟩
    · rintro ⟨h1, h2⟩
      refine ⟨h1, fun h3 => ?_⟩
      rw [if_pos h3] at h2; simp at h2

/-! ### drain and clear -/

theorem drain_spec (h : Inv0 c s) : Inv0 c s.drain.1 ∧ Same s s.drain.1 ∧
    (∀ t, s.drain.1.entries.item t = none) ∧ s.drain.1.map = [] ∧ s.drain.1.numNonResident = 0 ∧
    s.drain.2 = s.iter := by
  have hit : ∀ t, s.drain.1.entries.item t = none := by
    intro t; simp [drain, Slab.drain, Slab.item]
  refine ⟨⟨?_, ?_, ?_⟩, ⟨rfl, rfl, rfl, rfl, rfl, rfl, rfl⟩, hit, rfl, rfl, rfl⟩
  · have h1 : s.drain.1.head = fun _ => none := by funext i; cases i <;> rfl
    rw [h1]
    exact Struct.new _ (by intro t; simp [Cfg.rho, hit])
  · refine ⟨h.idx.refl, by simp [drain], by simp [drain], ?_, by simp [drain], ?_, ?_⟩
    · intro t e ht; rw [hit] at ht; cases ht
    · intro t e ht; rw [hit] at ht; cases ht
    · intro t e t' e' ht; rw [hit] at ht; cases ht
  · constructor
    · intro st; cases st <;> rfl
    · intro st; cases st <;> rfl
    · rfl

/-! ### Layout of the hash index -/

theorem relayout_spec (h : Inv0 c s) {m : List (UInt64 × Nat)} {p : UInt64 → UInt64 → Bool} (hm : m.Perm s.map)
    (hp : ∀ x, p x x = true) : Inv0 c (s.relayout m p) :=
  ⟨h.str, h.idx.relayout hm hp, ⟨h.cnt.num, h.cnt.wgt, h.cnt.ghost⟩⟩

theorem rehash_same (h : Inv0 c s) : rehash c s.entries s.map = .ok s.map :=
  rehash_spec h.idx.hashed

theorem reserve_spec (h : Inv0 c s) : s.reserve c = .ok s := by
  unfold reserve
  rw [rehash_same h]; rfl

/-! ### Reads -/

/-- The counter after one access. -/
def bumpRef (n : Nat) : Nat := if n < MAX_F then n + 1 else n

theorem setRef_wrote (h : Inv0 c s) {t : Nat} {r : Resident K V} (ht : s.entries.item t = some (.resident r)) (n : Nat)
    {s' : Shard K V} (hs : s' = { s.setEntry t (.resident { r with referenced := n }) with
      hits := s'.hits, misses := s'.misses }) :
    Wrote c s s' t (some (.resident r)) (some (.resident { r with referenced := n })) := by
  obtain ⟨f1, f2, f3, f4⟩ := res_facts h ht
  have hocc : (s.entries.item t).isSome := by simp [ht]
  rw [hs]
  refine rewrite_spec h ht rfl rfl rfl ?_ rfl ?_ ?_ rfl rfl rfl rfl rfl rfl
  · rw [upd_self _ _ _ f4]
    have : (Shard.head { s.setEntry t (.resident { r with referenced := n }) with
        hits := s'.hits, misses := s'.misses }) = s.head := by funext i; cases i <;> rfl
    rw [this, ringMove_same]
    exact .setItem hocc _
  · rw [upd_self]
    · funext st; cases st <;> rfl
    · simp only; omega
  · funext st; cases st <;> rfl

theorem bump_wrote (h : Inv0 c s) {t : Nat} {r : Resident K V} (ht : s.entries.item t = some (.resident r)) (a b : Nat) :
    ∃ s' : Shard K V, s' = { (if r.referenced < MAX_F then
        s.setEntry t (.resident { r with referenced := r.referenced + 1 }) else s) with hits := a, misses := b } ∧
      Wrote c s s' t (some (.resident r)) (some (.resident { r with referenced := bumpRef r.referenced })) ∧
      s'.hits = a ∧ s'.misses = b ∧ s'.nextPlh = s.nextPlh := by
  refine ⟨_, rfl, ?_, rfl, rfl, ?_⟩
  · unfold bumpRef
    by_cases hr : r.referenced < MAX_F
    · simp only [hr, if_true]
      exact setRef_wrote h ht _ rfl
    · simp only [hr, if_false]
      have hu : Slab.Upd s.entries s.entries t (some (.resident r)) (some (.resident r)) := by
        refine ⟨ht, ?_, fun f _ => rfl⟩
        intro u; by_cases hu : u = t
        · subst hu; simp [ht]
        · simp [hu]
      refine ⟨⟨?_, h.idx, ⟨fun st => ?_, fun st => ?_, h.cnt.ghost⟩⟩, hu, rfl, rfl, rfl, rfl, ?_, ?_⟩
      · have : Shard.head { s with hits := a, misses := b } = s.head := by funext i; cases i <;> rfl
        rw [this]; exact h.str
      · rw [← h.cnt.num st]; cases st <;> rfl
      · rw [← h.cnt.wgt st]; cases st <;> rfl
      · exact h.idx.map_same ht (h.idx.mapped t _ ht (by simp)) rfl
      · have : Shard.head { s with hits := a, misses := b } = s.head := by funext i; cases i <;> rfl
        rw [this]
        simp only [Option.isSome_some, ringMove_same]
        exact .refl _ _ _
  · by_cases hr : r.referenced < MAX_F
    · simp only [hr, if_true]; rfl
    · simp only [hr, if_false]

theorem get_spec (h : Inv0 c s) {hh : UInt64} {eqv : K → Bool} (hq : Lawful c hh eqv) :
    (∃ t r s', s.get hh eqv = .ok (s', some r.value) ∧ s.entries.item t = some (.resident r) ∧ eqv r.key = true ∧
      Wrote c s s' t (some (.resident r)) (some (.resident { r with referenced := bumpRef r.referenced })) ∧
      s'.hits = s.hits + 1 ∧ s'.misses = s.misses ∧ s'.nextPlh = s.nextPlh) ∨
    (s.get hh eqv = .ok ({ s with misses := s.misses + 1 }, none) ∧
      ∀ t r, s.entries.item t = some (.resident r) → eqv r.key = false) := by
  rcases searchResident_spec h.idx hq with ⟨t, r, h1, h2, h3⟩ | ⟨h1, h2⟩
  · left
    obtain ⟨s', g1, g2, g3, g4, g5⟩ := bump_wrote h h2 (s.hits + 1) s.misses
    refine ⟨t, r, s', ?_, h2, h3, g2, g3, g4, g5⟩
    unfold get
    rw [h1]
    simp only [Res.ok_bind]
    congr 2
    rw [g1]
    by_cases hr : r.referenced < MAX_F
    · have : (r.referenced + 1) % 2 ^ 16 = r.referenced + 1 := by simp [MAX_F] at hr; omega
      simp only [hr, if_true, this]
      rfl
    · simp only [hr, if_false]
  · right
    refine ⟨?_, h2⟩
    unfold get
    rw [h1]; rfl

theorem peek_spec (h : Inv0 c s) {hh : UInt64} {eqv : K → Bool} (hq : Lawful c hh eqv) :
    (∃ t r, s.peek hh eqv = .ok (some r.value) ∧ s.contains hh eqv = .ok true ∧
      s.peekMut c hh eqv = .ok (some (t, c.weight r.key r.value)) ∧
      s.entries.item t = some (.resident r) ∧ eqv r.key = true) ∨
    (s.peek hh eqv = .ok none ∧ s.contains hh eqv = .ok false ∧ s.peekMut c hh eqv = .ok none ∧
      ∀ t r, s.entries.item t = some (.resident r) → eqv r.key = false) := by
  rcases searchResident_spec h.idx hq with ⟨t, r, h1, h2, h3⟩ | ⟨h1, h2⟩
  · left
    refine ⟨t, r, ?_, ?_, ?_, h2, h3⟩
    · unfold peek; rw [h1]; rfl
    · unfold contains; rw [h1]; rfl
    · unfold peekMut; rw [h1]; simp only [Res.ok_bind, peekTokenMut, Slab.get_eq, h2, Option.map_some]
  · right
    refine ⟨?_, ?_, ?_, h2⟩
    · unfold peek; rw [h1]; rfl
    · unfold contains; rw [h1]; rfl
    · unfold peekMut; rw [h1]; rfl

theorem getMut_spec (h : Inv0 c s) {hh : UInt64} {eqv : K → Bool} (hq : Lawful c hh eqv) :
    (∃ t r s', s.getMut c hh eqv = .ok (s', some (t, c.weight r.key r.value)) ∧
      s.entries.item t = some (.resident r) ∧ eqv r.key = true ∧
      Wrote c s s' t (some (.resident r)) (some (.resident { r with referenced := bumpRef r.referenced })) ∧
      s'.hits = s.hits + 1 ∧ s'.misses = s.misses ∧ s'.nextPlh = s.nextPlh) ∨
    (s.getMut c hh eqv = .ok ({ s with misses := s.misses + 1 }, none) ∧
      ∀ t r, s.entries.item t = some (.resident r) → eqv r.key = false) := by
  rcases searchResident_spec h.idx hq with ⟨t, r, h1, h2, h3⟩ | ⟨h1, h2⟩
  · left
    obtain ⟨s', g1, g2, g3, g4, g5⟩ := bump_wrote h h2 (s.hits + 1) s.misses
    refine ⟨t, r, s', ?_, h2, h3, g2, g3, g4, g5⟩
    unfold getMut
    rw [h1]
    simp only [Res.ok_bind, Slab.get_eq, h2, Option.map_some]
    congr 2
    rw [g1]
    by_cases hr : r.referenced < MAX_F
    · simp only [hr, if_true]; rfl
    · simp only [hr, if_false]
  · right
    refine ⟨?_, h2⟩
    unfold getMut
    rw [h1]; rfl

end Shard
end QuickCache
