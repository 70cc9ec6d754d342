import Verif.Proofs.Counters

/-!
# What scans for victims do to the counters
-/

namespace QuickCache
variable {K V RS : Type _} [DecidableEq K]
open Shard Unsync Spec

section
variable {c : Cfg K V RS} {s s' : Shard K V}

omit [DecidableEq K] in
theorem put_at [DecidableEq K] {α : Type _} (m : K → Option α) (k : K) (v : α) : put m k v k = some v := by simp [put]

omit [DecidableEq K] in
theorem put_ne [DecidableEq K] {α : Type _} (m : K → Option α) {k k' : K} (v : α) (h : k' ≠ k) : put m k v k' = m k' := by
  simp [put, h]

omit [DecidableEq K] in
theorem del_ne [DecidableEq K] {α : Type _} (m : K → Option α) {k k' : K} (h : k' ≠ k) : del m k k' = m k' := by
  simp [del, h]

/-- An unpinned item about which no lifecycle call is made is lowered once per visit. -/
theorem Spec.Scans.decay {m m' : K → Option (Resident K V)} {st st' : RS} {L : List (Event K V)} {tr : List (Visit K)}
    (h : Scans c m st L tr m' st') {k : K} : ∀ {r : Resident K V}, m k = some r → c.pinned k r.value = false →
      (∀ e ∈ L, eventKey e ≠ k) → r.referenced ≤ 2 →
      ∃ r', m' k = some r' ∧ r'.value = r.value ∧ r'.referenced + (tr.map Visit.key).count k = r.referenced := by
  induction h with
  | nil => intro r h1 _ _ _; exact ⟨r, h1, rfl, by simp⟩
  | @pass m m' st st' k' r' log tr here hot kept rest ih =>
    intro r h1 h2 h3 h4
    by_cases hk : k' = k
    · subst hk
      rw [here] at h1; cases h1
      have hne : r'.referenced ≠ 0 := by
        rcases kept with h | h
        · rw [h2] at h; cases h
        · exact h
      obtain ⟨r', g1, g2, g3⟩ := ih (put_at _ _ _) h2 h3 (by simp only; omega)
      refine ⟨r', g1, g2, ?_⟩
      simp only [List.map_cons, Visit.key, List.count_cons_self] at g3 ⊢
      omega
    · obtain ⟨r', g1, g2, g3⟩ := ih (by rw [put_ne _ _ (Ne.symm hk)]; exact h1) h2 h3 h4
      refine ⟨r', g1, g2, ?_⟩
      simp only [List.map_cons, Visit.key]
      rw [List.count_cons_of_ne hk]
      exact g3
  | @promote m m' st st' k' r' log tr here cold referenced rest ih =>
    intro r h1 h2 h3 h4
    by_cases hk : k' = k
    · subst hk
      rw [here] at h1; cases h1
      obtain ⟨r', g1, g2, g3⟩ := ih (put_at _ _ _) h2 h3 (by simp only; omega)
      refine ⟨r', g1, g2, ?_⟩
      simp only [List.map_cons, Visit.key, List.count_cons_self] at g3 ⊢
      omega
    · obtain ⟨r', g1, g2, g3⟩ := ih (by rw [put_ne _ _ (Ne.symm hk)]; exact h1) h2 h3 h4
      refine ⟨r', g1, g2, ?_⟩
      simp only [List.map_cons, Visit.key]
      rw [List.count_cons_of_ne hk]
      exact g3
  | @spare m m' st st1 st' k' r' v' log tr here unref heavy free before light rest ih =>
    intro r h1 h2 h3 h4
    have hk : k' ≠ k := h3 (.beforeEvict k' r'.value v') (by simp)
    obtain ⟨r', g1, g2, g3⟩ := ih (by rw [put_ne _ _ (Ne.symm hk)]; exact h1) h2
      (fun e he => h3 e (by simp [he])) h4
    refine ⟨r', g1, g2, ?_⟩
    simp only [List.map_cons, Visit.key]
    rw [List.count_cons_of_ne hk]
    exact g3
  | @evict m m' st st1 st' k' r' v' log tr here unref heavy free before still rest ih =>
    intro r h1 h2 h3 h4
    have hk : k' ≠ k := h3 (.beforeEvict k' r'.value v') (by simp)
    obtain ⟨r', g1, g2, g3⟩ := ih (by rw [del_ne _ (Ne.symm hk)]; exact h1) h2
      (fun e he => h3 e (by simp [he])) h4
    refine ⟨r', g1, g2, ?_⟩
    simp only [List.map_cons, Visit.key]
    rw [List.count_cons_of_ne hk]
    exact g3

/-- An item is spared as many visits as its counter says before it becomes a victim. -/
theorem Spec.Scans.due {m m' : K → Option (Resident K V)} {st st' : RS} {L : List (Event K V)} {tr : List (Visit K)}
    (h : Scans c m st L tr m' st') {k : K} : ∀ {r : Resident K V}, m k = some r → (∃ e ∈ L, eventKey e = k) →
      ∃ tr1 tr2, tr = tr1 ++ .victim k :: tr2 ∧ .victim k ∉ tr1 ∧ min r.referenced 2 ≤ (tr1.map Visit.key).count k := by
  induction h with
  | nil => rintro r - ⟨e, he, -⟩; simp at he
  | @pass m m' st st' k' r' log tr here hot kept rest ih =>
    intro r h1 h2
    by_cases hk : k' = k
    · subst hk
      rw [here] at h1; cases h1
      obtain ⟨tr1, tr2, rfl, g1, g2⟩ := ih (put_at _ _ _) h2
      refine ⟨.pass k' :: tr1, tr2, rfl, by simp [g1], ?_⟩
      simp only [List.map_cons, Visit.key, List.count_cons_self] at g2 ⊢
      omega
    · obtain ⟨tr1, tr2, rfl, g1, g2⟩ := ih (by rw [put_ne _ _ (Ne.symm hk)]; exact h1) h2
      refine ⟨.pass k' :: tr1, tr2, rfl, by simp [g1], ?_⟩
      simp only [List.map_cons, Visit.key]
      rw [List.count_cons_of_ne hk]
      exact g2
  | @promote m m' st st' k' r' log tr here cold referenced rest ih =>
    intro r h1 h2
    by_cases hk : k' = k
    · subst hk
      rw [here] at h1; cases h1
      obtain ⟨tr1, tr2, rfl, g1, g2⟩ := ih (put_at _ _ _) h2
      refine ⟨.promote k' :: tr1, tr2, rfl, by simp [g1], ?_⟩
      simp only [List.map_cons, Visit.key, List.count_cons_self] at g2 ⊢
      omega
    · obtain ⟨tr1, tr2, rfl, g1, g2⟩ := ih (by rw [put_ne _ _ (Ne.symm hk)]; exact h1) h2
      refine ⟨.promote k' :: tr1, tr2, rfl, by simp [g1], ?_⟩
      simp only [List.map_cons, Visit.key]
      rw [List.count_cons_of_ne hk]
      exact g2
  | @spare m m' st st1 st' k' r' v' log tr here unref heavy free before light rest ih =>
    intro r h1 h2
    by_cases hk : k' = k
    · subst hk
      rw [here] at h1; cases h1
      exact ⟨[], tr, rfl, by simp, by simp [unref]⟩
    · obtain ⟨tr1, tr2, rfl, g1, g2⟩ := ih (by rw [put_ne _ _ (Ne.symm hk)]; exact h1) (by
        obtain ⟨e, he, h⟩ := h2
        rcases List.mem_cons.mp he with rfl | he
        · exact absurd h hk
        · exact ⟨e, he, h⟩)
      refine ⟨.victim k' :: tr1, tr2, rfl, by simp [g1, Ne.symm hk], ?_⟩
      simp only [List.map_cons, Visit.key]
      rw [List.count_cons_of_ne hk]
      exact g2
  | @evict m m' st st1 st' k' r' v' log tr here unref heavy free before still rest ih =>
    intro r h1 h2
    by_cases hk : k' = k
    · subst hk
      rw [here] at h1; cases h1
      exact ⟨[], tr, rfl, by simp, by simp [unref]⟩
    · obtain ⟨tr1, tr2, rfl, g1, g2⟩ := ih (by rw [del_ne _ (Ne.symm hk)]; exact h1) (by
        obtain ⟨e, he, h⟩ := h2
        rcases List.mem_cons.mp he with rfl | he
        · exact absurd h hk
        · rcases List.mem_cons.mp he with rfl | he
          · exact absurd h hk
          · exact ⟨e, he, h⟩)
      refine ⟨.victim k' :: tr1, tr2, rfl, by simp [g1, Ne.symm hk], ?_⟩
      simp only [List.map_cons, Visit.key]
      rw [List.count_cons_of_ne hk]
      exact g2

/-- The first visit of a referenced item of the cold queue promotes it. -/
theorem Spec.Scans.first {m m' : K → Option (Resident K V)} {st st' : RS} {L : List (Event K V)} {tr : List (Visit K)}
    (h : Scans c m st L tr m' st') {k : K} {r : Resident K V} (h1 : m k = some r) (h2 : r.state = .cold)
    (h3 : r.referenced ≠ 0) {v : Visit K} (hv : tr.find? (fun v => v.key = k) = some v) : v = .promote k := by
  induction h with
  | nil => simp at hv
  | @pass m m' st st' k' r' log tr here hot kept rest ih =>
    by_cases hk : k' = k
    · subst hk
      rw [here] at h1; cases h1
      rw [h2] at hot; cases hot
    · exact ih (by rw [put_ne _ _ (Ne.symm hk)]; exact h1) (by simpa [List.find?_cons, Visit.key, hk] using hv)
  | @promote m m' st st' k' r' log tr here cold referenced rest ih =>
    by_cases hk : k' = k
    · subst hk
      simp [Visit.key] at hv
      exact hv.symm
    · exact ih (by rw [put_ne _ _ (Ne.symm hk)]; exact h1) (by simpa [List.find?_cons, Visit.key, hk] using hv)
  | @spare m m' st st1 st' k' r' v' log tr here unref heavy free before light rest ih =>
    by_cases hk : k' = k
    · subst hk
      rw [here] at h1; cases h1
      exact absurd unref h3
    · exact ih (by rw [put_ne _ _ (Ne.symm hk)]; exact h1) (by simpa [List.find?_cons, Visit.key, hk] using hv)
  | @evict m m' st st1 st' k' r' v' log tr here unref heavy free before still rest ih =>
    by_cases hk : k' = k
    · subst hk
      rw [here] at h1; cases h1
      exact absurd unref h3
    · exact ih (by rw [del_ne _ (Ne.symm hk)]; exact h1) (by simpa [List.find?_cons, Visit.key, hk] using hv)

/-- An admitted storing call with the visits of its scan. -/
theorem StoreEff.scanned {target : Nat} {k : K} {v : V} {str : Strategy} {q : Req K V RS} (hi : Inv0 c s)
    (h : StoreEff c s c.begin k v str (s', q, none)) (ht : s.weightTargetHot = target) (hadm : Admissible c target k v) :
    ∃ st r L tr, q.log = preamble c target s.contents k v ++ L ∧
      Threads c c.beginReq (preamble c target s.contents k v) st ∧
      r.key = k ∧ r.value = enterValue c target k v ∧ r.referenced ≤ 2 ∧
      (∀ r0, s.info k = some r0 →
        r = { r0 with value := enterValue c target k v, referenced := insRef str r0.referenced }) ∧
      (Scans c (Spec.put s.info k r) st L tr s'.info q.st ∨
        ∃ M, Scans c s.info st L tr M q.st ∧ s'.info = Spec.put M k r) := by
  obtain ⟨q1, v1, he, adm, hp⟩ := h.admissible ht hadm
  obtain ⟨e1, e2, e3⟩ := he.value ht
  have hkey : ∀ r0, s.info k = some r0 → r0.key = k := fun r0 h0 => ((hi.rep k r0).mp h0).1
  rcases hp.scans hi with ⟨r0, L, tr, h1, h2, h3⟩ | ⟨h1, hstr, r, L, tr, hk, hv, href, h2, h3⟩
  · have hc : s.contents k = some r0.value := by simp [Shard.contents_eq, h1]
    refine ⟨_, _, L, tr, ?_, ?_, rfl, e1.symm, insRef_le str r0.referenced, fun r1 hr1 => ?_, Or.inl h3⟩
    · unfold preamble; rw [h2, e3, hc]; simp
    · unfold preamble; rw [← e3, hc]; exact e2.append (.on .nil)
    · rw [h1] at hr1; cases hr1; rw [e1]; congr 1; exact (hkey _ h1).symm
  · have hc : s.contents k = none := by simp [Shard.contents_eq, h1]
    refine ⟨q1.st, r, L, tr, ?_, ?_, hk, by rw [hv, e1], href, fun r1 hr1 => ?_, ?_⟩
    · unfold preamble; rw [h2, e3, hc]; simp
    · unfold preamble; rw [← e3, hc]; simpa using e2
    · rw [h1] at hr1; cases hr1
    · rcases h3 with h3 | h3
      · exact Or.inr h3
      · exact Or.inl h3

end
end QuickCache
