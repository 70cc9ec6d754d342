import Verif.Proofs.Weight

/-!
# Storing calls: which lifecycle calls are made, and when none
-/

namespace QuickCache
variable {K V RS : Type _} [DecidableEq K]
open Shard Unsync Spec

section
variable {c : Cfg K V RS} {s s' : Shard K V}

omit [DecidableEq K] in
theorem Spec.Threads.append {st st1 st2 : RS} {L1 L2 : List (Event K V)} (h1 : Threads c st L1 st1)
    (h2 : Threads c st1 L2 st2) : Threads c st (L1 ++ L2) st2 := by
  induction h1 with
  | nil => exact h2
  | before call rest ih => exact .before call (ih h2)
  | on rest ih => exact .on (ih h2)

theorem Spec.Evicts.threads {m m' : K → Option V} {st st' : RS} {L : List (Event K V)} (h : Evicts c m st L m' st') :
    Threads c st L st' := by
  induction h with
  | nil => exact .nil
  | spare here heavy free before light rest ih => exact .before before ih
  | evict here heavy free before still rest ih => exact .before before (.on ih)

/-- What storing an admitted item does, with everything that follows from it fitting into the capacity. -/
theorem PutEff.whole {q q' : Req K V RS} {k : K} {v : V} {str : Strategy} (hi : Inv0 c s)
    (h : PutEff c s q k v str s' q') :
    ∃ st L, q'.log = q.log ++ (s.contents k).toList.map (.onEvict k) ++ L ∧
      Threads c q.st ((s.contents k).toList.map (.onEvict k)) st ∧
      Evicts c (put s.contents k v) st L s'.contents q'.st ∧
      (s.weightHot + s.weightCold + c.weight k v ≤ s.weightCapacity + weightAt c s.contents k → L = []) := by
  have hf := h
  obtain ⟨s1, s2, qa, qb, t, old, r, pre, wrote, hk, hv, href, hold, post, fits, fresh, done, same, once⟩ := hf
  have hw : totF c old = weightAt c s.contents k := by
    rcases hold with ⟨r0, rfl, h0, rfl, -⟩ | ⟨ho, hno, -⟩
    · unfold weightAt
      rw [slot_contents hi wrote.upd.before h0]
      simp [totF, h0]
    · unfold weightAt
      rw [hi.contents_none.mpr hno]
      cases old with
      | none => rfl
      | some e => cases e with
        | resident r0 => exact absurd rfl (ho r0)
        | placeholder p => rfl
        | ghost g => rfl
  rw [hw] at fits
  rcases h.evicts hi with ⟨o, L, h1, h2, h3⟩ | ⟨h1, hstr, L1, L2, m1, st1, h2, h3, h4, h5⟩
  · refine ⟨_, L, by simp [h1, h2], by rw [h1]; exact .on .nil, h3, fun hle => ?_⟩
    obtain ⟨rfl, rfl, rfl, rfl⟩ := fits hle
    rcases hold with ⟨r0, rfl, h0, -, -, rfl, -⟩ | ⟨ho, hno, -⟩
    · simp [Req.on] at h2
      exact h2.2
    · rw [hi.contents_none.mpr hno] at h1; cases h1
  · refine ⟨q.st, L1 ++ L2, by simp [h1, h2], by rw [h1]; exact .nil, Evicts.merge h1 h3 h4, fun hle => ?_⟩
    obtain ⟨rfl, rfl, rfl, rfl⟩ := fits hle
    rcases hold with ⟨r0, rfl, h0, -⟩ | ⟨ho, hno, rfl, -⟩
    · rw [slot_contents hi wrote.upd.before h0] at h1; cases h1
    · simpa using h2

/-- The item as it is stored if everything fits, with its queue and counter. -/
theorem PutEff.info_fits {q q' : Req K V RS} {k : K} {v : V} {str : Strategy} (hi : Inv0 c s)
    (h : PutEff c s q k v str s' q')
    (hle : s.weightHot + s.weightCold + c.weight k v ≤ s.weightCapacity + weightAt c s.contents k)
    {r0 : Resident K V} (hk : s.info k = some r0) :
    s'.info = put s.info k { r0 with value := v, referenced := insRef str r0.referenced } := by
  obtain ⟨s1, s2, qa, qb, t, old, r, pre, wrote, hk', hv, href, hold, post, fits, fresh, done, same, once⟩ := h
  rcases hold with ⟨r1, rfl, h0, rfl, -, -, hst, hre⟩ | ⟨ho, hno, -⟩
  · have hi1 := hi.info_slot wrote.upd.before
    rw [h0, hk] at hi1
    cases hi1
    have hw : weightAt c s1.contents k = totF c (some (.resident r0)) := by
      unfold weightAt
      rw [slot_contents hi wrote.upd.before h0]
      simp [totF, h0]
    rw [hw] at hle
    obtain ⟨-, rfl, rfl, rfl⟩ := fits hle
    rw [wrote.info_put hi (by intro r' hr'; cases hr'; rw [h0, hk']), hk']
    congr 1
    cases r
    simp only at hk' hv hst hre
    rw [hk', hv, hst, hre, h0]
  · rw [hi.info_none.mpr hno] at hk; cases hk

/-- A key without any trace of it (resident, placeholder or ghost) is not evicted by its own insertion. -/
theorem PutEff.contents_fresh {q q' : Req K V RS} {k : K} {v : V} {str : Strategy}
    (h : PutEff c s q k v str s' q') (hk : NoKey s k) (hg : NoGhost s (c.hash k)) : s'.contents k = some v := by
  obtain ⟨s1, s2, qa, qb, t, old, r, pre, wrote, hk', hv, href, hold, post, fits, fresh, done, same, once⟩ := h
  obtain ⟨rfl, -⟩ := fresh hk hg
  exact (slot_contents wrote.inv wrote.upd.after hk').trans (by rw [hv])

omit [DecidableEq K] in
theorem Entering.value {target : Nat} {q1 : Req K V RS} {k : K} {v v1 : V} (h : Entering c s c.begin k v q1 v1)
    (ht : s.weightTargetHot = target) : enterValue c target k v = v1 ∧ Threads c c.beginReq q1.log q1.st ∧
      q1.log = if target < c.weight k v ∧ c.pinned k v = false then [.beforeEvict k v (enterValue c target k v)] else [] := by
  subst ht
  unfold enterValue
  cases h with
  | direct hw => rw [if_neg hw, if_neg hw]; exact ⟨rfl, .nil, rfl⟩
  | before hw hp hb =>
    rw [if_pos ⟨hw, hp⟩, if_pos ⟨hw, hp⟩]
    simp only [Req.before, Cfg.begin, Prod.mk.injEq, List.nil_append] at hb
    obtain ⟨rfl, rfl⟩ := hb
    exact ⟨rfl, .before rfl .nil, rfl⟩

omit [DecidableEq K] in
theorem Entering.weight_value {target : Nat} {q1 : Req K V RS} {k : K} {v v1 : V} (h : Entering c s c.begin k v q1 v1)
    (ht : s.weightTargetHot = target) : enterWeight c target k v = c.weight k v1 := by
  rw [← h.weight, addWeight_begin, ht]

omit [DecidableEq K] in
/-- A storing effect that is not a rejection. -/
theorem StoreEff.admissible {target : Nat} {k : K} {v : V} {str : Strategy} {q : Req K V RS}
    (h : StoreEff c s c.begin k v str (s', q, none)) (ht : s.weightTargetHot = target) (hadm : Admissible c target k v) :
    ∃ q1 v1, Entering c s c.begin k v q1 v1 ∧ (q1 = c.begin ∨ c.weight k v1 ≤ s.weightTargetHot) ∧
      PutEff c s q1 k v1 str s' q := by
  generalize hx : (s', q, none) = x at h
  cases h with
  | put q1 v1 hent' adm hp => cases hx; exact ⟨q1, v1, hent', adm, hp⟩
  | reject q1 v1 hw0 hp hb hw1 hrej =>
    exfalso
    rcases hadm with h | h
    · rw [h] at hp; cases hp
    · rw [(Entering.before hw0 hp hb).weight_value ht] at h
      omega
  | absent => cases hx

omit [DecidableEq K] in
/-- A rejection. -/
theorem StoreEff.inadmissible {target : Nat} {k : K} {v : V} {str : Strategy} {q : Req K V RS}
    (h : StoreEff c s c.begin k v str (s', q, none)) (ht : s.weightTargetHot = target) (hadm : ¬ Admissible c target k v) :
    ∃ q1 v1 q', s.weightTargetHot < c.weight k v ∧ c.pinned k v = false ∧ c.begin.before c k v = (q1, v1) ∧
      RejEff c s q1 k s' q' ∧ q = q'.on c k v1 := by
  generalize hx : (s', q, none) = x at h
  cases h with
  | put q1 v1 hent' adm hp =>
    exfalso
    apply hadm
    cases hent' with
    | direct hw =>
      rcases Nat.lt_or_ge target (c.weight k v) with h1 | h1
      · left
        cases hpin : c.pinned k v with
        | true => rfl
        | false => exact absurd ⟨by rw [ht]; exact h1, hpin⟩ hw
      · right
        unfold enterWeight
        rw [if_neg (by omega)]
        exact h1
    | before hw hpin hb =>
      right
      rw [(Entering.before hw hpin hb).weight_value ht, ← ht]
      rcases adm with rfl | h
      · have := congrArg (fun x => x.1.log) hb
        simp [Req.before] at this
      · exact h
  | reject q1 v1 hw0 hp hb hw1 hrej =>
    cases str with
    | insert => cases hx; exact ⟨q1, v1, _, hw0, hp, hb, hrej, rfl⟩
    | replace soft => cases hx
  | absent => cases hx

/-- The complete behaviour of an admitted storing call. -/
theorem StoreEff.whole {target : Nat} {k : K} {v : V} {str : Strategy} {q : Req K V RS} (hi : Inv0 c s)
    (h : StoreEff c s c.begin k v str (s', q, none)) (ht : s.weightTargetHot = target) (hadm : Admissible c target k v) :
    ∃ st L, q.log = preamble c target s.contents k v ++ L ∧ Threads c c.beginReq (preamble c target s.contents k v) st ∧
      Evicts c (Spec.put s.contents k (enterValue c target k v)) st L s'.contents q.st ∧
      (s.weightHot + s.weightCold + enterWeight c target k v ≤ s.weightCapacity + weightAt c s.contents k → L = []) := by
  obtain ⟨q1, v1, he, adm, hp⟩ := h.admissible ht hadm
  obtain ⟨e1, e2, e3⟩ := he.value ht
  obtain ⟨st, L, h1, h2, h3, h4⟩ := hp.whole hi
  refine ⟨st, L, ?_, ?_, by rw [e1]; exact h3, by rw [he.weight_value ht]; exact h4⟩
  · rw [h1]; unfold preamble; rw [e3]
  · unfold preamble; rw [← e3]; exact e2.append h2

end
end QuickCache
