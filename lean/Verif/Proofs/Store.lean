import Verif.Proofs.Abs

/-!
# One description of all storing operations

`insert`, `replace` and filling a placeholder are brought into one form.
-/

namespace QuickCache
variable {K V RS : Type _}
open Shard

/-- Storing `v` under `k` (already past the overweight check): possibly an eviction first, the write, possibly an
eviction afterwards. -/
inductive PutEff (c : Cfg K V RS) (s : Shard K V) (q : Req K V RS) (k : K) (v : V) (str : Strategy) (s' : Shard K V)
    (q' : Req K V RS) : Prop
  | mk (s1 s2 : Shard K V) (qa qb : Req K V RS) (t : Nat) (old : Option (Entry K V)) (r : Resident K V)
      (pre : EvPost c s q s1 qa)
      (wrote : Wrote c s1 s2 t old (some (.resident r)))
      (hk : r.key = k) (hv : r.value = v) (href : r.referenced ≤ MAX_F)
      (hold : (∃ r0, old = some (.resident r0) ∧ r0.key = k ∧ s1 = s ∧ qa = q ∧ qb = q.on c k r0.value ∧
          r.state = r0.state ∧ r.referenced = insRef str r0.referenced) ∨
        ((∀ r0, old ≠ some (.resident r0)) ∧ NoRes s k ∧ qb = qa ∧ str = .insert))
      (post : EvPost c s2 qb s' q')
      (fits : s.weightHot + s.weightCold + c.weight k v ≤ s.weightCapacity + totF c old →
        s1 = s ∧ qa = q ∧ s' = s2 ∧ q' = qb)
      (fresh : NoKey s k → NoGhost s (c.hash k) → s' = s2 ∧ q' = qb)
      (done : c.weight k v = 0 ∨ s'.weightHot + s'.weightCold ≤ s'.weightCapacity ∨
        ∀ t r', s'.entries.item t = some (.resident r') → c.weight r'.key r'.value ≠ 0 →
          c.pinned r'.key r'.value = true ∨ (r'.key = k ∧ r'.value = v))
      (same : Same s s')
      (once : (s1 = s ∧ qa = q) ∨ (s' = s2 ∧ q' = qb)) : PutEff c s q k v str s' q'

/-- The overweight check: the request and value that go on. -/
inductive Entering (c : Cfg K V RS) (s : Shard K V) (q : Req K V RS) (k : K) (v : V) : Req K V RS → V → Prop
  | direct (hw : ¬ (s.weightTargetHot < c.weight k v ∧ c.pinned k v = false)) : Entering c s q k v q v
  | before {q1 : Req K V RS} {v1 : V} (hw : s.weightTargetHot < c.weight k v) (hp : c.pinned k v = false)
      (hb : q.before c k v = (q1, v1)) : Entering c s q k v q1 v1

/-- What a rejection does to the previous entry of the key. -/
inductive RejEff (c : Cfg K V RS) (s : Shard K V) (q : Req K V RS) (k : K) : Shard K V → Req K V RS → Prop
  | old {s' : Shard K V} (t : Nat) (r : Resident K V) (hk : r.key = k) (same : Same s s')
      (wrote : Wrote c s s' t (some (.resident r)) none) : RejEff c s q k s' (q.on c k r.value)
  | plh {s' : Shard K V} (t : Nat) (ph : Placeholder K) (hk : ph.key = k) (hno : NoRes s k) (same : Same s s')
      (wrote : Wrote c s s' t (some (.placeholder ph)) none) : RejEff c s q k s' q
  | none (hno : NoRes s k) : RejEff c s q k s q

/-- The outcomes of a storing operation. -/
inductive StoreEff (c : Cfg K V RS) (s : Shard K V) (q : Req K V RS) (k : K) (v : V) (str : Strategy) :
    Shard K V × Req K V RS × Option V → Prop
  | put {s' : Shard K V} {q' : Req K V RS} (q1 : Req K V RS) (v1 : V) (he : Entering c s q k v q1 v1)
      (adm : q1 = q ∨ c.weight k v1 ≤ s.weightTargetHot)
      (hp : PutEff c s q1 k v1 str s' q') : StoreEff c s q k v str (s', q', none)
  | reject {s' : Shard K V} {q' : Req K V RS} (q1 : Req K V RS) (v1 : V) (hw : s.weightTargetHot < c.weight k v)
      (hp : c.pinned k v = false) (hb : q.before c k v = (q1, v1)) (hw1 : s.weightTargetHot < c.weight k v1)
      (hr : RejEff c s q1 k s' q') :
      StoreEff c s q k v str
        (match str with
         | .insert => (s', q'.on c k v1, none)
         | .replace _ => (s', q', some v1))
  | absent (q1 : Req K V RS) (v1 : V) (he : Entering c s q k v q1 v1) (soft : Bool) (hstr : str = .replace soft)
      (hno : NoRes s k) : StoreEff c s q k v str (s, q1, some v1)

theorem insRef_le (str : Strategy) (n : Nat) : insRef str n ≤ MAX_F := by unfold insRef; omega

section
variable {c : Cfg K V RS} {s : Shard K V}

theorem Shard.Admit.putEff {q : Req K V RS} {k : K} {v : V} {str : Strategy} {x : Shard K V × Req K V RS × Option V}
    (hi : Inv0 c s) (h : Admit c s q k v str x) :
    (∃ s' q', x = (s', q', none) ∧ PutEff c s q k v str s' q') ∨
    (∃ soft, str = .replace soft ∧ NoRes s k ∧ x = (s, q, some v)) := by
  have stuckDone : ∀ {s3 s' : Shard K V} {qb q' : Req K V RS}, AfterEvict c s3 qb s' q' →
      c.weight k v = 0 ∨ s'.weightHot + s'.weightCold ≤ s'.weightCapacity ∨
        ∀ t r', s'.entries.item t = some (.resident r') → c.weight r'.key r'.value ≠ 0 →
          c.pinned r'.key r'.value = true ∨ (r'.key = k ∧ r'.value = v) := by
    intro s3 s' qb q' ha
    rcases ha.done with h | h
    · exact Or.inr (Or.inl h)
    · exact Or.inr (Or.inr (fun t r' h1 h2 => Or.inl (h t r' h1 h2)))
  cases h with
  | overwrite t r s3 s' q' ht hk same wrote after =>
    left
    refine ⟨s', q', rfl, .mk s s3 q (q.on c r.key r.value) t _ _ (.refl hi q) wrote rfl rfl (insRef_le _ _)
      (Or.inl ⟨r, rfl, hk, rfl, rfl, by rw [hk], rfl, rfl⟩) after.post (fun hf => ?_) (fun h1 _ => ?_)
      (stuckDone after) (same.trans after.post.same) (Or.inl ⟨rfl, rfl⟩)⟩
    · have := wrote.total hi
      have hc := same.capacity
      simp only [totF] at this hf
      obtain ⟨a, b⟩ := after.fits (by omega)
      exact ⟨rfl, rfl, a, b⟩
    · exact absurd (by simp [keyAt, ht, keyOf, hk]) (h1 _ t (hi.idx.mapped t _ ht (by simp)))
  | revive t s3 s' q' hstr ht hk same wrote after =>
    left
    refine ⟨s', q', rfl, .mk s s3 q q t _ _ (.refl hi q) wrote rfl rfl (Nat.zero_le _)
      (Or.inr ⟨by simp, hk.noRes hi, rfl, hstr⟩) after.post (fun hf => ?_) (fun _ h2 => absurd ht (h2 t))
      (stuckDone after) (same.trans after.post.same) (Or.inl ⟨rfl, rfl⟩)⟩
    have := wrote.total hi
    have hc := same.capacity
    simp only [totF] at this hf
    obtain ⟨a, b⟩ := after.fits (by omega)
    exact ⟨rfl, rfl, a, b⟩
  | fill t ph s3 s' q' hstr ht hm hk hno same wrote after =>
    left
    refine ⟨s', q', rfl, .mk s s3 q q t _ _ (.refl hi q) wrote rfl rfl (by simp [MAX_F])
      (Or.inr ⟨by simp, hno, rfl, hstr⟩) after.post (fun hf => ?_) (fun h1 _ => ?_)
      (stuckDone after) (same.trans after.post.same) (Or.inl ⟨rfl, rfl⟩)⟩
    · have := wrote.total hi
      have hc := same.capacity
      simp only [totF] at this hf
      obtain ⟨a, b⟩ := after.fits (by omega)
      exact ⟨rfl, rfl, a, b⟩
    · exact absurd (by simp [keyAt, ht, keyOf, hk]) (h1 _ t hm)
  | fresh t st s1 s' q' hstr hk hg post done fits hst same wrote run =>
    left
    refine ⟨s', q', rfl, .mk s1 s' q' q' t _ _ post wrote rfl rfl (Nat.zero_le _)
      (Or.inr ⟨by simp, hk.noRes hi, rfl, hstr⟩) (.refl wrote.inv q') (fun hf => ?_) (fun _ _ => ⟨rfl, rfl⟩)
      ?_ same (Or.inr ⟨rfl, rfl⟩)⟩
    · simp only [totF] at hf
      obtain ⟨a, b⟩ := fits (by omega)
      exact ⟨a, b, rfl, rfl⟩
    · right
      have ht := wrote.total post.inv
      have hc := same.capacity
      have hc' := post.same.capacity
      simp only [totF] at ht
      rcases done with h | h
      · left; omega
      · right
        intro u r' hu hw
        by_cases hut : u = t
        · subst hut
          rw [wrote.upd.after] at hu; cases hu
          exact Or.inr ⟨rfl, rfl⟩
        · rw [wrote.upd.other hut] at hu
          exact Or.inl (h u r' hu hw)
  | absent soft hstr hno => right; exact ⟨soft, hstr, hno, rfl⟩

theorem Shard.Inserted.storeEff {q : Req K V RS} {k : K} {v : V} {str : Strategy} {x : Shard K V × Req K V RS × Option V}
    (hi : Inv0 c s) (h : Inserted c s q k v str x) : StoreEff c s q k v str x := by
  cases h with
  | direct hw ha =>
    rcases ha.putEff hi with ⟨s', q', rfl, hp⟩ | ⟨soft, h1, h2, rfl⟩
    · exact .put q v (.direct hw) (Or.inl rfl) hp
    · exact .absent q v (.direct hw) soft h1 h2
  | shrunk q1 v1 hw hp hb hw1 ha =>
    rcases ha.putEff hi with ⟨s', q', rfl, hp'⟩ | ⟨soft, h1, h2, rfl⟩
    · exact .put q1 v1 (.before hw hp hb) (Or.inr hw1) hp'
    · exact .absent q1 v1 (.before hw hp hb) soft h1 h2
  | rejected q1 v1 hw hp hb hw1 ha =>
    cases ha with
    | evictOld t r s' ht hk same wrote =>
      have := StoreEff.reject (str := str) q1 v1 hw hp hb hw1 (.old t r hk same wrote)
      cases str <;> simpa [hk] using this
    | noOld hno =>
      have := StoreEff.reject (str := str) q1 v1 hw hp hb hw1 (.none hno)
      cases str <;> simpa using this

theorem plh_noRes (hi : Inv0 c s) {t : Nat} {ph : Placeholder K} (ht : s.entries.item t = some (.placeholder ph))
    {hh : UInt64} (hm : (hh, t) ∈ s.map) : NoRes s ph.key := by
  intro u r hu hk
  have := hi.idx.uniq _ u _ t ph.key (hi.idx.mapped u _ hu (by simp)) hm (by simp [keyAt, hu, keyOf, hk])
    (by simp [keyAt, ht, keyOf])
  subst this
  rw [ht] at hu; cases hu

theorem Shard.Replaced.storeEff {q : Req K V RS} {p : Plh} {refd : Bool} {v : V} {x : Shard K V × Req K V RS × Option V}
    {ph : Placeholder K} (hi : Inv0 c s) (hp : Holds c s p ph) {hh : UInt64} (hm : (hh, p.idx) ∈ s.map)
    (h : Replaced c s q p refd v x) : StoreEff c s q ph.key v .insert x := by
  have hno := plh_noRes hi hp.1 hm
  have hkey : ∀ ph', Holds c s p ph' → ph' = ph := by
    intro ph' h'
    have := h'.1.symm.trans hp.1
    cases this; rfl
  have mkPut : ∀ {q1 : Req K V RS} {v1 : V} {st : St} {s3 s' : Shard K V} {q' : Req K V RS}, Same s s3 →
      Wrote c s s3 p.idx (some (.placeholder ph)) (some (.resident
        { key := ph.key, value := v1, state := st, referenced := if refd then 1 else 0 })) →
      (AfterEvict c s3 q1 s' q' ∨ (c.weight ph.key v1 = 0 ∧ s' = s3 ∧ q' = q1)) →
      PutEff c s q1 ph.key v1 .insert s' q' := by
    intro q1 v1 st s3 s' q' same wrote after
    have post : EvPost c s3 q1 s' q' := by
      rcases after with h | ⟨-, rfl, rfl⟩
      · exact h.post
      · exact .refl wrote.inv _
    refine .mk s s3 q1 q1 p.idx _ _ (.refl hi q1) wrote rfl rfl (by cases refd <;> simp [MAX_F])
      (Or.inr ⟨by simp, hno, rfl, rfl⟩) post (fun hf => ?_) (fun h1 _ => ?_) ?_ (same.trans post.same) (Or.inl ⟨rfl, rfl⟩)
    · have := wrote.total hi
      have hc := same.capacity
      simp only [totF] at this hf
      rcases after with h | ⟨-, rfl, rfl⟩
      · obtain ⟨a, b⟩ := h.fits (by omega)
        exact ⟨rfl, rfl, a, b⟩
      · exact ⟨rfl, rfl, rfl, rfl⟩
    · exact absurd (by simp [keyAt, hp.1, keyOf]) (h1 _ p.idx hm)
    · rcases after with h | ⟨h, -⟩
      · rcases h.done with h | h
        · exact Or.inr (Or.inl h)
        · exact Or.inr (Or.inr (fun t r' h1 h2 => Or.inl (h t r' h1 h2)))
      · exact Or.inl h
  cases h with
  | gone hg => exact absurd hp (hg ph)
  | direct ph' st s3 s' q' hp' hw same wrote after level light =>
    obtain rfl := hkey ph' hp'
    exact .put q v (.direct hw) (Or.inl rfl) (mkPut same wrote after)
  | shrunk ph' st q1 v1 s3 s' q' hp' hw hpin hb hw1 same wrote after level light =>
    obtain rfl := hkey ph' hp'
    exact .put q1 v1 (.before hw hpin hb) (Or.inr hw1) (mkPut same wrote after)
  | rejected ph' q1 v1 s' hp' hw hpin hb hw1 same wrote =>
    obtain rfl := hkey ph' hp'
    exact StoreEff.reject (str := .insert) q1 v1 hw hpin hb hw1 (.plh p.idx ph' rfl hno same wrote)

theorem Entering.weight {q q1 : Req K V RS} {k : K} {v v1 : V} (h : Entering c s q k v q1 v1) :
    addWeight c s q k v = c.weight k v1 := by
  unfold addWeight
  cases h with
  | direct hw => rw [if_neg hw]
  | before hw hp hb => rw [if_pos ⟨hw, hp⟩, hb]

theorem PutEff.total_le {q q' : Req K V RS} {k : K} {v : V} {str : Strategy} {s' : Shard K V}
    (h : PutEff c s q k v str s' q') :
    s'.weightHot + s'.weightCold ≤ s.weightHot + s.weightCold + c.weight k v := by
  obtain ⟨s1, s2, qa, qb, t, old, r, pre, wrote, hk, hv, href, hold, post, fits, fresh, done, same, once⟩ := h
  have h1 := pre.total
  have h2 := wrote.total pre.inv
  have h3 := post.total
  simp only [totF, hk, hv] at h2
  omega

theorem RejEff.total_le {q q' : Req K V RS} {k : K} {s' : Shard K V} (hi : Inv0 c s) (h : RejEff c s q k s' q') :
    s'.weightHot + s'.weightCold ≤ s.weightHot + s.weightCold := by
  cases h with
  | old t r hk same wrote => have := wrote.total hi; simp only [totF] at this; omega
  | plh t r hk hno same wrote => have := wrote.total hi; simp only [totF] at this; omega
  | none => exact Nat.le_refl _

theorem StoreEff.total_le {q : Req K V RS} {k : K} {v : V} {str : Strategy} {x : Shard K V × Req K V RS × Option V}
    (h : StoreEff c s q k v str x) (hi : Inv0 c s) :
    x.1.weightHot + x.1.weightCold ≤ s.weightHot + s.weightCold + addWeight c s q k v := by
  cases h with
  | put q1 v1 he adm hp => rw [he.weight]; exact hp.total_le
  | reject q1 v1 hw hp hb hw1 hr =>
    have := hr.total_le hi
    cases str <;> simp only <;> omega
  | absent => simp only; omega

theorem PutEff.ghosts {q q' : Req K V RS} {k : K} {v : V} {str : Strategy} {s' : Shard K V}
    (h : PutEff c s q k v str s' q') (hg : s.numNonResident ≤ s.capacityNonResident) :
    s'.numNonResident ≤ s'.capacityNonResident := by
  obtain ⟨s1, s2, qa, qb, t, old, r, pre, wrote, hk, hv, href, hold, post, fits, fresh, done, same, once⟩ := h
  have h1 := pre.ghosts hg
  have h2 := wrote.ghosts pre.inv
  have h3 := wrote.ghostCap
  simp only [ghostF] at h2
  exact post.ghosts (by omega)

theorem StoreEff.inv {q : Req K V RS} {k : K} {v : V} {str : Strategy} {x : Shard K V × Req K V RS × Option V}
    (h : StoreEff c s q k v str x) (hi : Inv0 c s) : Inv0 c x.1 := by
  cases h with
  | put q1 v1 he adm hp =>
    obtain ⟨s1, s2, qa, qb, t, old, r, pre, wrote, hk, hv, href, hold, post, fits, fresh, done, same, once⟩ := hp
    exact post.inv
  | reject q1 v1 hw hp hb hw1 hr =>
    have : ∀ {s' : Shard K V} {q' : Req K V RS}, RejEff c s q1 k s' q' → Inv0 c s' := by
      intro s' q' hr
      cases hr with
      | old t r hk same wrote => exact wrote.inv
      | plh t ph hk hno same wrote => exact wrote.inv
      | none => exact hi
    cases str <;> exact this hr
  | absent => exact hi

theorem StoreEff.same {q : Req K V RS} {k : K} {v : V} {str : Strategy} {x : Shard K V × Req K V RS × Option V}
    (h : StoreEff c s q k v str x) : Same s x.1 := by
  cases h with
  | put q1 v1 he adm hp =>
    obtain ⟨s1, s2, qa, qb, t, old, r, pre, wrote, hk, hv, href, hold, post, fits, fresh, done, same, once⟩ := hp
    exact same
  | reject q1 v1 hw hp hb hw1 hr =>
    have : ∀ {s' : Shard K V} {q' : Req K V RS}, RejEff c s q1 k s' q' → Same s s' := by
      intro s' q' hr
      cases hr with
      | old t r hk same wrote => exact same
      | plh t ph hk hno same wrote => exact same
      | none => exact .refl s
    cases str <;> exact this hr
  | absent => exact .refl s

theorem StoreEff.ghosts {q : Req K V RS} {k : K} {v : V} {str : Strategy} {x : Shard K V × Req K V RS × Option V}
    (h : StoreEff c s q k v str x) (hi : Inv0 c s) (hg : s.numNonResident ≤ s.capacityNonResident) :
    x.1.numNonResident ≤ x.1.capacityNonResident := by
  cases h with
  | put q1 v1 he adm hp => exact hp.ghosts hg
  | reject q1 v1 hw hp hb hw1 hr =>
    have : ∀ {s' : Shard K V} {q' : Req K V RS}, RejEff c s q1 k s' q' → s'.numNonResident ≤ s'.capacityNonResident := by
      intro s' q' hr
      cases hr with
      | old t r hk same wrote =>
        have h2 := wrote.ghosts hi
        have h3 := wrote.ghostCap
        simp only [ghostF] at h2; omega
      | plh t ph hk hno same wrote =>
        have h2 := wrote.ghosts hi
        have h3 := wrote.ghostCap
        simp only [ghostF] at h2; omega
      | none => exact hg
    cases str <;> exact this hr
  | absent => exact hg

end
end QuickCache
