import Verif.Proofs.Step
import Verif.Spec.Ops

/-!
# Every call meets its specification on the map seen from outside
-/

namespace QuickCache
variable {K V RS : Type _} [DecidableEq K]
open Shard Unsync Spec

section
variable {c : Cfg K V RS} {s : Shard K V}

theorem Inv0.info_slot (h : Inv0 c s) {t : Nat} {r : Resident K V} (ht : s.entries.item t = some (.resident r)) :
    s.info r.key = some r := (h.rep r.key r).mpr ⟨rfl, t, ht⟩

/-- Storing an admitted item, with queues and counters visible. -/
theorem PutEff.scans {q q' : Req K V RS} {k : K} {v : V} {str : Strategy} {s' : Shard K V} (hi : Inv0 c s)
    (h : PutEff c s q k v str s' q') :
    (∃ r0 L tr, s.info k = some r0 ∧ q'.log = q.log ++ .onEvict k r0.value :: L ∧
      Scans c (put s.info k { key := k, value := v, state := r0.state, referenced := insRef str r0.referenced })
        (c.onEvict q.st k r0.value) L tr s'.info q'.st) ∨
    (s.info k = none ∧ str = .insert ∧ ∃ (r : Resident K V) (L : List (Event K V)) (tr : List (Visit K)),
      r.key = k ∧ r.value = v ∧ r.referenced ≤ MAX_F ∧ q'.log = q.log ++ L ∧
      ((∃ M1, Scans c s.info q.st L tr M1 q'.st ∧ s'.info = put M1 k r) ∨
        Scans c (put s.info k r) q.st L tr s'.info q'.st)) := by
  obtain ⟨s1, s2, qa, qb, t, old, r, pre, wrote, hk, hv, href, hold, post, fits, fresh, done, same, once⟩ := h
  obtain ⟨L1, tr1, p1, p2⟩ := pre.scans hi
  obtain ⟨L2, tr2, p3, p4⟩ := post.scans wrote.inv
  rcases hold with ⟨r0, rfl, h0, rfl, rfl, rfl, hst, hre⟩ | ⟨ho, hno, rfl, hstr⟩
  · left
    have hi0 := hi.info_slot wrote.upd.before
    rw [h0] at hi0
    refine ⟨r0, L2, tr2, hi0, by simpa [Req.on] using p3, ?_⟩
    rw [wrote.info_put hi (by intro r' hr'; cases hr'; rw [h0, hk])] at p4
    have : r = { key := k, value := v, state := r0.state, referenced := insRef str r0.referenced } := by
      rw [← hk, ← hv, ← hst, ← hre]
    rw [← this]
    rw [hk] at p4
    exact p4
  · right
    have hput := wrote.info_put pre.inv (fun r' hr' => absurd hr' (ho r'))
    rw [hk] at hput
    rcases once with ⟨rfl, rfl⟩ | ⟨rfl, rfl⟩
    · refine ⟨hi.info_none.mpr hno, hstr, r, L2, tr2, hk, hv, href, p3, Or.inr ?_⟩
      rw [hput] at p4
      exact p4
    · exact ⟨hi.info_none.mpr hno, hstr, r, L1, tr1, hk, hv, href, p1, Or.inl ⟨_, p2, hput⟩⟩

theorem PutEff.evicts {q q' : Req K V RS} {k : K} {v : V} {str : Strategy} {s' : Shard K V} (hi : Inv0 c s)
    (h : PutEff c s q k v str s' q') :
    (∃ old L, s.contents k = some old ∧ q'.log = q.log ++ .onEvict k old :: L ∧
      Evicts c (put s.contents k v) (c.onEvict q.st k old) L s'.contents q'.st) ∨
    (s.contents k = none ∧ str = .insert ∧ ∃ L1 L2 m1 st1, q'.log = q.log ++ L1 ++ L2 ∧ Evicts c s.contents q.st L1 m1 st1 ∧
      Evicts c (put m1 k v) st1 L2 s'.contents q'.st ∧ (L1 = [] ∨ L2 = [])) := by
  rcases h.scans hi with ⟨r0, L, tr, h1, h2, h3⟩ | ⟨h1, hstr, r, L, tr, hk, hv, -, h2, h3⟩
  · left
    refine ⟨r0.value, L, by simp [Shard.contents_eq, h1], h2, ?_⟩
    have := h3.evicts
    rw [put_map] at this
    simpa [Shard.contents_eq] using this
  · right
    have hm : s.contents = fun x => (s.info x).map (·.value) := Shard.contents_eq s
    have hm' : s'.contents = fun x => (s'.info x).map (·.value) := Shard.contents_eq s'
    rcases h3 with ⟨M1, h3, h4⟩ | h3
    · refine ⟨by simp [Shard.contents_eq, h1], hstr, L, [], fun x => (M1 x).map (·.value), q'.st, by simpa using h2, ?_, ?_,
        Or.inr rfl⟩
      · rw [hm]; exact h3.evicts
      · rw [hm', h4, put_map, hv]; exact .nil
    · refine ⟨by simp [Shard.contents_eq, h1], hstr, [], L, s.contents, q.st, by simpa using h2, .nil, ?_, Or.inl rfl⟩
      have := h3.evicts
      rw [put_map, hv] at this
      rw [hm, hm']; exact this

omit [DecidableEq K] in
theorem Entering.enter {q1 : Req K V RS} {k : K} {v v1 : V} (h : Entering c s c.begin k v q1 v1) :
    Enter c s.weightTargetHot k v q1.st q1.log v1 := by
  cases h with
  | direct hw =>
    refine .direct ?_
    rcases Nat.lt_or_ge s.weightTargetHot (c.weight k v) with h | h
    · right
      cases hp : c.pinned k v with
      | true => rfl
      | false => exact absurd ⟨h, hp⟩ hw
    · exact Or.inl h
  | before hw hp hb =>
    simp only [Req.before, Cfg.begin, Prod.mk.injEq, List.nil_append] at hb
    obtain ⟨rfl, rfl⟩ := hb
    exact .rewritten hw hp rfl

omit [DecidableEq K] in
theorem enter_before {q1 : Req K V RS} {k : K} {v v1 : V} (hw : s.weightTargetHot < c.weight k v)
    (hp : c.pinned k v = false) (hb : (c.begin).before c k v = (q1, v1)) :
    Enter c s.weightTargetHot k v q1.st q1.log v1 ∧ q1.log ≠ [] := by
  refine ⟨(Entering.before hw hp hb).enter, ?_⟩
  simp only [Req.before, Cfg.begin, Prod.mk.injEq, List.nil_append] at hb
  obtain ⟨rfl, rfl⟩ := hb
  simp

omit [DecidableEq K] in
theorem admitted {q1 : Req K V RS} {k : K} {v1 : V} (h : q1 = c.begin ∨ c.weight k v1 ≤ s.weightTargetHot) :
    Admitted c s.weightTargetHot k q1.log v1 := by
  intro hne
  rcases h with rfl | h
  · exact absurd rfl hne
  · exact h

theorem RejEff.spec {q q' : Req K V RS} {k : K} {s' : Shard K V} (hi : Inv0 c s) (h : RejEff c s q k s' q') :
    s'.contents = del s.contents k ∧ q'.log = q.log ++ (s.contents k).toList.map (.onEvict k) := by
  cases h with
  | old t r hk same wrote =>
    refine ⟨by rw [wrote.contents_del hi (by simp), hk], ?_⟩
    have : s.contents k = some r.value := hi.contents_slot.mpr ⟨t, r, wrote.upd.before, hk, rfl⟩
    simp [this, Req.on]
  | plh t ph hk hno same wrote =>
    have : s.contents k = Option.none := hi.contents_none.mpr hno
    rw [wrote.contents_idle hi (by simp) (by simp), this]
    exact ⟨(del_self _ this).symm, by simp⟩
  | none hno =>
    have : s.contents k = Option.none := hi.contents_none.mpr hno
    rw [this]
    exact ⟨(del_self _ this).symm, by simp⟩

theorem StoreEff.store {k : K} {v : V} {s' : Shard K V} {q' : Req K V RS} {r : Option V} (hi : Inv0 c s)
    (h : StoreEff c s c.begin k v .insert (s', q', r)) :
    Store c s.weightTargetHot s.contents k v q'.log s'.contents := by
  generalize hx : (s', q', r) = x at h
  cases h with
  | put q1 v1 he adm hp =>
    cases hx
    rcases hp.evicts hi with ⟨old, L, h1, h2, h3⟩ | ⟨h1, hstr, L1, L2, m1, st1, h2, h3, h4, h5⟩
    · rw [h2]; exact .overwritten he.enter (admitted adm) h1 h3
    · rw [h2]; exact .added he.enter (admitted adm) h1 h3 h4 h5
  | reject q1 v1 hw hp hb hw1 hr =>
    obtain ⟨h1, h2⟩ := hr.spec hi
    obtain ⟨h3, h4⟩ := enter_before hw hp hb
    cases hx
    rw [h1]
    simp only [Req.on, h2]
    exact .rejected h3 h4 hw1
  | absent q1 v1 he soft hstr => cases hstr

theorem StoreEff.replace {k : K} {v : V} {soft : Bool} {s' : Shard K V} {q' : Req K V RS} {r : Option V} (hi : Inv0 c s)
    (h : StoreEff c s c.begin k v (.replace soft) (s', q', r)) :
    Replace c s.weightTargetHot s.contents k v q'.log s'.contents r := by
  generalize hx : (s', q', r) = x at h
  cases h with
  | put q1 v1 he adm hp =>
    cases hx
    rcases hp.evicts hi with ⟨old, L, h1, h2, h3⟩ | ⟨h1, hstr, L1, L2, m1, st1, h2, h3, h4, h5⟩
    · rw [h2]; exact .overwritten he.enter (admitted adm) h1 h3
    · cases hstr
  | reject q1 v1 hw hp hb hw1 hr =>
    obtain ⟨h1, h2⟩ := hr.spec hi
    obtain ⟨h3, h4⟩ := enter_before hw hp hb
    cases hx
    rw [h1]
    cases hc : s.contents k with
    | none =>
      rw [del_self _ hc]
      simp only [hc, Option.toList_none, List.map_nil, List.append_nil] at h2
      rw [h2]
      exact .absent h3 hc
    | some old =>
      simp only [hc, Option.toList_some, List.map_cons, List.map_nil] at h2
      rw [h2]
      exact .rejected h3 h4 hw1 hc
  | absent q1 v1 he soft hstr hno =>
    cases hx
    exact .absent he.enter (hi.contents_none.mpr hno)

theorem Pending.info {k : K} {s1 : Shard K V} {p : Plh} (h : Pending c s k s1 p) (hi : Inv0 c s) : s1.info = s.info := by
  apply h.inv.rep.inj
  intro x r
  rw [hi.rep x r]
  simp only [h.res]

theorem Pending.contents {k : K} {s1 : Shard K V} {p : Plh} (h : Pending c s k s1 p) (hi : Inv0 c s) :
    s1.contents = s.contents := by rw [Shard.contents_eq, Shard.contents_eq, h.info hi]

theorem alter_put (m : K → Option V) {k : K} {v : V} (f : V → V) (h : m k = some v) : alter m k f = put m k (f v) := by
  funext x
  unfold alter put
  by_cases hx : x = k
  · simp [hx, h]
  · simp [hx]

theorem alter_id (m : K → Option V) (k : K) : alter m k id = m := by
  funext x
  unfold alter
  by_cases hx : x = k
  · simp [hx]
  · simp [hx]

theorem alter_none (m : K → Option V) {k : K} (f : V → V) (h : m k = none) : alter m k f = m := by
  funext x
  unfold alter
  by_cases hx : x = k
  · simp [hx, h]
  · simp [hx]

theorem wrote_value {s' : Shard K V} {t n : Nat} {r : Resident K V} {v : V} (hi : Inv0 c s)
    (wrote : Wrote c s s' t (some (.resident r)) (some (.resident { r with referenced := n, value := v }))) :
    s'.contents = put s.contents r.key v :=
  wrote.contents_put hi (by intro r' hr'; cases hr'; rfl)

theorem contents_at (hi : Inv0 c s) {t : Nat} {r : Resident K V} {k : K} (ht : s.entries.item t = some (.resident r))
    (hk : r.key = k) : s.contents k = some r.value := hi.contents_slot.mpr ⟨t, r, ht, hk, rfl⟩

theorem empty_contents {s' : Shard K V} (h : Inv0 c s') (he : ∀ t, s'.entries.item t = none) :
    s'.contents = fun _ => none := by
  funext k
  rw [h.contents_none]
  intro t r hr
  rw [he] at hr; cases hr

theorem lists_iter (h : Inv0 c s) : Lists s.iter s.contents :=
  ⟨h.nodup_iter, fun _ _ => h.contents_iff.symm⟩

/-- Every call meets its specification. -/
theorem StepEff.opSpec {op : Op K V} {x : Shard K V × Out K V × Req K V RS} (hi : Inv0 c s) (h : StepEff c s op x) :
    OpSpec c s.weightTargetHot s.contents op x.2.1 x.2.2.log x.1.contents := by
  cases h with
  | insert h => exact ⟨rfl, h.store hi⟩
  | replace h => exact ⟨_, rfl, h.replace hi⟩
  | removeHit t r hk wrote same =>
    refine ⟨?_, rfl, ?_⟩
    · rw [contents_at hi wrote.upd.before hk]; rfl
    · simp only; rw [wrote.contents_del hi (by simp), hk]
  | removeIdle t e he hno wrote same =>
    have hc := hi.contents_none.mpr hno
    refine ⟨?_, rfl, ?_⟩
    · rw [hc]; rfl
    · simp only; rw [wrote.contents_idle hi (by simpa using he) (by simp), del_self _ hc]
  | removeNone hno =>
    have hc := hi.contents_none.mpr hno
    exact ⟨by rw [hc]; rfl, rfl, (del_self _ hc).symm⟩
  | hit hop t r hk wrote hits misses =>
    have hc := contents_at hi wrote.upd.before hk
    have hc' := wrote_value hi wrote
    rw [hk] at hc'
    simp only
    cases hop with
    | get => exact ⟨by rw [hc], rfl, by rw [hc', id, put_self _ hc]⟩
    | getMut k f => exact ⟨by rw [hc], rfl, by rw [hc', alter_put _ _ hc]⟩
    | peekMut k f => exact ⟨by rw [hc], rfl, by rw [hc', alter_put _ _ hc]⟩
    | getOrInsertWith k load =>
      simp only [OpSpec, hc]
      exact ⟨trivial, rfl, by rw [hc', id, put_self _ hc]⟩
    | getMutOrInsertWith k load f =>
      simp only [OpSpec, hc]
      exact ⟨trivial, rfl, by rw [hc', alter_put _ _ hc]⟩
    | getRefOrGuard k use =>
      simp only [OpSpec, hc]
      exact ⟨trivial, rfl, by rw [hc', id, put_self _ hc]⟩
    | getMutOrGuard k f use =>
      simp only [OpSpec, hc]
      exact ⟨trivial, rfl, by rw [hc', alter_put _ _ hc]⟩
  | miss hop hno =>
    have hc := hi.contents_none.mpr hno
    cases hop with
    | get => exact ⟨by rw [hc], rfl, rfl⟩
    | getMut k f => exact ⟨by rw [hc], rfl, (alter_none _ f hc).symm⟩
    | peek => exact ⟨by rw [hc], rfl, rfl⟩
    | peekMut k f => exact ⟨by rw [hc], rfl, (alter_none _ f hc).symm⟩
    | containsKey => exact ⟨by rw [hc]; rfl, rfl, rfl⟩
  | peek t r ht hk => exact ⟨by rw [contents_at hi ht hk], rfl, rfl⟩
  | contains t r ht hk => exact ⟨by rw [contents_at hi ht hk]; rfl, rfl, rfl⟩
  | retain inv same ghosts drop keep map =>
    rename_i f s'
    refine ⟨rfl, rfl, ?_⟩
    funext k
    apply Option.ext
    intro v
    simp only
    rw [inv.contents_slot, Option.filter_eq_some_iff, hi.contents_slot]
    constructor
    · rintro ⟨t, r, ht, hk, hv⟩
      have h1 : s.entries.item t = some (.resident r) ∧ f r.key r.value = true := by
        by_cases hall : ∀ r, s.entries.item t = some (.resident r) → f r.key r.value = true
        · have := keep t hall
          rw [ht] at this
          exact ⟨this.symm, hall r this.symm⟩
        · simp only [Classical.not_forall] at hall
          obtain ⟨r', h1, h2⟩ := hall
          rw [drop t r' h1 (by simpa using h2)] at ht; cases ht
      exact ⟨⟨t, r, h1.1, hk, hv⟩, by rw [← hk, ← hv]; exact h1.2⟩
    · rintro ⟨⟨t, r, ht, hk, hv⟩, hf⟩
      refine ⟨t, r, ?_, hk, hv⟩
      rw [keep t, ht]
      intro r' hr'
      rw [ht] at hr'; cases hr'
      rw [hk, hv]; exact hf
  | clear =>
    obtain ⟨h1, h2, h3, -⟩ := drain_spec hi
    exact ⟨rfl, rfl, empty_contents h1 h3⟩
  | drain =>
    obtain ⟨h1, h2, h3, -⟩ := drain_spec hi
    exact ⟨⟨_, rfl, lists_iter hi⟩, rfl, empty_contents h1 h3⟩
  | reserve => exact ⟨rfl, rfl, rfl⟩
  | leave hop hp =>
    have hc := hi.contents_none.mpr hp.noRes
    have := hp.contents hi
    cases hop <;> simp only [OpSpec, hc] <;> exact ⟨trivial, rfl, this⟩
  | drop hop hp inv same entries wgt ghosts map =>
    rename_i s1 s' p
    have hc := hi.contents_none.mpr hp.noRes
    have := hp.contents hi
    have h2 : s'.contents = s1.contents := by
      unfold Shard.contents Shard.iter; rw [entries]
    cases hop <;> simp only [OpSpec, hc] <;> exact ⟨trivial, rfl, by rw [h2, this]⟩
  | fill hop hp h taken =>
    have hc := hi.contents_none.mpr hp.noRes
    have hs := h.store hp.inv
    rw [hp.target, hp.contents hi] at hs
    cases hop <;> simp only [OpSpec, hc]
    · exact ⟨hs, trivial⟩
    · exact ⟨trivial, hs⟩
    · exact ⟨trivial, hs⟩
  | fillMutOut hp h hno taken =>
    rename_i k v f s1 s' p q
    have hc := hi.contents_none.mpr hp.noRes
    have hs := h.store hp.inv
    rw [hp.target, hp.contents hi] at hs
    have hi' : Inv0 c s' := h.inv hp.inv
    have hc' := hi'.contents_none.mpr hno
    simp only [OpSpec, hc]
    exact ⟨_, hs, by rw [hc'], (alter_none _ f hc').symm⟩
  | fillMut hp h taken t r hk wrote same =>
    rename_i k v f s1 s2 s' p q
    have hc := hi.contents_none.mpr hp.noRes
    have hs := h.store hp.inv
    rw [hp.target, hp.contents hi] at hs
    have hi' : Inv0 c s2 := h.inv hp.inv
    have hc' := contents_at hi' wrote.upd.before hk
    have h2 := wrote_value hi' wrote
    rw [hk] at h2
    simp only [OpSpec, hc]
    exact ⟨_, hs, by rw [hc'], by rw [h2, alter_put _ _ hc']⟩

end
end QuickCache
