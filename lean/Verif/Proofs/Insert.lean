import Verif.Proofs.Remove

/-!
# Insertion
-/

namespace QuickCache
variable {K V RS : Type _}

/-- What the final eviction of an admission guarantees. -/
structure AfterEvict (c : Cfg K V RS) (s : Shard K V) (q : Req K V RS) (s' : Shard K V) (q' : Req K V RS) : Prop where
  post : EvPost c s q s' q'
  done : s'.weightHot + s'.weightCold ≤ s'.weightCapacity ∨ Shard.Stuck c s'
  fits : s.weightHot + s.weightCold ≤ s.weightCapacity → s' = s ∧ q' = q
  run : Shard.evictLoop c 0 s.evictFuel s q = .ok (s', q')

namespace Shard
variable {c : Cfg K V RS} {s : Shard K V}

theorem evictLoop_after (h : Inv0 c s) (q : Req K V RS) :
    Res.Sat (evictLoop c 0 s.evictFuel s q) (fun x => AfterEvict c s q x.1 x.2)
      (fun p => p = .overflow ∧ 2 ^ 64 ≤ s.weightHot + s.weightCold) := by
  rcases evictLoop_spec 0 s.evictFuel s q h (mu_lt_fuel _ _) with ⟨h1, h2⟩ | ⟨s', q', h1, h2, h3, h4⟩
  · right; exact ⟨_, h1, rfl, by simpa using h2⟩
  · left
    refine ⟨_, h1, h2, by simpa using h3, fun hf => ?_, h1⟩
    have := evictLoop_fits (c := c) 0 q (s := s) (fuel := s.evictFuel) (by simp [evictFuel]) (by simpa using hf) h4
    rw [this] at h1
    simp only [Except.ok.injEq, Prod.mk.injEq] at h1
    exact ⟨h1.1.symm, h1.2.symm⟩

/-- The counter after a replacement. -/
def insRef (strategy : Strategy) (n : Nat) : Nat := min (n + if strategy = .replace true then 0 else 1) MAX_F

theorem wgt_le_total (s : Shard K V) (st : St) : s.wgt st ≤ s.weightHot + s.weightCold := by
  cases st <;> simp [wgt]

/-- Replacing the resident `r` in slot `t` by `r'`, up to the point where the old value is handed to `on_evict`. -/
def overwritten (s : Shard K V) (t : Nat) (r r' : Resident K V) (ew w : Nat) : Res (Shard K V) := do
  let s1 := s.setEntry t (.resident r')
  let w1 ← csub (s1.wgt r.state) ew
  let w2 ← cadd w1 w
  (s1.setWgt r.state w2).relink r.state t ew w

theorem overwritten_spec (h : Inv0 c s) {t : Nat} {r r' : Resident K V} {key : K} {value : V}
    (ht : s.entries.item t = some (.resident r)) (hk : r.key = key) (k1 : r'.key = key) (k2 : r'.value = value)
    (k3 : r'.state = r.state) :
    Res.Sat (s.overwritten t r r' (c.weight r.key r.value) (c.weight key value))
      (fun s3 => Same s s3 ∧ Wrote c s s3 t (some (.resident r)) (some (.resident r')))
      (AddErr s False (c.weight key value)) := by
  obtain ⟨f1, f2, f3, f4⟩ := res_facts h ht
  have hocc : (s.entries.item t).isSome := by simp [ht]
  unfold overwritten
  simp only
  rw [wgt_setEntry, csub_ok f1]
  simp only [Res.ok_bind]
  by_cases hov : s.wgt r.state - c.weight r.key r.value + c.weight key value < 2 ^ 64
  · rw [cadd_ok hov]
    simp only [Res.ok_bind]
    obtain ⟨s3, g1, g2, g3⟩ := relink_ring (rho := c.rho s.entries.item)
      (s := (s.setEntry t (.resident r')).setWgt r.state
        (s.wgt r.state - c.weight r.key r.value + c.weight key value)) (t := t)
      (ew := c.weight r.key r.value) (w := c.weight key value)
      (by simp only [head_setWgt, entries_setWgt, head_setEntry, entries_setEntry]; exact h.str.setItem hocc _) r.state
      (by simp only [entries_setWgt, entries_setEntry]; rw [Slab.item_setItem hocc]; simp) f4
    have hw : Wrote c s s3 t (some (.resident r)) (some (.resident r')) := by
      refine rewrite_spec h ht (k1.trans hk.symm) k3 ?_ ?_ ?_ ?_ ?_ ?_ ?_ ?_ ?_ ?_ ?_
      · rw [g2.items]; simp
      · rw [head_setWgt, entries_setWgt, head_setEntry, entries_setEntry] at g3
        rw [k1, k2]; exact g3.after_setItem hocc
      · rw [g2.map]; simp
      · rw [g2.wgt, k1, k2]; simp
      · rw [g2.num]; simp
      · rw [g2.ghosts]; simp
      · rw [g2.same.target]; simp
      · rw [g2.same.capacity]; simp
      · rw [g2.same.ghostCap]; simp
      · rw [g2.same.probe]; simp
      · rw [g2.same.nextPlh]; simp
    have hsame : Same s s3 := by
      refine Same.trans ?_ g2.same
      constructor <;> simp
    rw [g1]
    exact .ok ⟨hsame, hw⟩
  · right
    rw [cadd_err (by omega)]
    refine ⟨_, rfl, Or.inl ⟨rfl, ?_⟩⟩
    have := wgt_le_total s r.state
    omega

theorem insertExisting_resident_eq (q : Req K V RS) {t : Nat} {r : Resident K V} (key : K) (value : V) (w : Nat)
    (strategy : Strategy) (ht : s.entries.item t = some (.resident r)) :
    s.insertExisting c q t key value w strategy = (do
      let s3 ← s.overwritten t r
        { key := key, value := value, state := r.state, referenced := insRef strategy r.referenced }
        (c.weight r.key r.value) w
      let (s4, q2) ← evictLoop c 0 s3.evictFuel s3 (q.on c r.key r.value)
      .ok (s4, q2, none)) := by
  have href : min (min (r.referenced + if strategy = .replace true then 0 else 1) (2 ^ 16 - 1)) MAX_F =
      insRef strategy r.referenced := by
    unfold insRef
    have : MAX_F = 2 := rfl
    omega
  unfold insertExisting overwritten
  rw [Slab.get_eq, ht]
  simp only [Option.map_some, bind_assoc]
  rw [href]

theorem insertExisting_resident (h : Inv0 c s) (q : Req K V RS) {t : Nat} {r : Resident K V} {key : K} (value : V)
    (strategy : Strategy) (ht : s.entries.item t = some (.resident r)) (hk : r.key = key) :
    Res.Sat (s.insertExisting c q t key value (c.weight key value) strategy)
      (fun x => x.2.2 = none ∧ ∃ s3, Same s s3 ∧
        Wrote c s s3 t (some (.resident r))
          (some (.resident { key := key, value := value, state := r.state, referenced := insRef strategy r.referenced })) ∧
        AfterEvict c s3 (q.on c r.key r.value) x.1 x.2.1)
      (AddErr s False (c.weight key value)) := by
  rw [insertExisting_resident_eq q key value _ strategy ht]
  refine Res.Sat.bind (overwritten_spec h ht hk rfl rfl rfl) ?_
  rintro s3 ⟨hsame, hw⟩
  refine Res.Sat.bind (P := fun x => AfterEvict c s3 (q.on c r.key r.value) x.1 x.2) ?_ ?_
  · refine (evictLoop_after hw.inv _).mono (fun _ hx => hx) ?_
    rintro p ⟨rfl, hp⟩
    left; refine ⟨rfl, ?_⟩
    have := hw.total h
    simp only [totF] at this
    omega
  · rintro ⟨s4, q2⟩ ha
    exact .ok ⟨rfl, s3, hsame, hw, ha⟩

theorem ghost_facts (h : Inv0 c s) {t : Nat} {g : UInt64} (ht : s.entries.item t = some (.ghost g)) :
    1 ≤ s.numNonResident ∧ (g, t) ∈ s.map ∧ c.rho s.entries.item t = some .ghost := by
  refine ⟨?_, h.idx.mapped t _ ht (by simp), rho_ghost ht⟩
  have g1 := h.cnt.ghost
  have g2 := Slab.le_sumBy (ghostF) rfl s.entries t
  rw [ht] at g2
  simp [ghostF] at g1 g2
  omega

/-- Turning the ghost in slot `t` into the hot resident `r'` of weight `w`. -/
def revived (s : Shard K V) (t : Nat) (r' : Resident K V) (w : Nat) : Res (Shard K V) := do
  let s1 := s.setEntry t (.resident r')
  let wh ← cadd s1.weightHot w
  let nn ← csub s1.numNonResident 1
  let s2 := { s1 with weightHot := wh, numHot := s1.numHot + 1, numNonResident := nn }
  let s3 ← s2.unlinkGhost t
  s3.linkNew .hot t w

theorem revived_spec (h : Inv0 c s) {t : Nat} {r' : Resident K V} {key : K} {value : V}
    (ht : s.entries.item t = some (.ghost (c.hash key)))
    (habs : ∀ h' t, (h', t) ∈ s.map → keyAt s.entries.item t ≠ some key) (k1 : r'.key = key) (k2 : r'.value = value)
    (k3 : r'.state = .hot) :
    Res.Sat (s.revived t r' (c.weight key value))
      (fun s3 => Same s s3 ∧ Wrote c s s3 t (some (.ghost (c.hash key))) (some (.resident r')))
      (AddErr s False (c.weight key value)) := by
  obtain ⟨f1, f2, f4⟩ := ghost_facts h ht
  have hocc : (s.entries.item t).isSome := by simp [ht]
  unfold revived
  simp only
  have e1 : (s.setEntry t (.resident r')).weightHot = s.weightHot := rfl
  have e2 : (s.setEntry t (.resident r')).numNonResident = s.numNonResident := rfl
  rw [e1, e2]
  by_cases hov : s.weightHot + c.weight key value < 2 ^ 64
  · rw [cadd_ok hov]
    simp only [Res.ok_bind]
    rw [csub_ok f1]
    simp only [Res.ok_bind]
    generalize hs2 : ({ s.setEntry t (.resident r') with
      weightHot := s.weightHot + c.weight key value, numHot := (s.setEntry t (.resident r')).numHot + 1,
      numNonResident := s.numNonResident - 1 } : Shard K V) = s2
    have hse : s2.entries = s.entries.setItem t (.resident r') := by rw [← hs2]; rfl
    have hsh : s2.head = s.head := by rw [← hs2]; funext i; cases i <;> rfl
    obtain ⟨s3, g1, g2, g3⟩ := unlinkGhost_ring (rho := c.rho s.entries.item) (s := s2) (t := t)
      (by rw [hse, hsh]; exact h.str.setItem hocc _) f4
    rw [g1]
    simp only [Res.ok_bind]
    have hocc3 : (s3.entries.item t).isSome := by
      rw [Slab.item_congr g2.items, hse, Slab.item_setItem hocc]; simp
    obtain ⟨s4, j1, j2, j3⟩ := linkNew_ring (s := s3) (t := t)
      (g3.struct (by rw [hse, hsh]; exact h.str.setItem hocc _)) .hot (w := c.weight key value) hocc3
      (by simp)
    rw [j1]
    have hro := g2.trans j2
    have hw : Wrote c s s4 t (some (.ghost (c.hash key))) (some (.resident r')) := by
      refine wrote_change h ht f2 (by simp [hashOf, k1]) ?_ ?_ ?_ ?_ ?_ ?_ ?_ ?_ ?_ (by simp) ?_ ?_ ?_
      · rw [hro.items, hse]
      · have : upd (upd (c.rho s.entries.item) t none) t (if c.weight key value = 0 then none else some St.hot.ring) =
            upd (c.rho s.entries.item) t (c.ringOf (.resident r')) := by
          rw [upd_upd]; simp only [Cfg.ringOf, k1, k2, k3]
        rw [← this]
        rw [hse, hsh] at g3
        refine ((g3.after_setItem hocc).trans j3).congr_move (fun R F hR => ?_)
        simp only [Cfg.ringOf, k1, k2, k3]
        by_cases hw0 : c.weight key value = 0
        · simp [hw0, ringMove]
        · simp [hw0, ringMove, St.ring]
      · rw [hro.map, ← hs2]; rfl
      · rw [hro.same.probe, ← hs2]; rfl
      · rw [hro.same.nextPlh, ← hs2]; exact Nat.le_refl _
      · rw [hro.same.target, ← hs2]; rfl
      · rw [hro.same.capacity, ← hs2]; rfl
      · rw [hro.same.ghostCap, ← hs2]; rfl
      · intro k hk h' t' hm hk'
        simp only [keyOf, Option.some.injEq, k1] at hk
        subst hk
        exact absurd hk' (habs h' t' hm)
      · intro st; rw [hro.num, ← hs2]; cases st <;> simp [numF, num, k3, setEntry]
      · intro st; rw [hro.wgt, ← hs2]; cases st <;> simp [wgtF, wgt, k1, k2, k3, setEntry]
      · rw [hro.ghosts, ← hs2]; simp [ghostF]; omega
    have hsame : Same s s4 := by
      refine Same.trans ?_ hro.same
      rw [← hs2]; constructor <;> rfl
    exact .ok ⟨hsame, hw⟩
  · right
    rw [cadd_err (by omega)]
    refine ⟨_, rfl, Or.inl ⟨rfl, ?_⟩⟩
    omega

theorem insertExisting_ghost_eq (q : Req K V RS) {t : Nat} {g : UInt64} (key : K) (value : V) (w : Nat)
    (ht : s.entries.item t = some (.ghost g)) :
    s.insertExisting c q t key value w .insert = (do
      let s4 ← s.revived t { key := key, value := value, state := .hot, referenced := 0 } w
      let (s5, q2) ← evictLoop c 0 s4.evictFuel s4 q
      .ok (s5, q2, none)) := by
  unfold insertExisting revived
  rw [Slab.get_eq, ht]
  simp only [Option.map_some, bind_assoc]

theorem insertExisting_ghost (h : Inv0 c s) (q : Req K V RS) {t : Nat} {key : K} (value : V)
    (ht : s.entries.item t = some (.ghost (c.hash key)))
    (habs : ∀ h' t, (h', t) ∈ s.map → keyAt s.entries.item t ≠ some key) :
    Res.Sat (s.insertExisting c q t key value (c.weight key value) .insert)
      (fun x => x.2.2 = none ∧ ∃ s3, Same s s3 ∧
        Wrote c s s3 t (some (.ghost (c.hash key)))
          (some (.resident { key := key, value := value, state := .hot, referenced := 0 })) ∧
        AfterEvict c s3 q x.1 x.2.1)
      (AddErr s False (c.weight key value)) := by
  rw [insertExisting_ghost_eq q key value _ ht]
  refine Res.Sat.bind (revived_spec h ht habs rfl rfl rfl) ?_
  rintro s3 ⟨hsame, hw⟩
  refine Res.Sat.bind (P := fun x => AfterEvict c s3 q x.1 x.2) ?_ ?_
  · refine (evictLoop_after hw.inv _).mono (fun _ hx => hx) ?_
    rintro p ⟨rfl, hp⟩
    left; refine ⟨rfl, ?_⟩
    have := hw.total h
    simp only [totF] at this
    omega
  · rintro ⟨s4, q2⟩ ha
    exact .ok ⟨rfl, s3, hsame, hw, ha⟩

/-- Turning an indexed placeholder into a resident. -/
theorem fill_wrote (h : Inv0 c s) {t : Nat} {ph : Placeholder K} {r' : Resident K V} {s' : Shard K V}
    (ht : s.entries.item t = some (.placeholder ph)) (hm : (c.hash ph.key, t) ∈ s.map) (hk : r'.key = ph.key)
    (h1 : s'.entries.items = (s.entries.setItem t (.resident r')).items)
    (h2 : Moves s.entries s.head (c.rho s.entries.item) s'.entries s'.head (upd (c.rho s.entries.item) t
      (if c.weight r'.key r'.value = 0 then none else some r'.state.ring))
      (ringMove t none (if c.weight r'.key r'.value = 0 then none else some r'.state.ring) true))
    (h3 : s'.map = s.map) (h4 : s'.wgt = upd s.wgt r'.state (s.wgt r'.state + c.weight r'.key r'.value))
    (h5 : s'.num = upd s.num r'.state (s.num r'.state + 1)) (h6 : s'.numNonResident = s.numNonResident)
    (h7 : Same s s') : Wrote c s s' t (some (.placeholder ph)) (some (.resident r')) := by
  refine wrote_change h ht hm (by simp [hashOf, hk]) h1 h2 h3 h7.probe (by rw [h7.nextPlh]; exact Nat.le_refl _)
    h7.target h7.capacity h7.ghostCap ?_ (by simp) ?_ ?_ ?_
  · intro k hk'
    simp only [keyOf, Option.some.injEq] at hk'
    exact res_key_uniq h ht hm (by rw [← hk']; simp [keyOf, hk])
  · intro st; rw [h5]
    by_cases hs : st = r'.state
    · subst hs; simp [numF]
    · rw [upd_other _ _ hs]; simp [numF, Ne.symm hs]
  · intro st; rw [h4]
    by_cases hs : st = r'.state
    · subst hs; simp [wgtF]
    · rw [upd_other _ _ hs]; simp [wgtF, Ne.symm hs]
  · rw [h6]; simp [ghostF]

/-- Turning the placeholder in slot `t` into the resident `r'` of weight `w`. -/
def filled (s : Shard K V) (t : Nat) (r' : Resident K V) (st : St) (w : Nat) : Res (Shard K V) := do
  let s1 := s.setEntry t (.resident r')
  let w1 ← cadd (s1.wgt st) w
  let s2 := (s1.setNum st (s1.num st + 1)).setWgt st w1
  s2.linkNew st t w

theorem filled_spec (h : Inv0 c s) {t : Nat} {ph : Placeholder K} {r' : Resident K V} {key : K} {value : V} {st : St}
    (ht : s.entries.item t = some (.placeholder ph)) (hm : (c.hash ph.key, t) ∈ s.map) (hk : ph.key = key)
    (k1 : r'.key = key) (k2 : r'.value = value) (k3 : r'.state = st) :
    Res.Sat (s.filled t r' st (c.weight key value))
      (fun s3 => Same s s3 ∧ Wrote c s s3 t (some (.placeholder ph)) (some (.resident r')))
      (fun p => p = .overflow ∧ 2 ^ 64 ≤ s.wgt st + c.weight key value) := by
  have f4 : c.rho s.entries.item t = none := rho_placeholder ht
  have hocc : (s.entries.item t).isSome := by simp [ht]
  unfold filled
  simp only
  rw [wgt_setEntry, num_setEntry]
  by_cases hov : s.wgt st + c.weight key value < 2 ^ 64
  · rw [cadd_ok hov]
    simp only [Res.ok_bind]
    generalize hs2 : (((s.setEntry t (.resident r')).setNum st (s.num st + 1)).setWgt st
      (s.wgt st + c.weight key value) : Shard K V) = s2
    have hse : s2.entries = s.entries.setItem t (.resident r') := by rw [← hs2]; simp
    have hsh : s2.head = s.head := by rw [← hs2]; simp
    have hocc2 : (s2.entries.item t).isSome := by
      rw [hse, Slab.item_setItem hocc]; simp
    obtain ⟨s3, g1, g2, g3⟩ := linkNew_ring (rho := c.rho s.entries.item) (s := s2) (t := t)
      (by rw [hse, hsh]; exact h.str.setItem hocc _) st (w := c.weight key value) hocc2 f4
    rw [g1]
    have hsame : Same s s3 := by
      refine Same.trans ?_ g2.same
      rw [← hs2]; constructor <;> simp
    have hw : Wrote c s s3 t (some (.placeholder ph)) (some (.resident r')) := by
      refine fill_wrote h ht hm (k1.trans hk.symm) ?_ ?_ ?_ ?_ ?_ ?_ hsame
      · rw [g2.items, hse]
      · rw [hse, hsh] at g3
        rw [k1, k2, k3]; exact g3.after_setItem hocc
      · rw [g2.map, ← hs2]; simp
      · rw [g2.wgt, ← hs2, k1, k2, k3]; simp
      · rw [g2.num, ← hs2, k3]; simp
      · rw [g2.ghosts, ← hs2]; simp
    exact .ok ⟨hsame, hw⟩
  · right
    rw [cadd_err (by omega)]
    exact ⟨_, rfl, rfl, by omega⟩

theorem insertExisting_placeholder_eq (q : Req K V RS) {t : Nat} {ph : Placeholder K} (key : K) (value : V) (w : Nat)
    (ht : s.entries.item t = some (.placeholder ph)) :
    s.insertExisting c q t key value w .insert = (do
      let s3 ← s.filled t { key := key, value := value, state := ph.hot, referenced := 1 } ph.hot w
      let (s4, q2) ← evictLoop c 0 s3.evictFuel s3 q
      .ok (s4, q2, none)) := by
  unfold insertExisting filled
  rw [Slab.get_eq, ht]
  simp only [Option.map_some, bind_assoc]

theorem insertExisting_placeholder (h : Inv0 c s) (q : Req K V RS) {t : Nat} {ph : Placeholder K} (value : V)
    (ht : s.entries.item t = some (.placeholder ph)) (hm : (c.hash ph.key, t) ∈ s.map) :
    Res.Sat (s.insertExisting c q t ph.key value (c.weight ph.key value) .insert)
      (fun x => x.2.2 = none ∧ ∃ s3, Same s s3 ∧
        Wrote c s s3 t (some (.placeholder ph))
          (some (.resident { key := ph.key, value := value, state := ph.hot, referenced := 1 })) ∧
        AfterEvict c s3 q x.1 x.2.1)
      (AddErr s False (c.weight ph.key value)) := by
  rw [insertExisting_placeholder_eq q ph.key value _ ht]
  refine Res.Sat.bind ((filled_spec (value := value) (st := ph.hot) h ht hm rfl rfl rfl rfl).mono (fun _ hx => hx) (fun p hp => Or.inl ⟨hp.1, by
    have := wgt_le_total s ph.hot
    have := hp.2
    omega⟩)) ?_
  rintro s3 ⟨hsame, hw⟩
  refine Res.Sat.bind (P := fun x => AfterEvict c s3 q x.1 x.2) ?_ ?_
  · refine (evictLoop_after hw.inv _).mono (fun _ hx => hx) ?_
    rintro p ⟨rfl, hp⟩
    left; refine ⟨rfl, ?_⟩
    have := hw.total h
    simp only [totF] at this
    omega
  · rintro ⟨s4, q2⟩ ha
    exact .ok ⟨rfl, s3, hsame, hw, ha⟩

theorem insertExisting_replace (q : Req K V RS) {t : Nat} {key : K} (value : V) {w : Nat} {soft : Bool} {e : Entry K V}
    (ht : s.entries.item t = some e) (hr : ∀ r, e ≠ .resident r) :
    s.insertExisting c q t key value w (.replace soft) = .ok (s, q, some value) := by
  unfold insertExisting
  rw [Slab.get_eq, ht]
  cases e with
  | resident r => exact absurd rfl (hr r)
  | placeholder p => rfl
  | ghost g => rfl

/-- Occupying a free slot and indexing it. -/
theorem wrote_add (h : Inv0 c s) {s' : Shard K V} {t : Nat} {e : Entry K V}
    (hu : Slab.Upd s.entries s'.entries t none (some e))
    (hs : Moves s.entries s.head (c.rho s.entries.item) s'.entries s'.head
      (upd (c.rho s.entries.item) t (c.ringOf e)) (ringMove t none (c.ringOf e) true))
    (hmap : s'.map = s.map ++ [(hashOf c e, t)]) (hprobe : s'.probe = s.probe) (hnp : s.nextPlh ≤ s'.nextPlh)
    (htgt : s'.weightTargetHot = s.weightTargetHot) (hcap : s'.weightCapacity = s.weightCapacity)
    (hgc : s'.capacityNonResident = s.capacityNonResident)
    (hk : ∀ k, keyOf e = some k → ∀ h' t', (h', t') ∈ s.map → keyAt s.entries.item t' ≠ some k)
    (hp : ∀ p, e = .placeholder p → p.shared.idx = t ∧ p.shared.hash = c.hash p.key ∧ p.shared.id < s'.nextPlh ∧
      ∀ t' p', s.entries.item t' = some (.placeholder p') → p.shared.id ≠ p'.shared.id)
    (hn : ∀ st, s'.num st = s.num st + numF st (some e))
    (hw : ∀ st, s'.wgt st = s.wgt st + wgtF c st (some e))
    (hg : s'.numNonResident = s.numNonResident + ghostF (some e)) :
    Wrote c s s' t none (some e) := by
  refine ⟨?_, hu, htgt, hcap, hgc, hprobe, ?_, hs.congr_rho (by rw [hu.fn, Cfg.rho_upd]; rfl)⟩
  · refine h.step hu (by simpa using hs.struct h.str) ?_ (by simpa [numF] using hn) (by simpa [wgtF] using hw) (by simpa [ghostF] using hg)
    rw [hmap, hprobe]
    exact h.idx.add hu.before hk hp hnp
  · rw [hmap]
    rintro ⟨hh, u⟩
    simp only [List.mem_append, List.mem_singleton, Prod.mk.injEq, Option.map_some, Option.some.injEq]
    constructor
    · rintro (hb | ⟨rfl, rfl⟩)
      · left
        refine ⟨?_, hb⟩
        rintro rfl
        have := h.map_occ hb
        rw [hu.before] at this; simp at this
      · right; exact ⟨rfl, rfl⟩
    · rintro (⟨-, hb⟩ | ⟨rfl, rfl⟩)
      · left; exact hb
      · right; exact ⟨rfl, rfl⟩

theorem insertNew_spec (h : Inv0 c s) (q : Req K V RS) {key : K} (value : V)
    (habs : ∀ h' t, (h', t) ∈ s.map → keyAt s.entries.item t ≠ some key) :
    Res.Sat (s.insertNew c q (c.hash key) key value (c.weight key value))
      (fun x => ∃ s1 t st, EvPost c s q s1 x.2 ∧ Same s x.1 ∧
        (s1.weightHot + s1.weightCold + c.weight key value ≤ s1.weightCapacity ∨ Stuck c s1) ∧
        (s.weightHot + s.weightCold + c.weight key value ≤ s.weightCapacity → s1 = s ∧ x.2 = q) ∧
        st = (if s.weightHot + c.weight key value ≤ s.weightTargetHot then St.hot else .cold) ∧
        Wrote c s1 x.1 t none (some (.resident { key := key, value := value, state := st, referenced := 0 })) ∧
        evictLoop c (c.weight key value) s.evictFuel s q = .ok (s1, x.2))
      (AddErr s True (c.weight key value)) := by
  unfold insertNew
  rcases Nat.lt_or_ge (s.weightHot + c.weight key value) (2 ^ 64) with hov0 | hov0
  rotate_left
  · right
    rw [cadd_err (by omega)]
    exact ⟨_, rfl, Or.inl ⟨rfl, by omega⟩⟩
  rw [cadd_ok hov0]
  simp only [Res.ok_bind]
  rcases evictLoop_spec (c.weight key value) s.evictFuel s q h (mu_lt_fuel _ _) with ⟨h1, h2⟩ | ⟨s1, q1, h1, h2, h3, h4⟩
  · right
    rw [h1]
    exact ⟨_, rfl, Or.inl ⟨rfl, h2⟩⟩
  rw [h1]
  simp only [Res.ok_bind]
  have hfits : s.weightHot + s.weightCold + c.weight key value ≤ s.weightCapacity → s1 = s ∧ q1 = q := by
    intro hf
    have := evictLoop_fits (c := c) (c.weight key value) q (s := s) (fuel := s.evictFuel) (by simp [evictFuel]) hf h4
    rw [this] at h1
    simp only [Except.ok.injEq, Prod.mk.injEq] at h1
    exact ⟨h1.1.symm, h1.2.symm⟩
  have hif : (if decide (s.weightHot + c.weight key value ≤ s.weightTargetHot) = true then St.hot else St.cold) =
      (if s.weightHot + c.weight key value ≤ s.weightTargetHot then St.hot else St.cold) := by simp
  rw [hif]
  generalize hst : (if s.weightHot + c.weight key value ≤ s.weightTargetHot then St.hot else St.cold) = st
  generalize hr' : ({ key := key, value := value, state := st, referenced := 0 } : Resident K V) = r'
  have k1 : r'.key = key := by rw [← hr']
  have k2 : r'.value = value := by rw [← hr']
  have k3 : r'.state = st := by rw [← hr']
  have hle := wgt_le_total s1 st
  have htot := h2.total
  rw [cadd_ok (by omega)]
  simp only [Res.ok_bind]
  rw [entries_setWgt, entries_setNum]
  rcases h2.inv.str.insert (.resident r') with ⟨g1, g2, g3⟩ | ⟨e, g1, g2, g3, g4⟩
  · right
    rw [g1]
    exact ⟨_, rfl, Or.inr ⟨rfl, trivial, by rw [← h2.len]; exact g2⟩⟩
  rw [g1]
  simp only [Res.ok_bind]
  generalize hs3 : ({ (s1.setNum st (s1.num st + 1)).setWgt st (s1.wgt st + c.weight key value) with entries := e }
    : Shard K V) = s3
  have hse : s3.entries = e := by rw [← hs3]
  have hsh : s3.head = s1.head := by
    rw [← hs3]
    have : (Shard.head ({ (s1.setNum st (s1.num st + 1)).setWgt st (s1.wgt st + c.weight key value) with entries := e }
      : Shard K V)) = ((s1.setNum st (s1.num st + 1)).setWgt st (s1.wgt st + c.weight key value)).head := by
      funext i; cases i <;> rfl
    rw [this]; simp
  obtain ⟨s4, j1, j2, j3⟩ := linkNew_ring (rho := c.rho s1.entries.item) (s := s3) (t := s1.entries.nextFree)
      (by rw [hse, hsh]; exact g4) st (w := c.weight key value) (by rw [hse, g2.after]; simp) g3
  rw [j1]
  simp only [Res.ok_bind]
  have hmap4 : s4.map = s1.map := by rw [j2.map, ← hs3]; simp
  have hre : rehash c s4.entries s4.map = .ok s4.map := by
    refine rehash_spec ?_
    intro hh t hm
    rw [hmap4] at hm
    obtain ⟨x, e1, e2⟩ := h2.inv.idx.hashed hh t hm
    refine ⟨x, ?_, e2⟩
    rw [Slab.item_congr j2.items, hse, g2.other]
    · exact e1
    · rintro rfl; rw [g2.before] at e1; cases e1
  left
  refine ⟨({ s4 with map := s1.map ++ [(c.hash key, s1.entries.nextFree)] }, q1), ?_,
    s1, s1.entries.nextFree, st, h2, ?_, h3, hfits, rfl, ?_, rfl⟩
  · unfold mapInsert
    rw [hre]
    simp only [Res.ok_bind, hmap4]
  · have e1 : Same s1 s4 := by
      refine Same.trans ?_ j2.same
      rw [← hs3]; constructor <;> simp
    refine (h2.same.trans e1).trans ?_
    constructor <;> rfl
  · have hhd : Shard.head { s4 with map := s1.map ++ [(c.hash key, s1.entries.nextFree)] } = s4.head := by
      funext i; cases i <;> rfl
    have hnum : Shard.num { s4 with map := s1.map ++ [(c.hash key, s1.entries.nextFree)] } = s4.num := by
      funext i; cases i <;> rfl
    have hwgt : Shard.wgt { s4 with map := s1.map ++ [(c.hash key, s1.entries.nextFree)] } = s4.wgt := by
      funext i; cases i <;> rfl
    have hnum3 : s3.num = upd s1.num st (s1.num st + 1) := by
      rw [← hs3]
      have : Shard.num { (s1.setNum st (s1.num st + 1)).setWgt st (s1.wgt st + c.weight key value) with entries := e } =
        ((s1.setNum st (s1.num st + 1)).setWgt st (s1.wgt st + c.weight key value)).num := by
          funext i; cases i <;> rfl
      rw [this]; simp
    have hwgt3 : s3.wgt = upd s1.wgt st (s1.wgt st + c.weight key value) := by
      rw [← hs3]
      have : Shard.wgt { (s1.setNum st (s1.num st + 1)).setWgt st (s1.wgt st + c.weight key value) with entries := e } =
        ((s1.setNum st (s1.num st + 1)).setWgt st (s1.wgt st + c.weight key value)).wgt := by
          funext i; cases i <;> rfl
      rw [this]; simp
    rw [hr']
    refine wrote_add h2.inv (e := .resident r') ?_ ?_ ?_ ?_ ?_ ?_ ?_ ?_ ?_ (by simp) ?_ ?_ ?_
    · exact Slab.Upd.items_right (by rw [j2.items, hse]) g2
    · rw [hse, hsh] at j3
      rw [hhd]; simp only [Cfg.ringOf, k1, k2, k3]; exact (Moves.insert g1).trans j3
    · simp [hashOf, k1]
    · simp only; rw [j2.same.probe, ← hs3]; simp
    · simp only; rw [j2.same.nextPlh, ← hs3]; simp
    · simp only; rw [j2.same.target, ← hs3]; simp
    · simp only; rw [j2.same.capacity, ← hs3]; simp
    · simp only; rw [j2.same.ghostCap, ← hs3]; simp
    · intro k hk h' t' hm hk'
      simp only [keyOf, Option.some.injEq, k1] at hk
      subst hk
      obtain ⟨L, -, hL⟩ := h2.log
      exact habs h' t' ((h2.map _).mp hm).1 (hL.frame.2.1 _ _ hk')
    · intro x; rw [hnum, j2.num, hnum3]
      by_cases hx : x = st
      · subst hx; simp [numF, k3]
      · rw [upd_other _ _ hx]; simp [numF, k3, Ne.symm hx]
    · intro x; rw [hwgt, j2.wgt, hwgt3]
      by_cases hx : x = st
      · subst hx; simp [wgtF, k1, k2, k3]
      · rw [upd_other _ _ hx]; simp [wgtF, k3, Ne.symm hx]
    · simp only; rw [j2.ghosts, ← hs3]; simp [ghostF]

/-! ### The whole of `insert` -/

/-- No indexed entry of the key (resident or placeholder). -/
def NoKey (s : Shard K V) (key : K) : Prop := ∀ h' t, (h', t) ∈ s.map → keyAt s.entries.item t ≠ some key

/-- No resident of the key. -/
def NoRes (s : Shard K V) (key : K) : Prop := ∀ t r, s.entries.item t = some (.resident r) → r.key ≠ key

/-- No ghost of the hash. -/
def NoGhost (s : Shard K V) (h : UInt64) : Prop := ∀ t, s.entries.item t ≠ some (.ghost h)

theorem NoKey.noRes (h : Inv0 c s) {key : K} (hn : NoKey s key) : NoRes s key := by
  intro t r ht hk
  refine hn _ t (h.idx.mapped t _ ht (by simp)) ?_
  simp [keyAt, ht, keyOf, hk]

/-- The outcomes of storing an item that passed the overweight check. -/
inductive Admit (c : Cfg K V RS) (s : Shard K V) (q : Req K V RS) (key : K) (value : V) (strategy : Strategy) :
    Shard K V × Req K V RS × Option V → Prop
  | overwrite (t : Nat) (r : Resident K V) (s3 s' : Shard K V) (q' : Req K V RS)
      (ht : s.entries.item t = some (.resident r)) (hk : r.key = key) (same : Same s s3)
      (wrote : Wrote c s s3 t (some (.resident r)) (some (.resident
        { key := key, value := value, state := r.state, referenced := insRef strategy r.referenced })))
      (after : AfterEvict c s3 (q.on c r.key r.value) s' q') : Admit c s q key value strategy (s', q', none)
  | revive (t : Nat) (s3 s' : Shard K V) (q' : Req K V RS) (hstr : strategy = .insert)
      (ht : s.entries.item t = some (.ghost (c.hash key))) (hk : NoKey s key) (same : Same s s3)
      (wrote : Wrote c s s3 t (some (.ghost (c.hash key))) (some (.resident
        { key := key, value := value, state := .hot, referenced := 0 })))
      (after : AfterEvict c s3 q s' q') : Admit c s q key value strategy (s', q', none)
  | fill (t : Nat) (ph : Placeholder K) (s3 s' : Shard K V) (q' : Req K V RS) (hstr : strategy = .insert)
      (ht : s.entries.item t = some (.placeholder ph)) (hm : (c.hash key, t) ∈ s.map) (hk : ph.key = key)
      (hno : NoRes s key) (same : Same s s3)
      (wrote : Wrote c s s3 t (some (.placeholder ph)) (some (.resident
        { key := key, value := value, state := ph.hot, referenced := 1 })))
      (after : AfterEvict c s3 q s' q') : Admit c s q key value strategy (s', q', none)
  | fresh (t : Nat) (st : St) (s1 s' : Shard K V) (q' : Req K V RS) (hstr : strategy = .insert) (hk : NoKey s key)
      (hg : NoGhost s (c.hash key)) (post : EvPost c s q s1 q')
      (done : s1.weightHot + s1.weightCold + c.weight key value ≤ s1.weightCapacity ∨ Stuck c s1)
      (fits : s.weightHot + s.weightCold + c.weight key value ≤ s.weightCapacity → s1 = s ∧ q' = q)
      (hst : st = (if s.weightHot + c.weight key value ≤ s.weightTargetHot then St.hot else .cold)) (same : Same s s')
      (wrote : Wrote c s1 s' t none (some (.resident { key := key, value := value, state := st, referenced := 0 })))
      (run : evictLoop c (c.weight key value) s.evictFuel s q = .ok (s1, q')) :
      Admit c s q key value strategy (s', q', none)
  | absent (soft : Bool) (hstr : strategy = .replace soft) (hno : NoRes s key) :
      Admit c s q key value strategy (s, q, some value)

theorem insertAdmitted_spec [DecidableEq K] (h : Inv0 c s) (q : Req K V RS) (key : K) (value : V)
    (strategy : Strategy) :
    Res.Sat (s.insertAdmitted c q (c.hash key) key value (c.weight key value) strategy)
      (Admit c s q key value strategy) (AddErr s (strategy = .insert ∧ NoKey s key) (c.weight key value)) := by
  unfold insertAdmitted
  rcases search_spec h.idx (Lawful.key c key) with ⟨t, e, k, h1, h2, h3, h4, h5⟩ | ⟨h0, hg⟩
  · rw [h1]
    simp only [Res.ok_bind]
    simp only [beq_iff_eq] at h5
    subst h5
    cases e with
    | resident r =>
      simp only [keyOf, Option.some.injEq] at h4
      refine (insertExisting_resident h q value strategy h3 h4).mono ?_ (fun _ hp => hp.mono False.elim)
      rintro ⟨s', q', o⟩ ⟨rfl, s3, g1, g2, g3⟩
      exact .overwrite t r s3 s' q' h3 h4 g1 g2 g3
    | placeholder ph =>
      simp only [keyOf, Option.some.injEq] at h4
      have hno : NoRes s k := by
        intro t' r' hr' hk'
        have := res_key_uniq (k := k) h h3 (by simpa [hashOf, h4] using h2) (by simp [keyOf, h4]) _ t'
          (h.idx.mapped t' _ hr' (by simp)) (by simp [keyAt, hr', keyOf, hk'])
        subst this; rw [h3] at hr'; cases hr'
      cases strategy with
      | insert =>
        subst h4
        refine (insertExisting_placeholder h q value h3 h2).mono ?_ (fun _ hp => hp.mono False.elim)
        rintro ⟨s', q', o⟩ ⟨rfl, s3, g1, g2, g3⟩
        exact .fill t ph s3 s' q' rfl h3 h2 rfl hno g1 g2 g3
      | replace soft =>
        rw [insertExisting_replace q value h3 (by simp)]
        exact .ok (.absent soft rfl hno)
    | ghost g => simp [keyOf] at h4
  · have hnk : NoKey s key := by
      intro h' t hm hk
      have := h0 h' t key hm hk
      simp at this
    rcases hg with ⟨t, h1, h2, h3⟩ | ⟨h1, h2⟩
    · rw [h1]
      simp only [Res.ok_bind]
      cases strategy with
      | insert =>
        refine (insertExisting_ghost h q value h3 hnk).mono ?_ (fun _ hp => hp.mono False.elim)
        rintro ⟨s', q', o⟩ ⟨rfl, s3, g1, g2, g3⟩
        exact .revive t s3 s' q' rfl h3 hnk g1 g2 g3
      | replace soft =>
        rw [insertExisting_replace q value h3 (by simp)]
        exact .ok (.absent soft rfl (hnk.noRes h))
    · rw [h1]
      simp only [Res.ok_bind]
      cases strategy with
      | insert =>
        simp only
        refine Res.Sat.bind ((insertNew_spec h q value hnk).mono (fun _ hx => hx)
          (E' := AddErr s (True ∧ NoKey s key) _)
          (fun _ hp => hp.mono (fun _ => ⟨trivial, hnk⟩))) ?_
        rintro ⟨s', q'⟩ ⟨s1, t, st, g1, g2, g3, g4, g5, g6, g7⟩
        exact .ok (.fresh t st s1 s' q' rfl hnk h2 g1 g3 g4 g5 g2 g6 g7)
      | replace soft => exact .ok (.absent soft rfl (hnk.noRes h))

/-- Rejecting an overweight item: the old item of the key goes. -/
inductive Reject (c : Cfg K V RS) (s : Shard K V) (q : Req K V RS) (key : K) (value : V) (strategy : Strategy) :
    Shard K V × Req K V RS × Option V → Prop
  | evictOld (t : Nat) (r : Resident K V) (s' : Shard K V) (ht : s.entries.item t = some (.resident r))
      (hk : r.key = key) (same : Same s s') (wrote : Wrote c s s' t (some (.resident r)) none) :
      Reject c s q key value strategy
        (match strategy with
         | .insert => (s', (q.on c r.key r.value).on c key value, none)
         | .replace _ => (s', q.on c r.key r.value, some value))
  | noOld (hno : NoRes s key) :
      Reject c s q key value strategy
        (match strategy with
         | .insert => (s, q.on c key value, none)
         | .replace _ => (s, q, some value))

theorem handleInsertOverweight_spec [DecidableEq K] (h : Inv0 c s) (q : Req K V RS) (key : K) (value : V)
    (strategy : Strategy) :
    ∃ x, s.handleInsertOverweight c q (c.hash key) key value strategy = .ok x ∧ Reject c s q key value strategy x := by
  unfold handleInsertOverweight
  rcases searchResident_spec h.idx (Lawful.key c key) with ⟨t, r, h1, h2, h3⟩ | ⟨h1, h2⟩
  · rw [h1]
    simp only [beq_iff_eq] at h3
    obtain ⟨s', g1, g2, g3⟩ := removeInternal_spec h h2 (h.idx.mapped t _ h2 (by simp))
    simp only [hashOf, residentPair, h3] at g1
    refine ⟨_, ?_, .evictOld t r s' h2 h3 g3 g2⟩
    simp only [Res.ok_bind, g1]
    cases strategy <;> simp [h3]
  · rw [h1]
    refine ⟨_, ?_, .noOld (fun t r ht hk => by have := h2 t r ht; simp [hk] at this)⟩
    simp only [Res.ok_bind]
    cases strategy <;> simp

/-- The outcomes of `insert`. -/
inductive Inserted (c : Cfg K V RS) (s : Shard K V) (q : Req K V RS) (key : K) (value : V) (strategy : Strategy) :
    Shard K V × Req K V RS × Option V → Prop
  | direct {x : Shard K V × Req K V RS × Option V}
      (hw : ¬ (s.weightTargetHot < c.weight key value ∧ c.pinned key value = false))
      (ha : Admit c s q key value strategy x) : Inserted c s q key value strategy x
  | shrunk {x : Shard K V × Req K V RS × Option V} (q1 : Req K V RS) (v1 : V)
      (hw : s.weightTargetHot < c.weight key value) (hp : c.pinned key value = false)
      (hb : q.before c key value = (q1, v1)) (hw1 : c.weight key v1 ≤ s.weightTargetHot)
      (ha : Admit c s q1 key v1 strategy x) : Inserted c s q key value strategy x
  | rejected {x : Shard K V × Req K V RS × Option V} (q1 : Req K V RS) (v1 : V)
      (hw : s.weightTargetHot < c.weight key value) (hp : c.pinned key value = false)
      (hb : q.before c key value = (q1, v1)) (hw1 : s.weightTargetHot < c.weight key v1)
      (ha : Reject c s q1 key v1 strategy x) : Inserted c s q key value strategy x

/-- The weight an `insert` adds: that of the value, or of the value rewritten by `before_evict`. -/
def addWeight (c : Cfg K V RS) (s : Shard K V) (q : Req K V RS) (key : K) (value : V) : Nat :=
  if s.weightTargetHot < c.weight key value ∧ c.pinned key value = false then
    c.weight key (q.before c key value).2
  else c.weight key value

theorem insert_spec [DecidableEq K] (h : Inv0 c s) (q : Req K V RS) (key : K) (value : V) (strategy : Strategy) :
    Res.Sat (s.insert c q (c.hash key) key value strategy) (Inserted c s q key value strategy)
      (AddErr s (strategy = .insert ∧ NoKey s key) (addWeight c s q key value)) := by
  unfold insert addWeight
  by_cases hw : s.weightTargetHot < c.weight key value ∧ c.pinned key value = false
  · simp only [if_pos hw]
    by_cases hw1 : s.weightTargetHot < c.weight key (q.before c key value).2
    · simp only [if_pos hw1]
      obtain ⟨x, h1, h2⟩ := handleInsertOverweight_spec h (q.before c key value).1 key (q.before c key value).2 strategy
      rw [h1]
      exact .ok (.rejected _ _ hw.1 hw.2 rfl hw1 h2)
    · simp only [if_neg hw1]
      refine (insertAdmitted_spec h _ key _ strategy).mono ?_ (fun _ hp => hp)
      intro x hx
      exact .shrunk _ _ hw.1 hw.2 rfl (Nat.le_of_not_lt hw1) hx
  · simp only [if_neg hw]
    refine (insertAdmitted_spec h q key value strategy).mono ?_ (fun _ hp => hp)
    intro x hx
    exact .direct hw hx

end Shard
end QuickCache
