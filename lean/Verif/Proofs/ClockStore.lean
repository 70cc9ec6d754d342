import Verif.Proofs.ClockWrite
import Verif.Proofs.Step

/-!
# Storing, looking up and loading, on the abstract clock machine
-/

namespace QuickCache
variable {K V RS : Type}
open Spec Shard

section
variable [DecidableEq K] {c : Cfg K V RS} {s : Shard K V} {R : RingId → List Nat} {F : List Nat}

omit [DecidableEq K] in
theorem insRef_eq (str : Strategy) (n : Nat) :
    insRef str n = min (if decide (str ≠ .replace true) then n + 1 else n) 2 := by
  unfold insRef MAX_F
  by_cases h : str = .replace true <;> simp [h]

/-- Making room after a change. -/
theorem AfterEvict.sim {s' : Shard K V} {q q' : Req K V RS} (h : AfterEvict c s q s' q') (hi : Inv0 c s)
    (hr : s.HasRings c R F) :
    ∃ m' L, Clock.Fit c 0 (s.abs R) q.st L m' q'.st ∧ q'.log = q.log ++ L ∧ s'.Implements c m' :=
  Shard.evictLoop_sim 0 _ s q R F hi hr h.run

/-- Storing an admitted item. -/
theorem Shard.Admit.sim (h : Inv0 c s) (hr : s.HasRings c R F) {q : Req K V RS} {k : K} {v : V} {str : Strategy}
    {x : Shard K V × Req K V RS × Option V} (ha : Admit c s q k v str x) :
    (∃ s' q' m' L, x = (s', q', none) ∧ s'.Implements c m' ∧ q'.log = q.log ++ L ∧
      Clock.Place c (s.abs R) q.st k v (decide (str ≠ .replace true)) L m' q'.st ∧
      (str ≠ .insert → ∃ i, (s.abs R).items k = some i)) ∨
    (x = (s, q, some v) ∧ (s.abs R).items k = none ∧ str ≠ .insert) := by
  cases ha with
  | overwrite t r s3 s' q' ht hk same wrote after =>
    left
    subst hk
    obtain ⟨R3, F3, e1, e2⟩ := wrote.sim_rewrite h rfl rfl hr
    obtain ⟨m', L, f1, f2, f3⟩ := after.sim wrote.inv e1
    rw [e2] at f1
    refine ⟨s', q', m', .onEvict r.key r.value :: L, rfl, f3, ?_, ?_, fun _ => ⟨_, h.abs_item R ht⟩⟩
    · rw [f2]; simp [Req.on]
    · refine .overwrite (h.abs_item R ht) ?_
      simpa [Resident.item, insRef_eq, Req.on] using f1
  | revive t s3 s' q' hstr ht hk same wrote after =>
    left
    subst hstr
    obtain ⟨R3, F3, gs, e1, e2, e3⟩ := wrote.sim_revive h hr
    obtain ⟨m', L, f1, f2, f3⟩ := after.sim wrote.inv e1
    rw [e3] at f1
    refine ⟨s', q', m', L, rfl, f3, f2, ?_, fun hx => absurd rfl hx⟩
    exact .ghost (abs_none h (hk.noRes h)) (abs_idle h hk) e2 f1
  | fill t ph s3 s' q' hstr ht hm hk hno same wrote after =>
    left
    subst hstr hk
    obtain ⟨R3, F3, e1, e2⟩ := wrote.sim_fill h ⟨_, hm⟩ rfl hr
    obtain ⟨m', L, f1, f2, f3⟩ := after.sim wrote.inv e1
    rw [e2] at f1
    refine ⟨s', q', m', L, rfl, f3, f2, ?_, fun hx => absurd rfl hx⟩
    exact .loading (abs_none h hno) (abs_pending h ht ⟨_, hm⟩) f1
  | fresh t st s1 s' q' hstr hk hg post done fits hst same wrote run =>
    left
    subst hstr
    obtain ⟨m1, L, f1, f2, R1, F1, f3, rfl⟩ := Shard.evictLoop_sim _ _ s q R F h hr run
    obtain ⟨R', F', e1, e2⟩ := wrote.sim_new post.inv f3
    refine ⟨s', q', _, L, rfl, ⟨R', F', e1, rfl⟩, f2, ?_, fun hx => absurd rfl hx⟩
    rw [e2]
    have hb : decide (st = .hot) = decide ((s.abs R).hotWeight c + c.weight k v ≤ (s.abs R).target) := by
      rw [abs_hotWeight h hr]
      show _ = decide (s.weightHot + c.weight k v ≤ s.weightTargetHot)
      rw [hst]
      by_cases hx : s.weightHot + c.weight k v ≤ s.weightTargetHot <;> simp [hx]
    have := Clock.Place.fresh (c := c) (m := s.abs R) (st := q.st) (k := k) (v := v)
      (used := decide (Strategy.insert ≠ .replace true)) (abs_none h (hk.noRes h)) (abs_idle h hk) (abs_noGhost hg) f1
    simpa only [Resident.item, hb] using this
  | absent soft hstr hno =>
    right
    subst hstr
    exact ⟨rfl, abs_none h hno, by simp⟩

omit [DecidableEq K] in
theorem before_begin {k : K} {v v1 : V} {q1 : Req K V RS} (hb : c.begin.before c k v = (q1, v1)) :
    c.beforeEvict c.beginReq k v = (q1.st, v1) ∧ q1.log = [.beforeEvict k v v1] := by
  unfold Req.before Cfg.begin at hb
  cases hb
  exact ⟨rfl, rfl⟩

omit [DecidableEq K] in
theorem Spec.Enter.direct' {t : Nat} {k : K} {v : V} (hw : ¬ (t < c.weight k v ∧ c.pinned k v = false)) :
    Enter c t k v c.beginReq [] v := by
  refine .direct ?_
  by_cases h : t < c.weight k v
  · right
    cases hp : c.pinned k v with
    | true => rfl
    | false => exact absurd ⟨h, hp⟩ hw
  · left; omega

/-- Rejecting an item. -/
theorem Shard.Reject.sim (h : Inv0 c s) (hr : s.HasRings c R F) {q : Req K V RS} {k : K} {v : V} {str : Strategy}
    {x : Shard K V × Req K V RS × Option V} (ha : Reject c s q k v str x) :
    x.1.Implements c (((s.abs R).dropItem k).delist k) ∧
      x.2 = match (generalizing := false) str with
        | .insert => ({ st := x.2.1.st, log := q.log ++ (((s.abs R).items k).toList.map (fun i => .onEvict k i.value) ++
          [.onEvict k v]) }, none)
        | .replace _ => ({ st := x.2.1.st, log := q.log ++ ((s.abs R).items k).toList.map (fun i => .onEvict k i.value) },
          some v) := by
  cases ha with
  | evictOld t r s' ht hk same wrote =>
    subst hk
    obtain ⟨R', F', e1, e2⟩ := wrote.sim_remove h hr
    cases str with
    | insert =>
      refine ⟨⟨R', F', e1, e2.symm⟩, ?_⟩
      simp [h.abs_item R ht, Req.on, Resident.item]
    | replace soft =>
      refine ⟨⟨R', F', e1, e2.symm⟩, ?_⟩
      simp [h.abs_item R ht, Req.on, Resident.item]
  | noOld hno =>
    have hn := abs_none (R := R) h hno
    cases str with
    | insert =>
      refine ⟨⟨R, F, hr, abs_delist h hr hn⟩, ?_⟩
      simp [hn, Req.on]
    | replace soft =>
      refine ⟨⟨R, F, hr, abs_delist h hr hn⟩, ?_⟩
      simp [hn]

/-- Inserting. -/
theorem Shard.Inserted.sim_insert (h : Inv0 c s) (hr : s.HasRings c R F) {k : K} {v : V}
    {x : Shard K V × Req K V RS × Option V} (hx : Inserted c s c.begin k v .insert x) :
    ∃ s' q' m', x = (s', q', none) ∧ s'.Implements c m' ∧ Clock.Insert c (s.abs R) k v q'.log m' := by
  cases hx with
  | direct hw ha =>
    rcases ha.sim h hr with ⟨s', q', m', L, rfl, e1, e2, e3, -⟩ | ⟨-, -, hn⟩
    · refine ⟨s', q', m', rfl, e1, ?_⟩
      rw [e2]
      exact .stored (Enter.direct' hw) (fun h => absurd rfl h) e3
    · exact absurd rfl hn
  | shrunk q1 v1 hw hp hb hw1 ha =>
    obtain ⟨b1, b2⟩ := before_begin hb
    rcases ha.sim h hr with ⟨s', q', m', L, rfl, e1, e2, e3, -⟩ | ⟨-, -, hn⟩
    · refine ⟨s', q', m', rfl, e1, ?_⟩
      rw [e2, b2]
      exact .stored (.rewritten hw hp b1) (fun _ => hw1) e3
    · exact absurd rfl hn
  | rejected q1 v1 hw hp hb hw1 ha =>
    obtain ⟨b1, b2⟩ := before_begin hb
    obtain ⟨e1, e2⟩ := ha.sim h hr
    obtain ⟨s', q', o⟩ := x
    simp only at e1 e2
    refine ⟨s', q', _, by rw [(Prod.mk.inj e2).2], e1, ?_⟩
    rw [(Prod.mk.inj e2).1, b2]
    simp only
    rw [← List.append_assoc]
    exact .rejected (.rewritten hw hp b1) (by simp) hw1

/-- Replacing. -/
theorem Shard.Inserted.sim_replace (h : Inv0 c s) (hr : s.HasRings c R F) {k : K} {v : V} {soft : Bool}
    {x : Shard K V × Req K V RS × Option V} (hx : Inserted c s c.begin k v (.replace soft) x) :
    ∃ m', x.1.Implements c m' ∧ Clock.Replacing c (s.abs R) k v soft x.2.1.log m' x.2.2 := by
  have hu : decide (Strategy.replace soft ≠ .replace true) = !soft := by cases soft <;> simp
  cases hx with
  | direct hw ha =>
    rcases ha.sim h hr with ⟨s', q', m', L, rfl, e1, e2, e3, e4⟩ | ⟨rfl, hno, hn⟩
    · refine ⟨m', e1, ?_⟩
      obtain ⟨i, hi⟩ := e4 (by simp)
      rw [hu] at e3
      simp only [e2]
      exact .stored (Enter.direct' hw) (fun h => absurd rfl h) hi e3
    · exact ⟨_, ⟨R, F, hr, rfl⟩, .absent (Enter.direct' hw) (fun h => absurd rfl h) hno⟩
  | shrunk q1 v1 hw hp hb hw1 ha =>
    obtain ⟨b1, b2⟩ := before_begin hb
    rcases ha.sim h hr with ⟨s', q', m', L, rfl, e1, e2, e3, e4⟩ | ⟨rfl, hno, hn⟩
    · refine ⟨m', e1, ?_⟩
      obtain ⟨i, hi⟩ := e4 (by simp)
      rw [hu] at e3
      simp only [e2, b2]
      exact .stored (.rewritten hw hp b1) (fun _ => hw1) hi e3
    · refine ⟨_, ⟨R, F, hr, rfl⟩, ?_⟩
      simp only [b2]
      exact .absent (.rewritten hw hp b1) (fun _ => hw1) hno
  | rejected q1 v1 hw hp hb hw1 ha =>
    obtain ⟨b1, b2⟩ := before_begin hb
    obtain ⟨e1, e2⟩ := ha.sim h hr
    obtain ⟨s', q', o⟩ := x
    simp only at e1 e2
    refine ⟨_, e1, ?_⟩
    simp only
    rw [(Prod.mk.inj e2).2, (Prod.mk.inj e2).1, b2]
    exact .rejected (.rewritten hw hp b1) (by simp) hw1

/-! ### Lookups that may load -/

theorem Spec.Clock.relist_same (m : Clock K V) (b : Bool) (k : K) (w : Nat) : m.relist b k w w = m := by
  unfold Clock.relist Clock.enlist
  by_cases h : w = 0 <;> simp [h]

omit [DecidableEq K] in
theorem item_warm (r : Resident K V) : ({ r with referenced := bumpRef r.referenced } : Resident K V).item = r.item.warm := by
  unfold Resident.item Item.warm bumpRef MAX_F
  rfl

theorem Wrote.sim_warm {s' : Shard K V} {t : Nat} {r : Resident K V}
    (h : Wrote c s s' t (some (.resident r)) (some (.resident { r with referenced := bumpRef r.referenced })))
    (hi : Inv0 c s) (hr : s.HasRings c R F) :
    ∃ R' F', s'.HasRings c R' F' ∧ s'.abs R' = (s.abs R).setItem r.key r.item.warm := by
  obtain ⟨R', F', e1, e2⟩ := h.sim_rewrite hi rfl rfl hr
  refine ⟨R', F', e1, ?_⟩
  rw [e2, Clock.relist_same, item_warm]

/-- The value found by a lookup. -/
def Shard.Upsert.found? : Upsert V → Option V
  | .found _ v => some v
  | .pending .. => none

theorem Shard.Upserted.sim (h : Inv0 c s) (hr : s.HasRings c R F) {k : K} {x : Shard K V × Upsert V}
    (hu : Upserted c s k x) : ∃ R' F', x.1.HasRings c R' F' ∧ Clock.Lookup c (s.abs R) k x.2.found? (x.1.abs R') := by
  cases hu with
  | found t r s' ht hk wrote hits misses np =>
    subst hk
    obtain ⟨R', F', e1, e2⟩ := wrote.sim_warm h hr
    refine ⟨R', F', e1, ?_⟩
    simp only [e2]
    exact .found (h.abs_item R ht)
  | join t ph ht hk hm hno =>
    subst hk
    refine ⟨R, F, hr, ?_⟩
    exact .loading (abs_none h hno) (abs_pending h ht ⟨_, hm⟩)
  | ghost t s' ht hno wrote hits misses np =>
    obtain ⟨R', F', gs, e1, e2, e3⟩ := wrote.sim_haunted h hr
    refine ⟨R', F', e1, ?_⟩
    simp only [e3]
    exact .ghost (abs_none h (hno.noRes h)) (abs_idle h hno) e2
  | fresh t s' hno hg wrote hits misses np =>
    obtain ⟨R', F', e1, e2⟩ := wrote.sim_pending h hr
    refine ⟨R', F', e1, ?_⟩
    simp only [e2]
    exact .fresh (abs_none h (hno.noRes h)) (abs_idle h hno) (abs_noGhost hg)

/-- The end of a load. -/
theorem Shard.Replaced.sim (h : Inv0 c s) (hr : s.HasRings c R F) {p : Plh} {ph : Placeholder K} (hp : Holds c s p ph)
    (hm : InMap s.map p.idx) {v : V} {waited : Bool} {x : Shard K V × Req K V RS × Option V}
    (hx : Replaced c s c.begin p waited v x) :
    ∃ m', x.1.Implements c m' ∧ Clock.Fill c (s.abs R) ph.key v waited x.2.1.log m' := by
  have hkey : ∀ ph', Holds c s p ph' → ph' = ph := by
    intro ph' h'
    have := h'.1.symm.trans hp.1
    cases this; rfl
  have gen : ∀ {st : St} {q1 q' : Req K V RS} {v1 : V} {pre : List (Event K V)} {s3 s' : Shard K V}, q1.log = pre →
      Enter c (s.abs R).target ph.key v q1.st pre v1 → Admitted c (s.abs R).target ph.key pre v1 →
      Wrote c s s3 p.idx (some (.placeholder ph)) (some (.resident
        { key := ph.key, value := v1, state := st, referenced := if waited then 1 else 0 })) →
      (AfterEvict c s3 q1 s' q' ∨ (c.weight ph.key v1 = 0 ∧ s' = s3 ∧ q' = q1)) →
      st = (if s.weightHot + s.weightCold + c.weight ph.key v1 ≤ s.weightCapacity then .hot else ph.hot) →
      (c.weight ph.key v1 = 0 → s' = s3 ∧ q' = q1) →
      ∃ m', s'.Implements c m' ∧ Clock.Fill c (s.abs R) ph.key v waited q'.log m' := by
    intro st q1 q' v1 pre s3 s' hlog enter adm wrote after level light
    obtain ⟨R3, F3, e1, e2⟩ := wrote.sim_fill h hm rfl hr
    have hb : decide (st = .hot) =
        (decide ((s.abs R).hotWeight c + (s.abs R).coldWeight c + c.weight ph.key v1 ≤ (s.abs R).cap) ||
          decide (ph.hot = .hot)) := by
      rw [abs_hotWeight h hr, abs_coldWeight h hr]
      show _ = (decide (s.weightHot + s.weightCold + c.weight ph.key v1 ≤ s.weightCapacity) || _)
      rw [level]
      by_cases hx : s.weightHot + s.weightCold + c.weight ph.key v1 ≤ s.weightCapacity <;> simp [hx]
    have hpend := abs_pending (R := R) h hp.1 hm
    by_cases hw : c.weight ph.key v1 = 0
    · obtain ⟨rfl, rfl⟩ := light hw
      refine ⟨_, ⟨R3, F3, e1, rfl⟩, ?_⟩
      rw [e2, hlog]
      have := Clock.Fill.weightless (waited := waited) enter adm hpend hw
      simpa only [Clock.enlist, hw, if_true, Resident.item, hb, Nat.add_zero] using this
    · rcases after with after | ⟨h0, -⟩
      · obtain ⟨m', L, f1, f2, f3⟩ := after.sim wrote.inv e1
        refine ⟨m', f3, ?_⟩
        rw [e2] at f1
        rw [f2, hlog]
        refine Clock.Fill.stored (st' := q'.st) enter adm hpend hw hb ?_
        have hl : ∀ i b, Clock.list { (s.abs R).setItem ph.key i with pending := del (s.abs R).pending ph.key } b =
            (s.abs R).list b := fun _ _ => rfl
        simpa only [Clock.enlist, hw, if_false, Resident.item, hl] using f1
      · exact absurd h0 hw
  cases hx with
  | gone hg => exact absurd hp (hg ph)
  | direct ph' st s3 s' q' hp' hw same wrote after level light =>
    obtain rfl := hkey ph' hp'
    exact gen (q1 := c.begin) (pre := []) rfl (Enter.direct' hw) (fun h => absurd rfl h) wrote after level light
  | shrunk ph' st q1 v1 s3 s' q' hp' hw hpin hb hw1 same wrote after level light =>
    obtain rfl := hkey ph' hp'
    obtain ⟨b1, b2⟩ := before_begin hb
    exact gen b2 (.rewritten hw hpin b1) (fun _ => hw1) wrote after level light
  | rejected ph' q1 v1 s' hp' hw hpin hb hw1 same wrote =>
    obtain rfl := hkey ph' hp'
    obtain ⟨b1, b2⟩ := before_begin hb
    obtain ⟨R', F', e1, e2⟩ := wrote.sim_give h hm hr
    refine ⟨_, ⟨R', F', e1, rfl⟩, ?_⟩
    rw [e2]
    simp only [Req.on, b2]
    exact .rejected (.rewritten hw hpin b1) (by simp) hw1

end
end QuickCache
