import Verif.Proofs.Inv
import Verif.Proofs.Fields

/-!
# What eviction does to the entries

`EvStep c I st L I' st'`: one elementary effect of the eviction machinery on the entries `I` (slot to entry) and the
request state `st`, making the lifecycle calls `L`.
-/

namespace QuickCache
variable {K V RS : Type _}

/-- One elementary effect of eviction. -/
inductive EvStep (c : Cfg K V RS) : (Nat → Option (Entry K V)) → RS → List (Event K V) →
    (Nat → Option (Entry K V)) → RS → Prop
  /-- a scan passes a hot resident, lowering its counter, or promotes a referenced cold one -/
  | touch {I : Nat → Option (Entry K V)} {st : RS} (t : Nat) (r : Resident K V) (n : Nat) (st' : St)
      (ht : I t = some (.resident r))
      (hst : (r.state = .hot ∧ (c.pinned r.key r.value = true ∨ r.referenced ≠ 0) ∧ st' = .hot ∧
          n = min r.referenced MAX_F - 1) ∨
        (r.state = .cold ∧ r.referenced ≠ 0 ∧ st' = .hot ∧ n = r.referenced - 1)) :
      EvStep c I st [] (upd I t (some (.resident { r with referenced := n, state := st' }))) st
  /-- the victim became weightless in `before_evict` and stays -/
  | spare {I : Nat → Option (Entry K V)} {st st1 : RS} (t : Nat) (r : Resident K V) (v : V)
      (ht : I t = some (.resident r)) (hr : r.referenced = 0) (hw : c.weight r.key r.value ≠ 0)
      (hp : c.pinned r.key r.value = false) (hb : c.beforeEvict st r.key r.value = (st1, v))
      (hw' : c.weight r.key v = 0) :
      EvStep c I st [.beforeEvict r.key r.value v] (upd I t (some (.resident { r with value := v }))) st1
  /-- the victim is evicted, leaving a ghost if it was cold -/
  | evict {I : Nat → Option (Entry K V)} {st st1 : RS} (t : Nat) (r : Resident K V) (v : V)
      (ht : I t = some (.resident r)) (hr : r.referenced = 0) (hw : c.weight r.key r.value ≠ 0)
      (hp : c.pinned r.key r.value = false) (hb : c.beforeEvict st r.key r.value = (st1, v))
      (hw' : c.weight r.key v ≠ 0) (new : Option (Entry K V))
      (hnew : (new = none ∧ r.state = .hot) ∨ (new = some (.ghost (c.hash r.key)) ∧ r.state = .cold)) :
      EvStep c I st [.beforeEvict r.key r.value v, .onEvict r.key v] (upd I t new) (c.onEvict st1 r.key v)
  /-- a ghost is dropped -/
  | dropGhost {I : Nat → Option (Entry K V)} {st : RS} (t : Nat) (h : UInt64) (ht : I t = some (.ghost h)) :
      EvStep c I st [] (upd I t none) st

/-- A sequence of elementary effects. -/
inductive EvSteps (c : Cfg K V RS) : (Nat → Option (Entry K V)) → RS → List (Event K V) →
    (Nat → Option (Entry K V)) → RS → Prop
  | nil {I : Nat → Option (Entry K V)} {st : RS} : EvSteps c I st [] I st
  | cons {I I1 I2 : Nat → Option (Entry K V)} {st st1 st2 : RS} {L1 L2 : List (Event K V)}
      (h : EvStep c I st L1 I1 st1) (hs : EvSteps c I1 st1 L2 I2 st2) : EvSteps c I st (L1 ++ L2) I2 st2

namespace EvSteps
variable {c : Cfg K V RS}

theorem trans {I I1 I2 : Nat → Option (Entry K V)} {st st1 st2 : RS} {L1 L2 : List (Event K V)}
    (h1 : EvSteps c I st L1 I1 st1) (h2 : EvSteps c I1 st1 L2 I2 st2) : EvSteps c I st (L1 ++ L2) I2 st2 := by
  induction h1 with
  | nil => simpa using h2
  | cons h hs ih => rw [List.append_assoc]; exact .cons h (ih h2)

theorem single {I I1 : Nat → Option (Entry K V)} {st st1 : RS} {L : List (Event K V)}
    (h : EvStep c I st L I1 st1) : EvSteps c I st L I1 st1 := by
  have := EvSteps.cons h .nil
  simpa using this

end EvSteps

/-- Eviction keeps placeholders and creates neither keys nor placeholders nor occupied slots. -/
theorem EvStep.frame {c : Cfg K V RS} {I I' : Nat → Option (Entry K V)} {st st' : RS} {L : List (Event K V)}
    (h : EvStep c I st L I' st') :
    (∀ t p, I t = some (.placeholder p) ↔ I' t = some (.placeholder p)) ∧
    (∀ t k, keyAt I' t = some k → keyAt I t = some k) ∧
    (∀ t, I t = none → I' t = none) := by
  have gen : ∀ (t : Nat) (e : Entry K V) (new : Option (Entry K V)), I t = some e → (∀ p, e ≠ .placeholder p) →
      (∀ p, new ≠ some (.placeholder p)) → (∀ k, new.bind keyOf = some k → keyOf e = some k) →
      (∀ u p, I u = some (.placeholder p) ↔ upd I t new u = some (.placeholder p)) ∧
      (∀ u k, keyAt (upd I t new) u = some k → keyAt I u = some k) ∧
      (∀ u, I u = none → upd I t new u = none) := by
    intro t e new he hnp hnew hk
    refine ⟨fun u p => ?_, fun u k hu => ?_, fun u hu => ?_⟩
    · by_cases hut : u = t
      · subst hut; rw [upd_same, he]
        constructor
        · intro h; cases h; exact absurd rfl (hnp p)
        · intro h; exact absurd h (hnew p)
      · rw [upd_other _ _ hut]
    · unfold keyAt at *
      by_cases hut : u = t
      · subst hut; rw [upd_same] at hu; rw [he, Option.bind_some]; exact hk k hu
      · rw [upd_other _ _ hut] at hu; exact hu
    · by_cases hut : u = t
      · subst hut; rw [he] at hu; cases hu
      · rw [upd_other _ _ hut]; exact hu
  cases h with
  | touch t r n st' ht hst => exact gen t _ _ ht (by simp) (by simp) (by simp [keyOf])
  | spare t r v ht hr hw hp hb hw' => exact gen t _ _ ht (by simp) (by simp) (by simp [keyOf])
  | evict t r v ht hr hw hp hb hw' new hnew =>
    rcases hnew with ⟨rfl, -⟩ | ⟨rfl, -⟩ <;> exact gen t _ _ ht (by simp) (by simp) (by simp [keyOf])
  | dropGhost t h ht => exact gen t _ _ ht (by simp) (by simp) (by simp)

theorem EvSteps.frame {c : Cfg K V RS} {I I' : Nat → Option (Entry K V)} {st st' : RS} {L : List (Event K V)}
    (h : EvSteps c I st L I' st') :
    (∀ t p, I t = some (.placeholder p) ↔ I' t = some (.placeholder p)) ∧
    (∀ t k, keyAt I' t = some k → keyAt I t = some k) ∧
    (∀ t, I t = none → I' t = none) := by
  induction h with
  | nil => exact ⟨fun _ _ => Iff.rfl, fun _ _ h => h, fun _ h => h⟩
  | cons h hs ih =>
    obtain ⟨a1, a2, a3⟩ := h.frame
    obtain ⟨b1, b2, b3⟩ := ih
    exact ⟨fun t p => (a1 t p).trans (b1 t p), fun t k h => a2 t k (b2 t k h), fun t h => b3 t (a3 t h)⟩

/-! ### Measure and frame -/

/-- Stage of an entry in the eviction pipeline: cold items have two stages ahead of them, hot items one. -/
def muF (c : Cfg K V RS) : Option (Entry K V) → Nat
  | some (.resident r) => if c.weight r.key r.value = 0 then 0 else if r.state = .cold then 2 else 1
  | _ => 0

/-- The total number of stages ahead of all items. -/
def mu (c : Cfg K V RS) (s : Shard K V) : Nat := Slab.sumBy (muF c) s.entries

theorem mu_le (c : Cfg K V RS) (s : Shard K V) : mu c s ≤ 2 * s.entries.entries.length := by
  unfold mu Slab.sumBy
  rw [← Slab.length_items]
  generalize s.entries.items = l
  induction l with
  | nil => simp
  | cons a l ih =>
    have : muF c a ≤ 2 := by
      unfold muF; split
      · split
        · omega
        · split <;> omega
      · omega
    simp only [List.map_cons, List.sum_cons, List.length_cons]; omega

/-- Constants of a shard, and the fields eviction never touches. -/
structure Same (s s' : Shard K V) : Prop where
  target : s'.weightTargetHot = s.weightTargetHot
  capacity : s'.weightCapacity = s.weightCapacity
  ghostCap : s'.capacityNonResident = s.capacityNonResident
  hits : s'.hits = s.hits
  misses : s'.misses = s.misses
  nextPlh : s'.nextPlh = s.nextPlh
  probe : s'.probe = s.probe

theorem Same.refl (s : Shard K V) : Same s s := ⟨rfl, rfl, rfl, rfl, rfl, rfl, rfl⟩

theorem Same.trans {s s1 s2 : Shard K V} (h1 : Same s s1) (h2 : Same s1 s2) : Same s s2 :=
  ⟨h2.1.trans h1.1, h2.2.trans h1.2, h2.3.trans h1.3, h2.4.trans h1.4, h2.5.trans h1.5, h2.6.trans h1.6,
   h2.7.trans h1.7⟩

/-- What a piece of the eviction machinery guarantees, except for the bound on ghosts. -/
structure EvPost0 (c : Cfg K V RS) (s : Shard K V) (q : Req K V RS) (s' : Shard K V) (q' : Req K V RS) : Prop where
  inv : Inv0 c s'
  log : ∃ L, q'.log = q.log ++ L ∧ EvSteps c s.entries.item q.st L s'.entries.item q'.st
  same : Same s s'
  map : ∀ b, b ∈ s'.map ↔ b ∈ s.map ∧ (s'.entries.item b.2).isSome
  len : s'.entries.entries.length = s.entries.entries.length
  total : s'.weightHot + s'.weightCold ≤ s.weightHot + s.weightCold
  mu : mu c s' ≤ mu c s

/-- What a piece of the eviction machinery guarantees. -/
structure EvPost (c : Cfg K V RS) (s : Shard K V) (q : Req K V RS) (s' : Shard K V) (q' : Req K V RS) : Prop
    extends EvPost0 c s q s' q' where
  ghosts : s.numNonResident ≤ s.capacityNonResident → s'.numNonResident ≤ s'.capacityNonResident

theorem Inv0.map_occ {c : Cfg K V RS} {s : Shard K V} (h : Inv0 c s) {b : UInt64 × Nat} (hb : b ∈ s.map) :
    (s.entries.item b.2).isSome := by
  obtain ⟨e, he, -⟩ := h.idx.hashed b.1 b.2 hb
  simp [he]

theorem EvPost.refl {c : Cfg K V RS} {s : Shard K V} (h : Inv0 c s) (q : Req K V RS) : EvPost c s q s q where
  inv := h
  log := ⟨[], by simp, .nil⟩
  same := .refl s
  map b := ⟨fun hb => ⟨hb, h.map_occ hb⟩, fun hb => hb.1⟩
  len := rfl
  ghosts h := h
  total := Nat.le_refl _
  mu := Nat.le_refl _

theorem EvPost0.trans {c : Cfg K V RS} {s s1 s2 : Shard K V} {q q1 q2 : Req K V RS} (h1 : EvPost0 c s q s1 q1)
    (h2 : EvPost0 c s1 q1 s2 q2) : EvPost0 c s q s2 q2 where
  inv := h2.inv
  log := by
    obtain ⟨L1, a1, b1⟩ := h1.log
    obtain ⟨L2, a2, b2⟩ := h2.log
    exact ⟨L1 ++ L2, by rw [a2, a1, List.append_assoc], b1.trans b2⟩
  same := h1.same.trans h2.same
  map b := by
    rw [h2.map, h1.map]
    constructor
    · rintro ⟨⟨h, -⟩, h'⟩; exact ⟨h, h'⟩
    · rintro ⟨h, h'⟩
      refine ⟨⟨h, ?_⟩, h'⟩
      obtain ⟨L2, -, b2⟩ := h2.log
      cases he : s1.entries.item b.2 with
      | none => rw [b2.frame.2.2 _ he] at h'; simp at h'
      | some e => rfl
  len := h2.len.trans h1.len
  total := Nat.le_trans h2.total h1.total
  mu := Nat.le_trans h2.mu h1.mu

theorem EvPost.trans {c : Cfg K V RS} {s s1 s2 : Shard K V} {q q1 q2 : Req K V RS} (h1 : EvPost c s q s1 q1)
    (h2 : EvPost c s1 q1 s2 q2) : EvPost c s q s2 q2 where
  toEvPost0 := h1.toEvPost0.trans h2.toEvPost0
  ghosts h := h2.ghosts (h1.ghosts h)

/-! ### Building invariants after one slot changed -/

theorem Cfg.rho_upd (c : Cfg K V RS) (I : Nat → Option (Entry K V)) (t : Nat) (new : Option (Entry K V)) :
    c.rho (upd I t new) = upd (c.rho I) t (new.bind c.ringOf) := by
  funext u; unfold Cfg.rho
  by_cases hu : u = t
  · subst hu; simp
  · rw [upd_other _ _ hu, upd_other _ _ hu]

theorem Slab.Upd.fn {T : Type _} {s s' : Slab T} {t : Nat} {old new : Option T} (h : Slab.Upd s s' t old new) :
    s'.item = upd s.item t new := by
  funext u; rw [h.item]; rfl

/-- A single-slot change re-establishes the invariant. -/
theorem Inv0.step {c : Cfg K V RS} {s s' : Shard K V} (h : Inv0 c s) {t : Nat} {old new : Option (Entry K V)}
    (hu : Slab.Upd s.entries s'.entries t old new)
    (hs : Struct s'.entries s'.head (upd (c.rho s.entries.item) t (new.bind c.ringOf)))
    (hi : Index c (upd s.entries.item t new) s'.map s'.probe s'.nextPlh)
    (hn : ∀ st, s'.num st + numF st old = s.num st + numF st new)
    (hw : ∀ st, s'.wgt st + wgtF c st old = s.wgt st + wgtF c st new)
    (hg : s'.numNonResident + ghostF old = s.numNonResident + ghostF new) : Inv0 c s' where
  str := by rw [hu.fn, Cfg.rho_upd]; exact hs
  idx := by rw [hu.fn]; exact hi
  cnt := h.cnt.update hu hn hw hg

theorem Inv0.wgt_ge {c : Cfg K V RS} {s : Shard K V} (h : Inv0 c s) {t : Nat} {e : Option (Entry K V)}
    (ht : s.entries.item t = e) (st : St) : wgtF c st e ≤ s.wgt st := by
  rw [h.cnt.wgt]
  subst ht
  exact Slab.le_sumBy (wgtF c st) rfl s.entries t

end QuickCache
