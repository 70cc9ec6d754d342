import Verif.Proofs.OpSpec

/-!
# Invariants of all runs of the unsync cache
-/

namespace QuickCache
variable {K V RS : Type _}
open Shard Unsync Spec

/-! ### Sums over slots -/

theorem sum_map_le {l : List Nat} {f g : Nat → Nat} (h : ∀ t, f t ≤ g t) : (l.map f).sum ≤ (l.map g).sum := by
  induction l with
  | nil => simp
  | cons a l ih => simp only [List.map_cons, List.sum_cons]; have := h a; omega

theorem sumBy_range {T : Type _} (f : Option T → Nat) (s : Slab T) :
    Slab.sumBy f s = ((List.range s.entries.length).map (fun t => f (s.item t))).sum := by
  unfold Slab.sumBy
  congr 1
  apply List.ext_getElem
  · simp [Slab.items]
  · intro i h1 h2
    simp [Slab.items, Slab.item] at h1 ⊢
    rw [List.getElem?_eq_getElem h1]; rfl

theorem sumBy_le {T : Type _} (f : Option T → Nat) {s s' : Slab T} (hl : s'.entries.length = s.entries.length)
    (h : ∀ t, f (s'.item t) ≤ f (s.item t)) : Slab.sumBy f s' ≤ Slab.sumBy f s := by
  rw [sumBy_range, sumBy_range, hl]
  exact sum_map_le h

/-- The evictable weight in a slot. -/
def evF (c : Cfg K V RS) : Option (Entry K V) → Nat
  | some (.resident r) => evictable c r.key r.value
  | _ => 0

theorem EvStep.evF_le {c : Cfg K V RS} {I I' : Nat → Option (Entry K V)} {st st' : RS} {L : List (Event K V)}
    (h : EvStep c I st L I' st') (t : Nat) : evF c (I' t) ≤ evF c (I t) := by
  have gen : ∀ (u : Nat) (new : Option (Entry K V)), evF c new ≤ evF c (I u) → evF c (upd I u new t) ≤ evF c (I t) := by
    intro u new hle
    by_cases hut : t = u
    · subst hut; rw [upd_same]; exact hle
    · rw [upd_other _ _ hut]; exact Nat.le_refl _
  cases h with
  | touch u r n st' ht hst => apply gen; rw [ht]; exact Nat.le_refl _
  | spare u r v ht hr hw hp hb hw' =>
    apply gen
    simp only [evF, evictable, hw']
    split <;> exact Nat.zero_le _
  | evict u r v ht hr hw hp hb hw' new hnew =>
    apply gen
    rcases hnew with ⟨rfl, -⟩ | ⟨rfl, -⟩ <;> exact Nat.zero_le _
  | dropGhost u h ht => apply gen; exact Nat.zero_le _

theorem EvSteps.evF_le {c : Cfg K V RS} {I I' : Nat → Option (Entry K V)} {st st' : RS} {L : List (Event K V)}
    (h : EvSteps c I st L I' st') (t : Nat) : evF c (I' t) ≤ evF c (I t) := by
  induction h with
  | nil => exact Nat.le_refl _
  | cons h hs ih => exact Nat.le_trans ih (h.evF_le t)

/-- The evictable weight of a shard. -/
def evW (c : Cfg K V RS) (s : Shard K V) : Nat := Slab.sumBy (evF c) s.entries

theorem EvPost.evW_le {c : Cfg K V RS} {s s' : Shard K V} {q q' : Req K V RS} (h : EvPost c s q s' q') :
    evW c s' ≤ evW c s := by
  obtain ⟨L, -, h1⟩ := h.log
  exact sumBy_le _ h.len h1.evF_le

theorem Wrote.evW {c : Cfg K V RS} {s s' : Shard K V} {t : Nat} {old new : Option (Entry K V)}
    (h : Wrote c s s' t old new) : evW c s' + evF c old = evW c s + evF c new := h.upd.sum (evF c) rfl

theorem evF_le_totF (c : Cfg K V RS) (e : Option (Entry K V)) : evF c e ≤ totF c e := by
  cases e with
  | none => exact Nat.le_refl _
  | some e => cases e with
    | resident r => simp only [evF, totF, evictable]; split <;> omega
    | placeholder p => exact Nat.le_refl _
    | ghost g => exact Nat.le_refl _

theorem Inv0.evW_le {c : Cfg K V RS} {s : Shard K V} (h : Inv0 c s) : evW c s ≤ s.weightHot + s.weightCold := by
  rw [h.total, evW, sumBy_range, sumBy_range]
  exact sum_map_le (fun t => evF_le_totF c _)

theorem evW_iter (c : Cfg K V RS) (s : Shard K V) : evW c s = Spec.total (evictable c) s.iter := by
  rw [Shard.iter_eq]
  unfold Spec.total
  rw [List.map_map]
  refine (sum_residents _ (evF c) (fun r => rfl) ?_ s).symm
  intro e he
  cases e with
  | none => rfl
  | some e => cases e with
    | resident r => exact absurd rfl (he r)
    | placeholder p => rfl
    | ghost g => rfl

/-- If all slots but one carry no evictable weight, the shard's evictable weight is that of the one. -/
theorem sum_single {n : Nat} {f : Nat → Nat} {B : Nat} (t0 : Nat) (h : ∀ t, t ≠ t0 → f t = 0) (hb : f t0 ≤ B) :
    ((List.range n).map f).sum ≤ B := by
  induction n with
  | zero => simp
  | succ n ih =>
    rw [List.range_succ, List.map_append, List.sum_append]
    simp only [List.map_cons, List.map_nil, List.sum_cons, List.sum_nil, Nat.add_zero]
    by_cases hn : n = t0
    · subst hn
      have : ((List.range n).map f).sum = 0 := by
        have : (List.range n).map f = (List.range n).map (fun _ => 0) := by
          apply List.map_congr_left
          intro a ha
          rw [List.mem_range] at ha
          exact h a (by omega)
        rw [this]
        clear this ih h hb
        induction n with
        | zero => rfl
        | succ n ih => rw [List.range_succ]; simpa using ih
      omega
    · rw [h n hn]; omega

/-! ### What every call preserves -/

/-- The parameters fixed at construction. -/
structure Const (s s' : Shard K V) : Prop where
  target : s'.weightTargetHot = s.weightTargetHot
  capacity : s'.weightCapacity = s.weightCapacity
  ghostCap : s'.capacityNonResident = s.capacityNonResident

theorem Const.refl (s : Shard K V) : Const s s := ⟨rfl, rfl, rfl⟩
theorem Const.trans {s s1 s2 : Shard K V} (h1 : Const s s1) (h2 : Const s1 s2) : Const s s2 :=
  ⟨h2.1.trans h1.1, h2.2.trans h1.2, h2.3.trans h1.3⟩
theorem Same.const {s s' : Shard K V} (h : Same s s') : Const s s' := ⟨h.1, h.2, h.3⟩
theorem Wrote.const {c : Cfg K V RS} {s s' : Shard K V} {t : Nat} {old new : Option (Entry K V)}
    (h : Wrote c s s' t old new) : Const s s' := ⟨h.target, h.capacity, h.ghostCap⟩
theorem Pending.const {c : Cfg K V RS} {s s1 : Shard K V} {k : K} {p : Plh} (h : Pending c s k s1 p) : Const s s1 :=
  ⟨h.target, h.capacity, h.ghostCap⟩

theorem Wrote.full {c : Cfg K V RS} {s s' : Shard K V} {t : Nat} {old new : Option (Entry K V)}
    (h : Wrote c s s' t old new) (hi : Inv c s) (hg : ghostF new ≤ ghostF old) : Inv c s' := by
  refine ⟨h.inv, ?_⟩
  have h1 := h.ghosts hi.toInv0
  have h2 := h.ghostCap
  have h3 := hi.ghosts
  omega

theorem Pending.full {c : Cfg K V RS} {s s1 : Shard K V} {k : K} {p : Plh} (h : Pending c s k s1 p) (hi : Inv c s) :
    Inv c s1 := by
  refine ⟨h.inv, ?_⟩
  have h1 := h.ghosts
  have h2 := h.ghostCap
  have h3 := hi.ghosts
  omega

theorem StoreEff.full {c : Cfg K V RS} {s : Shard K V} {q : Req K V RS} {k : K} {v : V} {str : Strategy}
    {x : Shard K V × Req K V RS × Option V} (h : StoreEff c s q k v str x) (hi : Inv c s) : Inv c x.1 :=
  ⟨h.inv hi.toInv0, h.ghosts hi.toInv0 hi.ghosts⟩

/-- Every call preserves the invariant and the parameters. -/
theorem StepEff.keeps [DecidableEq K] {c : Cfg K V RS} {s : Shard K V} {op : Op K V}
    {x : Shard K V × Out K V × Req K V RS} (h : StepEff c s op x) (hi : Inv c s) : Inv c x.1 ∧ Const s x.1 := by
  have hdr : Inv c s.drain.1 ∧ Const s s.drain.1 := by
    obtain ⟨h1, h2, -, -, h3, -⟩ := drain_spec hi.toInv0
    exact ⟨⟨h1, by rw [h3]; exact Nat.zero_le _⟩, h2.const⟩
  cases h with
  | insert h => exact ⟨h.full hi, h.same.const⟩
  | replace h => exact ⟨h.full hi, h.same.const⟩
  | removeHit t r hk wrote same => exact ⟨wrote.full hi (Nat.le_refl _), wrote.const⟩
  | removeIdle t e he hno wrote same => exact ⟨wrote.full hi (Nat.zero_le _), wrote.const⟩
  | removeNone hno => exact ⟨hi, .refl s⟩
  | hit hop t r hk wrote hits misses => exact ⟨wrote.full hi (Nat.le_refl _), wrote.const⟩
  | miss hop hno => exact ⟨⟨miss_inv hi.toInv0 _, hi.ghosts⟩, ⟨rfl, rfl, rfl⟩⟩
  | peek t r ht hk => exact ⟨hi, .refl s⟩
  | contains t r ht hk => exact ⟨hi, .refl s⟩
  | retain inv same ghosts drop keep map =>
    refine ⟨⟨inv, ?_⟩, same.const⟩
    rw [ghosts, same.ghostCap]; exact hi.ghosts
  | clear => exact hdr
  | drain => exact hdr
  | reserve => exact ⟨hi, .refl s⟩
  | leave hop hp => exact ⟨hp.full hi, hp.const⟩
  | drop hop hp inv same entries wgt ghosts map =>
    refine ⟨⟨inv, ?_⟩, hp.const.trans same.const⟩
    have := (hp.full hi).ghosts
    rw [ghosts, same.ghostCap]; exact this
  | fill hop hp h taken => exact ⟨h.full (hp.full hi), hp.const.trans h.same.const⟩
  | fillMutOut hp h hno taken => exact ⟨h.full (hp.full hi), hp.const.trans h.same.const⟩
  | fillMut hp h taken t r hk wrote same =>
    exact ⟨wrote.full (h.full (hp.full hi)) (Nat.le_refl _), hp.const.trans (h.same.const.trans wrote.const)⟩

theorem Res.Sat.of_ok {α : Type _} {x : Res α} {P : α → Prop} {E : Panic → Prop} {a : α} (h : Res.Sat x P E)
    (hx : x = .ok a) : P a := by
  subst hx
  rcases h with ⟨b, hb, h⟩ | ⟨p, hp, -⟩
  · cases hb; exact h
  · cases hp

theorem step_eff [DecidableEq K] {c : Cfg K V RS} {s : Shard K V} (hi : Inv c s) {op : Op K V}
    {x : Shard K V × Out K V × Req K V RS} (h : step c s op = .ok x) : StepEff c s op x :=
  (step_sat hi.toInv0 op).of_ok h

/-- States reached by runs from a cache built with the given parameters. -/
structure Reach (c : Cfg K V RS) (target cap gcap : Nat) (s : Shard K V) : Prop where
  inv : Inv c s
  target : s.weightTargetHot = target
  capacity : s.weightCapacity = cap
  ghostCap : s.capacityNonResident = gcap

theorem Reach.new (c : Cfg K V RS) (target cap gcap : Nat) : Reach c target cap gcap (Shard.new target cap gcap : Shard K V) :=
  ⟨.new .., rfl, rfl, rfl⟩

theorem Reach.step [DecidableEq K] {c : Cfg K V RS} {target cap gcap : Nat} {s : Shard K V} (h : Reach c target cap gcap s)
    {op : Op K V} {x : Shard K V × Out K V × Req K V RS} (hs : StepEff c s op x) : Reach c target cap gcap x.1 := by
  obtain ⟨h1, h2⟩ := hs.keeps h.inv
  exact ⟨h1, h2.target.trans h.target, h2.capacity.trans h.capacity, h2.ghostCap.trans h.ghostCap⟩

theorem Reach.relayout {c : Cfg K V RS} {target cap gcap : Nat} {s : Shard K V} (h : Reach c target cap gcap s)
    {m : List (UInt64 × Nat)} {p : UInt64 → UInt64 → Bool} (hm : m.Perm s.map) (hp : ∀ x, p x x = true) :
    Reach c target cap gcap (s.relayout m p) :=
  ⟨⟨relayout_spec h.inv.toInv0 hm hp, h.inv.ghosts⟩, h.target, h.capacity, h.ghostCap⟩

theorem Unsync.Run.reach [DecidableEq K] {c : Cfg K V RS} {target cap gcap : Nat} {s0 s : Shard K V}
    {h : List (Call K V)} (hr : Run c s0 h s) (h0 : Reach c target cap gcap s0) : Reach c target cap gcap s := by
  induction hr with
  | start => exact h0
  | layout m p hr hm hp ih => exact ih.relayout hm hp
  | call hr hs ih => exact ih.step (step_eff ih.inv hs)

/-- Every run is a behaviour of the map. -/
theorem Unsync.Run.replays [DecidableEq K] {c : Cfg K V RS} {target cap gcap : Nat} {s0 s : Shard K V}
    {h : List (Call K V)} (hr : Run c s0 h s) (h0 : Reach c target cap gcap s0) :
    Replays c target s0.contents h s.contents := by
  induction hr with
  | start => exact .start
  | layout m p hr hm hp ih => exact ih
  | call hr hs ih =>
    have hre := hr.reach h0
    have := (step_eff hre.inv hs).opSpec hre.inv.toInv0
    rw [hre.target] at this
    exact .call ih this

end QuickCache
