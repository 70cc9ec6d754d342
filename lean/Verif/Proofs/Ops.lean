import Verif.Proofs.Evict

/-!
# Total correctness of the shard operations

Each operation is described as single-slot changes (`Wrote`) and evictions (`EvPost`).
-/

namespace QuickCache
variable {K V RS : Type _}

/-! ### Hoare-style statements about `Res` -/

/-- `x` returns a value satisfying `P`, or fails with an error satisfying `E`. -/
def Res.Sat {α : Type _} (x : Res α) (P : α → Prop) (E : Panic → Prop) : Prop :=
  (∃ a, x = .ok a ∧ P a) ∨ (∃ p, x = .error p ∧ E p)

theorem Res.Sat.bind {α β : Type _} {x : Res α} {f : α → Res β} {P : α → Prop} {Q : β → Prop} {E : Panic → Prop}
    (hx : Res.Sat x P E) (hf : ∀ a, P a → Res.Sat (f a) Q E) : Res.Sat (x >>= f) Q E := by
  rcases hx with ⟨a, rfl, ha⟩ | ⟨p, rfl, hp⟩
  · exact hf a ha
  · exact Or.inr ⟨p, rfl, hp⟩

theorem Res.Sat.ok {α : Type _} {a : α} {P : α → Prop} {E : Panic → Prop} (h : P a) :
    Res.Sat (Except.ok a : Res α) P E := Or.inl ⟨a, rfl, h⟩

theorem Res.Sat.mono {α : Type _} {x : Res α} {P Q : α → Prop} {E E' : Panic → Prop} (hx : Res.Sat x P E)
    (h : ∀ a, P a → Q a) (he : ∀ p, E p → E' p) : Res.Sat x Q E' := by
  rcases hx with ⟨a, h1, ha⟩ | ⟨p, h1, hp⟩
  · exact Or.inl ⟨a, h1, h a ha⟩
  · exact Or.inr ⟨p, h1, he p hp⟩

theorem cadd_sat {a b : Nat} : Res.Sat (cadd a b) (fun x => x = a + b ∧ a + b < 2 ^ 64)
    (fun p => p = .overflow ∧ 2 ^ 64 ≤ a + b) := by
  by_cases h : a + b < 2 ^ 64
  · exact Or.inl ⟨a + b, cadd_ok h, rfl, h⟩
  · exact Or.inr ⟨.overflow, cadd_err (by omega), rfl, by omega⟩

/-- The weights of a shard and an added weight `w` do not fit into 64 bits. -/
def OvErr (s : Shard K V) (w : Nat) (p : Panic) : Prop := p = .overflow ∧ 2 ^ 64 ≤ s.weightHot + s.weightCold + w

/-- The panics an operation adding weight `w` may end with. -/
def AddErr (s : Shard K V) (grow : Prop) (w : Nat) (p : Panic) : Prop :=
  (p = .overflow ∧ 2 ^ 64 ≤ s.weightHot + s.weightCold + w) ∨
  (p = .slabFull ∧ grow ∧ s.entries.entries.length + 2 = 2 ^ 32)

theorem AddErr.mono {s : Shard K V} {g g' : Prop} {w : Nat} {p : Panic} (h : AddErr s g w p) (hg : g → g') :
    AddErr s g' w p := by
  rcases h with h | ⟨h1, h2, h3⟩
  · exact Or.inl h
  · exact Or.inr ⟨h1, hg h2, h3⟩

/-! ### Ring operations -/

/-- Only links and heads changed. -/
structure RingOnly (s s' : Shard K V) : Prop where
  items : s'.entries.items = s.entries.items
  map : s'.map = s.map
  wgt : s'.wgt = s.wgt
  num : s'.num = s.num
  ghosts : s'.numNonResident = s.numNonResident
  same : Same s s'

theorem RingOnly.refl (s : Shard K V) : RingOnly s s := ⟨rfl, rfl, rfl, rfl, rfl, .refl s⟩

theorem RingOnly.trans {s s1 s2 : Shard K V} (h1 : RingOnly s s1) (h2 : RingOnly s1 s2) : RingOnly s s2 :=
  ⟨h2.1.trans h1.1, h2.2.trans h1.2, h2.3.trans h1.3, h2.4.trans h1.4, h2.5.trans h1.5, h1.6.trans h2.6⟩

theorem RingOnly.of_head {s : Shard K V} {e : Slab (Entry K V)} (h : e.items = s.entries.items) (i : RingId)
    (hd : Option Nat) : RingOnly s ({ s with entries := e }.setHead i hd) := by
  refine ⟨by simpa using h, by simp, ?_, ?_, by simp, ?_⟩
  · rw [Shard.wgt_setHead]; funext st; cases st <;> rfl
  · rw [Shard.num_setHead]; funext st; cases st <;> rfl
  · constructor <;> simp

/-- What happens to the rings when slot `t` changes from ring `old` to ring `new` (`stays`: the slot stays occupied): it
joins a ring at the end; a resident that gets weightless leaves its ring and moves the hand to the next slot; entries that
are removed, and ghosts, leave the hand where it is unless it is at them. -/
def ringMove (t : Nat) (old new : Option RingId) (stays : Bool) (R : RingId → List Nat) : RingId → List Nat :=
  match old, new with
  | none, none => R
  | none, some j => upd R j (R j ++ [t])
  | some i, none =>
    if stays = true ∧ i ≠ .ghost then upd R i (skipSlot t (R i)) else upd R i ((R i).erase t)
  | some i, some j =>
    if i = j then R else upd (upd R i ((R i).erase t)) j (upd R i ((R i).erase t) j ++ [t])

theorem ringMove_same (t : Nat) (i : Option RingId) : ringMove t i i true = id := by
  funext R
  cases i with
  | none => rfl
  | some i => simp [ringMove]

namespace Shard
variable {c : Cfg K V RS} {s : Shard K V}

theorem linkTo_ring {rho : Nat → Option RingId} (hs : Struct s.entries s.head rho) (i : RingId) {t : Nat}
    (ht : (s.entries.item t).isSome) (hr : rho t = none) :
    ∃ s', s.linkTo i t = .ok s' ∧ RingOnly s s' ∧
      Moves s.entries s.head rho s'.entries s'.head (upd rho t (some i)) (fun R => upd R i (R i ++ [t])) := by
  obtain ⟨e, h, h1, h2, h3, h4⟩ := hs.link i ht hr
  refine ⟨_, by unfold linkTo; rw [h1]; rfl, .of_head h2 i _, ?_⟩
  rw [entries_setHead, head_setHead]; exact Moves.link ht hr h1

theorem unlinkFrom_ring {rho : Nat → Option RingId} (hs : Struct s.entries s.head rho) {i : RingId} {t : Nat}
    (hr : rho t = some i) :
    ∃ s', s.unlinkFrom i t = .ok s' ∧ RingOnly s s' ∧
      Moves s.entries s.head rho s'.entries s'.head (upd rho t none) (fun R => upd R i (skipSlot t (R i))) := by
  obtain ⟨e, h, h1, h2, h3, h4⟩ := hs.unlink hr
  refine ⟨_, by unfold unlinkFrom; rw [h1]; rfl, .of_head h2 i _, ?_⟩
  rw [entries_setHead, head_setHead]; exact Moves.unlink hr h1

theorem unlinkGhost_ring {rho : Nat → Option RingId} (hs : Struct s.entries s.head rho) {t : Nat}
    (hr : rho t = some .ghost) :
    ∃ s', s.unlinkGhost t = .ok s' ∧ RingOnly s s' ∧
      Moves s.entries s.head rho s'.entries s'.head (upd rho t none) (fun R => upd R .ghost ((R .ghost).erase t)) := by
  obtain ⟨e, h, h1, h2, h3, -, h4⟩ := hs.unlink hr
  refine ⟨{ s with entries := e }.setHead .ghost (if s.ghostHead = some t then h else s.ghostHead), ?_,
    .of_head h2 .ghost _, ?_⟩
  · unfold unlinkGhost
    rw [h1]
    simp only [Res.ok_bind]
    by_cases hg : s.ghostHead = some t
    · simp only [hg, if_true, setHead]
    · simp only [hg, if_false, setHead]
  · rw [entries_setHead, head_setHead]; exact Moves.unlink_keep hr h1

theorem upd_self {α β : Type _} [DecidableEq α] (f : α → β) (a : α) (b : β) (h : f a = b) : upd f a b = f := by
  funext x; by_cases hx : x = a
  · subst hx; rw [upd_same, h]
  · rw [upd_other _ _ hx]

theorem ring_ne_ghost (st : St) : st.ring ≠ .ghost := by cases st <;> simp [St.ring]

theorem relink_ring {rho : Nat → Option RingId} (hs : Struct s.entries s.head rho) (st : St) {t ew w : Nat}
    (ht : (s.entries.item t).isSome) (hr : rho t = if ew = 0 then none else some st.ring) :
    ∃ s', s.relink st t ew w = .ok s' ∧ RingOnly s s' ∧
      Moves s.entries s.head rho s'.entries s'.head (upd rho t (if w = 0 then none else some st.ring))
        (ringMove t (if ew = 0 then none else some st.ring) (if w = 0 then none else some st.ring) true) := by
  unfold relink
  split
  · rename_i h
    rw [if_pos h.1] at hr; rw [if_neg h.2, if_pos h.1]
    exact linkTo_ring hs st.ring ht hr
  · split
    · rename_i h
      rw [if_neg h.1] at hr; rw [if_pos h.2, if_neg h.1]
      have : ringMove t (some st.ring) none true = fun R => upd R st.ring (skipSlot t (R st.ring)) := by
        funext R; simp [ringMove, ring_ne_ghost]
      rw [this]
      exact unlinkFrom_ring hs hr
    · rename_i h1 h2
      have hw : (if ew = 0 then none else some st.ring) = (if w = 0 then none else some st.ring) := by
        by_cases he : ew = 0
        · have : w = 0 := by
            apply Classical.byContradiction; intro hw; exact h1 ⟨he, hw⟩
          simp [he, this]
        · have : w ≠ 0 := fun hw => h2 ⟨he, hw⟩
          simp [he, this]
      refine ⟨s, rfl, .refl s, ?_⟩
      rw [upd_self, hw, ringMove_same]; · exact .refl _ _ _
      rw [hr, hw]

theorem linkNew_ring {rho : Nat → Option RingId} (hs : Struct s.entries s.head rho) (st : St) {t w : Nat}
    (ht : (s.entries.item t).isSome) (hr : rho t = none) :
    ∃ s', s.linkNew st t w = .ok s' ∧ RingOnly s s' ∧
      Moves s.entries s.head rho s'.entries s'.head (upd rho t (if w = 0 then none else some st.ring))
        (ringMove t none (if w = 0 then none else some st.ring) true) := by
  unfold linkNew
  by_cases h : w ≠ 0
  · rw [if_pos h, if_neg h]
    exact linkTo_ring hs st.ring ht hr
  · have h' : w = 0 := by omega
    rw [if_neg h, if_pos h']
    refine ⟨s, rfl, .refl s, ?_⟩
    rw [upd_self, ringMove_same]; · exact .refl _ _ _
    exact hr

end Shard

/-! ### Single-slot changes -/

/-- `s'` arises from `s` by changing slot `t` from `old` to `new` (`none` is a free slot), with index, rings and
counters following. -/
structure Wrote (c : Cfg K V RS) (s s' : Shard K V) (t : Nat) (old new : Option (Entry K V)) : Prop where
  inv : Inv0 c s'
  upd : Slab.Upd s.entries s'.entries t old new
  target : s'.weightTargetHot = s.weightTargetHot
  capacity : s'.weightCapacity = s.weightCapacity
  ghostCap : s'.capacityNonResident = s.capacityNonResident
  probe : s'.probe = s.probe
  map : ∀ b, b ∈ s'.map ↔ (b.2 ≠ t ∧ b ∈ s.map) ∨ (b.2 = t ∧ new.map (Shard.hashOf c) = some b.1)
  rings : Moves s.entries s.head (c.rho s.entries.item) s'.entries s'.head (c.rho s'.entries.item)
    (ringMove t (old.bind c.ringOf) (new.bind c.ringOf) new.isSome)

/-- Total weight of a slot. -/
def totF (c : Cfg K V RS) : Option (Entry K V) → Nat
  | some (.resident r) => c.weight r.key r.value
  | _ => 0

theorem Inv0.total {c : Cfg K V RS} {s : Shard K V} (h : Inv0 c s) :
    s.weightHot + s.weightCold = Slab.sumBy (totF c) s.entries := by
  have h1 := h.cnt.wgt .hot
  have h2 := h.cnt.wgt .cold
  have e1 : s.wgt .hot = s.weightHot := rfl
  have e2 : s.wgt .cold = s.weightCold := rfl
  rw [← e1, ← e2, h1, h2]
  unfold Slab.sumBy
  generalize s.entries.items = l
  induction l with
  | nil => simp
  | cons a l ih =>
    simp only [List.map_cons, List.sum_cons]
    have : wgtF c .hot a + wgtF c .cold a = totF c a := by
      unfold wgtF totF
      rcases a with _ | (r | _ | _) <;> simp
      cases r.state <;> simp
    omega

namespace Wrote
variable {c : Cfg K V RS} {s s' : Shard K V} {t : Nat} {old new : Option (Entry K V)}

theorem total (h : Wrote c s s' t old new) (hi : Inv0 c s) :
    s'.weightHot + s'.weightCold + totF c old = s.weightHot + s.weightCold + totF c new := by
  rw [h.inv.total, hi.total]
  exact h.upd.sum (totF c) rfl

theorem ghosts (h : Wrote c s s' t old new) (hi : Inv0 c s) :
    s'.numNonResident + ghostF old = s.numNonResident + ghostF new := by
  rw [h.inv.cnt.ghost, hi.cnt.ghost]
  exact h.upd.sum ghostF rfl

end Wrote

/-- The map condition when an indexed slot keeps its hash. -/
theorem Index.map_same {c : Cfg K V RS} {I : Nat → Option (Entry K V)} {m : List (UInt64 × Nat)}
    {p : UInt64 → UInt64 → Bool} {np : Nat} (hI : Index c I m p np) {t : Nat} {e e' : Entry K V}
    (he : I t = some e) (ht : (Shard.hashOf c e, t) ∈ m) (hh : Shard.hashOf c e' = Shard.hashOf c e) :
    ∀ b, b ∈ m ↔ (b.2 ≠ t ∧ b ∈ m) ∨ (b.2 = t ∧ (some e').map (Shard.hashOf c) = some b.1) := by
  rintro ⟨h, u⟩
  simp only [Option.map_some, Option.some.injEq]
  constructor
  · intro hb
    by_cases hu : u = t
    · right; subst hu; exact ⟨rfl, by rw [hh, hI.hash_of_mem hb he]⟩
    · left; exact ⟨hu, hb⟩
  · rintro (⟨-, hb⟩ | ⟨hu, hb⟩)
    · exact hb
    · subst hu hb; rw [hh]; exact ht

namespace Shard
variable {c : Cfg K V RS} {s : Shard K V}

/-- Overwriting an indexed slot by an entry with the same hash. -/
theorem wrote_change (h : Inv0 c s) {s' : Shard K V} {t : Nat} {e e' : Entry K V} (he : s.entries.item t = some e)
    (ht : (hashOf c e, t) ∈ s.map) (hh : hashOf c e' = hashOf c e)
    (hitems : s'.entries.items = (s.entries.setItem t e').items)
    (hs : Moves s.entries s.head (c.rho s.entries.item) s'.entries s'.head
      (upd (c.rho s.entries.item) t (c.ringOf e')) (ringMove t (c.ringOf e) (c.ringOf e') true))
    (hmap : s'.map = s.map) (hprobe : s'.probe = s.probe) (hnp : s.nextPlh ≤ s'.nextPlh)
    (htgt : s'.weightTargetHot = s.weightTargetHot) (hcap : s'.weightCapacity = s.weightCapacity)
    (hgc : s'.capacityNonResident = s.capacityNonResident)
    (hk : ∀ k, keyOf e' = some k → ∀ h' t', (h', t') ∈ s.map → keyAt s.entries.item t' = some k → t' = t)
    (hp : ∀ p, e' = .placeholder p → p.shared.idx = t ∧ p.shared.hash = c.hash p.key ∧ p.shared.id < s'.nextPlh ∧
      ∀ t' p', s.entries.item t' = some (.placeholder p') → p.shared.id = p'.shared.id → t' = t)
    (hn : ∀ st, s'.num st + numF st (some e) = s.num st + numF st (some e'))
    (hw : ∀ st, s'.wgt st + wgtF c st (some e) = s.wgt st + wgtF c st (some e'))
    (hg : s'.numNonResident + ghostF (some e) = s.numNonResident + ghostF (some e')) :
    Wrote c s s' t (some e) (some e') := by
  have hu : Slab.Upd s.entries s'.entries t (some e) (some e') := Slab.Upd.items_right hitems (Slab.Upd.setItem he e')
  refine ⟨?_, hu, htgt, hcap, hgc, hprobe, ?_, ?_⟩
  · refine h.step hu (by simpa using hs.struct h.str) ?_ hn hw hg
    rw [hmap, hprobe]
    exact h.idx.change he ht hh hk hp hnp
  · rw [hmap]; exact h.idx.map_same he ht hh
  · exact hs.congr_rho (by rw [hu.fn, Cfg.rho_upd]; rfl)

/-- A resident in a slot with its facts. -/
theorem res_facts (h : Inv0 c s) {t : Nat} {r : Resident K V} (ht : s.entries.item t = some (.resident r)) :
    c.weight r.key r.value ≤ s.wgt r.state ∧ 1 ≤ s.num r.state ∧ (c.hash r.key, t) ∈ s.map ∧
    c.rho s.entries.item t = if c.weight r.key r.value = 0 then none else some r.state.ring := by
  refine ⟨?_, ?_, ?_, ?_⟩
  · have := h.wgt_ge ht r.state; simpa [wgtF] using this
  · have h1 := h.cnt.num r.state
    have h2 := Slab.le_sumBy (numF r.state) rfl s.entries t
    rw [ht] at h2
    simp [numF] at h1 h2
    omega
  · exact h.idx.mapped t _ ht (by simp)
  · unfold Cfg.rho; rw [ht]; rfl

theorem res_key_uniq (h : Inv0 c s) {t : Nat} {e : Entry K V} {k : K} (ht : s.entries.item t = some e)
    (hm : (hashOf c e, t) ∈ s.map) (hk : keyOf e = some k) :
    ∀ h' t', (h', t') ∈ s.map → keyAt s.entries.item t' = some k → t' = t := by
  intro h' t' hm' hk'
  refine h.idx.uniq h' t' _ t k hm' hm hk' ?_
  unfold keyAt; rw [ht]; exact hk

/-! ### Mutable references -/

theorem upd_num_same (f : St → Nat) (st : St) : upd f st (f st) = f := upd_self f st _ rfl

/-- Overwriting a resident's value, key (equal) and counter with the weight counter and rings following. -/
theorem rewrite_spec (h : Inv0 c s) {t : Nat} {r r' : Resident K V} {s1 : Shard K V}
    (ht : s.entries.item t = some (.resident r)) (hk : r'.key = r.key) (hst : r'.state = r.state)
    (h1 : s1.entries.items = (s.entries.setItem t (.resident r')).items)
    (h2 : Moves s.entries s.head (c.rho s.entries.item) s1.entries s1.head (upd (c.rho s.entries.item) t
      (if c.weight r'.key r'.value = 0 then none else some r.state.ring))
      (ringMove t (if c.weight r.key r.value = 0 then none else some r.state.ring)
        (if c.weight r'.key r'.value = 0 then none else some r.state.ring) true))
    (h3 : s1.map = s.map) (h4 : s1.wgt = upd s.wgt r.state (s.wgt r.state - c.weight r.key r.value + c.weight r'.key r'.value))
    (h5 : s1.num = s.num) (h6 : s1.numNonResident = s.numNonResident)
    (h7 : s1.weightTargetHot = s.weightTargetHot) (h8 : s1.weightCapacity = s.weightCapacity)
    (h9 : s1.capacityNonResident = s.capacityNonResident) (h10 : s1.probe = s.probe) (h11 : s1.nextPlh = s.nextPlh) :
    Wrote c s s1 t (some (.resident r)) (some (.resident r')) := by
  obtain ⟨f1, f2, f3, f4⟩ := res_facts h ht
  refine wrote_change h ht f3 (by simp [hashOf, hk]) h1 ?_ h3 h10 (by omega) h7 h8 h9 ?_ (by simp) ?_ ?_ ?_
  · simp only [Cfg.ringOf, hst]; exact h2
  · intro k hk'
    simp only [keyOf, Option.some.injEq] at hk'
    exact res_key_uniq h ht f3 (by rw [← hk']; simp [keyOf, hk])
  · intro st; rw [h5]; simp [numF, hst]
  · intro st; rw [h4]
    by_cases hs : st = r.state
    · subst hs; simp [wgtF, hst]; omega
    · rw [upd_other _ _ hs]; simp [wgtF, hst, Ne.symm hs]
  · rw [h6]; simp [ghostF]

/-- Writing through a `RefMut` and dropping it. -/
theorem refMutWrite_spec (h : Inv0 c s) {t : Nat} {r : Resident K V} (f : V → V)
    (ht : s.entries.item t = some (.resident r)) :
    Res.Sat (s.refMutWrite c t (c.weight r.key r.value) f)
      (fun s' => Wrote c s s' t (some (.resident r)) (some (.resident { r with value := f r.value })) ∧ Same s s')
      (fun p => p = .overflow ∧ 2 ^ 64 ≤ s.weightHot + s.weightCold + c.weight r.key (f r.value)) := by
  obtain ⟨f1, f2, f3, f4⟩ := res_facts h ht
  have hocc : (s.entries.item t).isSome := by simp [ht]
  unfold refMutWrite
  rw [Slab.get_eq, ht]
  simp only [Option.map_some]
  by_cases hw : c.weight r.key r.value = c.weight r.key (f r.value)
  · rw [if_neg (fun hh => hh hw)]
    refine .ok ⟨?_, ⟨rfl, rfl, rfl, rfl, rfl, rfl, rfl⟩⟩
    refine rewrite_spec h ht rfl rfl rfl ?_ rfl ?_ ?_ rfl rfl rfl rfl rfl rfl
    · rw [upd_self]
      · simp only [← hw, ringMove_same]
        exact .setItem hocc _
      · rw [f4, hw]
    · rw [upd_self]; · simp
      simp only
      omega
    · simp
  · rw [if_pos hw]
    unfold coldChangeWeight
    have hit : (s.setEntry t (.resident { r with value := f r.value })).entries.item t =
        some (.resident { r with value := f r.value }) := by
      rw [entries_setEntry, Slab.item_setItem hocc]; simp
    rw [Slab.get_eq, hit]
    simp only [Option.map_some, wgt_setEntry]
    rw [csub_ok f1]
    simp only [Res.ok_bind]
    by_cases hov : s.wgt r.state - c.weight r.key r.value + c.weight r.key (f r.value) < 2 ^ 64
    · left
      rw [cadd_ok hov]
      simp only [Res.ok_bind]
      obtain ⟨s', g1, g2, g3⟩ := relink_ring (rho := c.rho s.entries.item)
        (s := (s.setEntry t (.resident { r with value := f r.value })).setWgt r.state
          (s.wgt r.state - c.weight r.key r.value + c.weight r.key (f r.value))) (t := t)
        (ew := c.weight r.key r.value) (w := c.weight r.key (f r.value))
        (by simp only [head_setWgt, entries_setWgt, head_setEntry, entries_setEntry]; exact h.str.setItem hocc _) r.state
        (by simp only [entries_setWgt, hit]; rfl) f4
      rw [head_setWgt, entries_setWgt, head_setEntry, entries_setEntry] at g3
      refine ⟨s', g1, ?_, ?_⟩
      · refine rewrite_spec h ht rfl rfl ?_ (g3.after_setItem hocc) ?_ ?_ ?_ ?_ ?_ ?_ ?_ ?_ ?_
        · rw [g2.items]; simp
        · rw [g2.map]; simp
        · rw [g2.wgt]; simp
        · rw [g2.num]; simp
        · rw [g2.ghosts]; simp
        · rw [g2.same.target]; simp
        · rw [g2.same.capacity]; simp
        · rw [g2.same.ghostCap]; simp
        · rw [g2.same.probe]; simp
        · rw [g2.same.nextPlh]; simp
      · refine Same.trans ?_ g2.same
        constructor <;> simp
    · right
      rw [cadd_err (by omega)]
      refine ⟨_, rfl, rfl, ?_⟩
      have : s.wgt r.state ≤ s.weightHot + s.weightCold := by cases r.state <;> simp [wgt]
      omega

end Shard
end QuickCache
