import Verif.Proofs.ClockRun
import Verif.Proofs.ClockWrite
import Verif.Proofs.History

/-!
# How far the abstract clock machine thins out the cache
-/

namespace QuickCache
open Spec
variable {K V RS : Type} [DecidableEq K] {c : Cfg K V RS}

/-! ### Bags -/

omit [DecidableEq K] in
theorem bag_perm {w : K → V → Nat} {l l' : List (K × V)} (h : l.Perm l') : total w l = total w l' :=
  (h.map _).sum_nat

omit [DecidableEq K] in
theorem bag_append (w : K → V → Nat) (l l' : List (K × V)) : total w (l ++ l') = total w l + total w l' := by
  simp [total]

namespace Spec.Thins
omit [DecidableEq K]
variable {w : K → V → Nat} {T : Nat} {bag bag1 bag' : List (K × V)} {L L1 L2 log : List (Event K V)}

theorem perm_left (hp : bag.Perm bag1) (h : Thins w T bag1 log bag') : Thins w T bag log bag' := by
  cases h with
  | done same => exact .done (hp.trans same)
  | spare here over light after => exact .spare (hp.trans here) (by rw [bag_perm hp]; exact over) light after
  | evict here over still after => exact .evict (hp.trans here) (by rw [bag_perm hp]; exact over) still after

theorem perm_right (h : Thins w T bag log bag1) (hp : bag1.Perm bag') : Thins w T bag log bag' := by
  induction h with
  | done same => exact .done (same.trans hp)
  | spare here over light after ih => exact .spare here over light (ih hp)
  | evict here over still after ih => exact .evict here over still (ih hp)

theorem trans (h1 : Thins w T bag L1 bag1) (h2 : Thins w T bag1 L2 bag') : Thins w T bag (L1 ++ L2) bag' := by
  induction h1 with
  | done same => exact h2.perm_left same
  | spare here over light after ih => exact .spare here over light (ih h2)
  | evict here over still after ih => exact .evict here over still (ih h2)

/-- No key appears twice. -/
theorem nodup (h : Thins w T bag log bag') (hn : (bag.map (·.1)).Nodup) : (bag'.map (·.1)).Nodup := by
  induction h with
  | done same => exact (same.map _).nodup_iff.mp hn
  | spare here over light after ih =>
    exact ih (by
      have := (here.map (·.1)).nodup_iff.mp hn
      rwa [List.map_cons] at this ⊢)
  | evict here over still after ih =>
    exact ih (by
      have := (here.map (·.1)).nodup_iff.mp hn
      rw [List.map_cons, List.nodup_cons] at this
      exact this.2)

/-- If every item weighs one, either there is no victim, or at least `T` items are left. -/
theorem count (h : Thins (fun _ _ => 1) T bag log bag') : (log = [] ∧ bag'.length = bag.length) ∨ T ≤ bag'.length := by
  have htot : ∀ l : List (K × V), total (fun _ _ => 1) l = l.length := by
    intro l; simp [total]
  induction h with
  | done same => exact .inl ⟨rfl, same.length_eq.symm⟩
  | spare here over light after ih => cases light
  | evict here over still after ih =>
    right
    rw [htot, here.length_eq, List.length_cons] at over
    rcases ih with ⟨-, h⟩ | h <;> omega

end Spec.Thins

namespace Spec.Clock

/-! ### The lists hold the keys of the items that have weight -/

/-- The two lists hold exactly the keys of the items that have weight, each once. -/
structure WF (c : Cfg K V RS) (m : Clock K V) : Prop where
  hotN : m.hot.Nodup
  coldN : m.cold.Nodup
  hot : ∀ k, k ∈ m.hot ↔ ∃ i, m.items k = some i ∧ i.hot = true ∧ c.weight k i.value ≠ 0
  cold : ∀ k, k ∈ m.cold ↔ ∃ i, m.items k = some i ∧ i.hot = false ∧ c.weight k i.value ≠ 0

omit [DecidableEq K] in
/-- What is stored may change at one key. -/
theorem WF.upd {m m' : Clock K V} (h : WF c m) (k : K) (hi : ∀ x, x ≠ k → m'.items x = m.items x)
    (hN : m'.hot.Nodup) (cN : m'.cold.Nodup) (hm : ∀ x, x ≠ k → (x ∈ m'.hot ↔ x ∈ m.hot))
    (cm : ∀ x, x ≠ k → (x ∈ m'.cold ↔ x ∈ m.cold))
    (hk : k ∈ m'.hot ↔ ∃ i, m'.items k = some i ∧ i.hot = true ∧ c.weight k i.value ≠ 0)
    (ck : k ∈ m'.cold ↔ ∃ i, m'.items k = some i ∧ i.hot = false ∧ c.weight k i.value ≠ 0) : WF c m' where
  hotN := hN
  coldN := cN
  hot x := by
    by_cases hx : x = k
    · subst hx; exact hk
    · rw [hm x hx, hi x hx]; exact h.hot x
  cold x := by
    by_cases hx : x = k
    · subst hx; exact ck
    · rw [cm x hx, hi x hx]; exact h.cold x

/-- Sums do not see what is zero. -/
theorem sum_filter_ne {α : Type _} (g : α → Nat) (l : List α) : (l.map g).sum = ((l.filter (fun x => g x ≠ 0)).map g).sum := by
  induction l with
  | nil => rfl
  | cons x l ih =>
    by_cases hx : g x = 0
    · rw [List.filter_cons_of_neg (by simp [hx])]; simp [hx, ih]
    · rw [List.filter_cons_of_pos (by simp [hx])]; simp [ih]

omit [DecidableEq K] in
/-- The items weigh as much as the two lists. -/
theorem WF.total {m : Clock K V} (h : WF c m) {bag : List (K × V)} (hb : Lists bag m.value) :
    total c.weight bag = m.hotWeight c + m.coldWeight c := by
  have h1 : Spec.total c.weight bag = ((bag.map (·.1)).map (m.weigh c)).sum := by
    unfold Spec.total
    rw [List.map_map]
    congr 1
    refine List.map_congr_left (fun p hp => ?_)
    have := (hb.2 p.1 p.2).mp hp
    unfold value at this
    obtain ⟨i, hi, hv⟩ := Option.map_eq_some_iff.mp this
    simp [weigh, hi, hv]
  have h2 : ((bag.map (·.1)).filter (fun x => m.weigh c x ≠ 0)).Perm (m.hot ++ m.cold) := by
    refine (List.perm_ext_iff_of_nodup (hb.1.filter _) ?_).mpr (fun k => ?_)
    · refine List.nodup_append.mpr ⟨h.hotN, h.coldN, ?_⟩
      rintro a ha b hb rfl
      obtain ⟨i, hi, h1, -⟩ := (h.hot a).mp ha
      obtain ⟨j, hj, h2, -⟩ := (h.cold a).mp hb
      rw [hi] at hj; cases hj; rw [h1] at h2; cases h2
    · rw [List.mem_filter, List.mem_append, h.hot, h.cold]
      constructor
      · rintro ⟨-, h2⟩
        cases hi : m.items k with
        | none => simp [weigh, hi] at h2
        | some i =>
          have : c.weight k i.value ≠ 0 := by simpa [weigh, hi] using h2
          cases hh : i.hot with
          | true => exact .inl ⟨i, rfl, hh, this⟩
          | false => exact .inr ⟨i, rfl, hh, this⟩
      · rintro (⟨i, hi, -, hw⟩ | ⟨i, hi, -, hw⟩)
        all_goals
          refine ⟨List.mem_map.mpr ⟨(k, i.value), (hb.2 _ _).mpr (by simp [value, hi]), rfl⟩, ?_⟩
          simpa [weigh, hi] using hw
  rw [h1, sum_filter_ne, (h2.map _).sum_nat, List.map_append, List.sum_append]
  rfl

omit [DecidableEq K] in
theorem nodup_snoc {l : List K} {k : K} (h : l.Nodup) (hk : k ∉ l) : (l ++ [k]).Nodup :=
  (List.perm_append_comm (l₁ := l) (l₂ := [k])).nodup_iff.mpr (List.nodup_cons.mpr ⟨hk, h⟩)

/-! ### The hand -/

theorem cool_value (i : Item V) : i.cool.value = i.value := rfl

/-- Moving the hand changes counters and the order only. -/
theorem Hand.keeps {m m' : Clock K V} (h : Hand c m m') (hw : WF c m) : WF c m' ∧ m'.value = m.value := by
  induction h with
  | stop => exact ⟨hw, rfl⟩
  | @pass m m' k l i at_ here kept rest ih =>
    have hk : k ∈ m.hot := by rw [at_]; exact List.mem_cons_self
    have hN := hw.hotN
    rw [at_, List.nodup_cons] at hN
    have key : WF c { m.setItem k i.cool with hot := l ++ [k] } := by
      refine hw.upd k (fun x hx => put_other _ _ hx) ?_ hw.coldN (fun x hx => ?_) (fun x _ => .rfl) ?_ ?_
      · exact nodup_snoc hN.2 hN.1
      · rw [at_]; simp [hx]
      · have := (hw.hot k).mp hk
        rw [here] at this
        simpa [setItem, Item.cool] using this
      · rw [show ({ m.setItem k i.cool with hot := l ++ [k] } : Clock K V).cold = m.cold from rfl, hw.cold k, here]
        simp [setItem, Item.cool]
    obtain ⟨h1, h2⟩ := ih key
    refine ⟨h1, h2.trans ?_⟩
    funext x
    by_cases hx : x = k
    · subst hx; simp [value, setItem, here, Item.cool]
    · simp [value, setItem, put_other _ _ hx]

theorem WF.coolAll {m : Clock K V} (h : WF c m) : WF c m.coolAll ∧ m.coolAll.value = m.value := by
  have key : ∀ k, m.coolAll.items k = m.items k ∨ m.coolAll.items k = (m.items k).map Item.cool := by
    intro k
    unfold Clock.coolAll
    by_cases hk : k ∈ m.hot
    · right; simp [hk]
    · left; simp [hk]
  constructor
  · refine ⟨h.hotN, h.coldN, fun k => ?_, fun k => ?_⟩
    · rw [show m.coolAll.hot = m.hot from rfl, h.hot]
      rcases key k with h1 | h1 <;> rw [h1]
      cases m.items k <;> simp [Item.cool]
    · rw [show m.coolAll.cold = m.cold from rfl, h.cold]
      rcases key k with h1 | h1 <;> rw [h1]
      cases m.items k <;> simp [Item.cool]
  · funext k
    unfold value
    rcases key k with h1 | h1 <;> rw [h1]
    cases m.items k <;> simp [Item.cool]

/-! ### Turns -/

/-- What the steps of making room have in common: the machine stays well-formed, and if the items `E ++ bag` weigh more than
the limit whenever `before_evict` is called, the log thins them out. -/
def Thinned (c : Cfg K V RS) (T : Nat) (E : List (K × V)) (m : Clock K V) (log : List (Event K V)) (m' : Clock K V) : Prop :=
  WF c m' ∧ m'.target = m.target ∧ m'.cap = m.cap ∧
    ∀ bag, Lists bag m.value → ∃ bag', Lists bag' m'.value ∧ Thins c.weight T (E ++ bag) log (E ++ bag')

omit [DecidableEq K] in
theorem Thinned.trans {T : Nat} {E : List (K × V)} {m m1 m' : Clock K V} {log log1 : List (Event K V)}
    (h1 : Thinned c T E m log m1) (h2 : Thinned c T E m1 log1 m') : Thinned c T E m (log ++ log1) m' := by
  obtain ⟨-, a1, a2, a3⟩ := h1
  obtain ⟨b0, b1, b2, b3⟩ := h2
  refine ⟨b0, b1.trans a1, b2.trans a2, fun bag hb => ?_⟩
  obtain ⟨bag1, c1, c2⟩ := a3 bag hb
  obtain ⟨bag2, d1, d2⟩ := b3 bag1 c1
  exact ⟨bag2, d1, c2.trans d2⟩

/-- One item is rewritten, and evicted or not. -/
theorem victim {T : Nat} {E : List (K × V)} {m m1 m' : Clock K V} {k : K} {i : Item V} {v : V}
    (hv : m1.value = m.value) (here : m1.items k = some i) {bag : List (K × V)} (hb : Lists bag m.value)
    (over : T < total c.weight (E ++ bag)) :
    (c.weight k v = 0 → m'.value = put m1.value k v → ∃ bag', Lists bag' m'.value ∧
      Thins c.weight T (E ++ bag) [.beforeEvict k i.value v] (E ++ bag')) ∧
    (c.weight k v ≠ 0 → m'.value = del m1.value k → ∃ bag', Lists bag' m'.value ∧
      Thins c.weight T (E ++ bag) [.beforeEvict k i.value v, .onEvict k v] (E ++ bag')) := by
  rw [← hv] at hb
  obtain ⟨rest, h1, h2⟩ := hb.split (k := k) (v := i.value) (by simp [value, here])
  have h3 : (E ++ bag).Perm ((k, i.value) :: (E ++ rest)) := (h1.append_left E).trans List.perm_middle
  constructor
  · intro h0 hm
    refine ⟨(k, v) :: rest, hm ▸ h2.cons v, .spare h3 over h0 (.done List.perm_middle.symm)⟩
  · intro h0 hm
    exact ⟨rest, hm ▸ h2, .evict h3 over h0 (.done (.refl _))⟩

theorem value_setItem (m : Clock K V) (k : K) (i : Item V) : (m.setItem k i).value = put m.value k i.value := by
  funext x
  by_cases hx : x = k
  · subst hx; simp [value, setItem]
  · simp [value, setItem, put_other _ _ hx]

theorem value_dropItem (m : Clock K V) (k : K) : (m.dropItem k).value = del m.value k := by
  funext x
  by_cases hx : x = k
  · subst hx; simp [value, dropItem]
  · simp [value, dropItem, del_other _ hx]

theorem Hand.sizes {m m' : Clock K V} (h : Hand c m m') : m'.target = m.target ∧ m'.cap = m.cap := by
  induction h with
  | stop => exact ⟨rfl, rfl⟩
  | pass at_ here kept rest ih => exact ih

theorem TurnHot.thin {T : Nat} {E : List (K × V)} {m m' : Clock K V} {st st' : RS} {log : List (Event K V)} {b : Bool}
    (h : TurnHot c m st log m' st' b) (hw : WF c m) (over : T < total c.weight E + (m.hotWeight c + m.coldWeight c)) :
    Thinned c T E m log m' := by
  have hov : ∀ bag, Lists bag m.value → T < total c.weight (E ++ bag) := by
    intro bag hb; rw [bag_append, hw.total hb]; exact over
  cases h with
  | stuck all => 
    refine ⟨hw.coolAll.1, rfl, rfl, fun bag hb => ⟨bag, by rw [hw.coolAll.2]; exact hb, .done (.refl _)⟩⟩
  | @spare m1 k l i st1 v hand at_ here before light =>
    obtain ⟨h1, h2⟩ := hand.keeps hw
    have hN := h1.hotN
    rw [at_, List.nodup_cons] at hN
    have hk := (h1.hot k).mp (by rw [at_]; exact List.mem_cons_self)
    refine ⟨?_, hand.sizes.1, hand.sizes.2, fun bag hb => (victim h2 here hb (hov bag hb)).1 light (value_setItem ..)⟩
    refine h1.upd k (fun x hx => put_other _ _ hx) hN.2 h1.coldN (fun x hx => ?_) (fun x _ => .rfl) ?_ ?_
    · rw [at_]; simp [hx]
    · simp [setItem, hN.1, light]
    · rw [show ({ m1.setItem k { i with value := v } with hot := l } : Clock K V).cold = m1.cold from rfl, h1.cold k]
      obtain ⟨j, h3, h4, -⟩ := hk
      simp [setItem, light, h3, h4]
  | @evict m1 k l i st1 v hand at_ here before still =>
    obtain ⟨h1, h2⟩ := hand.keeps hw
    have hN := h1.hotN
    rw [at_, List.nodup_cons] at hN
    have hk := (h1.hot k).mp (by rw [at_]; exact List.mem_cons_self)
    refine ⟨?_, hand.sizes.1, hand.sizes.2, fun bag hb => (victim h2 here hb (hov bag hb)).2 still (value_dropItem ..)⟩
    refine h1.upd k (fun x hx => del_other _ hx) hN.2 h1.coldN (fun x hx => ?_) (fun x _ => .rfl) ?_ ?_
    · rw [at_]; simp [hx]
    · simp [dropItem, hN.1]
    · rw [show ({ m1.dropItem k with hot := l } : Clock K V).cold = m1.cold from rfl, h1.cold k]
      obtain ⟨j, h3, h4, -⟩ := hk
      simp [dropItem, h3, h4]

theorem ShrinkHot.thin {T : Nat} {E : List (K × V)} {m m' : Clock K V} {st st' : RS} {log : List (Event K V)}
    (h : ShrinkHot c m st log m' st') (hw : WF c m) (ht : T ≤ m.target) : Thinned c T E m log m' := by
  induction h with
  | done fits => exact ⟨hw, rfl, rfl, fun bag hb => ⟨bag, hb, .done (.refl _)⟩⟩
  | stop over turn => exact turn.thin hw (by omega)
  | more over turn rest ih =>
    have h1 := turn.thin (E := E) (T := T) hw (by omega)
    exact h1.trans (ih h1.1 (by rw [h1.2.1]; exact ht))

omit [DecidableEq K] in
theorem split_drop {p : K → Bool} {l r : List K} {k : K} (h : l.dropWhile p = k :: r) : l = l.takeWhile p ++ k :: r := by
  rw [← h, List.takeWhile_append_dropWhile]

omit [DecidableEq K] in
/-- The cold list after the key at the hand has left. -/
theorem rest_cold {l A r : List K} {k : K} (h : l = A ++ k :: r) (hN : l.Nodup) :
    (r ++ A).Nodup ∧ k ∉ r ++ A ∧ ∀ x, x ≠ k → (x ∈ r ++ A ↔ x ∈ l) := by
  have hp : l.Perm (k :: (r ++ A)) := by
    rw [h]; exact List.perm_middle.trans (List.perm_append_comm.cons k)
  have h1 := (hp.nodup_iff.mp hN)
  rw [List.nodup_cons] at h1
  refine ⟨h1.2, h1.1, fun x hx => ?_⟩
  rw [hp.mem_iff]; simp [hx]

theorem TurnCold.thin {T : Nat} {E : List (K × V)} {m m' : Clock K V} {st st' : RS} {log : List (Event K V)} {b : Bool}
    (h : TurnCold c m st log m' st' b) (hw : WF c m) (ht : T ≤ m.target)
    (over : T < total c.weight E + (m.hotWeight c + m.coldWeight c)) : Thinned c T E m log m' := by
  have hov : ∀ bag, Lists bag m.value → T < total c.weight (E ++ bag) := by
    intro bag hb; rw [bag_append, hw.total hb]; exact over
  cases h with
  | hot none turn => exact turn.thin hw over
  | promote at_ here referenced shrink =>
    rename_i k l i
    have hs := split_drop at_
    obtain ⟨c1, c2, c3⟩ := rest_cold hs hw.coldN
    have hk : k ∈ m.cold := by rw [hs]; simp
    obtain ⟨j, h3, h4, h5⟩ := (hw.cold k).mp hk
    rw [here] at h3; cases h3
    have hkh : k ∉ m.hot := by
      rw [hw.hot, here]; rintro ⟨j, h6, h7, -⟩; cases h6; rw [h4] at h7; cases h7
    have key : WF c { m.setItem k { i with hot := true, refs := i.refs - 1 } with
        cold := l ++ m.cold.takeWhile (m.passes c), hot := m.hot ++ [k] } := by
      refine hw.upd k (fun x hx => put_other _ _ hx) ?_ c1 (fun x hx => ?_) c3 ?_ ?_
      · exact nodup_snoc hw.hotN hkh
      · simp [hx]
      · simp [setItem, h5]
      · simp [setItem, c2]
    have h6 := shrink.thin (E := E) (T := T) key ht
    refine ⟨h6.1, h6.2.1, h6.2.2.1, fun bag hb => h6.2.2.2 bag ?_⟩
    have : ({ m.setItem k { i with hot := true, refs := i.refs - 1 } with
        cold := l ++ m.cold.takeWhile (m.passes c), hot := m.hot ++ [k] } : Clock K V).value = m.value := by
      funext x
      by_cases hx : x = k
      · subst hx; simp [value, setItem, here]
      · simp [value, setItem, put_other _ _ hx]
    rw [this]; exact hb
  | @spare k l i st1 v at_ here unref before light =>
    have hs := split_drop at_
    obtain ⟨c1, c2, c3⟩ := rest_cold hs hw.coldN
    have hk : k ∈ m.cold := by rw [hs]; simp
    obtain ⟨j, h3, h4, h5⟩ := (hw.cold k).mp hk
    rw [here] at h3; cases h3
    refine ⟨?_, rfl, rfl, fun bag hb => (victim rfl here hb (hov bag hb)).1 light (value_setItem ..)⟩
    refine hw.upd k (fun x hx => put_other _ _ hx) hw.hotN c1 (fun x _ => .rfl) c3 ?_ ?_
    · rw [show ({ m.setItem k { i with value := v } with cold := l ++ m.cold.takeWhile (m.passes c) } : Clock K V).hot = m.hot
        from rfl, hw.hot k]
      simp [setItem, light, here, h4]
    · simp [setItem, c2, light]
  | @evict k l i st1 v at_ here unref before still =>
    have hs := split_drop at_
    obtain ⟨c1, c2, c3⟩ := rest_cold hs hw.coldN
    have hk : k ∈ m.cold := by rw [hs]; simp
    obtain ⟨j, h3, h4, h5⟩ := (hw.cold k).mp hk
    rw [here] at h3; cases h3
    refine ⟨?_, rfl, rfl, fun bag hb => (victim rfl here hb (hov bag hb)).2 still (value_dropItem ..)⟩
    refine hw.upd k (fun x hx => del_other _ hx) hw.hotN c1 (fun x _ => .rfl) c3 ?_ ?_
    · show k ∈ m.hot ↔ _
      rw [hw.hot k]
      simp [haunt, dropItem, here, h4]
    · simp [haunt, dropItem]
      exact ⟨fun h => c2 (List.mem_append_left _ h), fun h => c2 (List.mem_append_right _ h)⟩

/-- Making room: each victim is chosen while the items and the new one weigh more than the capacity or the hot target. -/
theorem Fit.thin {T : Nat} {E : List (K × V)} {m m' : Clock K V} {st st' : RS} {log : List (Event K V)} {extra : Nat}
    (h : Fit c extra m st log m' st') (he : extra = total c.weight E) (hw : WF c m) (ht : T ≤ m.target) (hc : T ≤ m.cap) :
    Thinned c T E m log m' := by
  induction h with
  | done fits => exact ⟨hw, rfl, rfl, fun bag hb => ⟨bag, hb, .done (.refl _)⟩⟩
  | stop over turn => exact turn.thin hw ht (by omega)
  | more over turn rest ih =>
    have h1 := turn.thin (E := E) (T := T) hw ht (by omega)
    exact h1.trans (ih h1.1 (by rw [h1.2.1]; exact ht) (by rw [h1.2.2.1]; exact hc))

/-! ### Storing -/

omit [DecidableEq K] in
/-- Only the table and the lists matter. -/
theorem WF.congr {m m' : Clock K V} (h : WF c m) (h1 : m'.items = m.items) (h2 : m'.hot = m.hot) (h3 : m'.cold = m.cold) :
    WF c m' := by
  refine ⟨by rw [h2]; exact h.hotN, by rw [h3]; exact h.coldN, fun k => ?_, fun k => ?_⟩
  · rw [h2, h1]; exact h.hot k
  · rw [h3, h1]; exact h.cold k

omit [DecidableEq K] in
theorem WF.off {m : Clock K V} (h : WF c m) {k : K} (hn : ∀ i, m.items k = some i → c.weight k i.value = 0) :
    k ∉ m.hot ∧ k ∉ m.cold := by
  constructor
  · rw [h.hot]; rintro ⟨i, h1, -, h2⟩; exact h2 (hn i h1)
  · rw [h.cold]; rintro ⟨i, h1, -, h2⟩; exact h2 (hn i h1)

/-- An item enters a list if it has weight. -/
theorem WF.enlist {m : Clock K V} (h : WF c m) {k : K} (hn : ∀ i, m.items k = some i → c.weight k i.value = 0) (i : Item V) :
    WF c ((m.setItem k i).enlist i.hot k (c.weight k i.value)) := by
  obtain ⟨h1, h2⟩ := h.off hn
  unfold Clock.enlist
  split
  · rename_i hw
    refine h.upd k (fun x hx => put_other _ _ hx) h.hotN h.coldN (fun x _ => .rfl) (fun x _ => .rfl) ?_ ?_
    · simp [setItem, hw, h1]
    · simp [setItem, hw, h2]
  · rename_i hw
    cases hh : i.hot with
    | true =>
      refine h.upd k (fun x hx => put_other _ _ hx) (nodup_snoc h.hotN h1) h.coldN (fun x hx => ?_) (fun x _ => .rfl) ?_ ?_
      · simp [setList, list, setItem, hx]
      · simp [setList, list, setItem, hw, hh]
      · simp [setList, list, setItem, hh, h2]
    | false =>
      refine h.upd k (fun x hx => put_other _ _ hx) h.hotN (nodup_snoc h.coldN h2) (fun x _ => .rfl) (fun x hx => ?_) ?_ ?_
      · simp [setList, list, setItem, hx]
      · simp [setList, list, setItem, hh, h1]
      · simp [setList, list, setItem, hw, hh]

/-- A circular list without one of its keys. -/
theorem skip_mem {l : List K} {k : K} (hN : l.Nodup) (hk : k ∈ l) :
    (skip l k).Nodup ∧ k ∉ skip l k ∧ ∀ x, x ≠ k → (x ∈ skip l k ↔ x ∈ l) := by
  unfold skip
  cases hd : l.dropWhile (· ≠ k) with
  | nil =>
    have := List.dropWhile_eq_nil_iff.mp hd k hk
    simp at this
  | cons y r =>
    have hy : y = k := by
      have := List.head?_dropWhile_not (fun x => decide (x ≠ k)) l
      rw [hd] at this
      simpa using this
    subst hy
    exact rest_cold (split_drop hd) hN

/-- An item is overwritten. -/
theorem WF.relist {m : Clock K V} (h : WF c m) {k : K} {i : Item V} (here : m.items k = some i) (v : V) (n : Nat) :
    WF c ((m.setItem k { i with value := v, refs := n }).relist i.hot k (c.weight k i.value) (c.weight k v)) := by
  unfold Clock.relist
  split
  · rename_i hw
    exact h.enlist (fun j hj => by rw [here] at hj; cases hj; exact hw) { i with value := v, refs := n }
  · rename_i hw0
    split
    · rename_i hw
      cases hh : i.hot with
      | true =>
        have hk : k ∈ m.hot := (h.hot k).mpr ⟨i, here, hh, hw0⟩
        have hc : k ∉ m.cold := by rw [h.cold]; rintro ⟨j, h1, h2, -⟩; rw [here] at h1; cases h1; rw [hh] at h2; cases h2
        obtain ⟨h1, h2, h3⟩ := skip_mem h.hotN hk
        refine h.upd k (fun x hx => put_other _ _ hx) h1 h.coldN h3 (fun x _ => .rfl) ?_ ?_
        · simp only [setList, list, if_true, setItem, put_same]
          refine ⟨fun h => absurd h h2, ?_⟩
          rintro ⟨j, h4, -, h5⟩; cases h4; exact absurd hw h5
        · simp [setList, list, setItem, hw, hc]
      | false =>
        have hk : k ∈ m.cold := (h.cold k).mpr ⟨i, here, hh, hw0⟩
        have hc : k ∉ m.hot := by rw [h.hot]; rintro ⟨j, h1, h2, -⟩; rw [here] at h1; cases h1; rw [hh] at h2; cases h2
        obtain ⟨h1, h2, h3⟩ := skip_mem h.coldN hk
        refine h.upd k (fun x hx => put_other _ _ hx) h.hotN h1 (fun x _ => .rfl) h3 ?_ ?_
        · simp [setList, list, setItem, hw, hc]
        · show k ∈ skip m.cold k ↔ _
          simp only [setList, setItem]
          refine ⟨fun h => absurd h h2, ?_⟩
          rintro ⟨j, h4, -, h5⟩; simp at h4; cases h4; exact absurd hw h5
    · rename_i hw
      refine h.upd k (fun x hx => put_other _ _ hx) h.hotN h.coldN (fun x _ => .rfl) (fun x _ => .rfl) ?_ ?_
      · show k ∈ m.hot ↔ _
        rw [h.hot, here]; simp [setItem, hw0, hw]
      · show k ∈ m.cold ↔ _
        rw [h.cold, here]; simp [setItem, hw0, hw]

omit [DecidableEq K] in
theorem items_setList (m : Clock K V) (b : Bool) (l : List K) : (m.setList b l).items = m.items := by
  unfold setList; split <;> rfl

omit [DecidableEq K] in
theorem items_enlist (m : Clock K V) (b : Bool) (k : K) (w : Nat) : (m.enlist b k w).items = m.items := by
  unfold Clock.enlist; split
  · rfl
  · exact items_setList ..

theorem items_relist (m : Clock K V) (b : Bool) (k : K) (w0 w : Nat) : (m.relist b k w0 w).items = m.items := by
  unfold Clock.relist; split
  · exact items_enlist ..
  · split
    · exact items_setList ..
    · rfl

omit [DecidableEq K] in
theorem sizes_setList (m : Clock K V) (b : Bool) (l : List K) :
    (m.setList b l).target = m.target ∧ (m.setList b l).cap = m.cap := by
  unfold setList; split <;> exact ⟨rfl, rfl⟩

omit [DecidableEq K] in
theorem sizes_enlist (m : Clock K V) (b : Bool) (k : K) (w : Nat) :
    (m.enlist b k w).target = m.target ∧ (m.enlist b k w).cap = m.cap := by
  unfold Clock.enlist; split
  · exact ⟨rfl, rfl⟩
  · exact sizes_setList ..

theorem sizes_relist (m : Clock K V) (b : Bool) (k : K) (w0 w : Nat) :
    (m.relist b k w0 w).target = m.target ∧ (m.relist b k w0 w).cap = m.cap := by
  unfold Clock.relist; split
  · exact sizes_enlist ..
  · split
    · exact sizes_setList ..
    · exact ⟨rfl, rfl⟩

omit [DecidableEq K] in
theorem value_congr {m m' : Clock K V} (h : m'.items = m.items) : m'.value = m.value := by
  funext k; unfold value; rw [h]

theorem value_of {m m' : Clock K V} {k : K} {i : Item V} (h : m'.items = put m.items k i) :
    m'.value = put m.value k i.value := (value_congr (m := m.setItem k i) h).trans (value_setItem ..)

/-- The items other than `k`. -/
theorem _root_.QuickCache.Spec.Lists.others {bag : List (K × V)} {f : K → Option V} (h : Lists bag f) (k : K) :
    Lists (bag.filter (fun p => p.1 ≠ k)) (del f k) := by
  refine ⟨?_, fun x v => ?_⟩
  · have : ((bag.filter (fun p => p.1 ≠ k)).map (·.1)).Sublist (bag.map (·.1)) := List.filter_sublist.map _
    exact this.nodup h.1
  · rw [List.mem_filter, h.2]
    by_cases hx : x = k
    · subst hx; simp
    · simp [hx, del_other _ hx]

/-- What storing an item does to the items: it joins those of other keys, and then they are thinned out. -/
theorem Place.thin {T : Nat} {m m' : Clock K V} {st st' : RS} {k : K} {v : V} {used : Bool} {log : List (Event K V)}
    (h : Place c m st k v used log m' st') (hw : WF c m) (ht : T ≤ m.target) (hc : T ≤ m.cap) {bag : List (K × V)}
    (hb : Lists bag m.value) :
    ∃ L bag', log = (m.value k).toList.map (.onEvict k) ++ L ∧ Lists bag' m'.value ∧
      Thins c.weight T ((k, v) :: bag.filter (fun p => p.1 ≠ k)) L bag' := by
  have hput : Lists ((k, v) :: bag.filter (fun p => p.1 ≠ k)) (put m.value k v) := (hb.others k).cons v
  cases h with
  | overwrite here fit =>
    rename_i log i
    have h1 := fit.thin (T := T) (E := []) rfl (hw.relist here v _) (by rw [(sizes_relist ..).1]; exact ht)
      (by rw [(sizes_relist ..).2]; exact hc)
    obtain ⟨bag', h2, h3⟩ := h1.2.2.2 _ (by
      rw [value_congr (items_relist ..), value_setItem]; exact hput)
    exact ⟨log, bag', by simp [value, here], h2, h3⟩
  | loading absent pending fit =>
    rename_i b
    have hwf : WF c ({ m.setItem k ⟨v, b, 1⟩ with pending := del m.pending k }.enlist b k (c.weight k v)) := by
      have hw' : WF c { m with pending := del m.pending k } := hw.congr rfl rfl rfl
      exact hw'.enlist (k := k) (fun j hj => by rw [show m.items k = some j from hj] at absent; cases absent) ⟨v, b, 1⟩
    have h1 := fit.thin (T := T) (E := []) rfl hwf (by rw [(sizes_enlist ..).1]; exact ht)
      (by rw [(sizes_enlist ..).2]; exact hc)
    obtain ⟨bag', h2, h3⟩ := h1.2.2.2 _ (by
      rw [value_of (m := m) (k := k) (i := ⟨v, b, 1⟩) (items_enlist ..)]; exact hput)
    exact ⟨log, bag', by simp [value, absent], h2, h3⟩
  | ghost absent idle back fit =>
    rename_i g
    have hwf : WF c ({ m.setItem k ⟨v, true, 0⟩ with ghosts := g }.enlist true k (c.weight k v)) := by
      have hw' : WF c { m with ghosts := g } := hw.congr rfl rfl rfl
      exact hw'.enlist (k := k) (fun j hj => by rw [show m.items k = some j from hj] at absent; cases absent) ⟨v, true, 0⟩
    have h1 := fit.thin (T := T) (E := []) rfl hwf (by rw [(sizes_enlist ..).1]; exact ht)
      (by rw [(sizes_enlist ..).2]; exact hc)
    obtain ⟨bag', h2, h3⟩ := h1.2.2.2 _ (by
      rw [value_of (m := m) (k := k) (i := ⟨v, true, 0⟩) (items_enlist ..)]; exact hput)
    exact ⟨log, bag', by simp [value, absent], h2, h3⟩
  | fresh absent idle new fit =>
    rename_i m1
    have h1 := fit.thin (T := T) (E := [(k, v)]) (by simp [Spec.total]) hw ht hc
    obtain ⟨bag', h2, h3⟩ := h1.2.2.2 _ hb
    have hk : ∀ p ∈ bag, p.1 ≠ k := by
      rintro ⟨x, y⟩ hp rfl
      have := (hb.2 _ _).mp hp
      simp [value, absent] at this
    have hk' : m1.value k = none := by
      cases hx : m1.value k with
      | none => rfl
      | some y =>
        exfalso
        have h4 : (k, y) ∈ bag' := (h2.2 _ _).mpr hx
        have h5 := h3.nodup (by
          rw [List.singleton_append, List.map_cons, List.nodup_cons]
          refine ⟨fun h => ?_, hb.1⟩
          obtain ⟨p, hp, h6⟩ := List.mem_map.mp h
          exact hk p hp h6)
        rw [List.singleton_append, List.map_cons, List.nodup_cons] at h5
        exact h5.1 (List.mem_map.mpr ⟨(k, y), h4, rfl⟩)
    refine ⟨log, (k, v) :: bag', by simp [value, absent], ?_, ?_⟩
    · rw [value_congr (items_enlist ..), value_setItem]
      refine Lists.cons v ?_
      rw [del_self _ hk']; exact h2
    · rw [List.filter_eq_self.mpr (by simpa using hk)]; exact h3

/-- The end of a load: either the value is too heavy, or it joins the items and they are thinned out. -/
theorem Fill.thin {T : Nat} {m m' : Clock K V} {k : K} {v : V} {waited : Bool} {log : List (Event K V)}
    (h : Fill c m k v waited log m') (hw : WF c m) (absent : m.items k = none) (ht : T ≤ m.target) (hc : T ≤ m.cap)
    {bag : List (K × V)} (hb : Lists bag m.value) :
    ∃ st pre v1 L, Enter c m.target k v st pre v1 ∧ log = pre ++ L ∧
      ((pre ≠ [] ∧ m.target < c.weight k v1) ∨ ∃ bag', Lists bag' m'.value ∧
        Thins c.weight T ((k, v1) :: bag.filter (fun p => p.1 ≠ k)) L bag') := by
  have hput : ∀ v1, Lists ((k, v1) :: bag.filter (fun p => p.1 ≠ k)) (put m.value k v1) := fun v1 => (hb.others k).cons v1
  cases h with
  | rejected enter asked heavy => exact ⟨_, _, _, _, enter, rfl, .inl ⟨asked, heavy⟩⟩
  | weightless enter fits pending light =>
    rename_i st v1 b
    refine ⟨_, _, _, _, enter, (List.append_nil _).symm, .inr ⟨_, ?_, .done (.refl _)⟩⟩
    rw [value_of (m := m) (k := k) (i := ⟨v1, _, _⟩) rfl]
    exact hput v1
  | stored enter fits pending heavy level fit =>
    rename_i st st' v1 pre log b hot
    have hwf : WF c ({ m.setItem k ⟨v1, hot, if waited then 1 else 0⟩ with pending := del m.pending k }.setList hot
        (m.list hot ++ [k])) := by
      have hw' : WF c { m with pending := del m.pending k } := hw.congr rfl rfl rfl
      have := hw'.enlist (k := k) (fun j hj => by rw [show m.items k = some j from hj] at absent; cases absent)
        ⟨v1, hot, if waited then 1 else 0⟩
      unfold Clock.enlist at this
      rw [if_neg heavy] at this
      cases hot <;> exact this
    have h1 := fit.thin (T := T) (E := []) rfl hwf (by rw [(sizes_setList ..).1]; exact ht)
      (by rw [(sizes_setList ..).2]; exact hc)
    obtain ⟨bag', h2, h3⟩ := h1.2.2.2 _ (by
      rw [value_of (m := m) (k := k) (i := ⟨v1, hot, if waited then 1 else 0⟩) (items_setList ..)]; exact hput v1)
    exact ⟨_, _, _, _, enter, rfl, .inr ⟨bag', h2, h3⟩⟩

end Spec.Clock

/-! ### The abstract cache of a shard is well-formed -/

omit [DecidableEq K] in
theorem Inv0.nodup_klist {s : Shard K V} {R : RingId → List Nat} {F : List Nat} (h : Inv0 c s) (hr : s.HasRings c R F)
    {i : RingId} (hi : i ≠ .ghost) (hres : ∀ t ∈ R i, ∃ r, s.entries.item t = some (.resident r)) : ∀ (l : List Nat),
    l.Nodup → (∀ t ∈ l, t ∈ R i) → (klist s.entries.item l).Nodup
  | [], _, _ => .nil
  | t :: l, hn, hl => by
    obtain ⟨r, h1⟩ := hres t (hl t List.mem_cons_self)
    rw [List.nodup_cons] at hn
    have hl' : ∀ x ∈ l, x ∈ R i := fun x hx => hl x (List.mem_cons_of_mem _ hx)
    rw [klist_cons (keyAt_res h1), List.nodup_cons]
    exact ⟨h.key_off hr h1 hl' hi hn.1, h.nodup_klist hr hi hres l hn.2 hl'⟩

theorem Shard.Implements.wf {s : Shard K V} {m : Clock K V} (hm : s.Implements c m) (h : Inv0 c s) : m.WF c := by
  obtain ⟨R, F, hr, rfl⟩ := hm
  have hot : ∀ t ∈ R .hot, ∃ r, s.entries.item t = some (.resident r) := fun t ht => by
    obtain ⟨r, h1, -⟩ := hr.hot ht; exact ⟨r, h1⟩
  have cold : ∀ t ∈ R .cold, ∃ r, s.entries.item t = some (.resident r) := fun t ht => by
    obtain ⟨r, h1, -⟩ := hr.cold ht; exact ⟨r, h1⟩
  refine ⟨h.nodup_klist hr (by simp) hot _ (hr.links.nodup .hot) (fun _ h => h),
    h.nodup_klist hr (by simp) cold _ (hr.links.nodup .cold) (fun _ h => h), fun k => ?_, fun k => ?_⟩
  · constructor
    · intro hk
      obtain ⟨t, h1, h2⟩ := mem_klist.mp hk
      obtain ⟨r, h3, h4, h5⟩ := hr.hot h1
      rw [keyAt_res h3] at h2; cases h2
      exact ⟨r.item, h.abs_item R h3, by simp [Resident.item, h4], h5⟩
    · rintro ⟨i, h1, h2, h3⟩
      obtain ⟨t, r, h4, rfl, rfl⟩ := Shard.abs_some h h1
      refine mem_klist.mpr ⟨t, (hr.mem _ _).mpr ?_, keyAt_res h4⟩
      rw [Shard.rho_resident h4 h3]
      have : r.state = .hot := by simpa [Resident.item] using h2
      rw [this]; rfl
  · constructor
    · intro hk
      obtain ⟨t, h1, h2⟩ := mem_klist.mp hk
      obtain ⟨r, h3, h4, h5⟩ := hr.cold h1
      rw [keyAt_res h3] at h2; cases h2
      exact ⟨r.item, h.abs_item R h3, by simp [Resident.item, h4], h5⟩
    · rintro ⟨i, h1, h2, h3⟩
      obtain ⟨t, r, h4, rfl, rfl⟩ := Shard.abs_some h h1
      refine mem_klist.mpr ⟨t, (hr.mem _ _).mpr ?_, keyAt_res h4⟩
      rw [Shard.rho_resident h4 h3]
      cases hs : r.state with
      | hot => simp [Resident.item, hs] at h2
      | cold => rfl

/-! ### Whole calls -/

omit [DecidableEq K] in
theorem Spec.Enter.is {target : Nat} {k : K} {v v1 : V} {st : RS} {pre : List (Event K V)} (h : Enter c target k v st pre v1) :
    v1 = enterValue c target k v ∧
      pre = (if target < c.weight k v ∧ c.pinned k v = false then [.beforeEvict k v (enterValue c target k v)] else []) := by
  cases h with
  | direct fits =>
    have : ¬ (target < c.weight k v ∧ c.pinned k v = false) := by
      rintro ⟨h1, h2⟩
      rcases fits with h | h
      · omega
      · rw [h2] at h; cases h
    exact ⟨by rw [enterValue, if_neg this], by rw [if_neg this]⟩
  | rewritten heavy free before =>
    have : enterValue c target k v = v1 := by rw [enterValue, if_pos ⟨heavy, free⟩, before]
    exact ⟨this.symm, by rw [if_pos ⟨heavy, free⟩, this]⟩

omit [DecidableEq K] in
theorem Spec.Enter.admissible {target : Nat} {k : K} {v v1 : V} {st : RS} {pre : List (Event K V)}
    (h : Enter c target k v st pre v1) (hp : pre ≠ []) (hw : target < c.weight k v1) : ¬ Admissible c target k v := by
  cases h with
  | direct fits => exact absurd rfl hp
  | rewritten heavy free before =>
    rintro (h | h)
    · rw [free] at h; cases h
    · rw [enterWeight, if_pos ⟨heavy, free⟩, before] at h
      exact absurd hw (by simpa using h)

/-- Writing through a reference, on a list of items. -/
theorem Spec.Lists.alter {bag : List (K × V)} {m : K → Option V} (h : Lists bag m) (k : K) (f : V → V) :
    Lists (bag.map fun p => if p.1 = k then (p.1, f p.2) else p) (Spec.alter m k f) := by
  refine ⟨?_, fun x w => ?_⟩
  · rw [List.map_map]
    have : ((fun p : K × V => p.1) ∘ fun p => if p.1 = k then (p.1, f p.2) else p) = fun p => p.1 := by
      funext p; simp only [Function.comp]; split <;> rfl
    rw [this]; exact h.1
  · rw [List.mem_map]
    unfold Spec.alter
    constructor
    · rintro ⟨⟨y, u⟩, h1, h2⟩
      have h3 := (h.2 _ _).mp h1
      by_cases hy : y = k
      · subst hy; rw [if_pos rfl] at h2; cases h2
        rw [if_pos rfl, h3]; rfl
      · rw [if_neg hy] at h2; cases h2
        rw [if_neg hy]; exact h3
    · by_cases hx : x = k
      · subst hx
        rw [if_pos rfl, Option.map_eq_some_iff]
        rintro ⟨u, h1, rfl⟩
        exact ⟨(x, u), (h.2 _ _).mpr h1, by simp⟩
      · rw [if_neg hx]
        intro h1
        exact ⟨(x, w), (h.2 _ _).mpr h1, by simp [hx]⟩

namespace Spec.Clock

theorem value_write (m : Clock K V) (k : K) (f : V → V) : (m.write c k f).value = alter m.value k f := by
  unfold write
  cases hk : m.items k with
  | none =>
    funext x
    unfold alter
    by_cases hx : x = k
    · subst hx; simp [value, hk]
    · simp [hx]
  | some i =>
    show Clock.value (Clock.relist ..) = _
    rw [value_of (m := m) (k := k) (i := { i with value := f i.value }) (items_relist ..)]
    funext x
    unfold alter
    by_cases hx : x = k
    · subst hx; simp [value, hk]
    · simp [hx, put_other _ _ hx]

/-- Preparing a load changes no item. -/
theorem Lookup.miss {m m1 : Clock K V} {k : K} (h : Lookup c m k none m1) :
    m.items k = none ∧ m1.items = m.items ∧ m1.hot = m.hot ∧ m1.cold = m.cold ∧ m1.target = m.target ∧ m1.cap = m.cap := by
  cases h with
  | loading absent pending => exact ⟨absent, rfl, rfl, rfl, rfl, rfl⟩
  | ghost absent idle back => exact ⟨absent, rfl, rfl, rfl, rfl, rfl⟩
  | fresh absent idle new => exact ⟨absent, rfl, rfl, rfl, rfl, rfl⟩

/-- A load, begun and ended. -/
theorem Fill.whole {m m1 m' : Clock K V} {k : K} {v : V} {log : List (Event K V)} (h : Lookup c m k none m1)
    (fill : Fill c m1 k v false log m') (hw : WF c m) (hadm : Admissible c m.target k v) {bag : List (K × V)}
    (hb : Lists bag m.value) :
    ∃ L bag', log = preamble c m.target m.value k v ++ L ∧ Lists bag' m'.value ∧
      Thins c.weight (min m.target m.cap) ((k, enterValue c m.target k v) :: bag.filter (fun p => p.1 ≠ k)) L bag' := by
  obtain ⟨h1, h2, h3, h4, h5, h6⟩ := h.miss
  obtain ⟨st, pre, v1, L, e1, e2, e3⟩ := fill.thin (T := min m.target m.cap) (hw.congr h2 h3 h4) (by rw [h2]; exact h1)
    (by rw [h5]; omega) (by rw [h6]; omega) (by rw [value_congr h2]; exact hb)
  rw [h5] at e1 e3
  rcases e3 with ⟨hp, hh⟩ | ⟨bag', e4, e5⟩
  · exact absurd hadm (e1.admissible hp hh)
  · obtain ⟨e6, e7⟩ := e1.is
    refine ⟨L, bag', ?_, e4, e6 ▸ e5⟩
    rw [e2, preamble, ← e7]
    simp [value, h1]

/-- A storing call: the new item joins the others, and then they are thinned out. -/
theorem Step.thin {m m' : Clock K V} {op : Op K V} {out : Out K V} {log : List (Event K V)} {k : K} {v : V} {f : V → V}
    (h : Step c m op out log m') (hw : WF c m) (hst : StoresThen m.value op out k v f) (hadm : Admissible c m.target k v)
    {bag : List (K × V)} (hb : Lists bag m.value) :
    ∃ L bag', log = preamble c m.target m.value k v ++ L ∧
      Lists (bag'.map fun p => if p.1 = k then (p.1, f p.2) else p) m'.value ∧
      Thins c.weight (min m.target m.cap) ((k, enterValue c m.target k v) :: bag.filter (fun p => p.1 ≠ k)) L bag' := by
  have hid : ∀ l : List (K × V), (l.map fun p => if p.1 = k then (p.1, id p.2) else p) = l := fun l => by
    rw [List.map_congr_left (g := id) (fun p _ => by split <;> rfl), List.map_id]
  have hmiss : ∀ {w : V} {m1 : Clock K V}, Lookup c m k (some w) m1 → m.value k ≠ none := by
    intro w m1 h
    cases h with
    | found here => simp [value, here]
  have hplace : ∀ {st st' : RS} {v1 : V} {pre log : List (Event K V)} {used : Bool}, Enter c m.target k v st pre v1 →
      Place c m st k v1 used log m' st' → ∃ L bag', pre ++ log = preamble c m.target m.value k v ++ L ∧
        Lists bag' m'.value ∧
        Thins c.weight (min m.target m.cap) ((k, enterValue c m.target k v) :: bag.filter (fun p => p.1 ≠ k)) L bag' := by
    intro st st' v1 pre log used enter place
    obtain ⟨L, bag', h1, h2, h3⟩ := place.thin (T := min m.target m.cap) hw (by omega) (by omega) hb
    obtain ⟨e6, e7⟩ := enter.is
    exact ⟨L, bag', by rw [h1, preamble, ← e7, List.append_assoc], h2, e6 ▸ h3⟩
  cases hst with
  | plain hst =>
    cases hst with
    | insert =>
      cases h with
      | insert h =>
        cases h with
        | rejected enter asked heavy => exact absurd hadm (enter.admissible asked heavy)
        | stored enter fits place =>
          obtain ⟨L, bag', h1, h2, h3⟩ := hplace enter place
          exact ⟨L, bag', h1, by rw [hid]; exact h2, h3⟩
    | replace =>
      generalize ho : (Out.replaced none : Out K V) = out at h
      cases h with
      | replace h =>
        cases h with
        | rejected enter asked heavy => exact absurd hadm (enter.admissible asked heavy)
        | absent enter fits absent => cases ho
        | stored enter fits here place =>
          obtain ⟨L, bag', h1, h2, h3⟩ := hplace enter place
          exact ⟨L, bag', h1, by rw [hid]; exact h2, h3⟩
    | load _ _ absent =>
      cases h with
      | loadHit h => exact absurd absent (hmiss h)
      | load h fill =>
        obtain ⟨L, bag', h1, h2, h3⟩ := Fill.whole h fill hw hadm hb
        exact ⟨L, bag', h1, by rw [hid]; exact h2, h3⟩
    | guard _ _ absent =>
      cases h with
      | guardHit h => exact absurd absent (hmiss h)
      | guard h guarded =>
        cases guarded with
        | insert fill =>
          obtain ⟨L, bag', h1, h2, h3⟩ := Fill.whole h fill hw hadm hb
          exact ⟨L, bag', h1, by rw [hid]; exact h2, h3⟩
    | guardMut _ _ _ absent =>
      cases h with
      | guardMutHit h => exact absurd absent (hmiss h)
      | guardMut h guarded =>
        cases guarded with
        | insert fill =>
          obtain ⟨L, bag', h1, h2, h3⟩ := Fill.whole h fill hw hadm hb
          exact ⟨L, bag', h1, by rw [hid]; exact h2, h3⟩
  | loadMut v f _ absent =>
    cases h with
    | loadMutHit h => exact absurd absent (hmiss h)
    | loadMut h fill =>
      obtain ⟨L, bag', h1, h2, h3⟩ := Fill.whole h fill hw hadm hb
      refine ⟨L, bag', h1, ?_, h3⟩
      rw [value_write]
      exact h2.alter k f

end Spec.Clock
end QuickCache
