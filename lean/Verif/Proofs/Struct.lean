import Verif.Model.Shard
import Verif.Proofs.Slab

/-!
# Ring structure of a shard

`Struct sl hd rho`: the slab `sl` realises three circular lists with heads `hd`, and slot `t` is on list `i` exactly
when `rho t = some i`. Helper lemmas for the slab operations used by the shard.
-/

namespace QuickCache
variable {T : Type _}

/-- The rings of a shard, explicitly. -/
structure Rings (sl : Slab T) (hd : RingId → Option Nat) (rho : Nat → Option RingId) (R : RingId → List Nat)
    (F : List Nat) : Prop where
  links : Slab.Links sl R F
  heads : ∀ i, hd i = (R i).head?
  mem : ∀ i t, t ∈ R i ↔ rho t = some i

/-- The rings of a shard. -/
def Struct (sl : Slab T) (hd : RingId → Option Nat) (rho : Nat → Option RingId) : Prop :=
  ∃ R F, Rings sl hd rho R F

namespace Struct
variable {sl : Slab T} {hd : RingId → Option Nat} {rho : Nat → Option RingId}

theorem occ (h : Struct sl hd rho) {t : Nat} {i : RingId} (ht : rho t = some i) : (sl.item t).isSome := by
  obtain ⟨R, F, hl, hh, hm⟩ := h
  exact hl.occ i t ((hm i t).mpr ht)

theorem setItem (h : Struct sl hd rho) {t : Nat} (ht : (sl.item t).isSome) (x : T) :
    Struct (sl.setItem t x) hd rho := by
  obtain ⟨R, F, hl, hh, hm⟩ := h
  exact ⟨R, F, hl.setItem ht x, hh, hm⟩

theorem link (h : Struct sl hd rho) (i : RingId) {t : Nat} (ht : (sl.item t).isSome) (hr : rho t = none) :
    ∃ sl' h', sl.link t (hd i) = .ok (sl', h') ∧ sl'.items = sl.items ∧ sl'.nextFree = sl.nextFree ∧
      Struct sl' (upd hd i (some h')) (upd rho t (some i)) := by
  obtain ⟨R, F, hl, hh, hm⟩ := h
  have hn : ∀ j, t ∉ R j := fun j hj => by rw [hm, hr] at hj; simp at hj
  obtain ⟨s', h1, h2, h3, h4⟩ := Slab.link_spec hl i ht hn
  refine ⟨s', (R i).head?.getD t, by rw [hh]; exact h1, h2, h3, _, F, h4, fun j => ?_, fun j u => ?_⟩
  · by_cases hj : j = i
    · subst hj; simp
    · rw [upd_other _ _ hj, upd_other _ _ hj]; exact hh j
  · by_cases hj : j = i
    · subst hj; simp only [upd_same, List.mem_append, hm, List.mem_singleton]
      by_cases hu : u = t
      · subst hu; simp
      · rw [upd_other _ _ hu]; simp [hu]
    · rw [upd_other _ _ hj, hm]
      by_cases hu : u = t
      · subst hu; rw [hr]; simp; exact fun e => hj e.symm
      · rw [upd_other _ _ hu]

/-- `unlink`, with the two ways in which the code updates the head. -/
theorem unlink (h : Struct sl hd rho) {i : RingId} {t : Nat} (hr : rho t = some i) :
    ∃ sl' h', sl.unlink t = .ok (sl', h') ∧ sl'.items = sl.items ∧ sl'.nextFree = sl.nextFree ∧
      Struct sl' (upd hd i h') (upd rho t none) ∧
      Struct sl' (upd hd i (if hd i = some t then h' else hd i)) (upd rho t none) := by
  obtain ⟨R, F, hl, hh, hm⟩ := h
  have ht : t ∈ R i := (hm i t).mpr hr
  obtain ⟨A, B, hAB⟩ := List.append_of_mem ht
  obtain ⟨s', h1, h2, h3, h4⟩ := Slab.unlink_spec hl hAB
  have hnd := hl.nodup i
  rw [hAB] at hnd
  have htAB : t ∉ A ∧ t ∉ B := by
    have := List.nodup_cons.mp (List.perm_middle.nodup_iff.mp hnd)
    simpa using this.1
  have hmem : ∀ (C : List Nat), (∀ u, u ∈ C ↔ u ∈ A ∨ u ∈ B) →
      ∀ j u, u ∈ upd R i C j ↔ upd rho t none u = some j := by
    intro C hC j u
    by_cases hu : u = t
    · subst hu
      simp only [upd_same]
      by_cases hj : j = i
      · subst hj; simp [hC, htAB]
      · rw [upd_other _ _ hj, hm, hr]; simp; exact fun e => hj e.symm
    · rw [upd_other _ _ hu]
      by_cases hj : j = i
      · subst hj; rw [upd_same, hC, ← hm, hAB]; simp [hu]
      · rw [upd_other _ _ hj, hm]
  refine ⟨s', _, h1, h2, h3, ⟨_, F, h4, fun j => ?_, hmem _ (by simp [or_comm])⟩,
    ⟨_, F, h4.rotate, fun j => ?_, hmem _ (by simp)⟩⟩
  · by_cases hj : j = i
    · subst hj; simp
    · rw [upd_other _ _ hj, upd_other _ _ hj]; exact hh j
  · by_cases hj : j = i
    · subst hj
      simp only [upd_same]
      rw [hh, hAB]
      cases A with
      | nil => simp
      | cons a A =>
        have : a ≠ t := fun e => htAB.1 (by simp [e])
        simp [this]
    · rw [upd_other _ _ hj, upd_other _ _ hj]; exact hh j

theorem unlink_off (h : Struct sl hd rho) {t : Nat} (ht : (sl.item t).isSome) (hr : rho t = none) :
    sl.unlink t = .ok (sl, none) := by
  obtain ⟨R, F, hl, hh, hm⟩ := h
  exact Slab.unlink_off hl ht (fun j hj => by rw [hm, hr] at hj; simp at hj)

theorem remove (h : Struct sl hd rho) {i : RingId} {t : Nat} {x : T} (hr : rho t = some i) (hx : sl.item t = some x) :
    ∃ sl' h', sl.remove t = .ok (sl', some (x, h')) ∧ Slab.Upd sl sl' t (some x) none ∧
      sl'.entries.length = sl.entries.length ∧
      Struct sl' (upd hd i h') (upd rho t none) ∧
      Struct sl' (upd hd i (if hd i = some t then h' else hd i)) (upd rho t none) := by
  obtain ⟨R, F, hl, hh, hm⟩ := h
  have ht : t ∈ R i := (hm i t).mpr hr
  obtain ⟨A, B, hAB⟩ := List.append_of_mem ht
  obtain ⟨s', h1, h2, h3, h5, h4⟩ := Slab.remove_spec hl hAB hx
  have hnd := hl.nodup i
  rw [hAB] at hnd
  have htAB : t ∉ A ∧ t ∉ B := by
    have := List.nodup_cons.mp (List.perm_middle.nodup_iff.mp hnd)
    simpa using this.1
  have hmem : ∀ (C : List Nat), (∀ u, u ∈ C ↔ u ∈ A ∨ u ∈ B) →
      ∀ j u, u ∈ upd R i C j ↔ upd rho t none u = some j := by
    intro C hC j u
    by_cases hu : u = t
    · subst hu
      simp only [upd_same]
      by_cases hj : j = i
      · subst hj; simp [hC, htAB]
      · rw [upd_other _ _ hj, hm, hr]; simp; exact fun e => hj e.symm
    · rw [upd_other _ _ hu]
      by_cases hj : j = i
      · subst hj; rw [upd_same, hC, ← hm, hAB]; simp [hu]
      · rw [upd_other _ _ hj, hm]
  refine ⟨s', _, h1, h2, h5, ⟨_, _, h4, fun j => ?_, hmem _ (by simp [or_comm])⟩,
    ⟨_, _, h4.rotate, fun j => ?_, hmem _ (by simp)⟩⟩
  · by_cases hj : j = i
    · subst hj; simp
    · rw [upd_other _ _ hj, upd_other _ _ hj]; exact hh j
  · by_cases hj : j = i
    · subst hj
      simp only [upd_same]
      rw [hh, hAB]
      cases A with
      | nil => simp
      | cons a A =>
        have : a ≠ t := fun e => htAB.1 (by simp [e])
        simp [this]
    · rw [upd_other _ _ hj, upd_other _ _ hj]; exact hh j

theorem remove_off (h : Struct sl hd rho) {t : Nat} {x : T} (hr : rho t = none) (hx : sl.item t = some x) :
    ∃ sl', sl.remove t = .ok (sl', some (x, none)) ∧ Slab.Upd sl sl' t (some x) none ∧
      sl'.entries.length = sl.entries.length ∧ Struct sl' hd rho := by
  obtain ⟨R, F, hl, hh, hm⟩ := h
  obtain ⟨s', h1, h2, h3, h5, h4⟩ :=
    Slab.remove_off hl hx (fun j hj => by rw [hm, hr] at hj; simp at hj)
  exact ⟨s', h1, h2, h5, _, _, h4, hh, hm⟩

theorem insert (h : Struct sl hd rho) (x : T) :
    (sl.insert x = .error .slabFull ∧ sl.entries.length + 2 = 2 ^ 32 ∧ ∀ t < sl.entries.length, (sl.item t).isSome) ∨
    ∃ sl', sl.insert x = .ok (sl', sl.nextFree) ∧ Slab.Upd sl sl' sl.nextFree none (some x) ∧
      rho sl.nextFree = none ∧ Struct sl' hd rho := by
  obtain ⟨R, F, hl, hh, hm⟩ := h
  rcases Slab.insert_spec hl x with ⟨h1, h2, h3⟩ | ⟨s', h1, h2, h3, h4, h5⟩
  · left
    refine ⟨h1, h3, fun t ht => ?_⟩
    have := hl.freeMem t
    rw [h2] at this
    cases hh : sl.item t with
    | none => simp [ht, hh] at this
    | some x => rfl
  · right
    refine ⟨s', h1, h2, ?_, _, _, h4, hh, hm⟩
    cases hr : rho sl.nextFree with
    | none => rfl
    | some i => exact absurd ((hm i _).mpr hr) (h3 i)

theorem new (rho : Nat → Option RingId) (hr : ∀ t, rho t = none) :
    Struct (Slab.new : Slab T) (fun _ => none) rho := by
  refine ⟨fun _ => [], [], Slab.Links.new _ (fun _ => rfl), fun _ => rfl, fun i t => ?_⟩
  simp [hr]

theorem congr_rho (h : Struct sl hd rho) {rho' : Nat → Option RingId} (hr : ∀ t, rho' t = rho t) :
    Struct sl hd rho' := by
  have : rho' = rho := funext hr
  rw [this]; exact h

end Struct

/-! ### How the rings move -/

/-- The ring without `t`, the hand at the slot after `t`. -/
def skipSlot (t : Nat) (l : List Nat) : List Nat := (l.dropWhile (· ≠ t)).tail ++ l.takeWhile (· ≠ t)

theorem skipSlot_split {t : Nat} {A B : List Nat} (h : t ∉ A) : skipSlot t (A ++ t :: B) = B ++ A := by
  have h1 : ∀ u ∈ A, decide (u ≠ t) = true := fun u hu => by
    rw [decide_eq_true_iff]; rintro rfl; exact h hu
  unfold skipSlot
  rw [List.dropWhile_append_of_pos h1, List.takeWhile_append_of_pos h1]
  simp

theorem erase_split {t : Nat} {A B : List Nat} (h : t ∉ A) : (A ++ t :: B).erase t = A ++ B := by
  rw [List.erase_append_right _ h]; simp

/-- Whatever the rings before, they are `M` of these after. -/
def Moves (sl : Slab T) (hd : RingId → Option Nat) (rho : Nat → Option RingId) (sl' : Slab T)
    (hd' : RingId → Option Nat) (rho' : Nat → Option RingId)
    (M : (RingId → List Nat) → RingId → List Nat) : Prop :=
  ∀ R F, Rings sl hd rho R F → ∃ F', Rings sl' hd' rho' (M R) F'

namespace Moves
variable {sl sl' sl'' : Slab T} {hd hd' hd'' : RingId → Option Nat} {rho rho' rho'' : Nat → Option RingId}
  {M M' : (RingId → List Nat) → RingId → List Nat}

theorem struct (h : Moves sl hd rho sl' hd' rho' M) (hs : Struct sl hd rho) : Struct sl' hd' rho' := by
  obtain ⟨R, F, hr⟩ := hs
  obtain ⟨F', hr'⟩ := h R F hr
  exact ⟨_, F', hr'⟩

theorem refl (sl : Slab T) (hd : RingId → Option Nat) (rho : Nat → Option RingId) :
    Moves sl hd rho sl hd rho id := fun _ F hr => ⟨F, hr⟩

theorem trans (h : Moves sl hd rho sl' hd' rho' M) (h' : Moves sl' hd' rho' sl'' hd'' rho'' M') :
    Moves sl hd rho sl'' hd'' rho'' (fun R => M' (M R)) := by
  intro R F hr
  obtain ⟨F', hr'⟩ := h R F hr
  exact h' _ F' hr'

theorem setItem {t : Nat} (ht : (sl.item t).isSome) (x : T) : Moves sl hd rho (sl.setItem t x) hd rho id :=
  fun _ F hr => ⟨F, hr.links.setItem ht x, hr.heads, hr.mem⟩

/-- A change of the slab that `setItem` precedes. -/
theorem after_setItem {t : Nat} {x : T} (h : Moves (sl.setItem t x) hd rho sl' hd' rho' M) (ht : (sl.item t).isSome) :
    Moves sl hd rho sl' hd' rho' M := (Moves.setItem ht x).trans h

theorem congr_rho {rho1 : Nat → Option RingId} (h : Moves sl hd rho sl' hd' rho' M) (hr : rho1 = rho') :
    Moves sl hd rho sl' hd' rho1 M := hr ▸ h

theorem congr_head {hd0 hd1 : RingId → Option Nat} (h : Moves sl hd rho sl' hd' rho' M) (h0 : ∀ i, hd0 i = hd i)
    (h1 : ∀ i, hd1 i = hd' i) : Moves sl hd0 rho sl' hd1 rho' M := by
  rw [show hd0 = hd from funext h0, show hd1 = hd' from funext h1]; exact h

theorem congr_move {M1 : (RingId → List Nat) → RingId → List Nat} (h : Moves sl hd rho sl' hd' rho' M)
    (hr : ∀ R F, Rings sl hd rho R F → M1 R = M R) : Moves sl hd rho sl' hd' rho' M1 := by
  intro R F hR
  rw [hr R F hR]; exact h R F hR

end Moves

namespace Rings
variable {sl : Slab T} {hd : RingId → Option Nat} {rho : Nat → Option RingId} {R : RingId → List Nat} {F : List Nat}

theorem split (h : Rings sl hd rho R F) {i : RingId} {t : Nat} (hr : rho t = some i) :
    ∃ A B, R i = A ++ t :: B ∧ t ∉ A ∧ t ∉ B := by
  obtain ⟨A, B, hAB⟩ := List.append_of_mem ((h.mem i t).mpr hr)
  have hnd := h.links.nodup i
  rw [hAB] at hnd
  have := List.nodup_cons.mp (List.perm_middle.nodup_iff.mp hnd)
  exact ⟨A, B, hAB, by simpa using this.1⟩

theorem off (h : Rings sl hd rho R F) {t : Nat} (hr : rho t = none) (j : RingId) : t ∉ R j := fun hj => by
  rw [h.mem, hr] at hj; simp at hj

end Rings

namespace Moves
variable {sl : Slab T} {hd : RingId → Option Nat} {rho : Nat → Option RingId}

theorem link {sl' : Slab T} {i : RingId} {t h' : Nat} (ht : (sl.item t).isSome) (hr : rho t = none)
    (he : sl.link t (hd i) = .ok (sl', h')) :
    Moves sl hd rho sl' (upd hd i (some h')) (upd rho t (some i)) (fun R => upd R i (R i ++ [t])) := by
  rintro R F ⟨hl, hh, hm⟩
  have hn : ∀ j, t ∉ R j := fun j hj => by rw [hm, hr] at hj; simp at hj
  obtain ⟨s', h1, h2, h3, h4⟩ := Slab.link_spec hl i ht hn
  rw [← hh, he] at h1
  simp only [Except.ok.injEq, Prod.mk.injEq] at h1
  obtain ⟨rfl, rfl⟩ := h1
  refine ⟨F, h4, fun j => ?_, fun j u => ?_⟩ <;> simp only
  · by_cases hj : j = i
    · subst hj; simp [hh]
    · rw [upd_other _ _ hj, upd_other _ _ hj]; exact hh j
  · by_cases hj : j = i
    · subst hj; simp only [upd_same, List.mem_append, hm, List.mem_singleton]
      by_cases hu : u = t
      · subst hu; simp
      · rw [upd_other _ _ hu]; simp [hu]
    · rw [upd_other _ _ hj, hm]
      by_cases hu : u = t
      · subst hu; rw [hr]; simp; exact fun e => hj e.symm
      · rw [upd_other _ _ hu]

theorem mem_upd {R : RingId → List Nat} {F : List Nat} (h : Rings sl hd rho R F) {i : RingId} {t : Nat} {A B C : List Nat}
    (hr : rho t = some i) (hAB : R i = A ++ t :: B) (hA : t ∉ A) (hB : t ∉ B) (hC : ∀ u, u ∈ C ↔ u ∈ A ∨ u ∈ B) :
    ∀ j u, u ∈ upd R i C j ↔ upd rho t none u = some j := by
  intro j u
  by_cases hu : u = t
  · subst hu
    simp only [upd_same]
    by_cases hj : j = i
    · subst hj; simp [hC, hA, hB]
    · rw [upd_other _ _ hj, h.mem, hr]; simp; exact fun e => hj e.symm
  · rw [upd_other _ _ hu]
    by_cases hj : j = i
    · subst hj; rw [upd_same, hC, ← h.mem, hAB]; simp [hu]
    · rw [upd_other _ _ hj, h.mem]

theorem head_skip {R : RingId → List Nat} (hh : ∀ i, hd i = (R i).head?) {i : RingId} {A B : List Nat} (j : RingId) :
    upd hd i (B ++ A).head? j = (upd R i (B ++ A) j).head? := by
  by_cases hj : j = i
  · subst hj; simp
  · rw [upd_other _ _ hj, upd_other _ _ hj]; exact hh j

theorem head_erase {R : RingId → List Nat} (hh : ∀ i, hd i = (R i).head?) {i : RingId} {t : Nat} {A B : List Nat}
    (hAB : R i = A ++ t :: B) (hA : t ∉ A) (j : RingId) :
    upd hd i (if hd i = some t then (B ++ A).head? else hd i) j = (upd R i (A ++ B) j).head? := by
  by_cases hj : j = i
  · subst hj
    simp only [upd_same]
    rw [hh, hAB]
    cases A with
    | nil => simp
    | cons a A =>
      have : a ≠ t := fun e => hA (by simp [e])
      simp [this]
  · rw [upd_other _ _ hj, upd_other _ _ hj]; exact hh j

theorem unlink {sl' : Slab T} {i : RingId} {t : Nat} {h' : Option Nat} (hr : rho t = some i)
    (he : sl.unlink t = .ok (sl', h')) :
    Moves sl hd rho sl' (upd hd i h') (upd rho t none) (fun R => upd R i (skipSlot t (R i))) := by
  intro R F hR
  obtain ⟨A, B, hAB, hA, hB⟩ := hR.split hr
  obtain ⟨s', h1, h2, h3, h4⟩ := Slab.unlink_spec hR.links hAB
  rw [he] at h1
  simp only [Except.ok.injEq, Prod.mk.injEq] at h1
  obtain ⟨rfl, rfl⟩ := h1
  simp only [hAB, skipSlot_split hA]
  exact ⟨F, h4, head_skip hR.heads, mem_upd hR hr hAB hA hB (by simp [or_comm])⟩

theorem unlink_keep {sl' : Slab T} {i : RingId} {t : Nat} {h' : Option Nat} (hr : rho t = some i)
    (he : sl.unlink t = .ok (sl', h')) :
    Moves sl hd rho sl' (upd hd i (if hd i = some t then h' else hd i)) (upd rho t none)
      (fun R => upd R i ((R i).erase t)) := by
  intro R F hR
  obtain ⟨A, B, hAB, hA, hB⟩ := hR.split hr
  obtain ⟨s', h1, h2, h3, h4⟩ := Slab.unlink_spec hR.links hAB
  rw [he] at h1
  simp only [Except.ok.injEq, Prod.mk.injEq] at h1
  obtain ⟨rfl, rfl⟩ := h1
  simp only [hAB, erase_split hA]
  exact ⟨F, h4.rotate, head_erase hR.heads hAB hA, mem_upd hR hr hAB hA hB (by simp)⟩

theorem remove {sl' : Slab T} {i : RingId} {t : Nat} {x : T} {h' : Option Nat} (hr : rho t = some i)
    (he : sl.remove t = .ok (sl', some (x, h'))) (hx : sl.item t = some x) :
    Moves sl hd rho sl' (upd hd i h') (upd rho t none) (fun R => upd R i (skipSlot t (R i))) := by
  intro R F hR
  obtain ⟨A, B, hAB, hA, hB⟩ := hR.split hr
  obtain ⟨s', h1, h2, h3, h5, h4⟩ := Slab.remove_spec hR.links hAB hx
  rw [he] at h1
  simp only [Except.ok.injEq, Prod.mk.injEq, Option.some.injEq, true_and] at h1
  obtain ⟨rfl, rfl⟩ := h1
  simp only [hAB, skipSlot_split hA]
  exact ⟨_, h4, head_skip hR.heads, mem_upd hR hr hAB hA hB (by simp [or_comm])⟩

theorem remove_keep {sl' : Slab T} {i : RingId} {t : Nat} {x : T} {h' : Option Nat} (hr : rho t = some i)
    (he : sl.remove t = .ok (sl', some (x, h'))) (hx : sl.item t = some x) :
    Moves sl hd rho sl' (upd hd i (if hd i = some t then h' else hd i)) (upd rho t none)
      (fun R => upd R i ((R i).erase t)) := by
  intro R F hR
  obtain ⟨A, B, hAB, hA, hB⟩ := hR.split hr
  obtain ⟨s', h1, h2, h3, h5, h4⟩ := Slab.remove_spec hR.links hAB hx
  rw [he] at h1
  simp only [Except.ok.injEq, Prod.mk.injEq, Option.some.injEq, true_and] at h1
  obtain ⟨rfl, rfl⟩ := h1
  simp only [hAB, erase_split hA]
  exact ⟨_, h4.rotate, head_erase hR.heads hAB hA, mem_upd hR hr hAB hA hB (by simp)⟩

theorem remove_off {sl' : Slab T} {t : Nat} {x : T} {h' : Option Nat} (hr : rho t = none)
    (he : sl.remove t = .ok (sl', some (x, h'))) (hx : sl.item t = some x) :
    Moves sl hd rho sl' hd rho id := by
  intro R F hR
  obtain ⟨s', h1, h2, h3, h5, h4⟩ := Slab.remove_off hR.links hx (hR.off hr)
  rw [he] at h1
  simp only [Except.ok.injEq, Prod.mk.injEq, Option.some.injEq, true_and] at h1
  obtain ⟨rfl, rfl⟩ := h1
  exact ⟨_, h4, hR.heads, hR.mem⟩

theorem insert {sl' : Slab T} {t : Nat} {x : T} (he : sl.insert x = .ok (sl', t)) :
    Moves sl hd rho sl' hd rho id := by
  intro R F hR
  rcases Slab.insert_spec hR.links x with ⟨h1, -⟩ | ⟨s', h1, h2, h3, h4, h5⟩
  · rw [h1] at he; cases he
  · rw [he] at h1
    simp only [Except.ok.injEq, Prod.mk.injEq] at h1
    obtain ⟨rfl, rfl⟩ := h1
    exact ⟨_, h4, hR.heads, hR.mem⟩

end Moves
end QuickCache
