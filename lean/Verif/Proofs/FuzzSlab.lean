import Verif.Model.FuzzSlab
import Verif.Proofs.Slab
import Mathlib.Data.List.Perm.Subperm

/-!
# The fuzz target for `LinkedSlab` never fails: proof
-/

namespace QuickCache.FuzzSlab

/-- The keys are in order. -/
def Sorted (m : Tree) : Prop := m.Pairwise (fun a b => a.1 < b.1)

abbrev toks (m : Tree) : List Nat := m.map (·.2)

theorem lt_irrefl (i : UInt16) : ¬ i < i := UInt16.lt_irrefl i

theorem Sorted.keys_le {m : Tree} (h : Sorted m) : m.length ≤ 65536 := by
  have h1 : ((m.map (·.1)).map UInt16.toNat).Nodup := by
    rw [List.map_map, List.Nodup, List.pairwise_map]
    refine h.imp (fun {a b} hab e => ?_)
    simp only [Function.comp_apply] at e
    rw [UInt16.lt_iff_toNat_lt] at hab
    omega
  have h2 : (m.map (·.1)).map UInt16.toNat ⊆ List.range 65536 := by
    intro x hx
    obtain ⟨y, -, rfl⟩ := List.mem_map.mp hx
    exact List.mem_range.mpr (UInt16.toNat_lt y)
  have := (List.subperm_of_subset h1 h2).length_le
  simpa using this

/-- An ordered map, seen from a key. -/
theorem Sorted.split {m : Tree} (h : Sorted m) (i : UInt16) : ∃ A B : Tree, (∀ p ∈ A, p.1 < i) ∧ (∀ p ∈ B, i < p.1) ∧
    (m = A ++ B ∨ ∃ t, m = A ++ (i, t) :: B) := by
  induction m with
  | nil => exact ⟨[], [], by simp, by simp, Or.inl rfl⟩
  | cons p m ih =>
    obtain ⟨k, t⟩ := p
    have hp : ∀ q ∈ m, k < q.1 := (List.pairwise_cons.mp h).1
    obtain ⟨A, B, h1, h2, h3⟩ := ih (List.pairwise_cons.mp h).2
    have key : k < i ∨ k = i ∨ i < k := by
      rw [UInt16.lt_iff_toNat_lt, UInt16.lt_iff_toNat_lt, ← UInt16.toNat_inj]; omega
    rcases key with hk | rfl | hk
    · refine ⟨(k, t) :: A, B, ?_, h2, ?_⟩
      · rintro q hq
        rcases List.mem_cons.mp hq with rfl | hq
        exacts [hk, h1 q hq]
      · rcases h3 with rfl | ⟨u, rfl⟩
        exacts [Or.inl rfl, Or.inr ⟨u, rfl⟩]
    · exact ⟨[], m, by simp, hp, Or.inr ⟨t, rfl⟩⟩
    · refine ⟨[], (k, t) :: m, by simp, ?_, Or.inl rfl⟩
      rintro q hq
      rcases List.mem_cons.mp hq with rfl | hq
      exacts [hk, UInt16.lt_trans hk (hp q hq)]

section
variable {A B : Tree} {i : UInt16} {t : Nat} (hA : ∀ p ∈ A, p.1 < i) (hB : ∀ p ∈ B, i < p.1)
include hA

theorem find_A : A.find? (fun p => decide (i ≤ p.1)) = none := by
  rw [List.find?_eq_none]
  intro p hp
  have := hA p hp
  simpa using this

include hB

theorem range_off : Tree.range (A ++ B) i = B.head? := by
  unfold Tree.range
  rw [List.find?_append, find_A hA, Option.none_or]
  cases B with
  | nil => rfl
  | cons p B =>
    rw [List.find?_cons_of_pos]
    · rfl
    · have := hB p (by simp)
      simpa using UInt16.le_of_lt this

omit hB in
theorem range_on : Tree.range (A ++ (i, t) :: B) i = some (i, t) := by
  unfold Tree.range
  rw [List.find?_append, find_A hA, Option.none_or, List.find?_cons_of_pos]
  simp

theorem get_off : Tree.get (A ++ B) i = none := by
  unfold Tree.get
  rw [Option.map_eq_none_iff, List.find?_eq_none]
  intro p hp e
  rw [beq_iff_eq] at e
  rcases List.mem_append.mp hp with h | h
  · have := hA p h; rw [e] at this; exact lt_irrefl _ this
  · have := hB p h; rw [e] at this; exact lt_irrefl _ this

omit hB in
theorem get_on : Tree.get (A ++ (i, t) :: B) i = some t := by
  unfold Tree.get
  rw [List.find?_append, List.find?_eq_none.mpr, Option.none_or, List.find?_cons_of_pos (by simp)]
  · rfl
  · intro p h e
    rw [beq_iff_eq] at e
    have := hA p h; rw [e] at this; exact lt_irrefl _ this

theorem without_on : Tree.without (A ++ (i, t) :: B) i = A ++ B := by
  unfold Tree.without
  rw [List.filter_append, List.filter_cons_of_neg (by simp), List.filter_eq_self.mpr, List.filter_eq_self.mpr]
  · intro p h
    simp only [bne_iff_ne]
    intro e
    have := hB p h; rw [e] at this; exact lt_irrefl _ this
  · intro p h
    simp only [bne_iff_ne]
    intro e
    have := hA p h; rw [e] at this; exact lt_irrefl _ this

theorem insert_off : Tree.insert (A ++ B) i t = A ++ (i, t) :: B := by
  unfold Tree.insert
  have h1 : (A ++ B).takeWhile (fun p => decide (p.1 < i)) = A := by
    rw [List.takeWhile_append_of_pos (by simpa using hA)]
    cases B with
    | nil => simp
    | cons p B =>
      rw [List.takeWhile_cons_of_neg]
      · simp
      · have := hB p (by simp)
        simpa using UInt16.le_of_lt this
  have h2 : (A ++ B).dropWhile (fun p => decide (p.1 ≤ i)) = B := by
    rw [List.dropWhile_append_of_pos (fun p hp => by simpa using UInt16.le_of_lt (hA p hp))]
    cases B with
    | nil => rfl
    | cons p B =>
      rw [List.dropWhile_cons_of_neg]
      have := hB p (by simp)
      simpa using this
  rw [h1, h2]

theorem target_off : target (A ++ B) i = some ((toks (B ++ A)).head?) := by
  unfold target
  rw [range_off hA hB]
  cases B with
  | nil => simp
  | cons p B =>
    obtain ⟨k, u⟩ := p
    have := hB (k, u) (by simp)
    simp only [List.head?_cons]
    rw [if_neg]
    · rfl
    · rintro rfl; exact lt_irrefl _ this

omit hB in
theorem target_on : target (A ++ (i, t) :: B) i = none := by
  unfold target
  rw [range_on hA]
  simp

theorem nextToken_off : Tree.nextToken (A ++ B) i = (toks (B ++ A)).head? := by
  unfold Tree.nextToken
  rw [range_off hA hB]
  cases B with
  | nil => simp
  | cons p B => simp

theorem sorted_on (h : Sorted (A ++ B)) : Sorted (A ++ (i, t) :: B) := by
  unfold Sorted at *
  rw [List.pairwise_append] at h ⊢
  refine ⟨h.1, List.pairwise_cons.mpr ⟨hB, h.2.1⟩, fun a ha b hb => ?_⟩
  rcases List.mem_cons.mp hb with rfl | hb
  exacts [hA a ha, h.2.2 a ha b hb]

end

theorem Sorted.off {A B : Tree} {p : UInt16 × Nat} (h : Sorted (A ++ p :: B)) : Sorted (A ++ B) :=
  h.sublist ((List.Sublist.refl _).append (List.sublist_cons_self ..))

/-! ### The invariant -/

/-- 1 for occupied slots. -/
def occ : Option UInt16 → Nat
  | none => 0
  | some _ => 1

/-- The circular lists of the slab are the models in the order of the keys, and so on. -/
structure Good (slab : Slab UInt16) (unl : Tree) (l : List Tree) : Prop where
  links : ∃ F, Slab.Links slab (fun n => toks (l.getD n [])) F
  sorted : ∀ m ∈ l, Sorted m
  sortedU : Sorted unl
  item : ∀ m ∈ l, ∀ p ∈ m, slab.item p.2 = some p.1
  itemU : ∀ p ∈ unl, slab.item p.2 = some p.1
  off : ∀ p ∈ unl, ∀ n, p.2 ∉ toks (l.getD n [])
  nodupU : (toks unl).Nodup
  count : Slab.sumBy occ slab = unl.length + (l.map List.length).sum
  size : slab.entries.length ≤ 65536 * (l.length + 1)

theorem toks_set {l : List Tree} {n : Nat} (hn : n < l.length) (m : Tree) :
    (fun j => toks ((l.set n m).getD j [])) = upd (fun j => toks (l.getD j [])) n (toks m) := by
  funext j
  unfold upd
  split
  · rename_i e; subst e; simp [hn]
  · rename_i e
    simp only [List.getD_eq_getElem?_getD, List.getElem?_set_ne (Ne.symm e)]

theorem sum_set_len {l : List Tree} {n : Nat} (hn : n < l.length) (m : Tree) :
    ((l.set n m).map List.length).sum + l[n].length = (l.map List.length).sum + m.length := by
  rw [List.map_set]
  have := Slab.sum_set (l.map List.length) n m.length (by simpa using hn)
  simpa using this

theorem sum_le {l : List Tree} (h : ∀ m ∈ l, Sorted m) : (l.map List.length).sum ≤ 65536 * l.length := by
  induction l with
  | nil => simp
  | cons m l ih =>
    have h1 := ih (fun x hx => h x (by simp [hx]))
    have h2 := (h m (by simp)).keys_le
    simp only [List.map_cons, List.sum_cons, List.length_cons]
    omega

/-- If no slot is free, all are counted. -/
theorem full_count {slab : Slab UInt16} (h : ∀ t, t < slab.entries.length → slab.item t ≠ none) :
    Slab.sumBy occ slab = slab.entries.length := by
  unfold Slab.sumBy
  rw [← Slab.length_items]
  have h' : ∀ x ∈ slab.items, occ x = 1 := by
    intro x hx
    obtain ⟨t, ht, e⟩ := List.mem_iff_getElem.mp hx
    have := h t (by rwa [Slab.length_items] at ht)
    rw [Slab.item_eq_items, List.getElem?_eq_getElem ht, e] at this
    cases x with
    | none => exact absurd rfl this
    | some y => rfl
  generalize slab.items = l at h'
  induction l with
  | nil => rfl
  | cons x l ih =>
    rw [List.map_cons, List.sum_cons, ih (fun y hy => h' y (by simp [hy])), h' x (by simp), List.length_cons]
    omega

section
variable {slab : Slab UInt16} {unl : Tree} {l : List Tree} {n : Nat}

theorem getD_mem (hn : n < l.length) : l.getD n [] = l[n] := by simp [hn]

theorem mem_getD {m : Tree} {j : Nat} (h : m = l.getD j []) (hne : m ≠ []) : m ∈ l := by
  by_cases hj : j < l.length
  · rw [getD_mem hj] at h; rw [h]; exact List.getElem_mem hj
  · rw [List.getD_eq_getElem?_getD, List.getElem?_eq_none (by omega)] at h
    exact absurd h hne

/-- Linking an item that is on no list into model `n` at its place. -/
theorem link_at (hn : n < l.length) {F : List Nat} (hl : Slab.Links slab (fun j => toks (l.getD j [])) F) {A B : Tree}
    (hAB : l[n] = A ++ B) {i : UInt16} {t : Nat} (ht : (slab.item t).isSome) (hoff : ∀ j, t ∉ toks (l.getD j [])) :
    ∃ slab' x, slab.link t (toks (B ++ A)).head? = .ok (slab', x) ∧ slab'.items = slab.items ∧
      Slab.Links slab' (fun j => toks ((l.set n (A ++ (i, t) :: B)).getD j [])) F := by
  have e : (fun j => toks (l.getD j [])) n = toks A ++ toks B := by
    simp only [getD_mem hn, hAB, toks, List.map_append]
  have h1 := hl
  rw [← upd_self (fun j => toks (l.getD j [])) n, show toks (l.getD n []) = _ from e] at h1
  have h2 := h1.rotate
  obtain ⟨s', g1, g2, -, g4⟩ := Slab.link_spec h2 n ht (by
    intro j hj
    by_cases hjn : j = n
    · subst hjn
      rw [upd_same] at hj
      refine hoff j ?_
      rw [show toks (l.getD j []) = toks A ++ toks B from e]
      simpa [or_comm] using hj
    · rw [upd_other _ _ hjn] at hj
      exact hoff j hj)
  rw [upd_same] at g1 g4
  refine ⟨s', _, by rw [show toks (B ++ A) = toks B ++ toks A from List.map_append]; exact g1, g2, ?_⟩
  rw [toks_set hn, show toks (A ++ (i, t) :: B) = (toks A ++ [t]) ++ toks B by simp [toks]]
  rw [upd_upd, List.append_assoc] at g4
  exact g4.rotate

theorem Good.mem_ne (h : Good slab unl l) {t : Nat} (hz : slab.item t = none) :
    (∀ m ∈ l, ∀ p ∈ m, p.2 ≠ t) ∧ ∀ p ∈ unl, p.2 ≠ t := by
  refine ⟨fun m hm p hp e => ?_, fun p hp e => ?_⟩
  · have := h.item m hm p hp; rw [e, hz] at this; cases this
  · have := h.itemU p hp; rw [e, hz] at this; cases this

theorem Good.on_list (h : Good slab unl l) {j : Nat} {t : Nat} (ht : t ∈ toks (l.getD j [])) : (slab.item t).isSome := by
  obtain ⟨F, hl⟩ := h.links
  exact hl.occ j t ht

theorem Good.uniq (h : Good slab unl l) {j j' : Nat} {t : Nat} (h1 : t ∈ toks (l.getD j [])) (h2 : t ∈ toks (l.getD j' [])) :
    j = j' := by
  obtain ⟨F, hl⟩ := h.links
  exact hl.disj j j' t h1 h2

theorem Good.nodup (h : Good slab unl l) (j : Nat) : (toks (l.getD j [])).Nodup := by
  obtain ⟨F, hl⟩ := h.links
  exact hl.nodup j

/-- One round of the inner loop. -/
theorem Good.body (h : Good slab unl l) (hn : n < l.length) (hsmall : l.length ≤ 3) (op : SOp) :
    ∃ w b, body ⟨slab, unl, l[n]⟩ op = .ok (w, b) ∧ Good w.slab w.unlinked (l.set n w.model) := by
  have hm : l[n] ∈ l := List.getElem_mem hn
  have hset : l.set n l[n] = l := List.set_getElem_self hn
  obtain ⟨F, hl⟩ := h.links
  have hlen : ∀ m, (l.set n m).length = l.length := fun m => List.length_set ..
  have hmem : ∀ {m x}, x ∈ l.set n m → x = m ∨ x ∈ l := fun hx => (List.mem_or_eq_of_mem_set hx).symm
  cases op with
  | add i =>
    obtain ⟨A, B, hA, hB, hAB | ⟨t, hAB⟩⟩ := (h.sorted _ hm).split i
    · rcases Slab.insert_spec hl i with ⟨-, hF, hfull⟩ | ⟨s1, g1, g2, g3, g4, g5⟩
      · exact absurd h.size (by omega)
      · have hnone := g2.before
        have h1 := h.mem_ne hnone
        obtain ⟨s2, x, k1, k2, k3⟩ := link_at (i := i) hn g4 hAB (t := slab.nextFree) (by rw [g2.after]; rfl) g3
        have hit : ∀ u, s2.item u = if u = slab.nextFree then some i else slab.item u := fun u => by
          rw [Slab.item_congr k2]; exact g2.item u
        have hit' : ∀ {u}, u ≠ slab.nextFree → s2.item u = slab.item u := fun hu => by rw [hit, if_neg hu]
        have hcount : Slab.sumBy occ s2 = Slab.sumBy occ slab + 1 := by
          have := g2.sum occ rfl
          unfold Slab.sumBy at this ⊢
          rw [k2]
          simpa [occ] using this
        have hsum := sum_set_len hn (A ++ (i, slab.nextFree) :: B)
        have hsn : Sorted (A ++ (i, slab.nextFree) :: B) := sorted_on hA hB (by rw [← hAB]; exact h.sorted _ hm)
        have hsorted : ∀ m ∈ l.set n (A ++ (i, slab.nextFree) :: B), Sorted m := by
          intro m hx
          rcases hmem hx with rfl | hx
          exacts [hsn, h.sorted m hx]
        have hc2 : Slab.sumBy occ s2 = unl.length + ((l.set n (A ++ (i, slab.nextFree) :: B)).map List.length).sum := by
          have := h.count
          rw [hAB] at hsum
          simp only [List.length_append, List.length_cons] at hsum
          omega
        refine ⟨⟨s2, unl, A ++ (i, slab.nextFree) :: B⟩, true, ?_, ⟨_, k3⟩, hsorted, h.sortedU, ?_, ?_, ?_, h.nodupU, hc2, ?_⟩
        · simp only [FuzzSlab.body]
          rw [hAB, target_off hA hB]
          dsimp only
          rw [g1, Res.ok_bind]
          dsimp only
          rw [k1, insert_off hA hB]
          rfl
        · intro m hx p hp
          rcases hmem hx with rfl | hx
          · rcases List.mem_append.mp hp with hp | hp
            · have hp' : p ∈ l[n] := by rw [hAB]; exact List.mem_append_left _ hp
              rw [hit' (h1.1 _ hm p hp')]; exact h.item _ hm p hp'
            · rcases List.mem_cons.mp hp with rfl | hp
              · rw [hit, if_pos rfl]
              · have hp' : p ∈ l[n] := by rw [hAB]; exact List.mem_append_right _ hp
                rw [hit' (h1.1 _ hm p hp')]; exact h.item _ hm p hp'
          · rw [hit' (h1.1 _ hx p hp)]; exact h.item _ hx p hp
        · intro p hp
          rw [hit' (h1.2 p hp)]; exact h.itemU p hp
        · intro p hp j
          rw [congrFun (toks_set hn _) j]
          by_cases hj : j = n
          · subst hj
            rw [upd_same]
            have := h.off p hp j
            rw [getD_mem hn, hAB] at this
            have h2 := h1.2 p hp
            simp only [toks, List.map_append, List.map_cons, List.mem_append, List.mem_cons] at this ⊢
            rintro (e | e | e)
            · exact this (Or.inl e)
            · exact h2 e
            · exact this (Or.inr e)
          · rw [upd_other _ _ hj]; exact h.off p hp j
        · rw [hlen, Slab.length_congr k2, g5]
          split
          · rename_i hF
            have hfull : Slab.sumBy occ slab = slab.entries.length :=
              full_count (fun t ht e => by have := (hl.freeMem t).mpr ⟨ht, e⟩; rw [hF] at this; cases this)
            have b1 := h.sortedU.keys_le
            have b2 := sum_le hsorted
            rw [hlen] at b2
            omega
          · exact h.size
    · refine ⟨⟨slab, unl, l[n]⟩, false, ?_, by rw [hset]; exact h⟩
      simp only [FuzzSlab.body]
      rw [show target l[n] i = none by rw [hAB]; exact target_on hA]
  | remove i =>
    obtain ⟨A, B, hA, hB, hAB | ⟨t, hAB⟩⟩ := (h.sorted _ hm).split i
    · refine ⟨⟨slab, unl, l[n]⟩, false, ?_, by rw [hset]; exact h⟩
      simp only [FuzzSlab.body]
      rw [show Tree.get l[n] i = none by rw [hAB]; exact get_off hA hB]
    · have hit : slab.item t = some i := h.item _ hm (i, t) (by rw [hAB]; simp)
      have hR : (fun j => toks (l.getD j [])) n = toks A ++ t :: toks B := by
        simp only [getD_mem hn, hAB, toks, List.map_append, List.map_cons]
      obtain ⟨s1, g1, g2, -, g4, g5⟩ := Slab.remove_spec hl hR hit
      have hnd := h.nodup n
      rw [show toks (l.getD n []) = toks A ++ t :: toks B from hR] at hnd
      have hsum := sum_set_len hn (A ++ B)
      have hother : ∀ {u}, u ≠ t → s1.item u = slab.item u := fun hu => g2.other hu
      have hmn : ∀ m ∈ l.set n (A ++ B), ∀ p ∈ m, p.2 ≠ t := by
        intro m hx p hp e
        obtain ⟨j, hj, ej⟩ := List.mem_iff_getElem.mp hx
        rw [List.getElem_set] at ej
        split at ej
        · subst ej
          have : (toks A ++ toks B).Nodup ∧ t ∉ toks A ++ toks B := by
            have := (List.perm_middle (a := t) (l₁ := toks A) (l₂ := toks B)).nodup_iff.mp hnd
            exact ⟨(List.nodup_cons.mp this).2, (List.nodup_cons.mp this).1⟩
          apply this.2
          rw [← e, ← List.map_append]
          exact List.mem_map_of_mem hp
        · rename_i hjn
          rw [List.length_set] at hj
          have h1 : t ∈ toks (l.getD j []) := by rw [getD_mem hj, ej, ← e]; exact List.mem_map_of_mem hp
          have h2 : t ∈ toks (l.getD n []) := by rw [show toks (l.getD n []) = _ from hR]; simp
          exact hjn (h.uniq h2 h1)
      have hun : ∀ p ∈ unl, p.2 ≠ t := by
        intro p hp e
        refine h.off p hp n ?_
        rw [show toks (l.getD n []) = _ from hR, e]; simp
      refine ⟨⟨s1, unl, A ++ B⟩, true, ?_, ⟨t :: F, ?_⟩, ?_, h.sortedU, ?_, ?_, ?_, h.nodupU, ?_, ?_⟩
      · simp only [FuzzSlab.body]
        rw [hAB, get_on hA]
        dsimp only
        rw [without_on hA hB, g1, Res.ok_bind]
        simp only [Shard.assert]
        rw [if_pos trivial, Res.ok_bind, if_pos (by rw [nextToken_off hA hB]; simp [toks])]
        rfl
      · rw [toks_set hn, show toks (A ++ B) = toks A ++ toks B from List.map_append]
        exact g5.rotate
      · intro m hx
        rcases hmem hx with rfl | hx
        · exact (hAB ▸ h.sorted _ hm).off
        · exact h.sorted m hx
      · intro m hx p hp
        rw [hother (hmn m hx p hp)]
        rcases hmem hx with rfl | hx
        · refine h.item _ hm p ?_
          rw [hAB]
          rcases List.mem_append.mp hp with hp | hp
          · exact List.mem_append_left _ hp
          · exact List.mem_append_right _ (List.mem_cons_of_mem _ hp)
        · exact h.item m hx p hp
      · intro p hp
        rw [hother (hun p hp)]; exact h.itemU p hp
      · intro p hp j
        rw [congrFun (toks_set hn _) j]
        by_cases hj : j = n
        · subst hj
          rw [upd_same]
          have := h.off p hp j
          rw [show toks (l.getD j []) = _ from hR] at this
          simp only [List.mem_append, List.mem_cons] at this
          rw [toks, List.map_append, List.mem_append]
          rintro (e | e)
          · exact this (Or.inl e)
          · exact this (Or.inr (Or.inr e))
        · rw [upd_other _ _ hj]; exact h.off p hp j
      · have := g2.sum occ rfl
        have := h.count
        rw [hAB] at hsum
        simp only [List.length_append, List.length_cons, occ] at *
        omega
      · rw [hlen, g4]; exact h.size
  | link i =>
    obtain ⟨A', B', hA', hB', hU | ⟨t, hU⟩⟩ := h.sortedU.split i
    · refine ⟨⟨slab, unl, l[n]⟩, true, ?_, by rw [hset]; exact h⟩
      simp only [FuzzSlab.body]
      rw [show Tree.get unl i = none by rw [hU]; exact get_off hA' hB']
    · have hget : Tree.get unl i = some t := by rw [hU]; exact get_on hA'
      obtain ⟨A, B, hA, hB, hAB | ⟨u, hAB⟩⟩ := (h.sorted _ hm).split i
      · have htu : (i, t) ∈ unl := by rw [hU]; simp
        obtain ⟨s2, x, k1, k2, k3⟩ := link_at (i := i) hn hl hAB (t := t) (by rw [h.itemU _ htu]; rfl) (h.off _ htu)
        have hsum := sum_set_len hn (A ++ (i, t) :: B)
        have hsub : ∀ p ∈ A' ++ B', p ∈ unl ∧ p.2 ≠ t := by
          intro p hp
          refine ⟨?_, fun e => ?_⟩
          · rw [hU]
            rcases List.mem_append.mp hp with hp | hp
            · exact List.mem_append_left _ hp
            · exact List.mem_append_right _ (List.mem_cons_of_mem _ hp)
          · have := h.nodupU
            rw [hU, toks, List.map_append, List.map_cons] at this
            have := (List.nodup_cons.mp (List.perm_middle.nodup_iff.mp this)).1
            rw [← List.map_append] at this
            exact this (List.mem_map.mpr ⟨p, hp, e⟩)
        refine ⟨⟨s2, A' ++ B', A ++ (i, t) :: B⟩, true, ?_, ⟨F, k3⟩, ?_, (hU ▸ h.sortedU).off, ?_, ?_, ?_, ?_, ?_, ?_⟩
        · simp only [FuzzSlab.body]
          rw [hget]
          dsimp only
          rw [hAB, target_off hA hB, insert_off hA hB]
          dsimp only
          rw [k1, hU, without_on hA' hB']
          rfl
        · intro m hx
          rcases hmem hx with rfl | hx
          · exact sorted_on hA hB (by rw [← hAB]; exact h.sorted _ hm)
          · exact h.sorted m hx
        · intro m hx p hp
          rw [Slab.item_congr k2]
          rcases hmem hx with rfl | hx
          · rcases List.mem_append.mp hp with hp | hp
            · exact h.item _ hm p (by rw [hAB]; exact List.mem_append_left _ hp)
            · rcases List.mem_cons.mp hp with rfl | hp
              · exact h.itemU _ htu
              · exact h.item _ hm p (by rw [hAB]; exact List.mem_append_right _ hp)
          · exact h.item _ hx p hp
        · intro p hp
          rw [Slab.item_congr k2]; exact h.itemU p (hsub p hp).1
        · intro p hp j
          rw [congrFun (toks_set hn _) j]
          by_cases hj : j = n
          · subst hj
            rw [upd_same]
            have := h.off p (hsub p hp).1 j
            rw [getD_mem hn, hAB] at this
            have h2 := (hsub p hp).2
            simp only [toks, List.map_append, List.map_cons, List.mem_append, List.mem_cons] at this ⊢
            rintro (e | e | e)
            · exact this (Or.inl e)
            · exact h2 e
            · exact this (Or.inr e)
          · rw [upd_other _ _ hj]; exact h.off p (hsub p hp).1 j
        · have := h.nodupU
          rw [hU] at this
          exact this.sublist (List.Sublist.map _ ((List.Sublist.refl _).append (List.sublist_cons_self ..)))
        · have h1 := h.count
          have h2 : Slab.sumBy occ s2 = Slab.sumBy occ slab := by unfold Slab.sumBy; rw [k2]
          rw [hAB] at hsum
          rw [hU] at h1
          simp only [List.length_append, List.length_cons] at *
          omega
        · rw [hlen, Slab.length_congr k2]; exact h.size
      · refine ⟨⟨slab, unl, l[n]⟩, false, ?_, by rw [hset]; exact h⟩
        simp only [FuzzSlab.body]
        rw [hget]
        dsimp only
        rw [show target l[n] i = none by rw [hAB]; exact target_on hA]
  | unlink i =>
    obtain ⟨A', B', hA', hB', hU | ⟨t, hU⟩⟩ := h.sortedU.split i
    · have hget : Tree.get unl i = none := by rw [hU]; exact get_off hA' hB'
      obtain ⟨A, B, hA, hB, hAB | ⟨t, hAB⟩⟩ := (h.sorted _ hm).split i
      · refine ⟨⟨slab, unl, l[n]⟩, false, ?_, by rw [hset]; exact h⟩
        simp only [FuzzSlab.body]
        rw [hget, if_neg (by simp), show Tree.get l[n] i = none by rw [hAB]; exact get_off hA hB]
      · have hit : slab.item t = some i := h.item _ hm (i, t) (by rw [hAB]; simp)
        have hR : (fun j => toks (l.getD j [])) n = toks A ++ t :: toks B := by
          simp only [getD_mem hn, hAB, toks, List.map_append, List.map_cons]
        obtain ⟨s1, g1, g2, -, g5⟩ := Slab.unlink_spec hl hR
        have hnd := h.nodup n
        rw [show toks (l.getD n []) = toks A ++ t :: toks B from hR] at hnd
        have hsum := sum_set_len hn (A ++ B)
        have htn : t ∉ toks A ++ toks B :=
          (List.nodup_cons.mp ((List.perm_middle (a := t) (l₁ := toks A) (l₂ := toks B)).nodup_iff.mp hnd)).1
        have hon : t ∈ toks (l.getD n []) := by rw [show toks (l.getD n []) = _ from hR]; simp
        have hmemU : ∀ p ∈ A' ++ (i, t) :: B', p = (i, t) ∨ p ∈ unl := by
          intro p hp
          rw [hU]
          rcases List.mem_append.mp hp with hp | hp
          · exact Or.inr (List.mem_append_left _ hp)
          · rcases List.mem_cons.mp hp with rfl | hp
            · exact Or.inl rfl
            · exact Or.inr (List.mem_append_right _ hp)
        refine ⟨⟨s1, A' ++ (i, t) :: B', A ++ B⟩, true, ?_, ⟨F, ?_⟩, ?_, sorted_on hA' hB' (hU ▸ h.sortedU), ?_, ?_, ?_, ?_, ?_, ?_⟩
        · simp only [FuzzSlab.body]
          rw [hget, if_neg (by simp), hAB, get_on hA]
          dsimp only
          rw [without_on hA hB, g1, Res.ok_bind]
          simp only [Shard.assert]
          rw [if_pos (by rw [nextToken_off hA hB]; simp [toks]), Res.ok_bind, hU, insert_off hA' hB']
        · rw [toks_set hn, show toks (A ++ B) = toks A ++ toks B from List.map_append]
          exact g5.rotate
        · intro m hx
          rcases hmem hx with rfl | hx
          · exact (hAB ▸ h.sorted _ hm).off
          · exact h.sorted m hx
        · intro m hx p hp
          rw [Slab.item_congr g2]
          rcases hmem hx with rfl | hx
          · refine h.item _ hm p ?_
            rw [hAB]
            rcases List.mem_append.mp hp with hp | hp
            · exact List.mem_append_left _ hp
            · exact List.mem_append_right _ (List.mem_cons_of_mem _ hp)
          · exact h.item m hx p hp
        · intro p hp
          rw [Slab.item_congr g2]
          rcases hmemU p hp with rfl | hp
          exacts [hit, h.itemU p hp]
        · intro p hp j
          rw [congrFun (toks_set hn _) j]
          by_cases hj : j = n
          · subst hj
            rw [upd_same, show toks (A ++ B) = toks A ++ toks B from List.map_append]
            rcases hmemU p hp with rfl | hp
            · exact htn
            · have := h.off p hp j
              rw [show toks (l.getD j []) = _ from hR] at this
              simp only [List.mem_append, List.mem_cons] at this ⊢
              rintro (e | e)
              · exact this (Or.inl e)
              · exact this (Or.inr (Or.inr e))
          · rw [upd_other _ _ hj]
            rcases hmemU p hp with rfl | hp
            · intro e; exact hj (h.uniq e hon)
            · exact h.off p hp j
        · rw [toks, List.map_append, List.map_cons, List.perm_middle.nodup_iff, List.nodup_cons, ← List.map_append, ← hU]
          refine ⟨fun hx => ?_, h.nodupU⟩
          obtain ⟨p, hp, e⟩ := List.mem_map.mp hx
          exact h.off p hp n (by rw [e]; exact hon)
        · have h1 := h.count
          have h2 : Slab.sumBy occ s1 = Slab.sumBy occ slab := by unfold Slab.sumBy; rw [g2]
          rw [hAB] at hsum
          rw [hU] at h1
          simp only [List.length_append, List.length_cons] at *
          omega
        · rw [hlen, Slab.length_congr g2]; exact h.size
    · refine ⟨⟨slab, unl, l[n]⟩, true, ?_, by rw [hset]; exact h⟩
      simp only [FuzzSlab.body]
      rw [show Tree.get unl i = some t by rw [hU]; exact get_on hA', if_pos (by rfl)]

end

/-! ### The program -/

theorem Good.inner (op : SOp) : ∀ (ms pre : List Tree) (slab : Slab UInt16) (unl : Tree), Good slab unl (pre ++ ms) →
    (pre ++ ms).length = 3 → ∃ slab' unl' ms', inner op slab unl ms = .ok (slab', unl', ms') ∧ Good slab' unl' (pre ++ ms') ∧
      ms'.length = ms.length := by
  intro ms
  induction ms with
  | nil => intro pre slab unl h hl; exact ⟨slab, unl, [], rfl, h, rfl⟩
  | cons m ms ih =>
    intro pre slab unl h hl
    have hn : pre.length < (pre ++ m :: ms).length := by simp
    have e : (pre ++ m :: ms)[pre.length] = m := by simp
    obtain ⟨w, b, h1, h2⟩ := h.body hn (by omega) op
    rw [e] at h1
    have hset : (pre ++ m :: ms).set pre.length w.model = pre ++ w.model :: ms := by simp
    rw [hset] at h2
    unfold FuzzSlab.inner
    rw [h1, Res.ok_bind]
    cases b with
    | true => exact ⟨_, _, _, rfl, h2, rfl⟩
    | false =>
      obtain ⟨s', u', ms', g1, g2, g3⟩ := ih (pre ++ [w.model]) w.slab w.unlinked (by simpa using h2) (by simpa using hl)
      refine ⟨s', u', w.model :: ms', ?_, by simpa using g2, by simp [g3]⟩
      dsimp only
      rw [if_neg (by simp), g1]
      rfl

theorem Good.outer : ∀ (ops : List SOp) (slab : Slab UInt16) (unl : Tree) (ms : List Tree), Good slab unl ms → ms.length = 3 →
    ∃ slab' unl' ms', outer ops slab unl ms = .ok (slab', unl', ms') ∧ Good slab' unl' ms' := by
  intro ops
  induction ops with
  | nil => intro slab unl ms h hl; exact ⟨_, _, _, rfl, h⟩
  | cons op ops ih =>
    intro slab unl ms h hl
    obtain ⟨s1, u1, m1, h1, h2, h3⟩ := Good.inner op ms [] slab unl h hl
    obtain ⟨s2, u2, m2, h4, h5⟩ := ih s1 u1 m1 h2 (by omega)
    refine ⟨s2, u2, m2, ?_, h5⟩
    unfold FuzzSlab.outer
    rw [h1, Res.ok_bind]
    exact h4

theorem walk_ok {slab : Slab UInt16} {last : Nat} : ∀ (m : Tree) (p : UInt16 × Nat),
    Path slab.nxt slab.prv (toks (p :: m) ++ [last]) → (∀ q ∈ p :: m, slab.item q.2 = some q.1) →
    walk slab p.2 (p :: m) = .ok last := by
  intro m
  induction m with
  | nil =>
    rintro ⟨i, t⟩ hp hi
    have h1 := hi (i, t) (by simp)
    have h2 : slab.nxt t = last := hp.1.1
    unfold walk
    simp only [Shard.assert, if_true, Res.ok_bind]
    rw [Slab.get_eq, h1, h2]
    simp only [Option.map, if_true, Res.ok_bind]
    rfl
  | cons q m ih =>
    rintro ⟨i, t⟩ hp hi
    have h1 := hi (i, t) (by simp)
    have h2 : slab.nxt t = q.2 := hp.1.1
    unfold walk
    simp only [Shard.assert, if_true, Res.ok_bind]
    rw [Slab.get_eq, h1, h2]
    simp only [Option.map, if_true, Res.ok_bind]
    exact ih q hp.2 (fun r hr => hi r (by simp only [List.mem_cons] at hr ⊢; exact Or.inr hr))

theorem checkModel_ok {slab : Slab UInt16} {m : Tree} (hr : Ring slab.nxt slab.prv (toks m))
    (hi : ∀ p ∈ m, slab.item p.2 = some p.1) : checkModel slab m = .ok () := by
  cases m with
  | nil => rfl
  | cons p m =>
    obtain ⟨i, t⟩ := p
    unfold checkModel
    dsimp only
    have := walk_ok (last := t) m (i, t) hr hi
    rw [this, Res.ok_bind]
    simp [Shard.assert]

theorem checkModels_ok {slab : Slab UInt16} : ∀ {ms : List Tree}, (∀ m ∈ ms, Ring slab.nxt slab.prv (toks m)) →
    (∀ m ∈ ms, ∀ p ∈ m, slab.item p.2 = some p.1) → checkModels slab ms = .ok ()
  | [], _, _ => rfl
  | m :: ms, h1, h2 => by
    unfold checkModels
    rw [checkModel_ok (h1 m (by simp)) (h2 m (by simp)), Res.ok_bind,
      checkModels_ok (fun x hx => h1 x (by simp [hx])) (fun x hx => h2 x (by simp [hx]))]

theorem checkUnlinked_ok {slab : Slab UInt16} : ∀ {unl : Tree}, (∀ p ∈ unl, slab.item p.2 = some p.1 ∧ slab.nxt p.2 = p.2) →
    checkUnlinked slab unl = .ok ()
  | [], _ => rfl
  | (i, t) :: unl, h => by
    obtain ⟨h1, h2⟩ := h (i, t) (by simp)
    unfold checkUnlinked
    rw [Slab.get_eq, h1, h2]
    simp only [Option.map, Shard.assert, if_true, Res.ok_bind]
    exact checkUnlinked_ok (fun p hp => h p (by simp [hp]))

theorem len_eq (slab : Slab UInt16) : len slab = Slab.sumBy occ slab := by
  unfold len Slab.sumBy Slab.items
  induction slab.entries with
  | nil => rfl
  | cons e l ih =>
    rw [List.filter_cons, List.map_cons, List.map_cons, List.sum_cons, ← ih]
    cases e.item with
    | none => simp [occ]
    | some x => simp [occ]; omega

/-- The fuzz target returns. -/
theorem run_ok (ops : List SOp) : run ops = .ok () := by
  have h0 : Good (.new : Slab UInt16) [] [[], [], []] := by
    refine ⟨⟨[], Slab.Links.new _ (fun n => ?_)⟩, ?_, .nil, ?_, by simp, by simp, .nil, rfl, by simp [Slab.new]⟩
    · rcases n with _ | _ | _ | n <;> simp [toks]
    · intro m hm
      have : m = [] := by simpa using hm
      rw [this]; exact .nil
    · intro m hm
      have : m = [] := by simpa using hm
      rw [this]; simp
  obtain ⟨slab, unl, ms, h1, h2⟩ := Good.outer ops _ _ _ h0 rfl
  obtain ⟨F, hl⟩ := h2.links
  unfold run
  rw [h1, Res.ok_bind]
  dsimp only
  rw [checkModels_ok _ h2.item, Res.ok_bind, checkUnlinked_ok, Res.ok_bind]
  · rw [len_eq, h2.count]; simp [Shard.assert]
  · intro p hp
    exact ⟨h2.itemU p hp, (hl.self _ (by rw [h2.itemU p hp]; rfl) (h2.off p hp)).1⟩
  · intro m hm
    obtain ⟨j, hj, rfl⟩ := List.mem_iff_getElem.mp hm
    have := hl.ring j
    simp only [getD_mem hj] at this
    exact this

end QuickCache.FuzzSlab
