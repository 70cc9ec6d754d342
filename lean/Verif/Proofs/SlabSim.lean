import Verif.Spec.SlabLists
import Verif.Proofs.Slab
import Mathlib.Logic.Function.Iterate
import Mathlib.Data.List.Basic
import Mathlib.Data.List.Perm.Subperm

/-!
# The slab simulates the ideal tables
-/

namespace QuickCache.SlabSpec
variable {ι T : Type _} [DecidableEq ι]

theorem filter_split {A B : List Nat} {t : Nat} (h : (A ++ t :: B).Nodup) :
    (A ++ t :: B).filter (· ≠ t) = A ++ B := by
  have h' := List.perm_middle.nodup_iff.mp h
  rw [List.nodup_cons] at h'
  have hA : A.filter (· ≠ t) = A := by
    rw [List.filter_eq_self]; intro x hx
    simp only [ne_eq, decide_eq_true_eq]
    rintro rfl; exact h'.1 (by simp [hx])
  have hB : B.filter (· ≠ t) = B := by
    rw [List.filter_eq_self]; intro x hx
    simp only [ne_eq, decide_eq_true_eq]
    rintro rfl; exact h'.1 (by simp [hx])
  rw [List.filter_append, List.filter_cons, hA, hB]; simp

theorem filter_off {l : List Nat} {t : Nat} (h : t ∉ l) : l.filter (· ≠ t) = l := by
  rw [List.filter_eq_self]; intro x hx
  simp only [ne_eq, decide_eq_true_eq]
  rintro rfl; exact h hx

theorem follower_split {A B : List Nat} {t : Nat} (h : (A ++ t :: B).Nodup) :
    follower (A ++ t :: B) t = (B ++ A ++ [t]).head? := by
  have h' := List.perm_middle.nodup_iff.mp h
  rw [List.nodup_cons] at h'
  have hA : t ∉ A := fun e => h'.1 (by simp [e])
  have hidx : (A ++ t :: B).idxOf t = A.length := by
    rw [List.idxOf_append_of_notMem hA]; simp
  unfold follower
  rw [hidx]
  cases B with
  | nil =>
    simp only [List.length_append, List.length_cons, List.length_nil, Nat.zero_add, Nat.mod_self]
    rw [← List.head?_eq_getElem?]; simp
  | cons b B =>
    rw [Nat.mod_eq_of_lt (by simp)]
    rw [List.getElem?_append_right (by omega)]
    simp

/-- The real slab agrees with the ideal tables. -/
structure Sim (a : Tables ι T) (c : Client ι T) (F : List Nat) : Prop where
  links : Slab.Links c.slab a.list F
  item : ∀ t, c.slab.item t = a.item t
  heads : ∀ i, c.heads i = (a.list i).head?
  count : a.inUse + F.length = c.slab.entries.length
  peak : a.peak = c.slab.entries.length

omit [DecidableEq ι] in
theorem Sim.new : Sim (Tables.empty : Tables ι T) Client.new [] where
  links := Slab.Links.new _ (fun _ => rfl)
  item t := by simp [Client.new, Slab.new, Slab.item, Tables.empty]
  heads i := by simp [Client.new, Tables.empty]
  count := by simp [Client.new, Slab.new, Tables.empty]
  peak := by simp [Client.new, Slab.new, Tables.empty]

section
variable {a : Tables ι T} {c : Client ι T} {F : List Nat}

omit [DecidableEq ι] in
theorem Sim.moveOn (h : Sim a c F) {i : ι} {t : Nat} {A B : List Nat} (hR : a.list i = A ++ t :: B) (j : ι) :
    Client.moveOn c.heads t (B ++ A).head? j = ((a.list j).filter (· ≠ t)).head? := by
  have hmem : t ∈ a.list i := by rw [hR]; simp
  unfold Client.moveOn
  rw [h.heads]
  by_cases hj : j = i
  · subst hj
    have hnd := h.links.nodup j
    rw [hR] at hnd
    rw [hR, filter_split hnd]
    cases A with
    | nil => simp
    | cons x A =>
      have hx : x ≠ t := by
        rintro rfl
        simp at hnd
      simp [hx]
  · have hn : t ∉ a.list j := fun hm => hj (h.links.disj j i t hm hmem)
    rw [filter_off hn, if_neg]
    intro he
    exact hn (List.mem_of_mem_head? (Option.mem_def.mpr he))

omit [DecidableEq ι] in
theorem Sim.moveOn_off (h : Sim a c F) {t : Nat} {n : Option Nat} (hn : ∀ i, t ∉ a.list i) :
    Client.moveOn c.heads t n = c.heads := by
  funext j
  unfold Client.moveOn
  rw [if_neg]
  rw [h.heads]
  intro he
  exact hn j (List.mem_of_mem_head? (Option.mem_def.mpr he))

theorem upd_filter {i : ι} {t : Nat} {A B : List Nat} {R : ι → List Nat} (hR : R i = A ++ t :: B)
    (hnd : (R i).Nodup) (hdisj : ∀ i j t, t ∈ R i → t ∈ R j → i = j) :
    upd R i (A ++ B) = fun j => (R j).filter (· ≠ t) := by
  funext j
  by_cases hj : j = i
  · subst hj
    rw [upd_same, hR, filter_split (hR ▸ hnd)]
  · rw [upd_other _ _ hj, filter_off]
    intro hm
    exact hj (hdisj j i t hm (by rw [hR]; simp))

omit [DecidableEq ι] in
theorem filter_all_off {t : Nat} {R : ι → List Nat} (hn : ∀ i, t ∉ R i) : (fun j => (R j).filter (· ≠ t)) = R := by
  funext j; exact filter_off (hn j)

omit [DecidableEq ι] in
theorem Sim.nextOf (h : Sim a c F) {i : ι} {t : Nat} {A B : List Nat} (hR : a.list i = A ++ t :: B) :
    a.NextOf t (B ++ A).head? := by
  have hmem : t ∈ a.list i := by rw [hR]; simp
  refine ⟨fun hn => absurd hmem (hn i), fun j hj => ?_⟩
  obtain rfl := h.links.disj j i t hj hmem
  have hnd := h.links.nodup j
  rw [hR] at hnd ⊢
  rw [follower_split hnd]
  split
  · rename_i he
    have hl : (A ++ t :: B).length = 1 := by rw [he]; rfl
    have hl' : A.length = 0 ∧ B.length = 0 := by simp at hl; omega
    have h1 : A = [] := List.eq_nil_of_length_eq_zero hl'.1
    have h2 : B = [] := List.eq_nil_of_length_eq_zero hl'.2
    simp [h1, h2]
  · rename_i he
    rw [List.head?_append (l := B ++ A)]
    cases hBA : B ++ A with
    | nil =>
      simp only [List.append_eq_nil_iff] at hBA
      exact absurd (by simp [hBA.1, hBA.2]) he
    | cons x l => simp

omit [DecidableEq ι] in
theorem nextOf_none {t : Nat} (hn : ∀ i, t ∉ a.list i) : a.NextOf t none :=
  ⟨fun _ => rfl, fun j hj => absurd hj (hn j)⟩

omit [DecidableEq ι] in
theorem Sim.on_or_off (t : Nat) : (∀ i, t ∉ a.list i) ∨ ∃ i A B, a.list i = A ++ t :: B := by
  by_cases h : ∃ i, t ∈ a.list i
  · obtain ⟨i, hi⟩ := h
    obtain ⟨A, B, hR⟩ := List.append_of_mem hi
    exact Or.inr ⟨i, A, B, hR⟩
  · exact Or.inl (fun i hi => h ⟨i, hi⟩)

omit [DecidableEq ι] in
theorem Sim.lt_peak (h : Sim a c F) {t : Nat} (ht : (a.item t).isSome) : t < a.peak := by
  rw [h.peak]
  rw [← h.item] at ht
  exact Slab.lt_of_item ht

omit [DecidableEq ι] in
theorem Sim.inUse_pos (h : Sim a c F) {t : Nat} (ht : (a.item t).isSome) : 0 < a.inUse := by
  rw [← h.item] at ht
  have h1 : t ∉ F := h.links.not_free ht
  have hsub : (t :: F).length ≤ (List.range c.slab.entries.length).length := by
    apply List.Subperm.length_le
    apply List.subperm_of_subset (List.nodup_cons.mpr ⟨h1, h.links.freeNodup⟩)
    intro u hu
    rw [List.mem_range]
    rcases List.mem_cons.mp hu with rfl | hu
    · exact Slab.lt_of_item ht
    · exact ((h.links.freeMem u).mp hu).1
  have := h.count
  simp at hsub
  omega

theorem filterMap_items (s : Slab T) : s.entries.filterMap (·.item) = (List.range s.entries.length).filterMap s.item := by
  have : s.entries = (List.range s.entries.length).filterMap (fun t => s.entries[t]?) := by
    have h : ∀ (l : List (SEntry T)), l = (List.range l.length).filterMap (fun t => l[t]?) := by
      intro l
      induction l with
      | nil => rfl
      | cons x l ih =>
        rw [List.length_cons, List.range_succ_eq_map, List.filterMap_cons, List.filterMap_map]
        simp only [List.getElem?_cons_zero]
        congr 1
    exact h _
  conv => lhs; rw [this]
  rw [List.filterMap_filterMap]
  rfl

/-- Every sensible operation succeeds, returns what the tables say and keeps the agreement; the only failure is an
`insert` when all tokens are in use. -/
theorem Sim.step (h : Sim a c F) {op : Op ι T} (hop : a.Allows op) :
    ((∃ x, op = .insert x) ∧ c.exec op = .error .slabFull ∧ a.inUse + 2 = 2 ^ 32) ∨
    ∃ c' o F', c.exec op = .ok (c', o) ∧ a.Returns op o ∧ Sim (a.apply op o) c' F' := by
  cases op with
  | insert x =>
    rcases Slab.insert_spec h.links x with ⟨h1, h2, h3⟩ | ⟨s', h1, h2, h3, h4, h5⟩
    · left
      refine ⟨⟨x, rfl⟩, by simp [Client.exec, h1], ?_⟩
      have := h.count; rw [h2] at this; simp at this; omega
    · right
      refine ⟨⟨s', c.heads⟩, .token c.slab.nextFree, F.tail, by simp [Client.exec, h1],
        ⟨_, rfl, by rw [← h.item]; exact h.links.nextFree_none, h3⟩, ⟨h4, fun t => ?_, h.heads, ?_, ?_⟩⟩
      · simp only [Tables.apply, h2.item, h.item]
      · have := h.count
        simp only [Tables.apply, h5]
        cases F with
        | nil => simp at this ⊢; omega
        | cons t F => simp at this ⊢; omega
      · have h6 := h.count
        have h7 := h.peak
        simp only [Tables.apply, h5]
        cases F with
        | nil => simp at h6 ⊢; omega
        | cons t F => simp at h6 ⊢; omega
  | link t i =>
    right
    obtain ⟨ht, hn⟩ := hop
    rw [← h.item] at ht
    obtain ⟨s', h1, h2, h3, h4⟩ := Slab.link_spec h.links i ht hn
    refine ⟨⟨s', fun j => if j = i then some ((a.list i).head?.getD t) else c.heads j⟩,
      .token ((a.list i).head?.getD t), F, by simp [Client.exec, h.heads, h1], rfl,
      ⟨h4, fun u => ?_, fun j => ?_, ?_, ?_⟩⟩
    · rw [Slab.item_congr h2]; exact h.item u
    · simp only [Tables.apply]
      by_cases hj : j = i
      · subst hj
        simp only [if_true]
        cases a.list j <;> simp
      · simp only [if_neg hj]; exact h.heads j
    · simp only [Tables.apply, Slab.length_congr h2]; exact h.count
    · simp only [Tables.apply, Slab.length_congr h2]; exact h.peak
  | unlink t =>
    right
    have ht : (c.slab.item t).isSome := by rw [h.item]; exact hop
    rcases Sim.on_or_off (a := a) t with hn | ⟨i, A, B, hR⟩
    · refine ⟨⟨c.slab, c.heads⟩, .next none, F, ?_, ⟨none, rfl, nextOf_none hn⟩, ?_⟩
      · simp [Client.exec, Slab.unlink_off h.links ht hn, h.moveOn_off hn]
      · simp only [Tables.apply, filter_all_off hn]; exact h
    · obtain ⟨s', h1, h2, h3, h4⟩ := Slab.unlink_spec h.links hR
      refine ⟨⟨s', Client.moveOn c.heads t (B ++ A).head?⟩, .next (B ++ A).head?, F, by simp [Client.exec, h1],
        ⟨_, rfl, h.nextOf hR⟩, ⟨?_, fun u => ?_, fun j => h.moveOn hR j, ?_, ?_⟩⟩
      · have := Slab.Links.rotate h4
        rwa [upd_filter hR (h.links.nodup i) h.links.disj] at this
      · rw [Slab.item_congr h2]; exact h.item u
      · simp only [Tables.apply, Slab.length_congr h2]; exact h.count
      · simp only [Tables.apply, Slab.length_congr h2]; exact h.peak
  | remove t =>
    right
    have hpos := h.inUse_pos hop
    obtain ⟨x, hx⟩ := Option.isSome_iff_exists.mp hop
    have ht : c.slab.item t = some x := by rw [h.item]; exact hx
    have hcount := h.count
    rcases Sim.on_or_off (a := a) t with hn | ⟨i, A, B, hR⟩
    · obtain ⟨s', h1, h2, h3, h4, h5⟩ := Slab.remove_off h.links ht hn
      refine ⟨⟨s', c.heads⟩, .removed (some (x, none)), t :: F, ?_, ⟨x, none, rfl, hx, nextOf_none hn⟩,
        ⟨?_, fun u => ?_, fun j => ?_, ?_, ?_⟩⟩
      · simp [Client.exec, h1, h.moveOn_off hn]
      · simp only [Tables.apply, filter_all_off hn]; exact h5
      · simp only [Tables.apply, h2.item, h.item]
      · simp only [Tables.apply, filter_off (hn j)]; exact h.heads j
      · simp only [Tables.apply, h4, List.length_cons]; omega
      · simp only [Tables.apply, h4]; exact h.peak
    · obtain ⟨s', h1, h2, h3, h4, h5⟩ := Slab.remove_spec h.links hR ht
      refine ⟨⟨s', Client.moveOn c.heads t (B ++ A).head?⟩, .removed (some (x, (B ++ A).head?)), t :: F,
        by simp [Client.exec, h1], ⟨x, _, rfl, hx, h.nextOf hR⟩,
        ⟨?_, fun u => ?_, fun j => h.moveOn hR j, ?_, ?_⟩⟩
      · have := Slab.Links.rotate h5
        rwa [upd_filter hR (h.links.nodup i) h.links.disj] at this
      · simp only [Tables.apply, h2.item, h.item]
      · simp only [Tables.apply, h4, List.length_cons]; omega
      · simp only [Tables.apply, h4]; exact h.peak
  | write t x =>
    right
    have ht : (c.slab.item t).isSome := by rw [h.item]; exact hop
    obtain ⟨y, hy⟩ := Option.isSome_iff_exists.mp ht
    refine ⟨⟨c.slab.setItem t x, c.heads⟩, .done, F, ?_, rfl, ⟨h.links.setItem ht x, fun u => ?_, h.heads, ?_, ?_⟩⟩
    · simp [Client.exec, Slab.get_eq, hy]
    · rw [Slab.item_setItem ht]; simp only [Tables.apply, h.item]
    · simpa [Tables.apply, Slab.setItem] using h.count
    · simpa [Tables.apply, Slab.setItem] using h.peak
  | rotate i =>
    right
    cases hR : a.list i with
    | nil =>
      refine ⟨c, .done, F, by simp [Client.exec, h.heads, hR], rfl, ?_⟩
      have : (a.apply (.rotate i) .done) = a := by
        simp only [Tables.apply, hR]
        have : (fun j => if j = i then [] else a.list j) = a.list := by
          funext j; by_cases hj : j = i
          · subst hj; simp [hR]
          · simp [hj]
        simp [this]
      rw [this]; exact h
    | cons u tl =>
      have hu := h.links.occ i u (by simp [hR])
      obtain ⟨y, hy⟩ := Option.isSome_iff_exists.mp hu
      have hring := h.links.ring i
      rw [hR] at hring
      obtain ⟨n, hn, hn', -⟩ := Ring.next_mem (A := []) hring
      refine ⟨⟨c.slab, fun j => if j = i then some n else c.heads j⟩, .done, F,
        by simp [Client.exec, h.heads, hR, Slab.get_eq, hy, hn'], rfl, ⟨?_, h.item, fun j => ?_, h.count, h.peak⟩⟩
      · have hl := h.links
        have e1 : a.list = upd a.list i ([u] ++ tl) := by
          rw [show [u] ++ tl = a.list i by simp [hR]]; simp
        rw [e1] at hl
        have := Slab.Links.rotate hl
        have e2 : (a.apply (.rotate i) .done).list = upd a.list i (tl ++ [u]) := by
          funext j; simp [Tables.apply, hR, upd]
        rw [e2]; exact this
      · simp only [Tables.apply, hR]
        by_cases hj : j = i
        · subst hj; simp only [if_true]; rw [← hn]; simp
        · simp only [if_neg hj]; exact h.heads j
  | drain =>
    right
    refine ⟨⟨c.slab.drain.1, fun _ => none⟩, .items c.slab.drain.2, [], rfl, ⟨?_, fun t ht => ?_⟩, ?_⟩
    · simp only [Slab.drain]
      rw [filterMap_items, h.peak]
      congr 2
      funext t; exact h.item t
    · cases hi : a.item t with
      | none => rfl
      | some x => have := h.lt_peak (t := t) (by simp [hi]); omega
    · exact Sim.new

end

theorem Reach.sim {a : Tables ι T} {c : Client ι T} (hr : Reach a c) : ∃ F, Sim a c F := by
  induction hr with
  | new => exact ⟨[], Sim.new⟩
  | step hr hop he ih =>
    obtain ⟨F, hs⟩ := ih
    rcases hs.step hop with ⟨-, h2, -⟩ | ⟨c', o, F', h2, h3, h4⟩
    · rw [h2] at he; cases he
    · rw [h2] at he; cases he; exact ⟨F', h4⟩

/-! ### Walking the lists -/

theorem ring_next {nx pv : Nat → Nat} {l : List Nat} (h : Ring nx pv l) {n : Nat} (hn : n < l.length) :
    nx l[n] = l[(n + 1) % l.length]'(Nat.mod_lt _ (by omega)) ∧
      pv (l[(n + 1) % l.length]'(Nat.mod_lt _ (by omega))) = l[n] := by
  have hs : l = l.take n ++ l[n] :: l.drop (n + 1) := by simp
  have h' := h
  rw [hs] at h'
  obtain ⟨m, h1, h2, h3⟩ := h'.next_mem
  have : m = l[(n + 1) % l.length]'(Nat.mod_lt _ (by omega)) := by
    rw [List.head?_append, List.head?_append] at h1
    by_cases hlt : n + 1 < l.length
    · simp only [Nat.mod_eq_of_lt hlt]
      rw [List.head?_drop, List.getElem?_eq_getElem hlt] at h1
      simpa using h1.symm
    · have hlen : n + 1 = l.length := by omega
      simp only [hlen, Nat.mod_self]
      rw [List.head?_drop, List.getElem?_eq_none (by omega)] at h1
      cases n with
      | zero => simp at h1; exact h1.symm
      | succ n =>
        rw [List.head?_take, List.head?_eq_getElem?, List.getElem?_eq_getElem (by omega)] at h1
        simpa using h1.symm
  exact ⟨h2.trans this, this ▸ h3⟩

theorem ring_walk {nx pv : Nat → Nat} {l : List Nat} (h : Ring nx pv l) {n : Nat} (hn : n < l.length) (k : Nat) :
    nx^[k] l[n] = l[(n + k) % l.length]'(Nat.mod_lt _ (by omega)) ∧
      pv^[k] (l[(n + k) % l.length]'(Nat.mod_lt _ (by omega))) = l[n] := by
  induction k with
  | zero => simp [Nat.mod_eq_of_lt hn]
  | succ k ih =>
    have hm : (n + k) % l.length < l.length := Nat.mod_lt _ (by omega)
    obtain ⟨h1, h2⟩ := ring_next h hm
    have he : ((n + k) % l.length + 1) % l.length = (n + (k + 1)) % l.length := by
      rw [Nat.mod_add_mod]; rfl
    simp only [he] at h1 h2
    refine ⟨?_, ?_⟩
    · rw [Function.iterate_succ_apply', ih.1, h1]
    · rw [Function.iterate_succ_apply, h2, ih.2]

end QuickCache.SlabSpec
