import Verif.Model.Slab

/-!
# The linked slab realises circular lists

Helper lemmas about `Verif.Model.Slab`. `Links s R F` says that the pointers of `s` realise exactly the circular lists
`R i` (indexed by an arbitrary type of list names), that every other occupied slot is self-linked and that `F` is the
free list.
-/

namespace QuickCache

/-- Point update of a function. -/
def upd {α : Type _} {β : Type _} [DecidableEq α] (f : α → β) (a : α) (b : β) : α → β :=
  fun x => if x = a then b else f x

@[simp] theorem upd_same {α : Type _} {β : Type _} [DecidableEq α] (f : α → β) (a : α) (b : β) :
    upd f a b a = b := by simp [upd]

theorem upd_other {α : Type _} {β : Type _} [DecidableEq α] (f : α → β) {a x : α} (b : β) (h : x ≠ a) :
    upd f a b x = f x := by simp [upd, h]

@[simp] theorem upd_upd {α : Type _} {β : Type _} [DecidableEq α] (f : α → β) (a : α) (b c : β) :
    upd (upd f a b) a c = upd f a c := by
  funext x; simp only [upd]; split <;> rfl

@[simp] theorem upd_self {α : Type _} {β : Type _} [DecidableEq α] (f : α → β) (a : α) :
    upd f a (f a) = f := by
  funext x; simp only [upd]; split <;> simp_all

/-! ### Paths and rings over arbitrary `next`/`prev` functions -/

/-- Consecutive elements of the list point at each other. -/
def Path (nx pv : Nat → Nat) : List Nat → Prop
  | [] => True
  | [_] => True
  | a :: b :: l => (nx a = b ∧ pv b = a) ∧ Path nx pv (b :: l)

/-- The list is a circular list: consecutive elements point at each other and the last wraps to the first. -/
def Ring (nx pv : Nat → Nat) : List Nat → Prop
  | [] => True
  | h :: tl => Path nx pv (h :: tl ++ [h])

theorem Path.append {nx pv : Nat → Nat} {x : Nat} {B : List Nat} : ∀ {A : List Nat},
    Path nx pv (A ++ x :: B) ↔ Path nx pv (A ++ [x]) ∧ Path nx pv (x :: B)
  | [] => by simp [Path]
  | [a] => by simp [Path]
  | a :: b :: A => by
    have := Path.append (nx := nx) (pv := pv) (x := x) (B := B) (A := b :: A)
    simp only [List.cons_append, Path] at this ⊢
    rw [this]; simp [and_assoc]

theorem Path.congr {nx pv nx' pv' : Nat → Nat} : ∀ {l : List Nat},
    (∀ x ∈ l.dropLast, nx' x = nx x) → (∀ x ∈ l.tail, pv' x = pv x) → Path nx pv l → Path nx' pv' l
  | [], _, _, _ => by simp [Path]
  | [_], _, _, _ => by simp [Path]
  | a :: b :: l, h1, h2, h => by
    simp only [Path] at h ⊢
    refine ⟨⟨?_, ?_⟩, ?_⟩
    · rw [h1 a (by simp [List.dropLast])]; exact h.1.1
    · rw [h2 b (by simp)]; exact h.1.2
    · refine Path.congr (l := b :: l) (fun x hx => h1 x ?_) (fun x hx => h2 x ?_) h.2
      · simp only [List.dropLast]; exact List.mem_cons_of_mem _ hx
      · simp only [List.tail_cons] at hx ⊢; exact List.mem_cons_of_mem _ hx

theorem Ring.congr {nx pv nx' pv' : Nat → Nat} {l : List Nat}
    (h1 : ∀ x ∈ l, nx' x = nx x) (h2 : ∀ x ∈ l, pv' x = pv x) (h : Ring nx pv l) : Ring nx' pv' l := by
  cases l with
  | nil => trivial
  | cons a l =>
    simp only [Ring] at h ⊢
    refine Path.congr (fun x hx => h1 x ?_) (fun x hx => h2 x ?_) h
    · have : (a :: l ++ [a]).dropLast = a :: l := by
        rw [List.dropLast_append_of_ne_nil (by simp)]; simp
      rwa [this] at hx
    · simp only [List.cons_append, List.tail_cons, List.mem_append, List.mem_singleton] at hx
      rcases hx with hx | hx
      · exact List.mem_cons_of_mem _ hx
      · simp [hx]

theorem Ring.rotate {nx pv : Nat → Nat} {A B : List Nat} (h : Ring nx pv (A ++ B)) : Ring nx pv (B ++ A) := by
  cases A with
  | nil => simpa using h
  | cons a A =>
    cases B with
    | nil => simpa using h
    | cons b B =>
      simp only [Ring, List.cons_append, List.append_assoc] at h ⊢
      have e1 : a :: (A ++ b :: (B ++ [a])) = (a :: A) ++ b :: (B ++ [a]) := by simp
      have e2 : b :: (B ++ a :: (A ++ [b])) = (b :: B) ++ a :: (A ++ [b]) := by simp
      rw [e1, Path.append] at h
      rw [e2, Path.append]
      exact ⟨by simpa using h.2, by simpa using h.1⟩

/-- Any two neighbours of a ring point at each other. -/
theorem Ring.next_mem {nx pv : Nat → Nat} {A B : List Nat} {t : Nat} (h : Ring nx pv (A ++ t :: B)) :
    ∃ n, (B ++ A ++ [t]).head? = some n ∧ nx t = n ∧ pv n = t := by
  have h' : Ring nx pv (t :: (B ++ A)) := by
    have := Ring.rotate (A := A) (B := t :: B) h
    simpa using this
  simp only [Ring] at h'
  cases hBA : B ++ A with
  | nil => rw [hBA] at h'; simp [Path] at h'; exact ⟨t, by simp, h'.1, h'.2⟩
  | cons c l => rw [hBA] at h'; simp [Path] at h'; exact ⟨c, by simp, h'.1.1, h'.1.2⟩

theorem Ring.link {nx pv nx' pv' : Nat → Nat} {h t last : Nat} {tl : List Nat}
    (hr : Ring nx pv (h :: tl)) (hnd : (h :: tl).Nodup) (ht : t ∉ h :: tl)
    (hlast : (h :: tl).getLast? = some last)
    (hnx : ∀ x, nx' x = if x = last then t else if x = t then h else nx x)
    (hpv : ∀ x, pv' x = if x = h then t else if x = t then last else pv x) :
    Ring nx' pv' (h :: tl ++ [t]) := by
  obtain ⟨M, hM⟩ : ∃ M, h :: tl = M ++ [last] := by
    have := List.getLast?_eq_some_iff.mp hlast
    obtain ⟨M, hM⟩ := this
    exact ⟨M, hM⟩
  have e1 : h :: tl ++ [h] = M ++ last :: [h] := by rw [hM]; simp
  have hr' : Path nx pv (M ++ [last]) := by
    simp only [Ring] at hr
    rw [e1, Path.append] at hr
    exact hr.1
  have hndM : last ∉ M := by
    rw [hM] at hnd
    intro hm
    rw [List.nodup_append] at hnd
    exact hnd.2.2 last hm last (by simp) rfl
  have htM : ∀ x ∈ M, x ≠ t := by
    intro x hx e
    apply ht; rw [hM, ← e]; simp [hx]
  have htl : last ≠ t := by
    intro e; apply ht; rw [hM, ← e]; simp
  have hth : h ≠ t := by
    intro e; apply ht; simp [e]
  have e2 : h :: tl ++ [t] ++ [h] = M ++ last :: [t, h] := by rw [hM]; simp
  have : Path nx' pv' (h :: tl ++ [t] ++ [h]) := by
    rw [e2, Path.append]
    refine ⟨Path.congr (fun x hx => ?_) (fun x hx => ?_) hr', ?_⟩
    · simp only [List.dropLast_concat] at hx
      have h1 : x ≠ last := fun e => hndM (e ▸ hx)
      rw [hnx, if_neg h1, if_neg (htM x hx)]
    · rw [← hM] at hx
      simp only [List.tail_cons] at hx
      have h1 : x ≠ h := by
        intro e; rw [List.nodup_cons] at hnd; exact hnd.1 (e ▸ hx)
      have h2 : x ≠ t := by
        intro e; apply ht; rw [← e]; simp [hx]
      rw [hpv, if_neg h1, if_neg h2]
    · simp only [Path]
      refine ⟨⟨?_, ?_⟩, ⟨?_, ?_⟩, trivial⟩
      · rw [hnx]; simp
      · rw [hpv, if_neg (Ne.symm hth)]; simp
      · rw [hnx, if_neg (Ne.symm htl)]; simp
      · rw [hpv]; simp
  simpa [Ring] using this

theorem Ring.unlink {nx pv nx' pv' : Nat → Nat} {n p t : Nat} {M : List Nat}
    (hr : Ring nx pv (t :: M)) (hnd : (t :: M).Nodup)
    (hn : M.head? = some n) (hp : M.getLast? = some p)
    (hnx : ∀ x, nx' x = if x = p then n else if x = t then t else nx x)
    (hpv : ∀ x, pv' x = if x = n then p else if x = t then t else pv x) :
    Ring nx' pv' M := by
  obtain ⟨M', rfl⟩ : ∃ M', M = n :: M' := by
    cases M with
    | nil => simp at hn
    | cons a M => simp at hn; exact ⟨M, by rw [hn]⟩
  obtain ⟨N, hN⟩ := List.getLast?_eq_some_iff.mp hp
  simp only [Ring, List.cons_append] at hr ⊢
  simp only [Path] at hr
  have e1 : n :: (M' ++ [t]) = N ++ p :: [t] := by
    have : n :: (M' ++ [t]) = (n :: M') ++ [t] := by simp
    rw [this, hN]; simp
  have e2 : n :: (M' ++ [n]) = N ++ p :: [n] := by
    have : n :: (M' ++ [n]) = (n :: M') ++ [n] := by simp
    rw [this, hN]; simp
  rw [e1, Path.append] at hr
  rw [e2, Path.append]
  have hndM := (List.nodup_cons.mp hnd).2
  have htM := (List.nodup_cons.mp hnd).1
  refine ⟨Path.congr (fun x hx => ?_) (fun x hx => ?_) hr.2.1, ?_⟩
  · simp only [List.dropLast_concat] at hx
    have h1 : x ≠ p := by
      intro e
      rw [hN, List.nodup_append] at hndM
      exact hndM.2.2 x hx p (by simp) e
    have h2 : x ≠ t := by
      intro e; apply htM; rw [hN, ← e]; simp [hx]
    rw [hnx, if_neg h1, if_neg h2]
  · rw [← hN] at hx
    simp only [List.tail_cons] at hx
    have h1 : x ≠ n := by
      intro e; exact (List.nodup_cons.mp hndM).1 (e ▸ hx)
    have h2 : x ≠ t := by
      intro e; apply htM; rw [← e]; simp [hx]
    rw [hpv, if_neg h1, if_neg h2]
  · simp only [Path]
    refine ⟨⟨?_, ?_⟩, trivial⟩
    · rw [hnx]; simp
    · rw [hpv]; simp

namespace Slab
variable {T : Type _} {ι : Type _}

/-! ### Views of the primitive updates -/

theorem get_eq (s : Slab T) (t : Nat) : s.get t = (s.item t).map (fun x => (x, s.nxt t)) := by
  unfold get item nxt
  rcases h : s.entries[t]? with _ | ⟨_ | v, nx, pv⟩ <;> simp

theorem item_eq_items (s : Slab T) (t : Nat) : s.item t = s.items[t]?.join := by
  unfold item items
  rcases h : s.entries[t]? with _ | e <;> simp [h]

theorem item_congr {s s' : Slab T} (h : s'.items = s.items) (t : Nat) : s'.item t = s.item t := by
  rw [item_eq_items, item_eq_items, h]

theorem length_items (s : Slab T) : s.items.length = s.entries.length := by simp [items]

theorem length_congr {s s' : Slab T} (h : s'.items = s.items) : s'.entries.length = s.entries.length := by
  rw [← length_items, h, length_items]

theorem lt_of_item {s : Slab T} {t : Nat} (h : (s.item t).isSome) : t < s.entries.length := by
  unfold item at h
  rcases he : s.entries[t]? with _ | e
  · rw [he] at h; simp at h
  · exact (List.getElem?_eq_some_iff.mp he).1

theorem entry_of_item {s : Slab T} {t : Nat} (h : (s.item t).isSome) :
    ∃ e, s.entries[t]? = some e ∧ e.item.isSome ∧ s.item t = e.item ∧ s.nxt t = e.next ∧ s.prv t = e.prev := by
  unfold item at *
  rcases he : s.entries[t]? with _ | e
  · rw [he] at h; simp at h
  · refine ⟨e, rfl, ?_, ?_, ?_, ?_⟩
    · simpa [he] using h
    · simp
    · simp [nxt, he]
    · simp [prv, he]

theorem entries_mod (s : Slab T) (t : Nat) (f : SEntry T → SEntry T) (u : Nat) :
    (s.mod t f).entries[u]? = if t = u then s.entries[u]?.map f else s.entries[u]? := by
  unfold mod
  simp only [List.getElem?_modify]
  by_cases h : t = u
  · simp [h]
  · simp [h]

@[simp] theorem nextFree_mod (s : Slab T) (t : Nat) (f : SEntry T → SEntry T) :
    (s.mod t f).nextFree = s.nextFree := rfl

theorem items_mod_of (s : Slab T) (t : Nat) {f : SEntry T → SEntry T} (hf : ∀ e, (f e).item = e.item) :
    (s.mod t f).items = s.items := by
  apply List.ext_getElem?
  intro u
  unfold items
  simp only [List.getElem?_map, entries_mod]
  split
  · rcases s.entries[u]? with _ | e <;> simp [hf]
  · rfl

theorem nxt_mod_const (s : Slab T) (t n : Nat) {f : SEntry T → SEntry T} (ht : t < s.entries.length)
    (hf : ∀ e, (f e).next = n) (u : Nat) : (s.mod t f).nxt u = if u = t then n else s.nxt u := by
  unfold nxt
  rw [entries_mod]
  by_cases h : u = t
  · subst h
    have : s.entries[u]? = some s.entries[u] := List.getElem?_eq_getElem ht
    rw [this]; simp [hf]
  · have h' : ¬ t = u := fun e => h e.symm
    simp [h, h']

theorem nxt_mod_same (s : Slab T) (t : Nat) {f : SEntry T → SEntry T}
    (hf : ∀ e, (f e).next = e.next) (u : Nat) : (s.mod t f).nxt u = s.nxt u := by
  unfold nxt
  rw [entries_mod]
  split
  · rcases s.entries[u]? with _ | e <;> simp [hf]
  · rfl

theorem prv_mod_const (s : Slab T) (t n : Nat) {f : SEntry T → SEntry T} (ht : t < s.entries.length)
    (hf : ∀ e, (f e).prev = n) (u : Nat) : (s.mod t f).prv u = if u = t then n else s.prv u := by
  unfold prv
  rw [entries_mod]
  by_cases h : u = t
  · subst h
    have : s.entries[u]? = some s.entries[u] := List.getElem?_eq_getElem ht
    rw [this]; simp [hf]
  · have h' : ¬ t = u := fun e => h e.symm
    simp [h, h']

theorem prv_mod_same (s : Slab T) (t : Nat) {f : SEntry T → SEntry T}
    (hf : ∀ e, (f e).prev = e.prev) (u : Nat) : (s.mod t f).prv u = s.prv u := by
  unfold prv
  rw [entries_mod]
  split
  · rcases s.entries[u]? with _ | e <;> simp [hf]
  · rfl

@[simp] theorem length_mod (s : Slab T) (t : Nat) (f : SEntry T → SEntry T) :
    (s.mod t f).entries.length = s.entries.length := by simp [mod]

/-! ### The free list -/

/-- `F` is the free list starting at token `nf`. -/
def FreeChain (s : Slab T) : Nat → List Nat → Prop
  | nf, [] => nf = s.entries.length
  | nf, t :: F => nf = t ∧ FreeChain s (s.nxt t) F

theorem FreeChain.congr {s s' : Slab T} (hlen : s'.entries.length = s.entries.length) :
    ∀ {nf : Nat} {F : List Nat}, (∀ t ∈ F, s'.nxt t = s.nxt t) → FreeChain s nf F → FreeChain s' nf F
  | _, [], _, h => by simp only [FreeChain] at h ⊢; omega
  | _, t :: F, hn, h => by
    simp only [FreeChain] at h ⊢
    refine ⟨h.1, ?_⟩
    rw [hn t (by simp)]
    exact FreeChain.congr hlen (fun u hu => hn u (by simp [hu])) h.2

/-! ### The structural invariant -/

/-- The pointers of `s` realise exactly the circular lists `R i`; all other occupied slots are self-linked; `F` is
the free list. -/
structure Links (s : Slab T) (R : ι → List Nat) (F : List Nat) : Prop where
  ring : ∀ i, Ring s.nxt s.prv (R i)
  nodup : ∀ i, (R i).Nodup
  disj : ∀ i j t, t ∈ R i → t ∈ R j → i = j
  occ : ∀ i t, t ∈ R i → (s.item t).isSome
  self : ∀ t, (s.item t).isSome → (∀ i, t ∉ R i) → s.nxt t = t ∧ s.prv t = t
  free : FreeChain s s.nextFree F
  freeNodup : F.Nodup
  freeMem : ∀ t, t ∈ F ↔ t < s.entries.length ∧ s.item t = none

theorem Links.new (R : ι → List Nat) (hR : ∀ i, R i = []) : Links (Slab.new : Slab T) R [] where
  ring i := by simp [hR, Ring]
  nodup i := by simp [hR]
  disj i j t h := by simp [hR] at h
  occ i t h := by simp [hR] at h
  self t h := by simp [Slab.new, item] at h
  free := by simp [FreeChain, Slab.new]
  freeNodup := by simp
  freeMem t := by simp [Slab.new]

/-- Occupied slots are not in the free list. -/
theorem Links.not_free {s : Slab T} {R : ι → List Nat} {F : List Nat} (h : Links s R F) {t : Nat}
    (ht : (s.item t).isSome) : t ∉ F := by
  intro hf
  rw [h.freeMem] at hf
  rw [hf.2] at ht; simp at ht

/-- Transport of `Links` along an update that keeps items. -/
theorem Links.transport {s s' : Slab T} {R R' : ι → List Nat} {F : List Nat} (h : Links s R F)
    (hitems : s'.items = s.items) (hnf : s'.nextFree = s.nextFree)
    (hring : ∀ i, Ring s'.nxt s'.prv (R' i))
    (hnd : ∀ i, (R' i).Nodup)
    (hdisj : ∀ i j t, t ∈ R' i → t ∈ R' j → i = j)
    (hocc : ∀ i t, t ∈ R' i → (s.item t).isSome)
    (hself : ∀ t, (s.item t).isSome → (∀ i, t ∉ R' i) → s'.nxt t = t ∧ s'.prv t = t)
    (hfree : ∀ t ∈ F, s'.nxt t = s.nxt t) : Links s' R' F where
  ring := hring
  nodup := hnd
  disj := hdisj
  occ i t ht := by rw [item_congr hitems]; exact hocc i t ht
  self t ht := by rw [item_congr hitems] at ht; exact hself t ht
  free := by rw [hnf]; exact FreeChain.congr (length_congr hitems) hfree h.free
  freeNodup := h.freeNodup
  freeMem t := by rw [item_congr hitems, length_congr hitems]; exact h.freeMem t

theorem Links.rotate [DecidableEq ι] {s : Slab T} {R : ι → List Nat} {F : List Nat} {i : ι} {A B : List Nat}
    (h : Links s (upd R i (A ++ B)) F) : Links s (upd R i (B ++ A)) F := by
  have key : ∀ j t, t ∈ upd R i (B ++ A) j ↔ t ∈ upd R i (A ++ B) j := by
    intro j t
    by_cases hj : j = i
    · subst hj; simp [or_comm]
    · simp [upd_other _ _ hj]
  refine h.transport rfl rfl (fun j => ?_) (fun j => ?_) ?_ ?_ ?_ (fun _ _ => rfl)
  · by_cases hj : j = i
    · subst hj
      have := h.ring j
      simp only [upd_same] at this ⊢
      exact Ring.rotate this
    · have := h.ring j
      rw [upd_other _ _ hj] at this ⊢
      exact this
  · by_cases hj : j = i
    · subst hj
      have := h.nodup j
      simp only [upd_same] at this ⊢
      exact (List.perm_append_comm.nodup_iff).mp this
    · have := h.nodup j
      rw [upd_other _ _ hj] at this ⊢
      exact this
  · intro j k t h1 h2
    rw [key] at h1 h2; exact h.disj j k t h1 h2
  · intro j t h1; rw [key] at h1; exact h.occ j t h1
  · intro t h1 h2
    exact h.self t h1 (fun j => by rw [← key]; exact h2 j)

/-! ### `setItem` -/

theorem item_setItem {s : Slab T} {t : Nat} (ht : (s.item t).isSome) (x : T) (u : Nat) :
    (s.setItem t x).item u = if u = t then some x else s.item u := by
  obtain ⟨e, he, -⟩ := entry_of_item ht
  unfold setItem item
  rw [entries_mod]
  by_cases h : u = t
  · subst h; simp [he]
  · have h' : ¬ t = u := fun e => h e.symm
    simp [h, h']

theorem nxt_setItem (s : Slab T) (t : Nat) (x : T) (u : Nat) : (s.setItem t x).nxt u = s.nxt u := by
  unfold setItem; apply nxt_mod_same; intro; rfl

theorem prv_setItem (s : Slab T) (t : Nat) (x : T) (u : Nat) : (s.setItem t x).prv u = s.prv u := by
  unfold setItem; apply prv_mod_same; intro; rfl

theorem items_setItem (s : Slab T) (t : Nat) (x : T) : (s.setItem t x).items = s.items.set t (some x) := by
  unfold setItem items mod
  apply List.ext_getElem?
  intro u
  simp only [List.getElem?_map, List.getElem?_modify, List.getElem?_set, List.length_map]
  by_cases h : t = u
  · subst h
    by_cases hlt : t < s.entries.length
    · simp [hlt]
    · simp [hlt]
  · simp [h]

theorem Links.setItem {s : Slab T} {R : ι → List Nat} {F : List Nat} (h : Links s R F) {t : Nat}
    (ht : (s.item t).isSome) (x : T) : Links (s.setItem t x) R F := by
  have hi : ∀ u, ((s.setItem t x).item u).isSome = (s.item u).isSome := by
    intro u; rw [item_setItem ht]; split
    · rename_i hu; subst hu; simp [ht]
    · rfl
  have hlen : (s.setItem t x).entries.length = s.entries.length := length_mod ..
  refine ⟨fun i => ?_, h.nodup, h.disj, fun i u hu => ?_, fun u hu hn => ?_, ?_, h.freeNodup, fun u => ?_⟩
  · exact Ring.congr (fun x _ => nxt_setItem ..) (fun x _ => prv_setItem ..) (h.ring i)
  · rw [hi]; exact h.occ i u hu
  · rw [hi] at hu; rw [nxt_setItem, prv_setItem]; exact h.self u hu hn
  · exact FreeChain.congr hlen (fun u _ => nxt_setItem ..) h.free
  · rw [h.freeMem, hlen]
    have h1 := hi u
    constructor
    · rintro ⟨h2, h3⟩; refine ⟨h2, ?_⟩; rw [h3] at h1; simpa using h1
    · rintro ⟨h2, h3⟩; refine ⟨h2, ?_⟩; rw [h3] at h1; simpa using h1.symm

/-! ### `link` -/

theorem linkSelf_ok {s : Slab T} {t p n : Nat} (hi : (s.item t).isSome) (hn : s.nxt t = t) (hp : s.prv t = t) :
    s.linkSelf t p n = .ok (s.mod t (fun e => { e with prev := p, next := n }), n) := by
  obtain ⟨e, he, h1, -, h2, h3⟩ := entry_of_item hi
  unfold linkSelf
  have h2' : e.next = t := by rw [← h2, hn]
  have h3' : e.prev = t := by rw [← h3, hp]
  have h1' : e.item.isNone = false := by cases hh : e.item <;> simp_all
  simp [he, h2', h3', h1']

theorem link_spec [DecidableEq ι] {s : Slab T} {R : ι → List Nat} {F : List Nat} (h : Links s R F) (i : ι) {t : Nat}
    (ht : (s.item t).isSome) (hn : ∀ j, t ∉ R j) :
    ∃ s', s.link t (R i).head? = .ok (s', (R i).head?.getD t) ∧ s'.items = s.items ∧
      s'.nextFree = s.nextFree ∧ Links s' (upd R i (R i ++ [t])) F := by
  obtain ⟨hself1, hself2⟩ := h.self t ht hn
  have htlen := lt_of_item ht
  have htF : t ∉ F := h.not_free ht
  -- membership in the new family of lists
  have key : ∀ j u, u ∈ upd R i (R i ++ [t]) j ↔ u ∈ R j ∨ (j = i ∧ u = t) := by
    intro j u
    by_cases hj : j = i
    · subst hj; simp
    · simp [upd_other _ _ hj, hj]
  have hnd' : ∀ j, (upd R i (R i ++ [t]) j).Nodup := by
    intro j
    by_cases hj : j = i
    · subst hj
      rw [upd_same, List.nodup_append]
      refine ⟨h.nodup j, by simp, ?_⟩
      intro a ha b hb e
      simp only [List.mem_singleton] at hb
      subst hb; subst e; exact hn j ha
    · rw [upd_other _ _ hj]; exact h.nodup j
  have hdisj' : ∀ j k u, u ∈ upd R i (R i ++ [t]) j → u ∈ upd R i (R i ++ [t]) k → j = k := by
    intro j k u h1 h2
    rw [key] at h1 h2
    rcases h1 with h1 | ⟨rfl, rfl⟩
    · rcases h2 with h2 | ⟨rfl, rfl⟩
      · exact h.disj j k u h1 h2
      · exact absurd h1 (hn _)
    · rcases h2 with h2 | ⟨rfl, -⟩
      · exact absurd h2 (hn _)
      · rfl
  have hocc' : ∀ j u, u ∈ upd R i (R i ++ [t]) j → (s.item u).isSome := by
    intro j u h1
    rw [key] at h1
    rcases h1 with h1 | ⟨-, rfl⟩
    · exact h.occ j u h1
    · exact ht
  have hself' : ∀ u, (s.item u).isSome → (∀ j, u ∉ upd R i (R i ++ [t]) j) → (∀ j, u ∉ R j) ∧ u ≠ t := by
    intro u _ h2
    refine ⟨fun j hj => h2 j ((key j u).mpr (Or.inl hj)), fun e => h2 i ((key i u).mpr (Or.inr ⟨rfl, e⟩))⟩
  cases hRi : R i with
  | nil =>
    refine ⟨s.mod t (fun e => { e with prev := t, next := t }), ?_, items_mod_of _ _ (fun _ => rfl), rfl, ?_⟩
    · simp only [link, List.head?_nil, linkSelf_ok ht hself1 hself2, Option.getD_none]
    · have hnx : ∀ u, (s.mod t (fun e => { e with prev := t, next := t })).nxt u = s.nxt u := by
        intro u; rw [nxt_mod_const s t t htlen (fun _ => rfl)]; split
        · rename_i hu; rw [hu, hself1]
        · rfl
      have hpv : ∀ u, (s.mod t (fun e => { e with prev := t, next := t })).prv u = s.prv u := by
        intro u; rw [prv_mod_const s t t htlen (fun _ => rfl)]; split
        · rename_i hu; rw [hu, hself2]
        · rfl
      rw [hRi] at key hnd' hdisj' hocc' hself'
      refine h.transport (items_mod_of _ _ (fun _ => rfl)) rfl (fun j => ?_) hnd' hdisj' hocc'
        (fun u h1 h2 => ?_) (fun u _ => hnx u)
      · by_cases hj : j = i
        · subst hj
          rw [upd_same]
          simp [Ring, Path, hnx, hpv, hself1, hself2]
        · rw [upd_other _ _ hj]
          exact Ring.congr (fun u _ => hnx u) (fun u _ => hpv u) (h.ring j)
      · rw [hnx, hpv]; exact h.self u h1 (hself' u h1 h2).1
  | cons hd tl =>
    have hhd : hd ∈ R i := by rw [hRi]; simp
    have hhdocc := h.occ i hd hhd
    obtain ⟨e, he, he1, -, he2, he3⟩ := entry_of_item hhdocc
    have hhdlen := lt_of_item hhdocc
    have htne : ¬ hd = t := fun e => hn i (e ▸ hhd)
    have hring : Ring s.nxt s.prv (hd :: tl) := hRi ▸ h.ring i
    have hnd : (hd :: tl).Nodup := hRi ▸ h.nodup i
    have htn : t ∉ hd :: tl := hRi ▸ hn i
    obtain ⟨last, hlast⟩ : ∃ last, (hd :: tl).getLast? = some last := by
      cases hl : (hd :: tl).getLast? with
      | none => simp at hl
      | some x => exact ⟨x, rfl⟩
    obtain ⟨M, hM⟩ := List.getLast?_eq_some_iff.mp hlast
    have hlastmem : last ∈ R i := by rw [hRi, hM]; simp
    -- pointers of last/head
    have hll : s.nxt last = hd ∧ s.prv hd = last := by
      have := Ring.next_mem (A := M) (t := last) (B := []) (hM ▸ hring)
      obtain ⟨n, hn1, hn2, hn3⟩ := this
      cases M with
      | nil => simp at hn1 hM; obtain ⟨rfl, rfl⟩ := hM; subst hn1; exact ⟨hn2, hn3⟩
      | cons m M => simp at hn1 hM; obtain ⟨rfl, rfl⟩ := hM; subst hn1; exact ⟨hn2, hn3⟩
    have heprev : e.prev = last := by rw [← he3, hll.2]
    have heitem : e.item.isNone = false := by cases hh : e.item <;> simp_all
    have hlastlen := lt_of_item (h.occ i last hlastmem)
    have hlastne : ¬ last = t := fun e => hn i (e ▸ hlastmem)
    -- it suffices to exhibit a slab with the right pointers
    suffices hs : ∃ s' : Slab T, s.link t (some hd) = .ok (s', hd) ∧ s'.items = s.items ∧ s'.nextFree = s.nextFree ∧
        (∀ x, s'.nxt x = if x = last then t else if x = t then hd else s.nxt x) ∧
        (∀ x, s'.prv x = if x = hd then t else if x = t then last else s.prv x) by
      obtain ⟨s', h1, h2, h3, h4, h5⟩ := hs
      refine ⟨s', ?_, h2, h3, ?_⟩
      · simpa using h1
      · rw [← hRi]
        refine h.transport h2 h3 (fun j => ?_) hnd' hdisj' hocc' (fun u h6 h7 => ?_) (fun u hu => ?_)
        · by_cases hj : j = i
          · subst hj
            rw [upd_same, hRi]
            exact Ring.link hring hnd htn hlast h4 h5
          · rw [upd_other _ _ hj]
            refine Ring.congr (fun u hu => ?_) (fun u hu => ?_) (h.ring j)
            · have a1 : u ≠ last := fun e => hj (h.disj j i u hu (e ▸ hlastmem))
              have a2 : u ≠ t := fun e => hn j (e ▸ hu)
              rw [h4, if_neg a1, if_neg a2]
            · have a1 : u ≠ hd := fun e => hj (h.disj j i u hu (e ▸ hhd))
              have a2 : u ≠ t := fun e => hn j (e ▸ hu)
              rw [h5, if_neg a1, if_neg a2]
        · obtain ⟨b1, b2⟩ := hself' u h6 h7
          have a1 : u ≠ last := fun e => b1 i (e ▸ hlastmem)
          have a2 : u ≠ hd := fun e => b1 i (e ▸ hhd)
          rw [h4, h5, if_neg a1, if_neg b2, if_neg a2, if_neg b2]
          exact h.self u h6 b1
        · have hune := (h.freeMem u).mp hu
          have a1 : u ≠ last := by
            intro e; have := h.occ i last hlastmem; rw [← e, hune.2] at this; simp at this
          have a2 : u ≠ t := fun e => htF (e ▸ hu)
          rw [h4, if_neg a1, if_neg a2]
    by_cases hsingle : last = hd
    · -- existing list has a single item
      have heq : e.prev = hd := by rw [heprev, hsingle]
      let s1 := s.mod hd (fun e => { e with prev := t, next := t })
      have hs1i : s1.items = s.items := items_mod_of _ _ (fun _ => rfl)
      have hs1n : ∀ x, s1.nxt x = if x = hd then t else s.nxt x := nxt_mod_const s hd t hhdlen (fun _ => rfl)
      have hs1p : ∀ x, s1.prv x = if x = hd then t else s.prv x := prv_mod_const s hd t hhdlen (fun _ => rfl)
      have hok : s1.linkSelf t hd hd = .ok (s1.mod t (fun e => { e with prev := hd, next := hd }), hd) := by
        apply linkSelf_ok
        · rw [item_congr hs1i]; exact ht
        · rw [hs1n, if_neg (Ne.symm htne)]; exact hself1
        · rw [hs1p, if_neg (Ne.symm htne)]; exact hself2
      have hs1len : t < s1.entries.length := by simp [s1, htlen]
      refine ⟨s1.mod t (fun e => { e with prev := hd, next := hd }), ?_, ?_, rfl, ?_, ?_⟩
      · unfold link
        simp only [he, heitem, heq, if_true, Bool.false_eq_true, if_false]
        exact hok
      · rw [items_mod_of, hs1i]; intro; rfl
      · intro x
        rw [nxt_mod_const s1 t hd hs1len (fun _ => rfl), hs1n, hsingle]
        by_cases hx : x = hd
        · simp [hx, htne]
        · simp [hx]
      · intro x
        rw [prv_mod_const s1 t hd hs1len (fun _ => rfl), hs1p, hsingle]
        by_cases hx : x = hd
        · simp [hx, htne]
        · simp [hx]
    · have heq : ¬ e.prev = hd := by rw [heprev]; exact hsingle
      let s1 := s.mod hd (fun e => { e with prev := t })
      have hs1i : s1.items = s.items := items_mod_of _ _ (fun _ => rfl)
      have hs1n : ∀ x, s1.nxt x = s.nxt x := nxt_mod_same s hd (fun _ => rfl)
      have hs1p : ∀ x, s1.prv x = if x = hd then t else s.prv x := prv_mod_const s hd t hhdlen (fun _ => rfl)
      have hs1last : (s1.item last).isSome := by rw [item_congr hs1i]; exact h.occ i last hlastmem
      obtain ⟨b, hb, hb1, -, hb2, hb3⟩ := entry_of_item hs1last
      have hbnext : b.next = hd := by rw [← hb2, hs1n, hll.1]
      have hbitem : b.item.isNone = false := by cases hh : b.item <;> simp_all
      let s2 := s1.mod last (fun e => { e with next := t })
      have hs2i : s2.items = s.items := by
        rw [← hs1i]; apply items_mod_of; intro; rfl
      have hs1lastlen : last < s1.entries.length := lt_of_item hs1last
      have hs2n : ∀ x, s2.nxt x = if x = last then t else s.nxt x := by
        intro x; rw [nxt_mod_const s1 last t hs1lastlen (fun _ => rfl), hs1n]
      have hs2p : ∀ x, s2.prv x = if x = hd then t else s.prv x := by
        intro x; rw [← hs1p]; apply prv_mod_same; intro; rfl
      have hok : s2.linkSelf t last hd = .ok (s2.mod t (fun e => { e with prev := last, next := hd }), hd) := by
        apply linkSelf_ok
        · rw [item_congr hs2i]; exact ht
        · rw [hs2n, if_neg (Ne.symm hlastne)]; exact hself1
        · rw [hs2p, if_neg (Ne.symm htne)]; exact hself2
      have hs2len : t < s2.entries.length := by rw [length_congr hs2i]; exact htlen
      refine ⟨s2.mod t (fun e => { e with prev := last, next := hd }), ?_, ?_, rfl, ?_, ?_⟩
      · unfold link
        simp only [he, heitem, hsingle, Bool.false_eq_true, if_false, heprev]
        simp only [s1] at hb
        rw [hb]
        simp only [hbitem, hbnext, Bool.false_eq_true, if_false, ne_eq, not_true_eq_false]
        exact hok
      · rw [items_mod_of, hs2i]; intro; rfl
      · intro x
        rw [nxt_mod_const s2 t hd hs2len (fun _ => rfl), hs2n]
        by_cases hx : x = last
        · simp [hx, hlastne]
        · simp [hx]
      · intro x
        rw [prv_mod_const s2 t last hs2len (fun _ => rfl), hs2p]
        by_cases hx : x = hd
        · simp [hx, htne]
        · simp [hx]

/-! ### `unlink` -/

theorem unlink_spec [DecidableEq ι] {s : Slab T} {R : ι → List Nat} {F : List Nat} (h : Links s R F) {i : ι} {t : Nat}
    {A B : List Nat} (hR : R i = A ++ t :: B) :
    ∃ s', s.unlink t = .ok (s', (B ++ A).head?) ∧ s'.items = s.items ∧ s'.nextFree = s.nextFree ∧
      Links s' (upd R i (B ++ A)) F := by
  have htmem : t ∈ R i := by rw [hR]; simp
  have ht := h.occ i t htmem
  have htlen := lt_of_item ht
  have hring : Ring s.nxt s.prv (t :: (B ++ A)) := by
    have := h.ring i; rw [hR] at this; simpa using Ring.rotate this
  have hnd : (t :: (B ++ A)).Nodup := by
    have := h.nodup i; rw [hR] at this
    have := (List.perm_append_comm.nodup_iff).mp this
    simpa using this
  obtain ⟨e, he, he1, -, he2, he3⟩ := entry_of_item ht
  have heitem : e.item.isNone = false := by cases hh : e.item <;> simp_all
  have key : ∀ j u, u ∈ upd R i (B ++ A) j ↔ u ∈ R j ∧ u ≠ t := by
    intro j u
    by_cases hj : j = i
    · subst hj
      rw [upd_same, hR]
      have htn := (List.nodup_cons.mp hnd).1
      simp only [List.mem_append, List.mem_cons] at htn ⊢
      constructor
      · intro hu
        refine ⟨?_, fun e => htn (e ▸ hu)⟩
        rcases hu with hu | hu <;> simp [hu]
      · rintro ⟨hu, hne⟩
        rcases hu with hu | hu | hu
        · exact Or.inr hu
        · exact absurd hu hne
        · exact Or.inl hu
    · rw [upd_other _ _ hj]
      refine ⟨fun hu => ⟨hu, fun e => hj (h.disj j i u hu (e ▸ htmem))⟩, fun hu => hu.1⟩
  have hnd' : ∀ j, (upd R i (B ++ A) j).Nodup := by
    intro j
    by_cases hj : j = i
    · subst hj; rw [upd_same]; exact (List.nodup_cons.mp hnd).2
    · rw [upd_other _ _ hj]; exact h.nodup j
  have hdisj' : ∀ j k u, u ∈ upd R i (B ++ A) j → u ∈ upd R i (B ++ A) k → j = k := by
    intro j k u h1 h2
    exact h.disj j k u ((key j u).mp h1).1 ((key k u).mp h2).1
  have hocc' : ∀ j u, u ∈ upd R i (B ++ A) j → (s.item u).isSome := by
    intro j u h1; exact h.occ j u ((key j u).mp h1).1
  have hself' : ∀ u, (∀ j, u ∉ upd R i (B ++ A) j) → u ≠ t → (∀ j, u ∉ R j) := by
    intro u h2 hne j hj; exact h2 j ((key j u).mpr ⟨hj, hne⟩)
  cases hBA : B ++ A with
  | nil =>
    have h1 : s.nxt t = t ∧ s.prv t = t := by
      rw [hBA] at hring; simp [Ring, Path] at hring; exact hring
    have hn : e.next = t := by rw [← he2, h1.1]
    have hp : e.prev = t := by rw [← he3, h1.2]
    refine ⟨s, ?_, rfl, rfl, ?_⟩
    · simp [unlink, he, heitem, hn, hp]
    · rw [hBA] at hnd' hdisj' hocc' hself'
      refine h.transport rfl rfl (fun j => ?_) hnd' hdisj' hocc' (fun u hu h2 => ?_) (fun _ _ => rfl)
      · by_cases hj : j = i
        · subst hj; rw [upd_same]; trivial
        · rw [upd_other _ _ hj]; exact h.ring j
      · by_cases hne : u = t
        · subst hne; exact h1
        · exact h.self u hu (hself' u h2 hne)
  | cons n M' =>
    have hn : (B ++ A).head? = some n := by rw [hBA]; rfl
    obtain ⟨p, hp⟩ : ∃ p, (B ++ A).getLast? = some p := by
      cases hl : (B ++ A).getLast? with
      | none => rw [hBA] at hl; simp at hl
      | some x => exact ⟨x, rfl⟩
    obtain ⟨N, hN⟩ := List.getLast?_eq_some_iff.mp hp
    have hnmem : n ∈ R i ∧ n ≠ t := by
      rw [← key, upd_same, hBA]; simp
    have hpmem : p ∈ R i ∧ p ≠ t := by
      rw [← key, upd_same, hN]; simp
    have hnocc := h.occ i n hnmem.1
    have hpocc := h.occ i p hpmem.1
    have hnlen := lt_of_item hnocc
    have hplen := lt_of_item hpocc
    have hptr1 : s.nxt t = n ∧ s.prv n = t := by
      rw [hBA] at hring; simp [Ring, Path] at hring; exact hring.1
    have hptr2 : s.nxt p = t ∧ s.prv t = p := by
      rw [hN] at hring; simp only [Ring] at hring
      have e1 : t :: (N ++ [p]) ++ [t] = (t :: N) ++ p :: [t] := by simp
      rw [e1, Path.append] at hring
      simpa [Path] using hring.2
    have hen : e.next = n := by rw [← he2, hptr1.1]
    have hep : e.prev = p := by rw [← he3, hptr2.2]
    let s1 := s.mod t (fun e => { e with prev := t, next := t })
    have hs1i : s1.items = s.items := items_mod_of _ _ (fun _ => rfl)
    have hs1n : ∀ x, s1.nxt x = if x = t then t else s.nxt x := nxt_mod_const s t t htlen (fun _ => rfl)
    have hs1p : ∀ x, s1.prv x = if x = t then t else s.prv x := prv_mod_const s t t htlen (fun _ => rfl)
    have hs1occ : (s1.item n).isSome := by rw [item_congr hs1i]; exact hnocc
    obtain ⟨en, hen0, hen1, -, -, hen3⟩ := entry_of_item hs1occ
    have henitem : en.item.isNone = false := by cases hh : en.item <;> simp_all
    have henprev : en.prev = t := by rw [← hen3, hs1p, if_neg hnmem.2, hptr1.2]
    let s2 := s1.mod n (fun e => { e with prev := p })
    have hs2i : s2.items = s.items := by rw [← hs1i]; apply items_mod_of; intro; rfl
    have hs2n : ∀ x, s2.nxt x = if x = t then t else s.nxt x := by
      intro x; rw [← hs1n]; apply nxt_mod_same; intro; rfl
    have hs2p : ∀ x, s2.prv x = if x = n then p else if x = t then t else s.prv x := by
      intro x; rw [← hs1p]; exact prv_mod_const s1 n p (lt_of_item hs1occ) (fun _ => rfl) x
    have hs2occ : (s2.item p).isSome := by rw [item_congr hs2i]; exact hpocc
    obtain ⟨ep, hep0, hep1, -, hep2, -⟩ := entry_of_item hs2occ
    have hepitem : ep.item.isNone = false := by cases hh : ep.item <;> simp_all
    have hepnext : ep.next = t := by rw [← hep2, hs2n, if_neg hpmem.2, hptr2.1]
    let s3 := s2.mod p (fun e => { e with next := n })
    have hs3i : s3.items = s.items := by rw [← hs2i]; apply items_mod_of; intro; rfl
    have hs3n : ∀ x, s3.nxt x = if x = p then n else if x = t then t else s.nxt x := by
      intro x; rw [← hs2n]; exact nxt_mod_const s2 p n (lt_of_item hs2occ) (fun _ => rfl) x
    have hs3p : ∀ x, s3.prv x = if x = n then p else if x = t then t else s.prv x := by
      intro x; rw [← hs2p]; apply prv_mod_same; intro; rfl
    refine ⟨s3, ?_, hs3i, rfl, ?_⟩
    · unfold unlink
      simp only [he, heitem, hen, hep, hnmem.2, Bool.false_eq_true, if_false]
      simp only [s1] at hen0
      rw [hen0]
      simp only [henitem, henprev, Bool.false_eq_true, if_false, ne_eq, not_true_eq_false]
      simp only [s2, s1] at hep0
      rw [hep0]
      simp only [hepitem, hepnext, Bool.false_eq_true, if_false, not_true_eq_false, s3, s2, s1, List.head?_cons]
    · rw [← hBA]
      refine h.transport hs3i rfl (fun j => ?_) hnd' hdisj' hocc' (fun u hu h2 => ?_) (fun u hu => ?_)
      · by_cases hj : j = i
        · subst hj; rw [upd_same]
          exact Ring.unlink hring hnd hn hp hs3n hs3p
        · rw [upd_other _ _ hj]
          refine Ring.congr (fun u hu => ?_) (fun u hu => ?_) (h.ring j)
          · have a1 : u ≠ p := fun e => hj (h.disj j i u hu (e ▸ hpmem.1))
            have a2 : u ≠ t := fun e => hj (h.disj j i u hu (e ▸ htmem))
            rw [hs3n, if_neg a1, if_neg a2]
          · have a1 : u ≠ n := fun e => hj (h.disj j i u hu (e ▸ hnmem.1))
            have a2 : u ≠ t := fun e => hj (h.disj j i u hu (e ▸ htmem))
            rw [hs3p, if_neg a1, if_neg a2]
      · by_cases hne : u = t
        · subst hne
          rw [hs3n, hs3p, if_neg (Ne.symm hpmem.2), if_neg (Ne.symm hnmem.2)]; simp
        · have b1 := hself' u h2 hne
          have a1 : u ≠ p := fun e => b1 i (e ▸ hpmem.1)
          have a2 : u ≠ n := fun e => b1 i (e ▸ hnmem.1)
          rw [hs3n, hs3p, if_neg a1, if_neg hne, if_neg a2, if_neg hne]
          exact h.self u hu b1
      · have hune := (h.freeMem u).mp hu
        have a1 : u ≠ p := by intro e; rw [← e, hune.2] at hpocc; simp at hpocc
        have a2 : u ≠ t := by intro e; rw [← e, hune.2] at ht; simp at ht
        rw [hs3n, if_neg a1, if_neg a2]

/-- Unlinking a slot that is on no list does nothing. -/
theorem unlink_off {s : Slab T} {R : ι → List Nat} {F : List Nat} (h : Links s R F) {t : Nat}
    (ht : (s.item t).isSome) (hn : ∀ i, t ∉ R i) : s.unlink t = .ok (s, none) := by
  obtain ⟨h1, h2⟩ := h.self t ht hn
  obtain ⟨e, he, he1, -, he2, he3⟩ := entry_of_item ht
  have heitem : e.item.isNone = false := by cases hh : e.item <;> simp_all
  have hn : e.next = t := by rw [← he2, h1]
  have hp : e.prev = t := by rw [← he3, h2]
  simp [unlink, he, heitem, hn, hp]

/-! ### `remove` and `insert` -/

/-- Sum of `f` over all slots. -/
def sumBy (f : Option T → Nat) (s : Slab T) : Nat := (s.items.map f).sum

theorem sum_set (l : List Nat) (t x : Nat) (h : t < l.length) : (l.set t x).sum + l[t] = l.sum + x := by
  induction l generalizing t with
  | nil => simp at h
  | cons a l ih =>
    cases t with
    | zero => simp; omega
    | succ t =>
      simp only [List.length_cons, Nat.add_lt_add_iff_right] at h
      have := ih t h
      simp only [List.set_cons_succ, List.sum_cons, List.getElem_cons_succ]
      omega

theorem le_sumBy (f : Option T → Nat) (hf : f none = 0) (s : Slab T) (t : Nat) : f (s.item t) ≤ sumBy f s := by
  unfold sumBy
  rw [item_eq_items]
  generalize s.items = l
  induction l generalizing t with
  | nil => simp [hf]
  | cons a l ih =>
    cases t with
    | zero => simp
    | succ t =>
      have := ih t
      simp only [List.getElem?_cons_succ, List.map_cons, List.sum_cons]
      omega

/-- `s'` is `s` with the content of slot `t` changed from `old` to `new` (as far as items are concerned). -/
structure Upd (s s' : Slab T) (t : Nat) (old new : Option T) : Prop where
  before : s.item t = old
  item : ∀ u, s'.item u = if u = t then new else s.item u
  sum : ∀ f : Option T → Nat, f none = 0 → sumBy f s' + f old = sumBy f s + f new

theorem Upd.after {s s' : Slab T} {t : Nat} {old new : Option T} (h : Upd s s' t old new) : s'.item t = new := by
  rw [h.item]; simp

theorem Upd.other {s s' : Slab T} {t : Nat} {old new : Option T} (h : Upd s s' t old new) {u : Nat} (hu : u ≠ t) :
    s'.item u = s.item u := by
  rw [h.item]; simp [hu]

theorem Upd.of_set {s s' : Slab T} {t : Nat} {new : Option T} (ht : t < s.entries.length)
    (h : s'.items = s.items.set t new) : Upd s s' t (s.item t) new := by
  have hti : t < s.items.length := by rw [length_items]; exact ht
  refine ⟨rfl, fun u => ?_, fun f _ => ?_⟩
  · rw [item_eq_items, item_eq_items, h, List.getElem?_set]
    by_cases hu : u = t
    · subst hu; simp [hti]
    · have : ¬ t = u := fun e => hu e.symm
      simp [hu, this]
  · unfold sumBy
    rw [h, List.map_set]
    have e : f (s.item t) = (s.items.map f)[t]'(by simpa using hti) := by
      rw [List.getElem_map, item_eq_items, List.getElem?_eq_getElem hti]; rfl
    rw [e]
    exact sum_set _ t _ (by simpa using hti)

theorem Upd.trans {s s' s'' : Slab T} {t : Nat} {a b c : Option T} (h1 : Upd s s' t a b) (h2 : Upd s' s'' t b c) :
    Upd s s'' t a c := by
  refine ⟨h1.before, fun u => ?_, fun f hf => ?_⟩
  · rw [h2.item, h1.item]; split <;> simp_all
  · have := h1.sum f hf; have := h2.sum f hf; omega

theorem Upd.items_left {s s1 s' : Slab T} {t : Nat} {a b : Option T} (h : s1.items = s.items) (h1 : Upd s1 s' t a b) :
    Upd s s' t a b := by
  refine ⟨?_, fun u => ?_, fun f hf => ?_⟩
  · rw [← item_congr h]; exact h1.before
  · rw [h1.item, item_congr h]
  · have := h1.sum f hf; unfold sumBy at this ⊢; rw [← h]; exact this

theorem Upd.items_right {s s1 s' : Slab T} {t : Nat} {a b : Option T} (h : s'.items = s1.items) (h1 : Upd s s1 t a b) :
    Upd s s' t a b := by
  refine ⟨h1.before, fun u => ?_, fun f hf => ?_⟩
  · rw [item_congr h, h1.item]
  · have := h1.sum f hf; unfold sumBy at this ⊢; rw [h]; exact this

theorem Upd.setItem {s : Slab T} {t : Nat} {old : T} (ht : s.item t = some old) (x : T) :
    Upd s (s.setItem t x) t (some old) (some x) := by
  have := Upd.of_set (s' := s.setItem t x) (new := some x) (lt_of_item (s := s) (t := t) (by simp [ht]))
    (items_setItem s t x)
  rwa [ht] at this

/-- `drop` clears an occupied, self-linked slot: the second half of `remove`. -/
theorem clear_spec {s : Slab T} {R : ι → List Nat} {F : List Nat} (h : Links s R F) {t : Nat} {x : T}
    (ht : s.item t = some x) (hn : ∀ i, t ∉ R i) :
    let s' : Slab T := { entries := s.entries.modify t (fun e => { e with item := none, next := s.nextFree })
                         nextFree := t }
    Upd s s' t (some x) none ∧ Links s' R (t :: F) ∧ s'.entries.length = s.entries.length := by
  intro s'
  have hocc : (s.item t).isSome := by simp [ht]
  have htlen := lt_of_item hocc
  have hent : ∀ u, s'.entries[u]? =
      if t = u then s.entries[u]?.map (fun e => { e with item := none, next := s.nextFree }) else s.entries[u]? :=
    fun u => entries_mod s t _ u
  have hlen : s'.entries.length = s.entries.length := by simp [s']
  have hitems : s'.items = s.items.set t none := by
    apply List.ext_getElem?
    intro u
    unfold items
    rw [List.getElem?_map, hent, List.getElem?_set, List.getElem?_map]
    by_cases hu : t = u
    · subst hu; simp [htlen]
    · simp [hu]
  have hupd : Upd s s' t (some x) none := by
    have := Upd.of_set (s' := s') htlen hitems; rwa [ht] at this
  have hnx : ∀ u, u ≠ t → s'.nxt u = s.nxt u := by
    intro u hu; have : ¬ t = u := fun e => hu e.symm
    unfold nxt; rw [hent]; simp [this]
  have hpv : ∀ u, u ≠ t → s'.prv u = s.prv u := by
    intro u hu; have : ¬ t = u := fun e => hu e.symm
    unfold prv; rw [hent]; simp [this]
  have hnt : s'.nxt t = s.nextFree := by
    unfold nxt; rw [hent, List.getElem?_eq_getElem htlen]; simp
  refine ⟨hupd, ⟨fun i => ?_, h.nodup, h.disj, fun i u hu => ?_, fun u hu h2 => ?_, ?_, ?_, fun u => ?_⟩, hlen⟩
  · exact Ring.congr (fun u hu => hnx u (fun e => hn i (e ▸ hu))) (fun u hu => hpv u (fun e => hn i (e ▸ hu)))
      (h.ring i)
  · rw [hupd.other (fun e => hn i (e ▸ hu))]; exact h.occ i u hu
  · have hne : u ≠ t := by intro e; subst e; rw [hupd.after] at hu; simp at hu
    rw [hupd.other hne] at hu
    rw [hnx u hne, hpv u hne]; exact h.self u hu h2
  · simp only [FreeChain]
    refine ⟨rfl, ?_⟩
    rw [hnt]
    exact FreeChain.congr hlen (fun u hu => hnx u (fun e => h.not_free hocc (e ▸ hu))) h.free
  · exact List.nodup_cons.mpr ⟨h.not_free hocc, h.freeNodup⟩
  · rw [List.mem_cons, h.freeMem, hlen, hupd.item]
    by_cases hu : u = t
    · subst hu; simp [htlen]
    · simp [hu]

/-- Removing a slot from list `i`. -/
theorem remove_spec [DecidableEq ι] {s : Slab T} {R : ι → List Nat} {F : List Nat} (h : Links s R F) {i : ι} {t : Nat}
    {x : T} {A B : List Nat} (hR : R i = A ++ t :: B) (hx : s.item t = some x) :
    ∃ s', s.remove t = .ok (s', some (x, (B ++ A).head?)) ∧ Upd s s' t (some x) none ∧ s'.nextFree = t ∧
      s'.entries.length = s.entries.length ∧ Links s' (upd R i (B ++ A)) (t :: F) := by
  obtain ⟨s1, h1, h2, h3, h4⟩ := unlink_spec h hR
  have hx1 : s1.item t = some x := by rw [item_congr h2]; exact hx
  have hn : ∀ j, t ∉ upd R i (B ++ A) j := by
    intro j hj
    have htmem : t ∈ R i := by rw [hR]; simp
    by_cases hji : j = i
    · subst hji
      have := h.nodup j; rw [hR] at this
      have := (List.perm_middle.nodup_iff.mp this)
      rw [upd_same] at hj
      rw [List.nodup_cons] at this
      apply this.1; simp only [List.mem_append] at hj ⊢; exact hj.symm
    · rw [upd_other _ _ hji] at hj; exact hji (h.disj j i t hj htmem)
  obtain ⟨c1, c2, c3⟩ := clear_spec h4 hx1 hn
  obtain ⟨e, he, -, he1, -⟩ := entry_of_item (s := s1) (t := t) (by simp [hx1])
  have : e.item = some x := by rw [← he1, hx1]
  refine ⟨_, ?_, Upd.items_left h2 c1, rfl, ?_, c2⟩
  · unfold remove
    rw [h1]
    simp only [Res.ok_bind, he, this]
  · rw [c3, length_congr h2]

/-- Removing a slot that is on no list. -/
theorem remove_off {s : Slab T} {R : ι → List Nat} {F : List Nat} (h : Links s R F) {t : Nat} {x : T}
    (hx : s.item t = some x) (hn : ∀ i, t ∉ R i) :
    ∃ s', s.remove t = .ok (s', some (x, none)) ∧ Upd s s' t (some x) none ∧ s'.nextFree = t ∧
      s'.entries.length = s.entries.length ∧ Links s' R (t :: F) := by
  have hocc : (s.item t).isSome := by simp [hx]
  have h1 := unlink_off h hocc hn
  obtain ⟨c1, c2, c3⟩ := clear_spec h hx hn
  obtain ⟨e, he, -, he1, -⟩ := entry_of_item hocc
  have : e.item = some x := by rw [← he1, hx]
  refine ⟨_, ?_, c1, rfl, c3, c2⟩
  unfold remove
  rw [h1]
  simp only [Res.ok_bind, he, this]

theorem Links.nextFree_none {s : Slab T} {R : ι → List Nat} {F : List Nat} (h : Links s R F) :
    s.item s.nextFree = none := by
  cases F with
  | nil =>
    have := h.free
    simp only [FreeChain] at this
    unfold item; rw [this]; simp
  | cons t F =>
    have := h.free
    simp only [FreeChain] at this
    rw [this.1]; exact ((h.freeMem t).mp (by simp)).2

/-- Insertion: the new item goes in slot `nextFree`, which was free, and belongs to no list. The only failure is an
exhausted token space. -/
theorem insert_spec {s : Slab T} {R : ι → List Nat} {F : List Nat} (h : Links s R F) (x : T) :
    (s.insert x = .error .slabFull ∧ F = [] ∧ s.entries.length + 2 = 2 ^ 32) ∨
    ∃ s', s.insert x = .ok (s', s.nextFree) ∧ Upd s s' s.nextFree none (some x) ∧
      (∀ i, s.nextFree ∉ R i) ∧ Links s' R F.tail ∧
      s'.entries.length = (if F = [] then s.entries.length + 1 else s.entries.length) := by
  have hnone := h.nextFree_none
  have hnr : ∀ i, s.nextFree ∉ R i := by
    intro i hi; have := h.occ i _ hi; rw [hnone] at this; simp at this
  cases F with
  | nil =>
    have hf := h.free
    simp only [FreeChain] at hf
    have hget : s.entries[s.nextFree]? = none := by rw [hf]; simp
    by_cases hfull : s.nextFree + 2 = 2 ^ 32
    · left
      refine ⟨?_, rfl, by omega⟩
      unfold insert; simp only [hget]; simp [hf]; omega
    · right
      let s' : Slab T := { entries := s.entries ++ [⟨some x, s.nextFree, s.nextFree⟩], nextFree := s.nextFree + 1 }
      have hent : ∀ u, u ≠ s.nextFree → s'.entries[u]? = s.entries[u]? := by
        intro u hu
        simp only [s']
        by_cases hlt : u < s.entries.length
        · rw [List.getElem?_append_left hlt]
        · have h1 : s.entries.length ≤ u := by omega
          rw [List.getElem?_append_right h1, List.getElem?_eq_none (l := s.entries) h1]
          have : u - s.entries.length ≠ 0 := by omega
          rw [List.getElem?_eq_none]; simp; omega
      have hentn : s'.entries[s.nextFree]? = some ⟨some x, s.nextFree, s.nextFree⟩ := by
        simp only [s']; rw [hf]; simp
      have hupd : Upd s s' s.nextFree none (some x) := by
        refine ⟨hnone, fun u => ?_, fun f hf0 => ?_⟩
        · by_cases hu : u = s.nextFree
          · subst hu; unfold item; rw [hentn]; simp
          · unfold item; rw [hent u hu]; simp [hu]
        · unfold sumBy items; simp only [s', List.map_append, List.sum_append, hf0]; simp
      have hnx : ∀ u, u ≠ s.nextFree → s'.nxt u = s.nxt u := by
        intro u hu; unfold nxt; rw [hent u hu]
      have hpv : ∀ u, u ≠ s.nextFree → s'.prv u = s.prv u := by
        intro u hu; unfold prv; rw [hent u hu]
      refine ⟨s', ?_, hupd, hnr, ⟨fun i => ?_, h.nodup, h.disj, fun i u hu => ?_, fun u hu h2 => ?_, ?_, by simp,
        fun u => ?_⟩, by simp [s']⟩
      · unfold insert; simp only [hget]; simp [hf, s']; omega
      · exact Ring.congr (fun u hu => hnx u (fun e => hnr i (e ▸ hu))) (fun u hu => hpv u (fun e => hnr i (e ▸ hu)))
          (h.ring i)
      · rw [hupd.other (fun e => hnr i (e ▸ hu))]; exact h.occ i u hu
      · by_cases hne : u = s.nextFree
        · subst hne; unfold nxt prv; rw [hentn]; simp
        · rw [hupd.other hne] at hu
          rw [hnx u hne, hpv u hne]; exact h.self u hu h2
      · simp [FreeChain, s', hf]
      · have := h.freeMem u
        simp only [List.not_mem_nil, false_iff] at this
        simp only [List.tail_nil, List.not_mem_nil, false_iff]
        rintro ⟨h1, h2⟩
        apply this
        have hne : u ≠ s.nextFree := by intro e; subst e; rw [hupd.after] at h2; simp at h2
        rw [hupd.other hne] at h2
        refine ⟨?_, h2⟩
        simp [s'] at h1; omega
  | cons t F =>
    right
    have hf := h.free
    simp only [FreeChain] at hf
    obtain ⟨hf1, hf2⟩ := hf
    have htm := (h.freeMem t).mp (by simp)
    rw [hf1] at hnone hnr ⊢
    obtain ⟨e, he⟩ : ∃ e, s.entries[t]? = some e := ⟨_, List.getElem?_eq_getElem htm.1⟩
    have hei : e.item = none := by have := htm.2; unfold item at this; rw [he] at this; simpa using this
    have hen : e.next = s.nxt t := by unfold nxt; rw [he]; simp
    let s' : Slab T := { entries := s.entries.modify t (fun _ => ⟨some x, t, t⟩), nextFree := e.next }
    have hent : ∀ u, s'.entries[u]? =
        if t = u then s.entries[u]?.map (fun _ => ⟨some x, t, t⟩) else s.entries[u]? :=
      fun u => entries_mod s t _ u
    have hlen : s'.entries.length = s.entries.length := by simp [s']
    have hitems : s'.items = s.items.set t (some x) := by
      apply List.ext_getElem?
      intro u
      unfold items
      rw [List.getElem?_map, hent, List.getElem?_set, List.getElem?_map]
      by_cases hu : t = u
      · subst hu; simp [htm.1]
      · simp [hu]
    have hupd : Upd s s' t none (some x) := by
      have := Upd.of_set (s' := s') htm.1 hitems; rwa [htm.2] at this
    have hnx : ∀ u, u ≠ t → s'.nxt u = s.nxt u := by
      intro u hu; have : ¬ t = u := fun e => hu e.symm
      unfold nxt; rw [hent]; simp [this]
    have hpv : ∀ u, u ≠ t → s'.prv u = s.prv u := by
      intro u hu; have : ¬ t = u := fun e => hu e.symm
      unfold prv; rw [hent]; simp [this]
    have hnd := List.nodup_cons.mp h.freeNodup
    refine ⟨s', ?_, hupd, hnr, ⟨fun i => ?_, h.nodup, h.disj, fun i u hu => ?_, fun u hu h2 => ?_, ?_, hnd.2,
      fun u => ?_⟩, by simp [hlen]⟩
    · unfold insert; simp only [hf1, he]; simp [hei, s']
    · exact Ring.congr (fun u hu => hnx u (fun e => hnr i (e ▸ hu))) (fun u hu => hpv u (fun e => hnr i (e ▸ hu)))
        (h.ring i)
    · rw [hupd.other (fun e => hnr i (e ▸ hu))]; exact h.occ i u hu
    · by_cases hne : u = t
      · subst hne; unfold nxt prv; rw [hent, he]; simp
      · rw [hupd.other hne] at hu
        rw [hnx u hne, hpv u hne]; exact h.self u hu h2
    · change FreeChain s' e.next F
      rw [hen]
      refine FreeChain.congr hlen (fun u hu => hnx u (fun e => hnd.1 (e ▸ hu))) hf2
    · rw [List.tail_cons, hlen, hupd.item]
      have := h.freeMem u
      rw [List.mem_cons] at this
      by_cases hu : u = t
      · subst hu; simp [hnd.1]
      · simp [hu] at this ⊢; exact this

end Slab
end QuickCache
