import Verif.Proofs.Struct

/-!
# The shard invariant

`Inv c s`: ring structure, hash index and counters of the shard agree with the entries in the slab.
-/

namespace QuickCache
variable {K V RS : Type _}

/-! ### Classification of entries -/

/-- The ring an entry belongs to: residents of non-zero weight are on the ring of their state, ghosts on the ghost
ring, everything else is on no ring. -/
def Cfg.ringOf (c : Cfg K V RS) : Entry K V → Option RingId
  | .resident r => if c.weight r.key r.value = 0 then none else some r.state.ring
  | .placeholder _ => none
  | .ghost _ => some .ghost

/-- The ring of every slot. -/
def Cfg.rho (c : Cfg K V RS) (I : Nat → Option (Entry K V)) (t : Nat) : Option RingId := (I t).bind c.ringOf

/-- The key of an entry. -/
def keyOf : Entry K V → Option K
  | .resident r => some r.key
  | .placeholder p => some p.key
  | .ghost _ => none

/-- The key in a slot. -/
def keyAt (I : Nat → Option (Entry K V)) (t : Nat) : Option K := (I t).bind keyOf

/-- Counts residents of a state. -/
def numF (st : St) : Option (Entry K V) → Nat
  | some (.resident r) => if r.state = st then 1 else 0
  | _ => 0

/-- Sums weights of residents of a state. -/
def wgtF (c : Cfg K V RS) (st : St) : Option (Entry K V) → Nat
  | some (.resident r) => if r.state = st then c.weight r.key r.value else 0
  | _ => 0

/-- Counts ghosts. -/
def ghostF : Option (Entry K V) → Nat
  | some (.ghost _) => 1
  | _ => 0

/-! ### The hash index -/

/-- The hash index `m` corresponds to the entries `I`. -/
structure Index (c : Cfg K V RS) (I : Nat → Option (Entry K V)) (m : List (UInt64 × Nat))
    (probe : UInt64 → UInt64 → Bool) (np : Nat) : Prop where
  refl : ∀ h, probe h h = true
  nodup : (m.map (·.2)).Nodup
  hashed : ∀ h t, (h, t) ∈ m → ∃ e, I t = some e ∧ Shard.hashOf c e = h
  mapped : ∀ t e, I t = some e → (∀ p, e ≠ .placeholder p) → (Shard.hashOf c e, t) ∈ m
  uniq : ∀ h t h' t' k, (h, t) ∈ m → (h', t') ∈ m → keyAt I t = some k → keyAt I t' = some k → t = t'
  plh : ∀ t p, I t = some (.placeholder p) → p.shared.idx = t ∧ p.shared.hash = c.hash p.key ∧ p.shared.id < np
  plhUniq : ∀ t p t' p', I t = some (.placeholder p) → I t' = some (.placeholder p') →
    p.shared.id = p'.shared.id → t = t'

/-- Slot `t` is in the hash index. -/
def InMap (m : List (UInt64 × Nat)) (t : Nat) : Prop := ∃ h, (h, t) ∈ m

namespace Index
variable {c : Cfg K V RS} {I : Nat → Option (Entry K V)} {m : List (UInt64 × Nat)}
  {probe : UInt64 → UInt64 → Bool} {np : Nat}

theorem new (c : Cfg K V RS) : Index c (fun _ => none) [] (fun a b => a == b) 0 where
  refl := by simp
  nodup := by simp
  hashed := by simp
  mapped := by simp
  uniq := by simp
  plh := by simp
  plhUniq := by simp

theorem hash_of_mem (hI : Index c I m probe np) {h : UInt64} {t : Nat} {e : Entry K V} (hm : (h, t) ∈ m)
    (he : I t = some e) : Shard.hashOf c e = h := by
  obtain ⟨e', h1, h2⟩ := hI.hashed h t hm
  rw [he] at h1; cases h1; exact h2

/-- Changing the entry of an indexed slot without changing its hash. -/
theorem change (hI : Index c I m probe np) {t np' : Nat} {e e' : Entry K V} (he : I t = some e)
    (ht : (Shard.hashOf c e, t) ∈ m) (hh : Shard.hashOf c e' = Shard.hashOf c e)
    (hk : ∀ k, keyOf e' = some k → ∀ h' t', (h', t') ∈ m → keyAt I t' = some k → t' = t)
    (hp : ∀ p, e' = .placeholder p → p.shared.idx = t ∧ p.shared.hash = c.hash p.key ∧ p.shared.id < np' ∧
      ∀ t' p', I t' = some (.placeholder p') → p.shared.id = p'.shared.id → t' = t)
    (hnp : np ≤ np') : Index c (upd I t (some e')) m probe np' where
  refl := hI.refl
  nodup := hI.nodup
  hashed h u hu := by
    obtain ⟨x, h1, h2⟩ := hI.hashed h u hu
    by_cases hut : u = t
    · subst hut
      rw [he] at h1; cases h1
      exact ⟨e', by simp, by rw [hh, h2]⟩
    · exact ⟨x, by rw [upd_other _ _ hut]; exact h1, h2⟩
  mapped u x hx hnp := by
    by_cases hut : u = t
    · subst hut
      simp only [upd_same, Option.some.injEq] at hx
      subst hx; rw [hh]; exact ht
    · rw [upd_other _ _ hut] at hx; exact hI.mapped u x hx hnp
  uniq h u h' u' k h1 h2 k1 k2 := by
    unfold keyAt at k1 k2
    by_cases hu : u = t
    · subst hu
      by_cases hu' : u' = u
      · exact hu'.symm
      · rw [upd_other _ _ hu'] at k2
        simp only [upd_same, Option.bind_some] at k1
        exact (hk k k1 h' u' h2 k2).symm
    · rw [upd_other _ _ hu] at k1
      by_cases hu' : u' = t
      · subst hu'
        simp only [upd_same, Option.bind_some] at k2
        exact hk k k2 h u h1 k1
      · rw [upd_other _ _ hu'] at k2
        exact hI.uniq h u h' u' k h1 h2 k1 k2
  plh u p hu := by
    by_cases hut : u = t
    · subst hut
      simp only [upd_same, Option.some.injEq] at hu
      have := hp p hu
      exact ⟨this.1, this.2.1, this.2.2.1⟩
    · rw [upd_other _ _ hut] at hu
      have := hI.plh u p hu
      exact ⟨this.1, this.2.1, Nat.lt_of_lt_of_le this.2.2 hnp⟩
  plhUniq u p u' p' h1 h2 hid := by
    by_cases hu : u = t
    · subst hu
      by_cases hu' : u' = u
      · exact hu'.symm
      · rw [upd_other _ _ hu'] at h2
        simp only [upd_same, Option.some.injEq] at h1
        exact ((hp p h1).2.2.2 u' p' h2 hid).symm
    · rw [upd_other _ _ hu] at h1
      by_cases hu' : u' = t
      · subst hu'
        simp only [upd_same, Option.some.injEq] at h2
        exact (hp p' h2).2.2.2 u p h1 hid.symm
      · rw [upd_other _ _ hu'] at h2
        exact hI.plhUniq u p u' p' h1 h2 hid

/-- Changing the entry of an indexed slot to a resident or ghost with the same hash, keeping or forgetting the key. -/
theorem change_res (hI : Index c I m probe np) {t : Nat} {e e' : Entry K V} (he : I t = some e)
    (ht : (Shard.hashOf c e, t) ∈ m) (hh : Shard.hashOf c e' = Shard.hashOf c e)
    (hk : keyOf e' = none ∨ keyOf e' = keyOf e) (hp : ∀ p, e' ≠ .placeholder p) :
    Index c (upd I t (some e')) m probe np := by
  refine hI.change he ht hh (fun k hk' h' t' hm hkt => ?_) (fun p h => absurd h (hp p)) (Nat.le_refl _)
  rcases hk with hk | hk
  · rw [hk] at hk'; simp at hk'
  · refine hI.uniq h' t' _ t k hm ht hkt ?_
    unfold keyAt; rw [he, Option.bind_some, ← hk]; exact hk'

/-- Adding a new slot. -/
theorem add (hI : Index c I m probe np) {t np' : Nat} {e : Entry K V} (he : I t = none)
    (hk : ∀ k, keyOf e = some k → ∀ h' t', (h', t') ∈ m → keyAt I t' ≠ some k)
    (hp : ∀ p, e = .placeholder p → p.shared.idx = t ∧ p.shared.hash = c.hash p.key ∧ p.shared.id < np' ∧
      ∀ t' p', I t' = some (.placeholder p') → p.shared.id ≠ p'.shared.id)
    (hnp : np ≤ np') : Index c (upd I t (some e)) (m ++ [(Shard.hashOf c e, t)]) probe np' := by
  have hfresh : ∀ h u, (h, u) ∈ m → u ≠ t := by
    intro h u hu e'; subst e'
    obtain ⟨x, h1, -⟩ := hI.hashed h u hu
    rw [he] at h1; cases h1
  refine ⟨hI.refl, ?_, ?_, ?_, ?_, ?_, ?_⟩
  · rw [List.map_append, List.nodup_append]
    refine ⟨hI.nodup, by simp, ?_⟩
    intro a ha b hb
    simp only [List.map_cons, List.map_nil, List.mem_singleton] at hb
    simp only [List.mem_map] at ha
    obtain ⟨⟨h, u⟩, hu, rfl⟩ := ha
    subst hb; exact hfresh h u hu
  · intro h u hu
    rw [List.mem_append] at hu
    rcases hu with hu | hu
    · obtain ⟨x, h1, h2⟩ := hI.hashed h u hu
      exact ⟨x, by rw [upd_other _ _ (hfresh h u hu)]; exact h1, h2⟩
    · simp only [List.mem_singleton, Prod.mk.injEq] at hu
      obtain ⟨rfl, rfl⟩ := hu
      exact ⟨e, by simp, rfl⟩
  · intro u x hx hnp
    rw [List.mem_append]
    by_cases hut : u = t
    · subst hut
      simp only [upd_same, Option.some.injEq] at hx
      subst hx; right; simp
    · rw [upd_other _ _ hut] at hx; left; exact hI.mapped u x hx hnp
  · intro h u h' u' k h1 h2 k1 k2
    unfold keyAt at k1 k2
    rw [List.mem_append] at h1 h2
    by_cases hu : u = t
    · subst hu
      by_cases hu' : u' = u
      · exact hu'.symm
      · exfalso
        rw [upd_other _ _ hu'] at k2
        simp only [upd_same, Option.bind_some] at k1
        rcases h2 with h2 | h2
        · exact hk k k1 h' u' h2 k2
        · simp at h2; exact hu' h2.2
    · rw [upd_other _ _ hu] at k1
      have h1' : (h, u) ∈ m := by
        rcases h1 with h1 | h1
        · exact h1
        · simp at h1; exact absurd h1.2 hu
      by_cases hu' : u' = t
      · subst hu'
        simp only [upd_same, Option.bind_some] at k2
        exact absurd k1 (hk k k2 h u h1')
      · rw [upd_other _ _ hu'] at k2
        have h2' : (h', u') ∈ m := by
          rcases h2 with h2 | h2
          · exact h2
          · simp at h2; exact absurd h2.2 hu'
        exact hI.uniq h u h' u' k h1' h2' k1 k2
  · intro u p hu
    by_cases hut : u = t
    · subst hut
      simp only [upd_same, Option.some.injEq] at hu
      have := hp p hu
      exact ⟨this.1, this.2.1, this.2.2.1⟩
    · rw [upd_other _ _ hut] at hu
      have := hI.plh u p hu
      exact ⟨this.1, this.2.1, Nat.lt_of_lt_of_le this.2.2 hnp⟩
  · intro u p u' p' h1 h2 hid
    by_cases hu : u = t
    · subst hu
      by_cases hu' : u' = u
      · exact hu'.symm
      · rw [upd_other _ _ hu'] at h2
        simp only [upd_same, Option.some.injEq] at h1
        exact absurd hid ((hp p h1).2.2.2 u' p' h2)
    · rw [upd_other _ _ hu] at h1
      by_cases hu' : u' = t
      · subst hu'
        simp only [upd_same, Option.some.injEq] at h2
        exact absurd hid.symm ((hp p' h2).2.2.2 u p h1)
      · rw [upd_other _ _ hu'] at h2
        exact hI.plhUniq u p u' p' h1 h2 hid

theorem nodup_filter (hn : (m.map (·.2)).Nodup) (f : UInt64 × Nat → Bool) : ((m.filter f).map (·.2)).Nodup := by
  induction m with
  | nil => simp
  | cons b m ih =>
    simp only [List.map_cons, List.nodup_cons] at hn
    by_cases hb : f b
    · simp only [List.filter_cons, hb, if_true, List.map_cons, List.nodup_cons]
      refine ⟨fun h => hn.1 ?_, ih hn.2⟩
      simp only [List.mem_map, List.mem_filter] at h ⊢
      obtain ⟨a, ⟨h1, -⟩, h2⟩ := h
      exact ⟨a, h1, h2⟩
    · simp only [List.filter_cons, hb]; exact ih hn.2

/-- Freeing a slot and dropping its bucket. -/
theorem del (hI : Index c I m probe np) (t : Nat) :
    Index c (upd I t none) (m.filter (fun b => b.2 != t)) probe np where
  refl := hI.refl
  nodup := nodup_filter hI.nodup _
  hashed h u hu := by
    simp only [List.mem_filter, bne_iff_ne, ne_eq] at hu
    rw [upd_other _ _ hu.2]; exact hI.hashed h u hu.1
  mapped u x hx hnp := by
    by_cases hut : u = t
    · subst hut; simp at hx
    · rw [upd_other _ _ hut] at hx
      simp only [List.mem_filter, bne_iff_ne, ne_eq]
      exact ⟨hI.mapped u x hx hnp, hut⟩
  uniq h u h' u' k h1 h2 k1 k2 := by
    simp only [List.mem_filter, bne_iff_ne, ne_eq] at h1 h2
    unfold keyAt at k1 k2
    rw [upd_other _ _ h1.2] at k1
    rw [upd_other _ _ h2.2] at k2
    exact hI.uniq h u h' u' k h1.1 h2.1 k1 k2
  plh u p hu := by
    by_cases hut : u = t
    · subst hut; simp at hu
    · rw [upd_other _ _ hut] at hu; exact hI.plh u p hu
  plhUniq u p u' p' h1 h2 hid := by
    by_cases hu : u = t
    · subst hu; simp at h1
    · by_cases hu' : u' = t
      · subst hu'; simp at h2
      · rw [upd_other _ _ hu] at h1; rw [upd_other _ _ hu'] at h2
        exact hI.plhUniq u p u' p' h1 h2 hid

/-- Dropping the bucket of a placeholder, keeping the slot. -/
theorem unmap (hI : Index c I m probe np) {t : Nat} {p : Placeholder K} (ht : I t = some (.placeholder p)) :
    Index c I (m.filter (fun b => b.2 != t)) probe np where
  refl := hI.refl
  nodup := nodup_filter hI.nodup _
  hashed h u hu := by
    simp only [List.mem_filter] at hu
    exact hI.hashed h u hu.1
  mapped u x hx hnp := by
    simp only [List.mem_filter, bne_iff_ne, ne_eq]
    refine ⟨hI.mapped u x hx hnp, ?_⟩
    intro hut; subst hut; rw [ht] at hx; cases hx; exact hnp p rfl
  uniq h u h' u' k h1 h2 k1 k2 := by
    simp only [List.mem_filter] at h1 h2
    exact hI.uniq h u h' u' k h1.1 h2.1 k1 k2
  plh := hI.plh
  plhUniq := hI.plhUniq

/-- Another layout of the same buckets. -/
theorem relayout (hI : Index c I m probe np) {m' : List (UInt64 × Nat)} {p' : UInt64 → UInt64 → Bool}
    (hm : m'.Perm m) (hp : ∀ h, p' h h = true) : Index c I m' p' np where
  refl := hp
  nodup := ((hm.map _).nodup_iff).mpr hI.nodup
  hashed h t ht := hI.hashed h t (hm.mem_iff.mp ht)
  mapped t e he hn := hm.mem_iff.mpr (hI.mapped t e he hn)
  uniq h t h' t' k h1 h2 := hI.uniq h t h' t' k (hm.mem_iff.mp h1) (hm.mem_iff.mp h2)
  plh := hI.plh
  plhUniq := hI.plhUniq

theorem congr (hI : Index c I m probe np) {I' : Nat → Option (Entry K V)} (h : ∀ t, I' t = I t) :
    Index c I' m probe np := by
  have : I' = I := funext h
  rw [this]; exact hI

/-- Two live residents with the same key are the same slot. -/
theorem resident_uniq (hI : Index c I m probe np) {t t' : Nat} {r r' : Resident K V}
    (h1 : I t = some (.resident r)) (h2 : I t' = some (.resident r')) (hk : r.key = r'.key) : t = t' := by
  refine hI.uniq _ t _ t' r.key (hI.mapped t _ h1 (by simp)) (hI.mapped t' _ h2 (by simp)) ?_ ?_
  · unfold keyAt; rw [h1]; rfl
  · unfold keyAt; rw [h2, hk]; rfl

end Index

/-! ### Index operations of the model -/

theorem eraseP_eq_filter {m : List (UInt64 × Nat)} {t : Nat} (p : UInt64 × Nat → Bool)
    (hn : (m.map (·.2)).Nodup) (h1 : ∀ b ∈ m, p b = true → b.2 = t) (h2 : ∀ b ∈ m, b.2 = t → p b = true) :
    m.eraseP p = m.filter (fun b => b.2 != t) := by
  induction m with
  | nil => simp
  | cons b m ih =>
    simp only [List.map_cons, List.nodup_cons] at hn
    have h1' : ∀ b ∈ m, p b = true → b.2 = t := fun a ha => h1 a (by simp [ha])
    have h2' : ∀ b ∈ m, b.2 = t → p b = true := fun a ha => h2 a (by simp [ha])
    by_cases hb : p b = true
    · have hbt := h1 b (by simp) hb
      rw [List.eraseP_cons_of_pos hb]
      simp only [List.filter_cons, hbt, bne_self_eq_false, Bool.false_eq_true, if_false]
      symm
      rw [List.filter_eq_self]
      intro a ha
      simp only [bne_iff_ne, ne_eq]
      intro e
      apply hn.1
      rw [hbt, ← e]
      exact List.mem_map_of_mem ha
    · have hbt : b.2 ≠ t := fun e => hb (h2 b (by simp) e)
      rw [List.eraseP_cons_of_neg hb, ih hn.2 h1' h2']
      simp [hbt]

namespace Shard
variable {c : Cfg K V RS} {s : Shard K V}

theorem mapRemove_spec {I : Nat → Option (Entry K V)} (hI : Index c I s.map s.probe s.nextPlh) {h : UInt64}
    {t : Nat} (ht : (h, t) ∈ s.map) :
    s.mapRemove h t = .ok { s with map := s.map.filter (fun b => b.2 != t) } := by
  have hany : s.map.any (fun b => s.probe h b.1 && b.2 == t) = true := by
    rw [List.any_eq_true]
    exact ⟨(h, t), ht, by simp [hI.refl]⟩
  unfold mapRemove
  rw [if_pos hany]
  have : s.map.eraseP (fun b => s.probe h b.1 && b.2 == t) = s.map.filter (fun b => b.2 != t) := by
    apply eraseP_eq_filter _ hI.nodup
    · intro b _ hb
      simp only [Bool.and_eq_true, beq_iff_eq] at hb
      exact hb.2
    · intro b hb hbt
      have : b.1 = h := by
        obtain ⟨h', t'⟩ := b
        simp only at hbt; subst hbt
        obtain ⟨e1, g1, g2⟩ := hI.hashed _ _ hb
        obtain ⟨e2, g3, g4⟩ := hI.hashed _ _ ht
        rw [g1] at g3; cases g3
        exact g2.symm.trans g4
      simp [this, hI.refl, hbt]
  rw [this]

theorem rehash_spec {sl : Slab (Entry K V)} : ∀ {m : List (UInt64 × Nat)},
    (∀ h t, (h, t) ∈ m → ∃ e, sl.item t = some e ∧ hashOf c e = h) → rehash c sl m = .ok m
  | [], _ => rfl
  | (h, t) :: m, hm => by
    obtain ⟨e, h1, h2⟩ := hm h t (by simp)
    unfold rehash
    rw [Slab.get_eq, h1]
    simp only [Option.map_some]
    rw [rehash_spec (fun h t ht => hm h t (by simp [ht]))]
    simp [h2]

theorem mem_iterHash {h : UInt64} {t : Nat} :
    t ∈ s.iterHash h ↔ ∃ h', (h', t) ∈ s.map ∧ s.probe h h' = true := by
  unfold iterHash
  simp only [List.mem_map, List.mem_filter]
  constructor
  · rintro ⟨⟨h', t'⟩, ⟨h1, h2⟩, rfl⟩; exact ⟨h', h1, h2⟩
  · rintro ⟨h', h1, h2⟩; exact ⟨(h', t), ⟨h1, h2⟩, rfl⟩

theorem searchResidentLoop_spec {sl : Slab (Entry K V)} {eqv : K → Bool} : ∀ {l : List Nat},
    (∀ t ∈ l, (sl.item t).isSome) →
    (∃ t r, searchResidentLoop sl eqv l = .ok (some (t, r)) ∧ t ∈ l ∧ sl.item t = some (.resident r) ∧ eqv r.key = true) ∨
    (searchResidentLoop sl eqv l = .ok none ∧ ∀ t ∈ l, ∀ r, sl.item t = some (.resident r) → eqv r.key = false)
  | [], _ => by right; exact ⟨rfl, by simp⟩
  | t :: l, hl => by
    have hrec := searchResidentLoop_spec (sl := sl) (eqv := eqv) (l := l) (fun u hu => hl u (by simp [hu]))
    have ht := hl t (by simp)
    have lift : ∀ x, searchResidentLoop sl eqv (t :: l) = searchResidentLoop sl eqv l →
        sl.item t = some x → (∀ r, x = .resident r → eqv r.key = false) →
        ((∃ u r, searchResidentLoop sl eqv (t :: l) = .ok (some (u, r)) ∧ u ∈ t :: l ∧
          sl.item u = some (.resident r) ∧ eqv r.key = true) ∨
        (searchResidentLoop sl eqv (t :: l) = .ok none ∧
          ∀ u ∈ t :: l, ∀ r, sl.item u = some (.resident r) → eqv r.key = false)) := by
      intro x heq hx hne
      rw [heq]
      rcases hrec with ⟨u, r, h1, h2, h3, h4⟩ | ⟨h1, h2⟩
      · left; exact ⟨u, r, h1, by simp [h2], h3, h4⟩
      · right; refine ⟨h1, ?_⟩
        intro u hu r hr
        simp only [List.mem_cons] at hu
        rcases hu with rfl | hu
        · rw [hx] at hr; cases hr; exact hne r rfl
        · exact h2 u hu r hr
    cases hx : sl.item t with
    | none => rw [hx] at ht; simp at ht
    | some e =>
      cases e with
      | resident r =>
        by_cases hr : eqv r.key = true
        · left
          refine ⟨t, r, ?_, by simp, hx, hr⟩
          unfold searchResidentLoop
          rw [Slab.get_eq, hx]; simp [hr]
        · refine lift _ ?_ hx ?_
          · conv => lhs; unfold searchResidentLoop
            rw [Slab.get_eq, hx]; simp [hr]
          · intro r' h'; cases h'; simpa using hr
      | placeholder p =>
        refine lift _ ?_ hx (by simp)
        conv => lhs; unfold searchResidentLoop
        rw [Slab.get_eq, hx]; simp
      | ghost g =>
        refine lift _ ?_ hx (by simp)
        conv => lhs; unfold searchResidentLoop
        rw [Slab.get_eq, hx]; simp

theorem searchLoop_spec {sl : Slab (Entry K V)} {h : UInt64} {eqv : K → Bool} : ∀ {l : List Nat} (acc : Option Nat),
    (∀ t ∈ l, (sl.item t).isSome) →
    (∃ t e k, searchLoop sl h eqv l acc = .ok (some t) ∧ t ∈ l ∧ sl.item t = some e ∧ keyOf e = some k ∧ eqv k = true) ∨
    ((∀ t ∈ l, ∀ e k, sl.item t = some e → keyOf e = some k → eqv k = false) ∧
      ((∃ t, searchLoop sl h eqv l acc = .ok (some t) ∧ t ∈ l ∧ sl.item t = some (.ghost h)) ∨
       (searchLoop sl h eqv l acc = .ok acc ∧ ∀ t ∈ l, sl.item t ≠ some (.ghost h))))
  | [], acc, _ => by right; exact ⟨by simp, Or.inr ⟨rfl, by simp⟩⟩
  | t :: l, acc, hl => by
    have hrec := fun acc => searchLoop_spec (sl := sl) (h := h) (eqv := eqv) (l := l) acc
      (fun u hu => hl u (by simp [hu]))
    have ht := hl t (by simp)
    have lift : ∀ x acc', searchLoop sl h eqv (t :: l) acc = searchLoop sl h eqv l acc' →
        sl.item t = some x → (∀ k, keyOf x = some k → eqv k = false) →
        ((x = .ghost h ∧ acc' = some t) ∨ (x ≠ .ghost h ∧ acc' = acc)) →
        ((∃ u e k, searchLoop sl h eqv (t :: l) acc = .ok (some u) ∧ u ∈ t :: l ∧ sl.item u = some e ∧
          keyOf e = some k ∧ eqv k = true) ∨
        ((∀ u ∈ t :: l, ∀ e k, sl.item u = some e → keyOf e = some k → eqv k = false) ∧
          ((∃ u, searchLoop sl h eqv (t :: l) acc = .ok (some u) ∧ u ∈ t :: l ∧ sl.item u = some (.ghost h)) ∨
           (searchLoop sl h eqv (t :: l) acc = .ok acc ∧ ∀ u ∈ t :: l, sl.item u ≠ some (.ghost h))))) := by
      intro x acc' heq hx hne hacc
      rw [heq]
      rcases hrec acc' with ⟨u, e, k, h1, h2, h3, h4, h5⟩ | ⟨h0, hg⟩
      · left; exact ⟨u, e, k, h1, by simp [h2], h3, h4, h5⟩
      · right
        refine ⟨?_, ?_⟩
        · intro u hu e k he hk
          simp only [List.mem_cons] at hu
          rcases hu with rfl | hu
          · rw [hx] at he; cases he; exact hne k hk
          · exact h0 u hu e k he hk
        · rcases hg with ⟨u, h1, h2, h3⟩ | ⟨h1, h2⟩
          · left; exact ⟨u, h1, by simp [h2], h3⟩
          · rcases hacc with ⟨ha, hb⟩ | ⟨ha, hb⟩
            · left; exact ⟨t, by rw [h1, hb], by simp, by rw [hx, ha]⟩
            · right; refine ⟨by rw [h1, hb], ?_⟩
              intro u hu
              simp only [List.mem_cons] at hu
              rcases hu with rfl | hu
              · rw [hx]; simpa using ha
              · exact h2 u hu
    cases hx : sl.item t with
    | none => rw [hx] at ht; simp at ht
    | some e =>
      cases e with
      | resident r =>
        by_cases hr : eqv r.key = true
        · left
          refine ⟨t, _, r.key, ?_, by simp, hx, rfl, hr⟩
          unfold searchLoop
          rw [Slab.get_eq, hx]; simp [hr]
        · refine lift _ acc ?_ hx ?_ (Or.inr ⟨by simp, rfl⟩)
          · conv => lhs; unfold searchLoop
            rw [Slab.get_eq, hx]; simp [hr]
          · intro k hk; simp only [keyOf, Option.some.injEq] at hk; subst hk; simpa using hr
      | placeholder p =>
        by_cases hr : eqv p.key = true
        · left
          refine ⟨t, _, p.key, ?_, by simp, hx, rfl, hr⟩
          unfold searchLoop
          rw [Slab.get_eq, hx]; simp [hr]
        · refine lift _ acc ?_ hx ?_ (Or.inr ⟨by simp, rfl⟩)
          · conv => lhs; unfold searchLoop
            rw [Slab.get_eq, hx]; simp [hr]
          · intro k hk; simp only [keyOf, Option.some.injEq] at hk; subst hk; simpa using hr
      | ghost g =>
        refine lift _ (if g = h then some t else acc) ?_ hx (by simp [keyOf]) ?_
        · conv => lhs; unfold searchLoop
          rw [Slab.get_eq, hx]; simp
        · by_cases hg : g = h
          · left; simp [hg]
          · right; simp [hg]

end Shard

/-- The contract of a query `Q: Hash + Equivalent<Key>`: it hashes like the keys it is equivalent to, and it is
equivalent to at most one key. -/
structure Lawful (c : Cfg K V RS) (h : UInt64) (eqv : K → Bool) : Prop where
  hash : ∀ k, eqv k = true → c.hash k = h
  one : ∀ k k', eqv k = true → eqv k' = true → k = k'

theorem Lawful.key [DecidableEq K] (c : Cfg K V RS) (k : K) : Lawful c (c.hash k) (fun x => x == k) where
  hash x hx := by simp only [beq_iff_eq] at hx; rw [hx]
  one x y hx hy := by simp only [beq_iff_eq] at hx hy; rw [hx, hy]

namespace Shard
variable {c : Cfg K V RS} {s : Shard K V} {h : UInt64} {eqv : K → Bool}

theorem iterHash_occ (hI : Index c s.entries.item s.map s.probe s.nextPlh) :
    ∀ t ∈ s.iterHash h, (s.entries.item t).isSome := by
  intro t ht
  rw [mem_iterHash] at ht
  obtain ⟨h', h1, -⟩ := ht
  obtain ⟨e, h2, -⟩ := hI.hashed h' t h1
  simp [h2]

/-- `search_resident` finds the resident equivalent to the query, if any. -/
theorem searchResident_spec (hI : Index c s.entries.item s.map s.probe s.nextPlh) (hq : Lawful c h eqv) :
    (∃ t r, s.searchResident h eqv = .ok (some (t, r)) ∧ s.entries.item t = some (.resident r) ∧ eqv r.key = true) ∨
    (s.searchResident h eqv = .ok none ∧
      ∀ t r, s.entries.item t = some (.resident r) → eqv r.key = false) := by
  unfold searchResident
  rcases searchResidentLoop_spec (sl := s.entries) (eqv := eqv) (l := s.iterHash h) (iterHash_occ hI) with
    ⟨t, r, h1, h2, h3, h4⟩ | ⟨h1, h2⟩
  · left; exact ⟨t, r, h1, h3, h4⟩
  · right
    refine ⟨h1, fun t r hr => ?_⟩
    cases he : eqv r.key with
    | false => rfl
    | true =>
      have hm := hI.mapped t _ hr (by simp)
      have : t ∈ s.iterHash h := by
        rw [mem_iterHash]
        refine ⟨_, hm, ?_⟩
        simp only [hashOf]
        rw [hq.hash _ he]; exact hI.refl h
      rw [← he, h2 t this r hr]

/-- `search` finds the indexed entry whose key is equivalent to the query, else a ghost with the query's hash. -/
theorem search_spec (hI : Index c s.entries.item s.map s.probe s.nextPlh) (hq : Lawful c h eqv) :
    (∃ t e k, s.search h eqv = .ok (some t) ∧ (h, t) ∈ s.map ∧ s.entries.item t = some e ∧ keyOf e = some k ∧
      eqv k = true) ∨
    ((∀ h' t k, (h', t) ∈ s.map → keyAt s.entries.item t = some k → eqv k = false) ∧
      ((∃ t, s.search h eqv = .ok (some t) ∧ (h, t) ∈ s.map ∧ s.entries.item t = some (.ghost h)) ∨
       (s.search h eqv = .ok none ∧ ∀ t, s.entries.item t ≠ some (.ghost h)))) := by
  unfold search
  rcases searchLoop_spec (sl := s.entries) (h := h) (eqv := eqv) (l := s.iterHash h) none (iterHash_occ hI) with
    ⟨t, e, k, h1, h2, h3, h4, h5⟩ | ⟨h0, hg⟩
  · left
    refine ⟨t, e, k, h1, ?_, h3, h4, h5⟩
    rw [mem_iterHash] at h2
    obtain ⟨h', h6, -⟩ := h2
    have := hI.hash_of_mem h6 h3
    have hk : hashOf c e = h := by
      rw [← hq.hash k h5]
      cases e with
      | resident r => simp only [keyOf, Option.some.injEq] at h4; simp [hashOf, h4]
      | placeholder p => simp only [keyOf, Option.some.injEq] at h4; simp [hashOf, h4]
      | ghost g => simp [keyOf] at h4
    rw [hk] at this; rw [this]; exact h6
  · right
    refine ⟨?_, ?_⟩
    · intro h' t k hm hk
      cases he : eqv k with
      | false => rfl
      | true =>
        obtain ⟨e, g1, g2⟩ := hI.hashed h' t hm
        unfold keyAt at hk
        rw [g1, Option.bind_some] at hk
        have : t ∈ s.iterHash h := by
          rw [mem_iterHash]
          refine ⟨h', hm, ?_⟩
          have : h' = h := by
            rw [← g2, ← hq.hash k he]
            cases e with
            | resident r => simp only [keyOf, Option.some.injEq] at hk; simp [hashOf, hk]
            | placeholder p => simp only [keyOf, Option.some.injEq] at hk; simp [hashOf, hk]
            | ghost g => simp [keyOf] at hk
          rw [this]; exact hI.refl h
        rw [← he, h0 t this e k g1 hk]
    · have inl : ∀ t, s.entries.item t = some (.ghost h) → (h, t) ∈ s.map ∧ t ∈ s.iterHash h := by
        intro t ht
        have := hI.mapped t _ ht (by simp)
        simp only [hashOf] at this
        exact ⟨this, by rw [mem_iterHash]; exact ⟨h, this, hI.refl h⟩⟩
      rcases hg with ⟨t, h1, h2, h3⟩ | ⟨h1, h2⟩
      · left; exact ⟨t, h1, (inl t h3).1, h3⟩
      · right; exact ⟨h1, fun t ht => h2 t (inl t ht).2 ht⟩

end Shard

/-! ### Counters -/

/-- Every counter equals the quantity it counts. -/
structure Counts (c : Cfg K V RS) (s : Shard K V) : Prop where
  num : ∀ st, s.num st = Slab.sumBy (numF st) s.entries
  wgt : ∀ st, s.wgt st = Slab.sumBy (wgtF c st) s.entries
  ghost : s.numNonResident = Slab.sumBy ghostF s.entries

theorem Counts.update {c : Cfg K V RS} {s s' : Shard K V} (h : Counts c s) {t : Nat} {old new : Option (Entry K V)}
    (hu : Slab.Upd s.entries s'.entries t old new)
    (hn : ∀ st, s'.num st + numF st old = s.num st + numF st new)
    (hw : ∀ st, s'.wgt st + wgtF c st old = s.wgt st + wgtF c st new)
    (hg : s'.numNonResident + ghostF old = s.numNonResident + ghostF new) : Counts c s' where
  num st := by
    have := hu.sum (numF st) rfl
    have := hn st; have := h.num st; omega
  wgt st := by
    have := hu.sum (wgtF c st) rfl
    have := hw st; have := h.wgt st; omega
  ghost := by
    have := hu.sum ghostF rfl
    have := h.ghost; omega

/-! ### The invariant -/

/-- The shard invariant, except for the bound on ghosts. -/
structure Inv0 (c : Cfg K V RS) (s : Shard K V) : Prop where
  str : Struct s.entries s.head (c.rho s.entries.item)
  idx : Index c s.entries.item s.map s.probe s.nextPlh
  cnt : Counts c s

/-- The shard invariant. -/
structure Inv (c : Cfg K V RS) (s : Shard K V) : Prop extends Inv0 c s where
  ghosts : s.numNonResident ≤ s.capacityNonResident

theorem Inv.new (c : Cfg K V RS) (a b g : Nat) : Inv c (Shard.new a b g : Shard K V) where
  str := by
    have : (Shard.new a b g : Shard K V).head = fun _ => none := by funext i; cases i <;> rfl
    rw [this]
    exact Struct.new _ (by intro t; simp [Cfg.rho, Shard.new, Slab.new, Slab.item])
  idx := Index.congr (Index.new c) (by intro t; simp [Shard.new, Slab.new, Slab.item])
  cnt := by
    constructor
    · intro st; cases st <;> rfl
    · intro st; cases st <;> rfl
    · rfl
  ghosts := by simp [Shard.new]

end QuickCache
