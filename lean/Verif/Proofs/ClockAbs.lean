import Verif.Spec.Clock
import Verif.Proofs.Abs

/-!
# From the shard to the abstract clock machine

`Shard.abs s R` is the abstract cache that a shard `s` with the rings `R` stands for.
-/

namespace QuickCache
variable {K V RS : Type _}
open Spec

/-- The item a resident stands for. -/
def Resident.item (r : Resident K V) : Item V := ⟨r.value, decide (r.state = .hot), r.referenced⟩

/-- The keys in the slots of a ring. -/
def klist (I : Nat → Option (Entry K V)) (l : List Nat) : List K := l.filterMap (keyAt I)

/-- The hash of a ghost. -/
def ghostAt (I : Nat → Option (Entry K V)) (t : Nat) : Option UInt64 :=
  match I t with
  | some (.ghost h) => some h
  | _ => none

/-- The hashes of the ghosts in the slots of a ring. -/
def glist (I : Nat → Option (Entry K V)) (l : List Nat) : List UInt64 := l.filterMap (ghostAt I)

section
variable [DecidableEq K]

/-- The kind of the placeholder of `k` in slot `t`. -/
def plhAt (I : Nat → Option (Entry K V)) (k : K) (t : Nat) : Option Bool :=
  match I t with
  | some (.placeholder ph) => if ph.key = k then some (decide (ph.hot = .hot)) else none
  | _ => none

namespace Shard

/-- The pending load of `k`. -/
def pend (s : Shard K V) (k : K) : Option Bool := s.map.findSome? (fun b => plhAt s.entries.item k b.2)

/-- The abstract cache of a shard with the rings `R`. -/
def abs (s : Shard K V) (R : RingId → List Nat) : Clock K V where
  target := s.weightTargetHot
  cap := s.weightCapacity
  ghostCap := s.capacityNonResident
  items := fun k => (s.info k).map Resident.item
  pending := s.pend
  hot := klist s.entries.item (R .hot)
  cold := klist s.entries.item (R .cold)
  ghosts := glist s.entries.item (R .ghost)

end Shard
end

/-! ### Lists of keys -/

@[simp] theorem klist_nil (I : Nat → Option (Entry K V)) : klist I [] = [] := rfl
@[simp] theorem klist_append (I : Nat → Option (Entry K V)) (A B : List Nat) :
    klist I (A ++ B) = klist I A ++ klist I B := List.filterMap_append ..
theorem klist_cons {I : Nat → Option (Entry K V)} {t : Nat} {k : K} (h : keyAt I t = some k) (l : List Nat) :
    klist I (t :: l) = k :: klist I l := by simp [klist, h]
theorem mem_klist {I : Nat → Option (Entry K V)} {l : List Nat} {k : K} :
    k ∈ klist I l ↔ ∃ t ∈ l, keyAt I t = some k := by simp [klist]
@[simp] theorem glist_nil (I : Nat → Option (Entry K V)) : glist I [] = [] := rfl
@[simp] theorem glist_append (I : Nat → Option (Entry K V)) (A B : List Nat) :
    glist I (A ++ B) = glist I A ++ glist I B := List.filterMap_append ..
theorem glist_cons {I : Nat → Option (Entry K V)} {t : Nat} {h : UInt64} (ht : I t = some (.ghost h)) (l : List Nat) :
    glist I (t :: l) = h :: glist I l := by simp [glist, ghostAt, ht]
theorem mem_glist {I : Nat → Option (Entry K V)} {l : List Nat} {h : UInt64} :
    h ∈ glist I l ↔ ∃ t ∈ l, I t = some (.ghost h) := by
  simp only [glist, List.mem_filterMap, ghostAt]
  constructor
  · rintro ⟨t, h1, h2⟩
    refine ⟨t, h1, ?_⟩
    split at h2
    · rename_i h3; cases h2; exact h3
    · cases h2
  · rintro ⟨t, h1, h2⟩
    exact ⟨t, h1, by rw [h2]⟩

theorem keyAt_res {I : Nat → Option (Entry K V)} {t : Nat} {r : Resident K V} (h : I t = some (.resident r)) :
    keyAt I t = some r.key := by simp [keyAt, h, keyOf]

theorem filterMap_congr_mem {α β : Type _} {f g : α → Option β} {l : List α} (h : ∀ x ∈ l, f x = g x) :
    l.filterMap f = l.filterMap g := by
  induction l with
  | nil => rfl
  | cons a l ih =>
    rw [List.filterMap_cons, List.filterMap_cons, h a (by simp), ih (fun x hx => h x (by simp [hx]))]

theorem klist_upd_off (I : Nat → Option (Entry K V)) {t : Nat} (new : Option (Entry K V)) {l : List Nat} (h : t ∉ l) :
    klist (upd I t new) l = klist I l :=
  filterMap_congr_mem (fun x hx => by
    have : x ≠ t := by rintro rfl; exact h hx
    simp [keyAt, upd_other _ _ this])

theorem klist_upd_key (I : Nat → Option (Entry K V)) {t : Nat} {new : Option (Entry K V)} (l : List Nat)
    (h : new.bind keyOf = keyAt I t) : klist (upd I t new) l = klist I l :=
  filterMap_congr_mem (fun x hx => by
    by_cases hx : x = t
    · subst hx; rw [← h]; simp [keyAt]
    · simp [keyAt, upd_other _ _ hx])

theorem glist_upd_off (I : Nat → Option (Entry K V)) {t : Nat} (new : Option (Entry K V)) {l : List Nat} (h : t ∉ l) :
    glist (upd I t new) l = glist I l :=
  filterMap_congr_mem (fun x hx => by
    have : x ≠ t := by rintro rfl; exact h hx
    simp [ghostAt, upd_other _ _ this])

theorem glist_upd_res (I : Nat → Option (Entry K V)) {t : Nat} {new : Option (Entry K V)} (l : List Nat)
    (ho : ∀ h, I t ≠ some (.ghost h)) (hn : ∀ h, new ≠ some (.ghost h)) : glist (upd I t new) l = glist I l :=
  filterMap_congr_mem (fun x hx => by
    by_cases hx : x = t
    · subst hx
      unfold ghostAt
      rw [upd_same]
      split
      · exact absurd rfl (hn _)
      · rfl
    · simp [ghostAt, upd_other _ _ hx])

/-! ### Pending loads -/

section
variable [DecidableEq K] {c : Cfg K V RS} {s s' : Shard K V}

theorem plhAt_some {I : Nat → Option (Entry K V)} {k : K} {t : Nat} {b : Bool} :
    plhAt I k t = some b ↔ ∃ ph, I t = some (.placeholder ph) ∧ ph.key = k ∧ b = decide (ph.hot = .hot) := by
  unfold plhAt
  split
  · rename_i ph h
    split
    · rename_i hk
      simp only [Option.some.injEq, h]
      constructor
      · intro hb; exact ⟨ph, rfl, hk, hb.symm⟩
      · rintro ⟨ph', h1, -, h3⟩; cases h1; exact h3.symm
    · rename_i hk
      constructor
      · intro h; cases h
      · rintro ⟨ph', h1, h2, -⟩
        rw [h] at h1; cases h1; exact absurd h2 hk
  · rename_i h
    constructor
    · intro h; cases h
    · rintro ⟨ph', h1, -⟩; exact absurd h1 (h ph')

theorem Shard.pend_some (h : Inv0 c s) {k : K} {b : Bool} :
    s.pend k = some b ↔ ∃ x ∈ s.map, plhAt s.entries.item k x.2 = some b := by
  unfold Shard.pend
  constructor
  · intro hf
    obtain ⟨x, hx, h1⟩ := List.exists_of_findSome?_eq_some hf
    exact ⟨x, hx, h1⟩
  · rintro ⟨x, hx, h1⟩
    cases hf : s.map.findSome? (fun b => plhAt s.entries.item k b.2) with
    | none =>
      rw [List.findSome?_eq_none_iff] at hf
      rw [hf x hx] at h1; cases h1
    | some b' =>
      obtain ⟨y, hy, h2⟩ := List.exists_of_findSome?_eq_some hf
      obtain ⟨p1, a1, a2, a3⟩ := plhAt_some.mp h1
      obtain ⟨p2, b1, b2, b3⟩ := plhAt_some.mp h2
      have : x.2 = y.2 := h.idx.uniq x.1 x.2 y.1 y.2 k hx hy (by simp [keyAt, a1, keyOf, a2]) (by simp [keyAt, b1, keyOf, b2])
      rw [this, b1] at a1; cases a1
      rw [a3, b3]

theorem Shard.pend_congr (h : Inv0 c s) (h' : Inv0 c s') {k : K}
    (he : ∀ b, (∃ x ∈ s'.map, plhAt s'.entries.item k x.2 = some b) ↔ (∃ x ∈ s.map, plhAt s.entries.item k x.2 = some b)) :
    s'.pend k = s.pend k := by
  apply Option.ext
  intro b
  rw [Shard.pend_some h', Shard.pend_some h]
  exact he b

/-- Exactly one slot changes. -/
structure Chg (c : Cfg K V RS) (s s' : Shard K V) (t : Nat) (old new : Option (Entry K V)) : Prop where
  inv : Inv0 c s'
  upd : Slab.Upd s.entries s'.entries t old new
  target : s'.weightTargetHot = s.weightTargetHot
  cap : s'.weightCapacity = s.weightCapacity
  ghostCap : s'.capacityNonResident = s.capacityNonResident
  map : ∀ b, b.2 ≠ t → (b ∈ s'.map ↔ b ∈ s.map)

omit [DecidableEq K] in
theorem Turned.chg {t : Nat} {old new : Option (Entry K V)} {M : (RingId → List Nat) → RingId → List Nat}
    (h : Turned c s s' t old new M) (hi : Inv0 c s) : Chg c s s' t old new where
  inv := h.inv
  upd := h.upd
  target := h.same.target
  cap := h.same.capacity
  ghostCap := h.same.ghostCap
  map := by
    intro b hb
    rw [h.map b]
    refine ⟨fun x => x.1, fun x => ⟨x, ?_⟩⟩
    rw [h.upd.other hb]; exact hi.map_occ x

omit [DecidableEq K] in
theorem Wrote.chg {t : Nat} {old new : Option (Entry K V)} (h : Wrote c s s' t old new) : Chg c s s' t old new where
  inv := h.inv
  upd := h.upd
  target := h.target
  cap := h.capacity
  ghostCap := h.ghostCap
  map := by
    intro b hb
    rw [h.map b]
    constructor
    · rintro (⟨-, x⟩ | ⟨x, -⟩)
      · exact x
      · exact absurd x hb
    · intro x; exact Or.inl ⟨hb, x⟩

namespace Chg
variable {t : Nat} {old new : Option (Entry K V)}

theorem info_put {r' : Resident K V} (h : Chg c s s' t old (some (.resident r'))) (hi : Inv0 c s)
    (hold : ∀ r, old = some (.resident r) → r.key = r'.key) : s'.info = put s.info r'.key r' := by
  have h1 := h.inv.rep
  have h2 := h.inv.uniqRes
  rw [h.upd.fn] at h1 h2
  exact h1.inj (hi.rep.put h2 (fun r hr => hold r (by rw [← h.upd.before, hr])))

theorem info_del {r : Resident K V} (h : Chg c s s' t (some (.resident r)) new)
    (hi : Inv0 c s) (hn : ∀ r', new ≠ some (.resident r')) : s'.info = del s.info r.key := by
  have h1 := h.inv.rep
  rw [h.upd.fn] at h1
  exact h1.inj (hi.rep.del hi.uniqRes h.upd.before hn)

theorem info_idle (h : Chg c s s' t old new)
    (hi : Inv0 c s) (ho : ∀ r', old ≠ some (.resident r')) (hn : ∀ r', new ≠ some (.resident r')) : s'.info = s.info := by
  have h1 := h.inv.rep
  rw [h.upd.fn] at h1
  exact h1.inj (hi.rep.idle (fun r => by rw [h.upd.before]; exact ho r) hn)

/-- Loads of keys that are not concerned stay as they are. -/
theorem pend_at (h : Chg c s s' t old new) (hi : Inv0 c s) {k : K} (ho : plhAt s.entries.item k t = none)
    (hn : plhAt s'.entries.item k t = none) : s'.pend k = s.pend k := by
  refine Shard.pend_congr hi h.inv (fun b => ?_)
  constructor
  · rintro ⟨x, hx, h1⟩
    have hxt : x.2 ≠ t := by intro he; rw [he, hn] at h1; cases h1
    refine ⟨x, (h.map x hxt).mp hx, ?_⟩
    simpa [plhAt, h.upd.other hxt] using h1
  · rintro ⟨x, hx, h1⟩
    have hxt : x.2 ≠ t := by intro he; rw [he, ho] at h1; cases h1
    refine ⟨x, (h.map x hxt).mpr hx, ?_⟩
    simpa [plhAt, h.upd.other hxt] using h1

theorem pend_idle (h : Chg c s s' t old new) (hi : Inv0 c s) (ho : ∀ p, old ≠ some (.placeholder p))
    (hn : ∀ p, new ≠ some (.placeholder p)) : s'.pend = s.pend := by
  funext k
  refine h.pend_at hi ?_ ?_
  · unfold plhAt; rw [h.upd.before]
    split
    · exact absurd rfl (ho _)
    · rfl
  · unfold plhAt; rw [h.upd.after]
    split
    · exact absurd rfl (hn _)
    · rfl

theorem pend_fill {ph : Placeholder K} (h : Chg c s s' t (some (.placeholder ph)) new) (hi : Inv0 c s)
    (hm : InMap s.map t) (hn : ∀ p, new ≠ some (.placeholder p)) : s'.pend = del s.pend ph.key := by
  have hnone : ∀ k, plhAt s'.entries.item k t = none := by
    intro k; unfold plhAt; rw [h.upd.after]
    split
    · exact absurd rfl (hn _)
    · rfl
  funext k
  by_cases hk : k = ph.key
  · subst hk
    rw [del_same]
    cases hp : s'.pend ph.key with
    | none => rfl
    | some b =>
      obtain ⟨x, hx, h1⟩ := (Shard.pend_some h.inv).mp hp
      have hxt : x.2 ≠ t := by intro he; rw [he, hnone] at h1; cases h1
      obtain ⟨p, a1, a2, -⟩ := plhAt_some.mp h1
      rw [h.upd.other hxt] at a1
      obtain ⟨h0, hm⟩ := hm
      have := hi.idx.uniq x.1 x.2 h0 t ph.key ((h.map x hxt).mp hx) hm (by simp [keyAt, a1, keyOf, a2])
        (by simp [keyAt, h.upd.before, keyOf])
      exact absurd this hxt
  · rw [del_other _ hk]
    refine h.pend_at hi ?_ (hnone k)
    unfold plhAt; rw [h.upd.before]; simp [Ne.symm hk]

theorem pend_new {ph : Placeholder K} (h : Chg c s s' t old (some (.placeholder ph))) (hi : Inv0 c s)
    (hm : InMap s'.map t) (ho : ∀ p, old ≠ some (.placeholder p)) :
    s'.pend = put s.pend ph.key (decide (ph.hot = .hot)) := by
  funext k
  by_cases hk : k = ph.key
  · subst hk
    rw [put_same, Shard.pend_some h.inv]
    obtain ⟨h0, hm⟩ := hm
    exact ⟨_, hm, plhAt_some.mpr ⟨ph, h.upd.after, rfl, rfl⟩⟩
  · rw [put_other _ _ hk]
    refine h.pend_at hi ?_ ?_
    · unfold plhAt; rw [h.upd.before]
      split
      · exact absurd rfl (ho _)
      · rfl
    · unfold plhAt; rw [h.upd.after]; simp [Ne.symm hk]

/-! ### The abstract cache after a change of one slot -/

/-- A resident of the same key. -/
theorem abs_same {r r' : Resident K V} (h : Chg c s s' t (some (.resident r)) (some (.resident r'))) (hi : Inv0 c s)
    (hk : r'.key = r.key) (R : RingId → List Nat) : s'.abs R = (s.abs R).setItem r.key r'.item := by
  have h1 := h.info_put hi (fun r0 h0 => by cases h0; exact hk.symm)
  have h2 := h.pend_idle hi (by simp) (by simp)
  have h3 : ∀ l, klist s'.entries.item l = klist s.entries.item l := by
    intro l; rw [h.upd.fn]; exact klist_upd_key _ _ (by simp [keyAt, h.upd.before, keyOf, hk])
  have h4 : ∀ l, glist s'.entries.item l = glist s.entries.item l := by
    intro l; rw [h.upd.fn]; exact glist_upd_res _ _ (by simp [h.upd.before]) (by simp)
  simp only [Shard.abs, Clock.setItem, h.target, h.cap, h.ghostCap, h1, h2, h3, h4, put_map, hk]

/-- A resident leaves. -/
theorem abs_del {r : Resident K V} (h : Chg c s s' t (some (.resident r)) new) (hi : Inv0 c s)
    (hn : ∀ r', new ≠ some (.resident r')) (hp : ∀ p, new ≠ some (.placeholder p)) (R : RingId → List Nat) :
    s'.abs R = { (s.abs R).dropItem r.key with
      hot := klist s'.entries.item (R .hot), cold := klist s'.entries.item (R .cold),
      ghosts := glist s'.entries.item (R .ghost) } := by
  simp only [Shard.abs, Clock.dropItem, h.target, h.cap, h.ghostCap, h.info_del hi hn, h.pend_idle hi (by simp) hp, del_map]

/-- A resident enters. -/
theorem abs_put {r : Resident K V} (h : Chg c s s' t old (some (.resident r))) (hi : Inv0 c s)
    (ho : ∀ r', old ≠ some (.resident r')) (hp : ∀ p, old ≠ some (.placeholder p)) (R : RingId → List Nat) :
    s'.abs R = { (s.abs R).setItem r.key r.item with
      hot := klist s'.entries.item (R .hot), cold := klist s'.entries.item (R .cold),
      ghosts := glist s'.entries.item (R .ghost) } := by
  simp only [Shard.abs, Clock.setItem, h.target, h.cap, h.ghostCap,
    h.info_put hi (fun r' h' => absurd h' (ho r')), h.pend_idle hi hp (by simp), put_map]

/-- Nothing but ghosts changes. -/
theorem abs_idle (h : Chg c s s' t old new) (hi : Inv0 c s)
    (ho : ∀ r', old ≠ some (.resident r')) (hp : ∀ p, old ≠ some (.placeholder p))
    (hn : ∀ r', new ≠ some (.resident r')) (hq : ∀ p, new ≠ some (.placeholder p)) (R : RingId → List Nat) :
    s'.abs R = { s.abs R with
      hot := klist s'.entries.item (R .hot), cold := klist s'.entries.item (R .cold),
      ghosts := glist s'.entries.item (R .ghost) } := by
  simp only [Shard.abs, h.target, h.cap, h.ghostCap, h.info_idle hi ho hn, h.pend_idle hi hp hq]

end Chg

/-! ### Rings and lists -/

/-- The rings of a shard. -/
abbrev Shard.HasRings (c : Cfg K V RS) (s : Shard K V) (R : RingId → List Nat) (F : List Nat) : Prop :=
  Rings s.entries s.head (c.rho s.entries.item) R F

/-- The shard `s` implements the abstract cache `m`. -/
def Shard.Implements (c : Cfg K V RS) (s : Shard K V) (m : Clock K V) : Prop :=
  ∃ R F, s.HasRings c R F ∧ m = s.abs R

theorem Rings.not_mem {T : Type _} {sl : Slab T} {hd : RingId → Option Nat} {rho : Nat → Option RingId}
    {R : RingId → List Nat} {F : List Nat} (h : Rings sl hd rho R F) {i j : RingId} {t : Nat} (ht : t ∈ R i) (hij : j ≠ i) :
    t ∉ R j := by
  intro hj
  rw [h.mem] at ht hj
  rw [ht] at hj; cases hj; exact hij rfl

omit [DecidableEq K] in
theorem Shard.HasRings.hot {R : RingId → List Nat} {F : List Nat} (h : s.HasRings c R F) {t : Nat} (ht : t ∈ R .hot) :
    ∃ r, s.entries.item t = some (.resident r) ∧ r.state = .hot ∧ c.weight r.key r.value ≠ 0 :=
  Shard.of_rho (st := .hot) ((h.mem _ _).mp ht)

omit [DecidableEq K] in
theorem Shard.HasRings.cold {R : RingId → List Nat} {F : List Nat} (h : s.HasRings c R F) {t : Nat} (ht : t ∈ R .cold) :
    ∃ r, s.entries.item t = some (.resident r) ∧ r.state = .cold ∧ c.weight r.key r.value ≠ 0 :=
  Shard.of_rho (st := .cold) ((h.mem _ _).mp ht)

theorem Inv0.info_at (h : Inv0 c s) {t : Nat} {r : Resident K V} (ht : s.entries.item t = some (.resident r)) :
    s.info r.key = some r := (h.rep r.key r).mpr ⟨rfl, t, ht⟩

theorem Inv0.abs_item (h : Inv0 c s) (R : RingId → List Nat) {t : Nat} {r : Resident K V}
    (ht : s.entries.item t = some (.resident r)) : (s.abs R).items r.key = some r.item := by
  simp [Shard.abs, h.info_at ht]

omit [DecidableEq K] in
/-- Keys in different slots are different. -/
theorem Inv0.key_off (h : Inv0 c s) {R : RingId → List Nat} {F : List Nat} (hr : s.HasRings c R F) {i : RingId} {t : Nat}
    {r : Resident K V} (ht : s.entries.item t = some (.resident r)) {l : List Nat} (hl : ∀ x ∈ l, x ∈ R i)
    (hi : i ≠ .ghost) (hm : t ∉ l) : r.key ∉ klist s.entries.item l := by
  intro hk
  obtain ⟨u, hu, h1⟩ := mem_klist.mp hk
  have : ∃ r', s.entries.item u = some (.resident r') := by
    have hu' := hl u hu
    cases i with
    | hot => obtain ⟨r', h2, -⟩ := hr.hot hu'; exact ⟨r', h2⟩
    | cold => obtain ⟨r', h2, -⟩ := hr.cold hu'; exact ⟨r', h2⟩
    | ghost => exact absurd rfl hi
  obtain ⟨r', h2⟩ := this
  rw [keyAt_res h2] at h1
  have := h.uniqRes u t r' r h2 ht (Option.some.inj h1)
  subst this; exact hm hu

/-! ### Weights -/

theorem sum_map_range (n : Nat) (l : List Nat) (g : Nat → Nat) (hn : l.Nodup) (hlt : ∀ x ∈ l, x < n)
    (h0 : ∀ x, x ∉ l → g x = 0) : ((List.range n).map g).sum = (l.map g).sum := by
  have key : ∀ (l' : List Nat), (l'.map g).sum = ((l'.filter (· ∈ l)).map g).sum := by
    intro l'
    induction l' with
    | nil => rfl
    | cons a l' ih =>
      by_cases ha : a ∈ l
      · rw [List.filter_cons_of_pos (by simpa using ha)]; simp [ih]
      · rw [List.filter_cons_of_neg (by simpa using ha)]; simp [ih, h0 a ha]
  rw [key]
  have hp : ((List.range n).filter (· ∈ l)).Perm l := by
    rw [List.perm_ext_iff_of_nodup (List.nodup_range.filter _) hn]
    intro a
    simp only [List.mem_filter, List.mem_range, decide_eq_true_eq]
    exact ⟨fun h => h.2, fun h => ⟨hlt a h, h⟩⟩
  exact (hp.map g).sum_nat

theorem Slab.sumBy_list {T : Type _} (f : Option T → Nat) (s : Slab T) {l : List Nat} (hn : l.Nodup)
    (hlt : ∀ x ∈ l, x < s.entries.length) (h0 : ∀ t, t ∉ l → f (s.item t) = 0) :
    Slab.sumBy f s = (l.map (fun t => f (s.item t))).sum := by
  rw [← sum_map_range s.entries.length l _ hn hlt h0]
  unfold Slab.sumBy
  congr 1
  apply List.ext_getElem
  · simp [Slab.length_items]
  · intro i h1 h2
    simp only [List.getElem_map, List.getElem_range]
    simp only [List.length_map] at h1
    rw [Slab.item_eq_items, List.getElem?_eq_getElem h1]; rfl

theorem Shard.weigh_list (h : Inv0 c s) (R : RingId → List Nat) {st : St} : ∀ (l : List Nat),
    (∀ t ∈ l, ∃ r, s.entries.item t = some (.resident r) ∧ r.state = st) →
    ((klist s.entries.item l).map ((s.abs R).weigh c)).sum = (l.map (fun t => wgtF c st (s.entries.item t))).sum
  | [], _ => rfl
  | t :: l, hl => by
    obtain ⟨r, h1, h2⟩ := hl t (by simp)
    rw [klist_cons (keyAt_res h1)]
    simp only [List.map_cons, List.sum_cons]
    rw [weigh_list h R l (fun u hu => hl u (by simp [hu])), h1]
    simp [Clock.weigh, h.abs_item R h1, Resident.item, wgtF, h2]

theorem Shard.abs_hotWeight (h : Inv0 c s) {R : RingId → List Nat} {F : List Nat} (hr : s.HasRings c R F) :
    (s.abs R).hotWeight c = s.weightHot := by
  have h1 := h.cnt.wgt .hot
  rw [Slab.sumBy_list (wgtF c .hot) s.entries (hr.links.nodup .hot) (fun x hx => Slab.lt_of_item (hr.links.occ _ x hx))
    (fun t ht => by
      cases hi : s.entries.item t with
      | none => rfl
      | some e =>
        cases e with
        | resident r =>
          simp only [wgtF]
          split
          · rename_i hst
            apply Classical.byContradiction
            intro hw
            exact ht ((hr.mem _ _).mpr (by rw [Shard.rho_resident hi hw, hst]; rfl))
          · rfl
        | _ => rfl)] at h1
  rw [show s.weightHot = s.wgt .hot from rfl, h1]
  exact weigh_list h R _ (fun t ht => by obtain ⟨r, h1, h2, -⟩ := hr.hot ht; exact ⟨r, h1, h2⟩)

theorem Shard.abs_coldWeight (h : Inv0 c s) {R : RingId → List Nat} {F : List Nat} (hr : s.HasRings c R F) :
    (s.abs R).coldWeight c = s.weightCold := by
  have h1 := h.cnt.wgt .cold
  rw [Slab.sumBy_list (wgtF c .cold) s.entries (hr.links.nodup .cold) (fun x hx => Slab.lt_of_item (hr.links.occ _ x hx))
    (fun t ht => by
      cases hi : s.entries.item t with
      | none => rfl
      | some e =>
        cases e with
        | resident r =>
          simp only [wgtF]
          split
          · rename_i hst
            apply Classical.byContradiction
            intro hw
            exact ht ((hr.mem _ _).mpr (by rw [Shard.rho_resident hi hw, hst]; rfl))
          · rfl
        | _ => rfl)] at h1
  rw [show s.weightCold = s.wgt .cold from rfl, h1]
  exact weigh_list h R _ (fun t ht => by obtain ⟨r, h1, h2, -⟩ := hr.cold ht; exact ⟨r, h1, h2⟩)

theorem Shard.abs_ghosts (h : Inv0 c s) {R : RingId → List Nat} {F : List Nat} (hr : s.HasRings c R F) :
    (s.abs R).ghosts.length = s.numNonResident := by
  have h1 := h.cnt.ghost
  rw [Slab.sumBy_list ghostF s.entries (hr.links.nodup .ghost) (fun x hx => Slab.lt_of_item (hr.links.occ _ x hx))
    (fun t ht => by
      cases hi : s.entries.item t with
      | none => rfl
      | some e =>
        cases e with
        | ghost g => exact absurd ((hr.mem _ _).mpr (Shard.rho_ghost hi)) ht
        | _ => rfl)] at h1
  rw [h1]
  have : ∀ (l : List Nat), (∀ t ∈ l, ∃ g, s.entries.item t = some (.ghost g)) →
      (glist s.entries.item l).length = (l.map (fun t => ghostF (s.entries.item t))).sum := by
    intro l
    induction l with
    | nil => intro _; rfl
    | cons t l ih =>
      intro hl
      obtain ⟨g, h1⟩ := hl t (by simp)
      rw [glist_cons h1]
      simp only [List.length_cons, List.map_cons, List.sum_cons]
      rw [ih (fun u hu => hl u (by simp [hu])), h1]
      simp [ghostF]; omega
  exact this _ (fun t ht => Shard.of_rho_ghost ((hr.mem _ _).mp ht))

end
end QuickCache
