import Verif.Spec.Twin
import Verif.Proofs.Abs

/-!
# The abstract clock machine is deterministic, and blind to the hash function, if hashes do not collide
-/

namespace QuickCache.Spec.Clock
variable {K V RS : Type _} [DecidableEq K] {c : Cfg K V RS} {hash' : K → UInt64}

/-- The same machine with another hash function. -/
local notation "c′" => Cfg.rehash c hash'

/-- Items and pending loads at most get fewer, and the ghosts did not change. -/
structure Keep (m m1 : Clock K V) : Prop where
  pending : ∀ k, m1.pending k ≠ none → m.pending k ≠ none
  ghosts : m1.ghosts = m.ghosts
  items : ∀ k, m1.items k ≠ none → m.items k ≠ none

omit [DecidableEq K] in
theorem Keep.refl (m : Clock K V) : Keep m m := ⟨fun _ h => h, rfl, fun _ h => h⟩

omit [DecidableEq K] in
theorem Keep.trans {m m1 m2 : Clock K V} (h : Keep m m1) (h' : Keep m1 m2) : Keep m m2 :=
  ⟨fun k hk => h.pending k (h'.pending k hk), h'.ghosts.trans h.ghosts, fun k hk => h.items k (h'.items k hk)⟩

theorem put_keep {m : Clock K V} {k : K} {i : Item V} (h : m.items k = some i) (j : Item V) :
    ∀ k', put m.items k j k' ≠ none → m.items k' ≠ none := by
  intro k' hk
  by_cases hx : k' = k
  · subst hx; simp [h]
  · rwa [put_other _ _ hx] at hk

theorem del_keep (m : Clock K V) (k : K) : ∀ k', del m.items k k' ≠ none → m.items k' ≠ none := by
  intro k' hk
  by_cases hx : k' = k
  · subst hx; simp at hk
  · rwa [del_other _ hx] at hk

/-! ### The hot list -/

theorem Hand.keep {m m1 : Clock K V} (h : Hand c m m1) : Keep m m1 := by
  induction h with
  | stop at_ here free unref => exact .refl _
  | pass at_ here kept rest ih => exact Keep.trans (by exact ⟨fun _ h => h, rfl, put_keep here _⟩) ih

theorem Hand.det {m m1 : Clock K V} (h : Hand c m m1) : ∀ {g : List UInt64} {m2 : Clock K V},
    Hand c′ { m with ghosts := g } m2 → m2 = { m1 with ghosts := g } := by
  induction h with
  | stop at_ here free unref =>
    intro g m2 h2
    cases h2 with
    | stop => rfl
    | pass at2 here2 kept2 _ =>
      have := at_.symm.trans at2
      cases this
      have := here.symm.trans here2
      cases this
      rcases kept2 with h | h
      · have := free.symm.trans h; cases this
      · exact absurd unref h
  | pass at_ here kept rest ih =>
    intro g m2 h2
    cases h2 with
    | stop at2 here2 free2 unref2 =>
      have := at_.symm.trans at2
      cases this
      have := here.symm.trans here2
      cases this
      rcases kept with h | h
      · have := free2.symm.trans h; cases this
      · exact absurd unref2 h
    | pass at2 here2 kept2 rest2 =>
      have := at_.symm.trans at2
      cases this
      have := here.symm.trans here2
      cases this
      exact ih rest2

theorem Hand.free {m m1 : Clock K V} (h : Hand c m m1) : ¬ ∀ k ∈ m.hot, m.pinned c k = true := by
  induction h with
  | stop at_ here free unref =>
    intro hall
    have := hall _ (by rw [at_]; exact List.mem_cons_self)
    simp only [pinned, here, free] at this
    cases this
  | @pass m m' k l i at_ here kept rest ih =>
    intro hall
    refine ih (fun x hx => ?_)
    have hx' : x ∈ m.hot := by
      rw [at_]
      simp only [List.mem_append, List.mem_singleton] at hx
      simp only [List.mem_cons]
      exact hx.symm
    have := hall x hx'
    by_cases hk : x = k
    · subst hk
      simp only [pinned, here] at this
      simp only [pinned, setItem, put_same, Item.cool]
      exact this
    · simp only [pinned] at this
      simp only [pinned, setItem, put_other _ _ hk]
      exact this

theorem TurnHot.keep {m m1 : Clock K V} {st st1 : RS} {L : List (Event K V)} {b : Bool} (h : TurnHot c m st L m1 st1 b) :
    Keep m m1 := by
  cases h with
  | stuck all =>
    refine ⟨fun _ h => h, rfl, fun k hk => ?_⟩
    simp only [coolAll] at hk
    split at hk
    · intro h; rw [h] at hk; exact hk rfl
    · exact hk
  | spare hand at_ here before light => exact hand.keep.trans ⟨fun _ h => h, rfl, put_keep here _⟩
  | evict hand at_ here before still => exact hand.keep.trans ⟨fun _ h => h, rfl, del_keep _ _⟩

theorem TurnHot.det {m m1 m2 : Clock K V} {st st1 st2 : RS} {L L2 : List (Event K V)} {b b2 : Bool} {g : List UInt64}
    (h : TurnHot c m st L m1 st1 b) (h2 : TurnHot c′ { m with ghosts := g } st L2 m2 st2 b2) :
    L2 = L ∧ m2 = { m1 with ghosts := g } ∧ st2 = st1 ∧ b2 = b := by
  have step : ∀ {m1 m2 : Clock K V} {k k2 : K} {l l2 : List K} {i i2 : Item V}, m1.hot = k :: l → m1.items k = some i →
      Hand c m m1 → Hand c′ { m with ghosts := g } m2 → m2.hot = k2 :: l2 → m2.items k2 = some i2 →
      k2 = k ∧ l2 = l ∧ i2 = i ∧ m2 = { m1 with ghosts := g } := by
    intro m1 m2 k k2 l l2 i i2 a1 a2 a3 a4 a5 a6
    have := a3.det a4
    subst this
    have := a1.symm.trans a5
    cases this
    have := a2.symm.trans a6
    cases this
    exact ⟨rfl, rfl, rfl, rfl⟩
  cases h with
  | stuck all =>
    cases h2 with
    | stuck all2 => exact ⟨rfl, rfl, rfl, rfl⟩
    | spare hand at_ here before light => exact absurd all hand.free
    | evict hand at_ here before still => exact absurd all hand.free
  | spare hand at_ here before light =>
    cases h2 with
    | stuck all2 => exact absurd all2 hand.free
    | spare hand2 at2 here2 before2 light2 =>
      obtain ⟨rfl, rfl, rfl, rfl⟩ := step at_ here hand hand2 at2 here2
      have := before.symm.trans before2
      cases this
      exact ⟨rfl, rfl, rfl, rfl⟩
    | evict hand2 at2 here2 before2 still2 =>
      obtain ⟨rfl, rfl, rfl, rfl⟩ := step at_ here hand hand2 at2 here2
      have := before.symm.trans before2
      cases this
      exact absurd light still2
  | evict hand at_ here before still =>
    cases h2 with
    | stuck all2 => exact absurd all2 hand.free
    | spare hand2 at2 here2 before2 light2 =>
      obtain ⟨rfl, rfl, rfl, rfl⟩ := step at_ here hand hand2 at2 here2
      have := before.symm.trans before2
      cases this
      exact absurd light2 still
    | evict hand2 at2 here2 before2 still2 =>
      obtain ⟨rfl, rfl, rfl, rfl⟩ := step at_ here hand hand2 at2 here2
      have := before.symm.trans before2
      cases this
      exact ⟨rfl, rfl, rfl, rfl⟩

theorem ShrinkHot.keep {m m1 : Clock K V} {st st1 : RS} {L : List (Event K V)} (h : ShrinkHot c m st L m1 st1) : Keep m m1 := by
  induction h with
  | done => exact .refl _
  | stop over turn => exact turn.keep
  | more over turn rest ih => exact turn.keep.trans ih

theorem ShrinkHot.det {m m1 : Clock K V} {st st1 : RS} {L : List (Event K V)} (h : ShrinkHot c m st L m1 st1) :
    ∀ {g : List UInt64} {m2 : Clock K V} {st2 : RS} {L2 : List (Event K V)},
      ShrinkHot c′ { m with ghosts := g } st L2 m2 st2 → L2 = L ∧ m2 = { m1 with ghosts := g } ∧ st2 = st1 := by
  induction h with
  | done fits =>
    intro g m2 st2 L2 h2
    cases h2 with
    | done => exact ⟨rfl, rfl, rfl⟩
    | stop over => exact absurd fits (Nat.not_le.mpr over)
    | more over => exact absurd fits (Nat.not_le.mpr over)
  | stop over turn =>
    intro g m2 st2 L2 h2
    cases h2 with
    | done fits => exact absurd fits (Nat.not_le.mpr over)
    | stop _ turn2 => obtain ⟨rfl, rfl, rfl, -⟩ := turn.det turn2; exact ⟨rfl, rfl, rfl⟩
    | more _ turn2 rest2 => obtain ⟨-, -, -, h⟩ := turn.det turn2; cases h
  | more over turn rest ih =>
    intro g m2 st2 L2 h2
    cases h2 with
    | done fits => exact absurd fits (Nat.not_le.mpr over)
    | stop _ turn2 => obtain ⟨-, -, -, h⟩ := turn.det turn2; cases h
    | more _ turn2 rest2 =>
      obtain ⟨rfl, rfl, rfl, -⟩ := turn.det turn2
      obtain ⟨rfl, rfl, rfl⟩ := ih rest2
      exact ⟨rfl, rfl, rfl⟩

/-! ### Twins -/

/-- The states of the same machine under two hash functions: they differ in the hashes of the ghosts only. -/
structure Twin (c : Cfg K V RS) (hash' : K → UInt64) (S : K → Prop) (m m' : Clock K V) : Prop where
  eq : m' = { m with ghosts := m'.ghosts }
  ghosts : ∃ ks : List K, m.ghosts = ks.map c.hash ∧ m'.ghosts = ks.map hash' ∧ ks.Nodup ∧
    ∀ k ∈ ks, S k ∧ m.items k = none ∧ m.pending k = none
  items : ∀ k, m.items k ≠ none → S k ∧ m.pending k = none
  pending : ∀ k, m.pending k ≠ none → S k

variable {S : K → Prop}

omit [DecidableEq K] in
theorem none_of {α : Type _} {f g : K → Option α} (h : ∀ k, g k ≠ none → f k ≠ none) {k : K} (hk : f k = none) : g k = none :=
  Classical.byContradiction fun hn => h k hn hk

omit [DecidableEq K] in
theorem Twin.keep {m m' m1 : Clock K V} (h : Twin c hash' S m m') (hk : Keep m m1) :
    Twin c hash' S m1 { m1 with ghosts := m'.ghosts } where
  eq := rfl
  ghosts := by
    obtain ⟨ks, h1, h2, h3, h4⟩ := h.ghosts
    refine ⟨ks, hk.ghosts.trans h1, h2, h3, fun k hm => ?_⟩
    obtain ⟨a1, a2, a3⟩ := h4 k hm
    exact ⟨a1, none_of hk.items a2, none_of hk.pending a3⟩
  items := by
    intro k hn
    obtain ⟨a1, a2⟩ := h.items k (hk.items k hn)
    exact ⟨a1, none_of hk.pending a2⟩
  pending := fun k hn => h.pending k (hk.pending k hn)

/-- An item enters under a key that is not remembered. -/
theorem Twin.put {m m' m1 : Clock K V} (h : Twin c hash' S m m') {k : K} {i : Item V} (hs : S k)
    (hg : c.hash k ∉ m.ghosts) (h1 : m1.items = Spec.put m.items k i) (h2 : m1.pending = del m.pending k)
    (h3 : m1.ghosts = m.ghosts) : Twin c hash' S m1 { m1 with ghosts := m'.ghosts } where
  eq := rfl
  ghosts := by
    obtain ⟨ks, a1, a2, a3, a4⟩ := h.ghosts
    refine ⟨ks, h3.trans a1, a2, a3, fun x hx => ?_⟩
    obtain ⟨b1, b2, b3⟩ := a4 x hx
    have hne : x ≠ k := by
      rintro rfl
      exact hg (by rw [a1]; exact List.mem_map.mpr ⟨x, hx, rfl⟩)
    exact ⟨b1, by rw [h1, put_other _ _ hne]; exact b2, by rw [h2, del_other _ hne]; exact b3⟩
  items := by
    intro x hx
    by_cases hk : x = k
    · subst hk; exact ⟨hs, by rw [h2]; simp⟩
    · rw [h1, put_other _ _ hk] at hx
      rw [h2, del_other _ hk]
      exact h.items x hx
  pending := by
    intro x hx
    by_cases hk : x = k
    · subst hk; exact hs
    · rw [h2, del_other _ hk] at hx
      exact h.pending x hx

/-- A load begins under a key that is not remembered. -/
theorem Twin.load {m m' m1 : Clock K V} (h : Twin c hash' S m m') {k : K} {b : Bool} (hs : S k)
    (hg : c.hash k ∉ m.ghosts) (ha : m.items k = none) (h1 : m1.items = m.items)
    (h2 : m1.pending = Spec.put m.pending k b) (h3 : m1.ghosts = m.ghosts) :
    Twin c hash' S m1 { m1 with ghosts := m'.ghosts } where
  eq := rfl
  ghosts := by
    obtain ⟨ks, a1, a2, a3, a4⟩ := h.ghosts
    refine ⟨ks, h3.trans a1, a2, a3, fun x hx => ?_⟩
    obtain ⟨b1, b2, b3⟩ := a4 x hx
    have hne : x ≠ k := by
      rintro rfl
      exact hg (by rw [a1]; exact List.mem_map.mpr ⟨x, hx, rfl⟩)
    exact ⟨b1, by rw [h1]; exact b2, by rw [h2, put_other _ _ hne]; exact b3⟩
  items := by
    intro x hx
    rw [h1] at hx
    have hne : x ≠ k := by rintro rfl; exact hx ha
    rw [h2, put_other _ _ hne]
    exact h.items x hx
  pending := by
    intro x hx
    by_cases hk : x = k
    · subst hk; exact hs
    · rw [h2, put_other _ _ hk] at hx
      exact h.pending x hx

omit [DecidableEq K] in
theorem inj_off {hash : K → UInt64} (hi : ∀ a b, S a → S b → hash a = hash b → a = b) {k : K} (hs : S k) {ks : List K}
    (hks : ∀ k ∈ ks, S k) : hash k ∈ ks.map hash ↔ k ∈ ks := by
  rw [List.mem_map]
  constructor
  · rintro ⟨x, hx, he⟩
    rwa [← hi x k (hks x hx) hs he]
  · intro h; exact ⟨k, h, rfl⟩

theorem unhaunt_iff {hash : K → UInt64} (hi : ∀ a b, S a → S b → hash a = hash b → a = b) {k : K} (hs : S k) {ks : List K}
    (hks : ∀ k ∈ ks, S k) (hn : ks.Nodup) {g : List UInt64} :
    Unhaunt (hash k) (ks.map hash) g ↔ k ∈ ks ∧ g = (ks.erase k).map hash := by
  have split : ∀ {A B : List K}, k ∉ A → (A ++ k :: B).erase k = A ++ B := by
    intro A B hA
    rw [List.erase_append_right _ hA, List.erase_cons_head]
  constructor
  · rintro ⟨A, B, h1, h2⟩
    obtain ⟨A', B', rfl, rfl, h3⟩ := List.map_eq_append_iff.mp h1
    obtain ⟨k', B'', rfl, h4, rfl⟩ := List.map_eq_cons_iff.mp h3
    have := hi k' k (hks k' (by simp)) hs h4
    subst this
    have hA : k' ∉ A' := by
      intro hm
      exact (List.nodup_append.mp hn).2.2 k' hm k' (by simp) rfl
    refine ⟨by simp, ?_⟩
    rw [split hA, h2, List.map_append]
  · rintro ⟨hm, rfl⟩
    obtain ⟨A, B, rfl⟩ := List.append_of_mem hm
    have hA : k ∉ A := by
      intro hm
      exact (List.nodup_append.mp hn).2.2 k hm k (by simp) rfl
    refine ⟨A.map hash, B.map hash, by simp, ?_⟩
    rw [split hA, List.map_append]

omit [DecidableEq K] in
theorem Twin.mem_iff {m m' : Clock K V} (h : Twin c hash' S m m')
    (hi : ∀ a b, S a → S b → c.hash a = c.hash b → a = b) (hi' : ∀ a b, S a → S b → hash' a = hash' b → a = b) {k : K}
    (hs : S k) : hash' k ∈ m'.ghosts ↔ c.hash k ∈ m.ghosts := by
  obtain ⟨ks, h1, h2, h3, h4⟩ := h.ghosts
  rw [h1, h2, inj_off hi hs (fun x hx => (h4 x hx).1), inj_off hi' hs (fun x hx => (h4 x hx).1)]

omit [DecidableEq K] in
/-- Keys being loaded are not remembered. -/
theorem Twin.not_mem {m m' : Clock K V} (h : Twin c hash' S m m')
    (hi : ∀ a b, S a → S b → c.hash a = c.hash b → a = b) {k : K} (hs : S k)
    (hp : m.items k ≠ none ∨ m.pending k ≠ none) : c.hash k ∉ m.ghosts := by
  obtain ⟨ks, h1, h2, h3, h4⟩ := h.ghosts
  rw [h1, inj_off hi hs (fun x hx => (h4 x hx).1)]
  intro hm
  obtain ⟨-, a2, a3⟩ := h4 k hm
  rcases hp with hp | hp
  · exact hp a2
  · exact hp a3

omit [DecidableEq K] in
theorem Unhaunt.mem {h : UInt64} {g g' : List UInt64} (hu : Unhaunt h g g') : h ∈ g := by
  obtain ⟨A, B, rfl, -⟩ := hu
  simp

/-- A hash is forgotten. -/
theorem Twin.unhaunt {m m' : Clock K V} (h : Twin c hash' S m m')
    (hi : ∀ a b, S a → S b → c.hash a = c.hash b → a = b) (hi' : ∀ a b, S a → S b → hash' a = hash' b → a = b) {k : K}
    (hs : S k) {g g' : List UInt64} (hu : Unhaunt (c.hash k) m.ghosts g) (hu' : Unhaunt (hash' k) m'.ghosts g') :
    Twin c hash' S { m with ghosts := g } { m with ghosts := g' } ∧ c.hash k ∉ g := by
  obtain ⟨ks, h1, h2, h3, h4⟩ := h.ghosts
  have hks : ∀ k ∈ ks, S k := fun k hk => (h4 k hk).1
  rw [h1] at hu
  rw [h2] at hu'
  obtain ⟨hm, rfl⟩ := (unhaunt_iff hi hs hks h3).mp hu
  obtain ⟨-, rfl⟩ := (unhaunt_iff hi' hs hks h3).mp hu'
  constructor
  · exact ⟨rfl, ⟨ks.erase k, rfl, rfl, h3.erase k, fun x hx => h4 x (List.mem_of_mem_erase hx)⟩, h.items, h.pending⟩
  · intro hmem
    rw [inj_off hi hs (fun x hx => hks x (List.mem_of_mem_erase hx))] at hmem
    exact ((h3.mem_erase_iff).mp hmem).1 rfl

/-! ### Making room -/

omit [DecidableEq K] in
theorem haunt_map {hash : K → UInt64} {n : Nat} {ks : List K} {k : K} :
    (if n < (ks.map hash).length + 1 then (ks.map hash ++ [hash k]).tail else ks.map hash ++ [hash k]) =
      (if n < ks.length + 1 then (ks ++ [k]).tail else ks ++ [k]).map hash := by
  rw [List.length_map]
  by_cases h : n < ks.length + 1
  · rw [if_pos h, if_pos h, List.map_tail, List.map_append]; rfl
  · rw [if_neg h, if_neg h, List.map_append]; rfl

theorem TurnCold.det {m m' m1 m2 : Clock K V} {st st1 st2 : RS} {L L2 : List (Event K V)} {b b2 : Bool}
    (ht : Twin c hash' S m m') (h : TurnCold c m st L m1 st1 b) (h2 : TurnCold c′ m' st L2 m2 st2 b2) :
    L2 = L ∧ Twin c hash' S m1 m2 ∧ st2 = st1 ∧ b2 = b := by
  have hm' := ht.eq
  generalize hg : m'.ghosts = g at hm'
  subst hm'
  simp only at hg
  cases h with
  | hot none turn =>
    cases h2 with
    | hot none2 turn2 =>
      obtain ⟨rfl, rfl, rfl, rfl⟩ := turn.det turn2
      exact ⟨rfl, ht.keep turn.keep, rfl, rfl⟩
    | promote at2 => have := none.symm.trans at2; cases this
    | spare at2 => have := none.symm.trans at2; cases this
    | evict at2 => have := none.symm.trans at2; cases this
  | @promote _ _ _ k l i at_ here referenced shrink =>
    cases h2 with
    | hot none2 => have := at_.symm.trans none2; cases this
    | promote at2 here2 referenced2 shrink2 =>
      have := at_.symm.trans at2
      cases this
      have := here.symm.trans here2
      cases this
      obtain ⟨rfl, rfl, rfl⟩ := shrink.det (g := g) shrink2
      refine ⟨rfl, ?_, rfl, rfl⟩
      exact ht.keep (Keep.trans (by exact ⟨fun _ h => h, rfl, put_keep here _⟩) shrink.keep)
    | spare at2 here2 unref2 =>
      have := at_.symm.trans at2
      cases this
      have := here.symm.trans here2
      cases this
      exact absurd unref2 referenced
    | evict at2 here2 unref2 =>
      have := at_.symm.trans at2
      cases this
      have := here.symm.trans here2
      cases this
      exact absurd unref2 referenced
  | @spare k l i _ v at_ here unref before light =>
    cases h2 with
    | hot none2 => have := at_.symm.trans none2; cases this
    | promote at2 here2 referenced2 shrink2 =>
      have := at_.symm.trans at2
      cases this
      have := here.symm.trans here2
      cases this
      exact absurd unref referenced2
    | spare at2 here2 unref2 before2 light2 =>
      have := at_.symm.trans at2
      cases this
      have := here.symm.trans here2
      cases this
      have := before.symm.trans before2
      cases this
      refine ⟨rfl, ?_, rfl, rfl⟩
      exact ht.keep ⟨fun _ h => h, rfl, put_keep here _⟩
    | evict at2 here2 unref2 before2 still2 =>
      have := at_.symm.trans at2
      cases this
      have := here.symm.trans here2
      cases this
      have := before.symm.trans before2
      cases this
      exact absurd light still2
  | @evict k l i _ v at_ here unref before still =>
    cases h2 with
    | hot none2 => have := at_.symm.trans none2; cases this
    | promote at2 here2 referenced2 shrink2 =>
      have := at_.symm.trans at2
      cases this
      have := here.symm.trans here2
      cases this
      exact absurd unref referenced2
    | spare at2 here2 unref2 before2 light2 =>
      have := at_.symm.trans at2
      cases this
      have := here.symm.trans here2
      cases this
      have := before.symm.trans before2
      cases this
      exact absurd light2 still
    | evict at2 here2 unref2 before2 still2 =>
      have := at_.symm.trans at2
      cases this
      have := here.symm.trans here2
      cases this
      have := before.symm.trans before2
      cases this
      refine ⟨rfl, ?_, rfl, rfl⟩
      obtain ⟨ks, h1, h2, h3, h4⟩ := ht.ghosts
      simp only at h2
      obtain ⟨hs, hp⟩ := ht.items k (by rw [here]; simp)
      have hk : k ∉ ks := fun hx => by have := (h4 k hx).2.1; rw [here] at this; cases this
      have hnd : (ks ++ [k]).Nodup := by
        rw [List.nodup_append]
        refine ⟨h3, by simp, ?_⟩
        intro a ha b hb
        simp only [List.mem_singleton] at hb
        subst hb
        rintro rfl
        exact hk ha
      have hall : ∀ x ∈ ks ++ [k], S x ∧ del m.items k x = none ∧ m.pending x = none := by
        intro x hx
        by_cases hxk : x = k
        · subst hxk; exact ⟨hs, by simp, hp⟩
        · simp only [List.mem_append, List.mem_singleton, hxk, or_false] at hx
          rw [del_other _ hxk]; exact h4 x hx
      refine ⟨rfl, ⟨if m.ghostCap < ks.length + 1 then (ks ++ [k]).tail else ks ++ [k], ?_, ?_, ?_, ?_⟩, ?_, ht.pending⟩
      · simp only [haunt, dropItem, h1]; exact haunt_map
      · simp only [haunt, dropItem, h2]; exact haunt_map
      · split
        · exact hnd.tail
        · exact hnd
      · intro x hx
        refine hall x ?_
        split at hx
        · exact List.mem_of_mem_tail hx
        · exact hx
      · intro x hx
        exact ht.items x (del_keep m k x hx)

theorem Fit.det {extra : Nat} {m m1 : Clock K V} {st st1 : RS} {L : List (Event K V)} (h : Fit c extra m st L m1 st1) :
    ∀ {m' m2 : Clock K V} {st2 : RS} {L2 : List (Event K V)}, Twin c hash' S m m' → Fit c′ extra m' st L2 m2 st2 →
      L2 = L ∧ Twin c hash' S m1 m2 ∧ st2 = st1 := by
  have hw : ∀ {m m' : Clock K V}, Twin c hash' S m m' →
      m'.hotWeight c′ = m.hotWeight c ∧ m'.coldWeight c′ = m.coldWeight c ∧ m'.cap = m.cap := by
    intro m m' ht
    rw [ht.eq]
    exact ⟨rfl, rfl, rfl⟩
  induction h with
  | done fits =>
    intro m' m2 st2 L2 ht h2
    obtain ⟨w1, w2, w3⟩ := hw ht
    cases h2 with
    | done => exact ⟨rfl, ht, rfl⟩
    | stop over => rw [w1, w2, w3] at over; exact absurd fits (Nat.not_le.mpr over)
    | more over => rw [w1, w2, w3] at over; exact absurd fits (Nat.not_le.mpr over)
  | stop over turn =>
    intro m' m2 st2 L2 ht h2
    obtain ⟨w1, w2, w3⟩ := hw ht
    cases h2 with
    | done fits => rw [w1, w2, w3] at fits; exact absurd fits (Nat.not_le.mpr over)
    | stop _ turn2 => obtain ⟨rfl, h, rfl, -⟩ := turn.det ht turn2; exact ⟨rfl, h, rfl⟩
    | more _ turn2 rest2 => obtain ⟨-, -, -, h⟩ := turn.det ht turn2; cases h
  | more over turn rest ih =>
    intro m' m2 st2 L2 ht h2
    obtain ⟨w1, w2, w3⟩ := hw ht
    cases h2 with
    | done fits => rw [w1, w2, w3] at fits; exact absurd fits (Nat.not_le.mpr over)
    | stop _ turn2 => obtain ⟨-, -, -, h⟩ := turn.det ht turn2; cases h
    | more _ turn2 rest2 =>
      obtain ⟨rfl, h, rfl, -⟩ := turn.det ht turn2
      obtain ⟨rfl, h', rfl⟩ := ih h rest2
      exact ⟨rfl, h', rfl⟩

end QuickCache.Spec.Clock
