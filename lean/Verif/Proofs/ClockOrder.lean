import Verif.Proofs.ClockFlood
import Verif.Spec.Order

/-!
# The order in which cold items leave
-/

namespace QuickCache.Spec.Clock
variable {K V RS : Type} [DecidableEq K] {c : Cfg K V RS}

/-- Nothing is pinned and everything has weight. -/
structure Plainly (c : Cfg K V RS) : Prop where
  free : ∀ k v, c.pinned k v = false
  heavy : ∀ k v, c.weight k v ≠ 0

/-- Making room takes keys from the front of the cold list and leaves the others alone. Cold items that leave the list without
having been looked up leave the cache. -/
structure Pops (m : Clock K V) (L : List (Event K V)) (m' : Clock K V) : Prop where
  pre : ∃ A, m.cold = A ++ m'.cold
  same : ∀ k ∈ m'.cold, m'.items k = m.items k
  logs : ∀ e ∈ L, e.key ∉ m'.cold
  none : ∀ k, m.items k = none → m'.items k = none
  gone : ∀ k i, m.items k = some i → i.hot = false → i.refs = 0 → k ∉ m'.cold → m'.items k = Option.none

omit [DecidableEq K] in
theorem Pops.refl {m : Clock K V} (hw : WF c m) (hp : Plainly c) : Pops m [] m :=
  ⟨⟨[], rfl⟩, fun _ _ => rfl, fun _ h => (by cases h), fun _ h => h,
    fun k i h1 h2 _ h4 => absurd ((hw.cold k).mpr ⟨i, h1, h2, hp.heavy _ _⟩) h4⟩

omit [DecidableEq K] in
theorem Pops.trans {m m1 m' : Clock K V} {L L1 : List (Event K V)} (h1 : Pops m L m1) (h2 : Pops m1 L1 m') :
    Pops m (L ++ L1) m' := by
  obtain ⟨A, hA⟩ := h1.pre
  obtain ⟨B, hB⟩ := h2.pre
  have sub : ∀ k ∈ m'.cold, k ∈ m1.cold := fun k hk => by rw [hB]; exact List.mem_append_right _ hk
  refine ⟨⟨A ++ B, by rw [hA, hB, List.append_assoc]⟩, fun k hk => (h2.same k hk).trans (h1.same k (sub k hk)), fun e he => ?_,
    fun k hk => h2.none k (h1.none k hk), fun k i a1 a2 a3 a4 => ?_⟩
  · rcases List.mem_append.mp he with he | he
    · exact fun hk => h1.logs e he (sub _ hk)
    · exact h2.logs e he
  · by_cases hk : k ∈ m1.cold
    · exact h2.gone k i (by rw [h1.same k hk]; exact a1) a2 a3 a4
    · exact h2.none k (h1.gone k i a1 a2 a3 hk)

theorem Hand.off {m m' : Clock K V} (h : Hand c m m') :
    m'.cold = m.cold ∧ (∀ k, k ∉ m.hot → m'.items k = m.items k) ∧ ∀ k, k ∈ m'.hot ↔ k ∈ m.hot := by
  induction h with
  | stop => exact ⟨rfl, fun _ _ => rfl, fun _ => .rfl⟩
  | @pass m m' k l i at_ here kept rest ih =>
    obtain ⟨h1, h2, h3⟩ := ih
    have hm : ∀ x, x ∈ l ++ [k] ↔ x ∈ m.hot := by
      intro x; rw [at_, List.mem_append, List.mem_singleton, List.mem_cons, or_comm]
    refine ⟨h1, fun x hx => ?_, fun x => (h3 x).trans (hm x)⟩
    rw [h2 x (fun h => hx ((hm x).mp h))]
    exact put_other _ _ (fun h => hx (by rw [h, at_]; exact List.mem_cons_self))

omit [DecidableEq K] in
theorem WF.apart {m : Clock K V} (hw : WF c m) {k : K} (h1 : k ∈ m.cold) : k ∉ m.hot := by
  intro h2
  obtain ⟨i, a1, a2, -⟩ := (hw.cold k).mp h1
  obtain ⟨j, b1, b2, -⟩ := (hw.hot k).mp h2
  rw [a1] at b1; cases b1; rw [a2] at b2; cases b2

theorem Hand.none_iff {m m' : Clock K V} (h : Hand c m m') (k : K) : m'.items k = none ↔ m.items k = none := by
  induction h with
  | stop => exact .rfl
  | @pass m m' k' l i at_ here kept rest ih =>
    rw [ih]
    by_cases hk : k = k'
    · subst hk; simp [setItem, here]
    · simp [setItem, put_other _ _ hk]

theorem TurnHot.pops {m m' : Clock K V} {st st' : RS} {log : List (Event K V)} {b : Bool} (h : TurnHot c m st log m' st' b)
    (hw : WF c m) (hp : Plainly c) : Pops m log m' := by
  have stay : ∀ k i, m.items k = some i → i.hot = false → k ∈ m.cold := fun k i h1 h2 => (hw.cold k).mpr ⟨i, h1, h2, hp.heavy _ _⟩
  cases h with
  | stuck all =>
    refine ⟨⟨[], rfl⟩, fun k hk => ?_, fun _ h => (by cases h), fun k hk => ?_, fun k i h1 h2 _ h4 => absurd (stay k i h1 h2) h4⟩
    · show (if k ∈ m.hot then _ else _) = _
      rw [if_neg (hw.apart hk)]
    · show (if k ∈ m.hot then _ else _) = _
      split
      · rw [hk]; rfl
      · exact hk
  | spare hand at_ here before light => exact absurd light (hp.heavy _ _)
  | @evict m1 k l i st1 v hand at_ here before still =>
    obtain ⟨h1, h2, h3⟩ := hand.off
    have hkh : k ∈ m.hot := (h3 k).mp (by rw [at_]; exact List.mem_cons_self)
    have hkc : k ∉ m.cold := fun h => hw.apart h hkh
    refine ⟨⟨[], h1.symm⟩, fun x hx => ?_, fun e he => ?_, fun x hx => ?_, fun x j a1 a2 _ a4 => ?_⟩
    · have hx' : x ∈ m.cold := by rw [← h1]; exact hx
      have hne : x ≠ k := fun h => hkc (h ▸ hx')
      exact (del_other _ hne).trans (h2 x (hw.apart hx'))
    · have : e.key = k := by
        simp only [List.mem_cons, List.not_mem_nil, or_false] at he
        rcases he with rfl | rfl <;> rfl
      rw [this, show ({ m1.dropItem k with hot := l } : Clock K V).cold = m.cold from h1]
      exact hkc
    · show del m1.items k x = none
      by_cases hxk : x = k
      · subst hxk; simp
      · rw [del_other _ hxk, hand.none_iff]; exact hx
    · refine absurd (stay x j a1 a2) ?_
      rw [← h1]; exact a4

theorem ShrinkHot.pops {m m' : Clock K V} {st st' : RS} {log : List (Event K V)} (h : ShrinkHot c m st log m' st')
    (hw : WF c m) (hp : Plainly c) : Pops m log m' := by
  induction h with
  | done => exact .refl hw hp
  | stop over turn => exact turn.pops hw hp
  | more over turn rest ih => exact (turn.pops hw hp).trans (ih (turn.thin (T := 0) (E := []) hw (by omega)).1)

theorem TurnCold.pops {m m' : Clock K V} {st st' : RS} {log : List (Event K V)} {b : Bool} (h : TurnCold c m st log m' st' b)
    (hw : WF c m) (hp : Plainly c) : Pops m log m' := by
  obtain ⟨hd, htk⟩ := dropWhile_passes (m := m) hp.free m.cold
  have stay : ∀ k i, m.items k = some i → i.hot = false → k ∈ m.cold := fun k i h1 h2 => (hw.cold k).mpr ⟨i, h1, h2, hp.heavy _ _⟩
  cases h with
  | hot none turn => exact turn.pops hw hp
  | @promote _ _ _ k l i at_ here referenced shrink =>
    rw [hd] at at_
    rw [htk, List.append_nil] at shrink
    have hN := hw.coldN
    rw [at_, List.nodup_cons] at hN
    have hk : k ∈ m.cold := by rw [at_]; exact List.mem_cons_self
    obtain ⟨j, h3, h4, h5⟩ := (hw.cold k).mp hk
    rw [here] at h3; cases h3
    have key : WF c { m.setItem k { i with hot := true, refs := i.refs - 1 } with cold := l, hot := m.hot ++ [k] } := by
      refine hw.upd k (fun x hx => put_other _ _ hx) (nodup_snoc hw.hotN (hw.apart hk)) hN.2 (fun x hx => ?_)
        (fun x hx => ?_) ?_ ?_
      · simp [hx]
      · simp [at_, hx]
      · simp [setItem, h5]
      · simp [setItem, hN.1]
    have h6 := shrink.pops key hp
    refine Pops.trans (L := []) (m1 := { m.setItem k { i with hot := true, refs := i.refs - 1 } with
      cold := l, hot := m.hot ++ [k] }) ⟨⟨[k], at_⟩, fun x hx => ?_, fun _ h => (by cases h), fun x hx => ?_,
        fun x j a1 a2 a3 a4 => ?_⟩ h6
    · exact put_other _ _ (fun h => hN.1 (h ▸ hx))
    · exact (put_other _ _ (fun h => by rw [h, here] at hx; cases hx)).trans hx
    · have := stay x j a1 a2
      rw [at_, List.mem_cons] at this
      rcases this with rfl | h
      · rw [here] at a1; cases a1; exact absurd a3 referenced
      · exact absurd h a4
  | spare at_ here unref before light => exact absurd light (hp.heavy _ _)
  | @evict k l i st1 v at_ here unref before still =>
    rw [hd] at at_
    rw [htk, List.append_nil]
    have hN := hw.coldN
    rw [at_, List.nodup_cons] at hN
    refine ⟨⟨[k], at_⟩, fun x hx => ?_, fun e he => ?_, fun x hx => ?_, fun x j a1 a2 a3 a4 => ?_⟩
    · exact del_other _ (fun h => hN.1 (h ▸ hx))
    · have : e.key = k := by
        simp only [List.mem_cons, List.not_mem_nil, or_false] at he
        rcases he with rfl | rfl <;> rfl
      rw [this]; exact hN.1
    · show del m.items k x = none
      by_cases hxk : x = k
      · subst hxk; simp
      · rw [del_other _ hxk]; exact hx
    · have := stay x j a1 a2
      rw [at_, List.mem_cons] at this
      rcases this with rfl | h
      · show del m.items x x = none
        simp
      · exact absurd h a4

theorem Fit.pops {extra : Nat} {m m' : Clock K V} {st st' : RS} {log : List (Event K V)} (h : Fit c extra m st log m' st')
    {E : List (K × V)} (he : extra = total c.weight E) (hw : WF c m) (hp : Plainly c) : Pops m log m' := by
  induction h with
  | done => exact .refl hw hp
  | stop over turn => exact turn.pops hw hp
  | more over turn rest ih =>
    exact (turn.pops hw hp).trans (ih (turn.thin (T := 0) (E := E) hw (Nat.zero_le _) (by omega)).1)

/-! ### Calls -/

/-- What a call does to the cold list. `key` is the key the call is about; only `loose` calls let others leave at will. -/
structure Shift (key : Option K) (loose : Prop) (m : Clock K V) (L : List (Event K V)) (m' : Clock K V) : Prop where
  pre : ∃ (p : K → Bool) (T A : List K), m.cold.filter p ++ T = A ++ m'.cold ∧ (∀ x ∈ T, key = some x) ∧
    ∀ x, p x = false → key = some x ∨ loose
  same : ∀ k ∈ m'.cold, key ≠ some k → m'.items k = m.items k
  logs : ∀ e ∈ L, key ≠ some e.key → e.key ∉ m'.cold
  none : ∀ k, key ≠ some k → m.items k = none → m'.items k = none
  gone : ∀ k i, key ≠ some k → m.items k = some i → i.hot = false → i.refs = 0 → k ∉ m'.cold → m'.items k = Option.none

omit [DecidableEq K] in
/-- A change of one item, and room made for it. -/
theorem Pops.shift {m m1 m' : Clock K V} {L pre : List (Event K V)} {k : K} {loose : Prop}
    (h : Pops m1 L m') (hi : ∀ x, x ≠ k → m1.items x = m.items x)
    (hc : ∃ (p : K → Bool) (T : List K), m.cold.filter p ++ T = m1.cold ∧ (∀ x ∈ T, x = k) ∧ ∀ x, p x = false → x = k)
    (hl : ∀ e ∈ pre, e.key = k) : Shift (some k) loose m (pre ++ L) m' := by
  obtain ⟨p, T, hp1, hp2, hp3⟩ := hc
  obtain ⟨A, hA⟩ := h.pre
  have ne : ∀ {x}, some k ≠ some x → x ≠ k := fun h1 h2 => h1 (by rw [h2])
  refine ⟨⟨p, T, A, hp1.trans hA, fun x hx => by rw [hp2 x hx], fun x hx => .inl (by rw [hp3 x hx])⟩,
    fun x hx hk => (h.same x hx).trans (hi x (ne hk)), fun e he hk => ?_, fun x hk hx => h.none x (by rw [hi x (ne hk)]; exact hx),
    fun x i hk a1 a2 a3 a4 => h.gone x i (by rw [hi x (ne hk)]; exact a1) a2 a3 a4⟩
  rcases List.mem_append.mp he with he | he
  · exact absurd (hl e he) (ne hk)
  · exact h.logs e he

theorem cold_enlist (m : Clock K V) (hp : Plainly c) (b : Bool) (k : K) (v : V) (i : Item V) :
    ∃ (p : K → Bool) (T : List K), m.cold.filter p ++ T = ((m.setItem k i).enlist b k (c.weight k v)).cold ∧
      (∀ x ∈ T, x = k) ∧ ∀ x, p x = false → x = k := by
  refine ⟨fun _ => true, if b then [] else [k], ?_, fun x hx => ?_, fun x hx => by cases hx⟩
  · rw [List.filter_true]
    unfold enlist
    rw [if_neg (hp.heavy _ _)]
    cases b
    · rfl
    · exact List.append_nil _
  · cases b
    · simpa using hx
    · simp at hx

omit [DecidableEq K] in
theorem cold_same (m : Clock K V) (k : K) : ∃ (p : K → Bool) (T : List K), m.cold.filter p ++ T = m.cold ∧
      (∀ x ∈ T, x = k) ∧ ∀ x, p x = false → x = k :=
  ⟨fun _ => true, [], by rw [List.filter_true, List.append_nil], fun x hx => (by cases hx), fun x hx => (by cases hx)⟩

theorem relist_heavy (m : Clock K V) (hp : Plainly c) (b : Bool) (k k1 k2 : K) (v v1 : V) :
    m.relist b k (c.weight k1 v) (c.weight k2 v1) = m := by
  unfold relist
  rw [if_neg (hp.heavy _ _), if_neg (hp.heavy _ _)]

theorem Place.shift {m m' : Clock K V} {st st' : RS} {k : K} {v : V} {used : Bool} {L pre : List (Event K V)}
    {loose : Prop} (h : Place c m st k v used L m' st') (hw : WF c m) (hp : Plainly c) (hl : ∀ e ∈ pre, e.key = k) :
    Shift (some k) loose m (pre ++ L) m' := by
  have other : ∀ (i : Item V) x, x ≠ k → (m.setItem k i).items x = m.items x := fun i x hx => put_other _ _ hx
  cases h with
  | @overwrite _ _ log i here fit =>
    have hw1 := hw.relist here v (min (if used then i.refs + 1 else i.refs) 2)
    have h1 := fit.pops (E := []) rfl hw1 hp
    rw [relist_heavy _ hp] at h1
    rw [show pre ++ Event.onEvict k i.value :: log = (pre ++ [Event.onEvict k i.value]) ++ log by simp]
    refine h1.shift (other _) (cold_same m k) (fun e he => ?_)
    rcases List.mem_append.mp he with he | he
    · exact hl e he
    · simp only [List.mem_singleton] at he; rw [he]; rfl
  | @loading _ _ _ b absent pending fit =>
    have hw1 : WF c { m with pending := del m.pending k } := hw.congr rfl rfl rfl
    have hw2 : WF c ({ m.setItem k ⟨v, b, 1⟩ with pending := del m.pending k }.enlist b k (c.weight k v)) :=
      hw1.enlist (k := k) (fun j hj => by rw [absent] at hj; cases hj) ⟨v, b, 1⟩
    have h1 := fit.pops (E := []) rfl hw2 hp
    refine h1.shift (fun x hx => by rw [items_enlist]; exact other _ x hx) ?_ hl
    exact cold_enlist { m with pending := del m.pending k } hp b k v ⟨v, b, 1⟩
  | @ghost _ _ _ g absent idle back fit =>
    have hw1 : WF c { m with ghosts := g } := hw.congr rfl rfl rfl
    have hw2 : WF c ({ m.setItem k ⟨v, true, 0⟩ with ghosts := g }.enlist true k (c.weight k v)) :=
      hw1.enlist (k := k) (fun j hj => by rw [absent] at hj; cases hj) ⟨v, true, 0⟩
    have h1 := fit.pops (E := []) rfl hw2 hp
    refine h1.shift (fun x hx => by rw [items_enlist]; exact other _ x hx) ?_ hl
    exact cold_enlist { m with ghosts := g } hp true k v ⟨v, true, 0⟩
  | @fresh m1 _ _ absent idle new fit =>
    generalize decide (m.hotWeight c + c.weight k v ≤ m.target) = b
    have h1 := fit.pops (E := [(k, v)]) (by simp [total]) hw hp
    have ha := h1.none k absent
    obtain ⟨A, hA⟩ := h1.pre
    have ne : ∀ {x}, some k ≠ some x → x ≠ k := fun h1 h2 => h1 (by rw [h2])
    have hit : ∀ x, x ≠ k → ((m1.setItem k ⟨v, b, 0⟩).enlist b k (c.weight k v)).items x = m1.items x := by
      intro x hx; rw [items_enlist]; exact put_other _ _ hx
    have hcold : ((m1.setItem k ⟨v, b, 0⟩).enlist b k (c.weight k v)).cold = m1.cold ++ if b then [] else [k] := by
      unfold enlist
      rw [if_neg (hp.heavy _ _)]
      cases b
      · rfl
      · exact (List.append_nil _).symm
    have mem : ∀ x, x ≠ k → (x ∈ ((m1.setItem k ⟨v, b, 0⟩).enlist b k (c.weight k v)).cold ↔ x ∈ m1.cold) := by
      intro x hx; rw [hcold]; cases b <;> simp [hx]
    refine ⟨⟨fun _ => true, if b then [] else [k], A, ?_, fun x hx => ?_, fun x hx => by cases hx⟩, fun x hx hk => ?_,
      fun e he hk => ?_, fun x hk hx => ?_, fun x i hk a1 a2 a3 a4 => ?_⟩
    · rw [List.filter_true, hcold, hA, List.append_assoc]
    · cases b
      · simp at hx; rw [hx]
      · simp at hx
    · rw [hit x (ne hk)]; exact h1.same x ((mem x (ne hk)).mp hx)
    · rw [mem _ (ne hk)]
      rcases List.mem_append.mp he with he | he
      · exact absurd (hl e he) (ne hk)
      · exact h1.logs e he
    · rw [hit x (ne hk)]; exact h1.none x hx
    · rw [hit x (ne hk)]
      rw [mem x (ne hk)] at a4
      exact h1.gone x i a1 a2 a3 a4

omit [DecidableEq K] in
theorem enter_keys {target : Nat} {k : K} {v v1 : V} {st : RS} {pre : List (Event K V)} (h : Enter c target k v st pre v1) :
    ∀ e ∈ pre, e.key = k := by
  intro e he
  cases h with
  | direct => cases he
  | rewritten => simp only [List.mem_singleton] at he; rw [he]; rfl

/-- One item leaves. -/
theorem shift_drop {m : Clock K V} (hw : WF c m) (hp : Plainly c) (k : K) {loose : Prop} {L : List (Event K V)}
    (hl : ∀ e ∈ L, e.key = k) : Shift (some k) loose m L ((m.dropItem k).delist k) := by
  have ne : ∀ {x}, some k ≠ some x → x ≠ k := fun h1 h2 => h1 (by rw [h2])
  refine ⟨⟨fun x => decide (x ≠ k), [], [], ?_, fun x hx => (by cases hx), fun x hx => .inl ?_⟩, fun x hx hk => ?_,
    fun e he hk => absurd (hl e he) (ne hk), fun x hk hx => ?_, fun x i hk a1 a2 a3 a4 => ?_⟩
  · rw [List.append_nil]; rfl
  · simp at hx; rw [hx]
  · exact del_other _ (ne hk)
  · exact (del_other _ (ne hk)).trans hx
  · have : x ∈ m.cold := (hw.cold x).mpr ⟨i, a1, a2, hp.heavy _ _⟩
    refine absurd ?_ a4
    show x ∈ m.cold.filter _
    simp [this, ne hk]

omit [DecidableEq K] in
/-- Nothing happens except to one item, which stays where it is. -/
theorem shift_item {m m' : Clock K V} (hw : WF c m) (hp : Plainly c) (k : K) {loose : Prop}
    (hi : ∀ x, x ≠ k → m'.items x = m.items x) (hc : m'.cold = m.cold) {L : List (Event K V)} (hl : ∀ e ∈ L, e.key = k) :
    Shift (some k) loose m L m' := by
  have ne : ∀ {x}, some k ≠ some x → x ≠ k := fun h1 h2 => h1 (by rw [h2])
  refine ⟨⟨fun _ => true, [], [], ?_, fun x hx => (by cases hx), fun x hx => (by cases hx)⟩, fun x hx hk => hi x (ne hk),
    fun e he hk => absurd (hl e he) (ne hk), fun x hk hx => (hi x (ne hk)).trans hx, fun x i hk a1 a2 a3 a4 => ?_⟩
  · rw [hc, List.filter_true, List.append_nil]; rfl
  · rw [hc] at a4
    exact absurd ((hw.cold x).mpr ⟨i, a1, a2, hp.heavy _ _⟩) a4

omit [DecidableEq K] in
/-- A change of the same item before. -/
theorem Shift.after {m m1 m' : Clock K V} {k : K} {loose : Prop} {L : List (Event K V)} (h : Shift (some k) loose m1 L m')
    (hi : ∀ x, x ≠ k → m1.items x = m.items x) (hc : m1.cold = m.cold) : Shift (some k) loose m L m' := by
  have ne : ∀ {x}, some k ≠ some x → x ≠ k := fun h1 h2 => h1 (by rw [h2])
  refine ⟨by rw [← hc]; exact h.pre, fun x hx hk => (h.same x hx hk).trans (hi x (ne hk)), h.logs,
    fun x hk hx => h.none x hk (by rw [hi x (ne hk)]; exact hx),
    fun x i hk a1 => h.gone x i hk (by rw [hi x (ne hk)]; exact a1)⟩

omit [DecidableEq K] in
/-- A change of the same item afterwards. -/
theorem Shift.before {m m1 m' : Clock K V} {k : K} {loose : Prop} {L : List (Event K V)} (h : Shift (some k) loose m L m1)
    (hi : ∀ x, x ≠ k → m'.items x = m1.items x) (hc : m'.cold = m1.cold) : Shift (some k) loose m L m' := by
  have ne : ∀ {x}, some k ≠ some x → x ≠ k := fun h1 h2 => h1 (by rw [h2])
  refine ⟨by rw [hc]; exact h.pre, fun x hx hk => (hi x (ne hk)).trans (h.same x (hc ▸ hx) hk),
    fun e he hk => by rw [hc]; exact h.logs e he hk, fun x hk hx => (hi x (ne hk)).trans (h.none x hk hx),
    fun x i hk a1 a2 a3 a4 => (hi x (ne hk)).trans (h.gone x i hk a1 a2 a3 (by rw [← hc]; exact a4))⟩

theorem Insert.shift {m m' : Clock K V} {k : K} {v : V} {L : List (Event K V)} {loose : Prop} (h : Insert c m k v L m')
    (hw : WF c m) (hp : Plainly c) : Shift (some k) loose m L m' := by
  cases h with
  | rejected enter asked heavy =>
    refine shift_drop hw hp k (fun e he => ?_)
    rw [List.append_assoc] at he
    rcases List.mem_append.mp he with he | he
    · exact enter_keys enter e he
    · rcases List.mem_append.mp he with he | he
      · obtain ⟨i, -, rfl⟩ := List.mem_map.mp he; rfl
      · simp only [List.mem_singleton] at he; rw [he]; rfl
  | stored enter fits place => exact place.shift hw hp (enter_keys enter)

theorem Replacing.shift {m m' : Clock K V} {k : K} {v : V} {soft : Bool} {r : Option V} {L : List (Event K V)} {loose : Prop}
    (h : Replacing c m k v soft L m' r) (hw : WF c m) (hp : Plainly c) : Shift (some k) loose m L m' := by
  cases h with
  | rejected enter asked heavy =>
    refine shift_drop hw hp k (fun e he => ?_)
    rcases List.mem_append.mp he with he | he
    · exact enter_keys enter e he
    · obtain ⟨i, -, rfl⟩ := List.mem_map.mp he; rfl
  | absent enter fits absent => exact shift_item hw hp k (fun _ _ => rfl) rfl (enter_keys enter)
  | stored enter fits here place => exact place.shift hw hp (enter_keys enter)

theorem Lookup.only {m m' : Clock K V} {k : K} {r : Option V} (h : Lookup c m k r m') :
    (∀ x, x ≠ k → m'.items x = m.items x) ∧ m'.cold = m.cold ∧ m'.hot = m.hot ∧
      (∀ i, m.items k = some i → ∃ j, m'.items k = some j ∧ j.value = i.value ∧ j.hot = i.hot) ∧
      (m.items k = none → m'.items k = none) := by
  cases h with
  | @found i here =>
    refine ⟨fun x hx => put_other _ _ hx, rfl, rfl, fun j hj => ?_, fun h => by rw [here] at h; cases h⟩
    rw [here] at hj; cases hj
    exact ⟨i.warm, by simp [setItem], rfl, rfl⟩
  | loading | ghost | fresh => exact ⟨fun _ _ => rfl, rfl, rfl, fun i hi => ⟨i, hi, rfl, rfl⟩, fun h => h⟩

theorem Lookup.wf {m m' : Clock K V} {k : K} {r : Option V} (h : Lookup c m k r m') (hw : WF c m) : WF c m' := by
  obtain ⟨h1, h2, h3, h4, h5⟩ := h.only
  refine hw.upd k h1 (by rw [h3]; exact hw.hotN) (by rw [h2]; exact hw.coldN) (fun x _ => by rw [h3]) (fun x _ => by rw [h2]) ?_ ?_
  · rw [h3, hw.hot]
    constructor
    · rintro ⟨i, a1, a2, a3⟩
      obtain ⟨j, b1, b2, b3⟩ := h4 i a1
      exact ⟨j, b1, by rw [b3]; exact a2, by rw [b2]; exact a3⟩
    · rintro ⟨j, b1, b2, b3⟩
      cases hi : m.items k with
      | none => rw [h5 hi] at b1; cases b1
      | some i =>
        obtain ⟨j', d1, d2, d3⟩ := h4 i hi
        rw [b1] at d1; cases d1
        exact ⟨i, rfl, by rw [← d3]; exact b2, by rw [← d2]; exact b3⟩
  · rw [h2, hw.cold]
    constructor
    · rintro ⟨i, a1, a2, a3⟩
      obtain ⟨j, b1, b2, b3⟩ := h4 i a1
      exact ⟨j, b1, by rw [b3]; exact a2, by rw [b2]; exact a3⟩
    · rintro ⟨j, b1, b2, b3⟩
      cases hi : m.items k with
      | none => rw [h5 hi] at b1; cases b1
      | some i =>
        obtain ⟨j', d1, d2, d3⟩ := h4 i hi
        rw [b1] at d1; cases d1
        exact ⟨i, rfl, by rw [← d3]; exact b2, by rw [← d2]; exact b3⟩

theorem Lookup.shift {m m' : Clock K V} {k : K} {r : Option V} {loose : Prop} (h : Lookup c m k r m') (hw : WF c m)
    (hp : Plainly c) : Shift (some k) loose m [] m' :=
  shift_item hw hp k h.only.1 h.only.2.1 (fun _ h => by cases h)

theorem Fill.shift {m m' : Clock K V} {k : K} {v : V} {waited : Bool} {L : List (Event K V)} {loose : Prop}
    (h : Fill c m k v waited L m') (hn : m.items k = none) (hw : WF c m) (hp : Plainly c) : Shift (some k) loose m L m' := by
  cases h with
  | rejected enter asked heavy =>
    refine shift_item hw hp k ?_ ?_ (fun e he => ?_)
    · exact fun _ _ => rfl
    · rfl
    rcases List.mem_append.mp he with he | he
    · exact enter_keys enter e he
    · simp only [List.mem_singleton] at he; rw [he]; rfl
  | weightless enter fits pending light => exact absurd light (hp.heavy _ _)
  | @stored st st' v1 pre log b hot _ enter fits pending heavy level fit =>
    have hw1 := (hw.enlist (k := k) (fun j hj => by rw [hn] at hj; cases hj) ⟨v1, hot, if waited then 1 else 0⟩)
    have e : (({ m.setItem k ⟨v1, hot, if waited then 1 else 0⟩ with pending := del m.pending k } : Clock K V).setList hot
        (m.list hot ++ [k])) = { (m.setItem k ⟨v1, hot, if waited then 1 else 0⟩).enlist hot k (c.weight k v1) with
          pending := del m.pending k } := by
      unfold enlist
      rw [if_neg heavy]
      cases hot <;> rfl
    rw [e] at fit
    have hw2 : WF c { (m.setItem k ⟨v1, hot, if waited then 1 else 0⟩).enlist hot k (c.weight k v1) with
          pending := del m.pending k } := hw1.congr rfl rfl rfl
    have h1 := fit.pops (E := []) rfl hw2 hp
    refine h1.shift (fun x hx => ?_) ?_ (enter_keys enter)
    · show ((m.setItem k ⟨v1, hot, if waited then 1 else 0⟩).enlist hot k (c.weight k v1)).items x = _
      rw [items_enlist]; exact put_other _ _ hx
    · exact cold_enlist m hp hot k v1 _

theorem write_only (m : Clock K V) (hp : Plainly c) (k : K) (f : V → V) :
    (∀ x, x ≠ k → (m.write c k f).items x = m.items x) ∧ (m.write c k f).cold = m.cold := by
  unfold write
  split
  · rw [relist_heavy _ hp]; exact ⟨fun x hx => put_other _ _ hx, rfl⟩
  · exact ⟨fun _ _ => rfl, rfl⟩

theorem touch_only (m : Clock K V) (k : K) :
    (∀ x, x ≠ k → (m.touch k).items x = m.items x) ∧ (m.touch k).cold = m.cold := by
  unfold touch
  split
  · exact ⟨fun x hx => put_other _ _ hx, rfl⟩
  · exact ⟨fun _ _ => rfl, rfl⟩

theorem Guarded.shift {m m' : Clock K V} {k : K} {use : GuardUse V} {L : List (Event K V)} {loose : Prop}
    (h : Guarded c m k use L m') (hn : m.items k = none) (hw : WF c m) (hp : Plainly c) : Shift (some k) loose m L m' := by
  cases h with
  | insert fill => exact fill.shift hn hw hp
  | drop =>
    refine shift_item hw hp k ?_ ?_ (fun e he => by cases he)
    · exact fun _ _ => rfl
    · rfl
  | forget => exact shift_item hw hp k (fun _ _ => rfl) rfl (fun _ h => by cases h)

theorem Lookup.absent {m m' : Clock K V} {k : K} (h : Lookup c m k none m') : m'.items k = none := by
  cases h <;> assumption

theorem touch_wf {m : Clock K V} (hw : WF c m) (k : K) : WF c (m.touch k) := by
  unfold touch
  split
  · rename_i i here
    exact Lookup.wf (.found here) hw
  · exact hw

omit [DecidableEq K] in
/-- Nothing happens. -/
theorem shift_none {m : Clock K V} (hw : WF c m) (hp : Plainly c) (key : Option K) (loose : Prop) : Shift key loose m [] m :=
  ⟨⟨fun _ => true, [], [], by rw [List.filter_true, List.append_nil]; rfl, fun x hx => (by cases hx), fun x hx => (by cases hx)⟩,
    fun _ _ _ => rfl, fun _ h => (by cases h), fun _ _ h => h,
    fun k i _ h1 h2 _ h4 => absurd ((hw.cold k).mpr ⟨i, h1, h2, hp.heavy _ _⟩) h4⟩

omit [DecidableEq K] in
/-- Everything leaves. -/
theorem shift_all (m : Clock K V) {key : Option K} (t cap g : Nat) : Shift key True m [] (.empty t cap g) :=
  ⟨⟨fun _ => false, [], [], by rw [List.filter_false]; rfl, fun x hx => (by cases hx), fun _ _ => .inr trivial⟩,
    fun _ h => (by cases h), fun _ h => (by cases h), fun _ _ _ => rfl, fun _ _ _ _ _ _ _ => rfl⟩

theorem Remove.shift {m m' : Clock K V} {k : K} {loose : Prop} (h : Remove c m k m') (hw : WF c m) (hp : Plainly c) :
    Shift (some k) loose m [] m' := by
  cases h with
  | item here => exact shift_drop hw hp k (fun e he => by cases he)
  | loading absent pending =>
    refine shift_item hw hp k ?_ ?_ (fun e he => by cases he)
    · exact fun _ _ => rfl
    · rfl
  | ghost absent idle back =>
    refine shift_item hw hp k ?_ ?_ (fun e he => by cases he)
    · exact fun _ _ => rfl
    · rfl
  | nothing => exact shift_none hw hp _ _

omit [DecidableEq K] in
theorem filter_shift {m : Clock K V} (hw : WF c m) (hp : Plainly c) (key : Option K) (f : K → V → Bool) :
    Shift key True m [] (m.filter f) := by
  refine ⟨⟨fun k => (m.items k).any (fun i => f k i.value), [], [], by rw [List.append_nil]; rfl, fun x hx => (by cases hx),
    fun _ _ => .inr trivial⟩, fun k hk _ => ?_, fun _ h => (by cases h), fun k _ hk => ?_, fun k i _ h1 h2 _ h4 => ?_⟩
  · have hk2 := (List.mem_filter.mp hk).2
    show (m.items k).filter _ = _
    cases hi : m.items k with
    | none => rfl
    | some i =>
      rw [hi] at hk2
      simp only [Option.any_some] at hk2
      simp [Option.filter, hk2]
  · show (m.items k).filter _ = _
    rw [hk]; rfl
  · have hc : k ∈ m.cold := (hw.cold k).mpr ⟨i, h1, h2, hp.heavy _ _⟩
    have : ¬ (m.items k).any (fun i => f k i.value) = true := fun h => h4 (List.mem_filter.mpr ⟨hc, h⟩)
    show (m.items k).filter _ = _
    rw [h1] at this ⊢
    simp only [Option.any_some, Bool.not_eq_true] at this
    simp [Option.filter, this]

/-- What any call does to the cold list. -/
theorem Step.shift {m m' : Clock K V} {op : Op K V} {out : Out K V} {L : List (Event K V)} (h : Step c m op out L m')
    (hw : WF c m) (hp : Plainly c) : Shift op.key? (op.sweeps = true) m L m' := by
  cases h with
  | insert h => exact h.shift hw hp
  | replace h => exact h.shift hw hp
  | remove h => exact h.shift hw hp
  | @get k => exact shift_item hw hp k (touch_only m k).1 (touch_only m k).2 (fun e he => by cases he)
  | peek => exact shift_none hw hp _ _
  | containsKey => exact shift_none hw hp _ _
  | @getMut k f =>
    refine Shift.before (m1 := m.touch k) ?_ (write_only _ hp k f).1 (write_only _ hp k f).2
    exact shift_item hw hp k (touch_only m k).1 (touch_only m k).2 (fun e he => by cases he)
  | @peekMut k f => exact shift_item hw hp k (write_only m hp k f).1 (write_only m hp k f).2 (fun e he => by cases he)
  | @retain f =>
    have := filter_shift hw hp none f
    rwa [show True = ((Op.retain f : Op K V).sweeps = true) from (eq_true rfl).symm] at this
  | clear =>
    have := shift_all m (key := none) m.target m.cap m.ghostCap
    rwa [show True = ((Op.clear : Op K V).sweeps = true) from (eq_true rfl).symm] at this
  | drain all =>
    have := shift_all m (key := none) m.target m.cap m.ghostCap
    rwa [show True = ((Op.drain : Op K V).sweeps = true) from (eq_true rfl).symm] at this
  | reserve => exact shift_none hw hp _ _
  | loadHit h => exact h.shift hw hp
  | loadFail h => exact h.shift hw hp
  | load h fill => exact (fill.shift h.absent (h.wf hw) hp).after h.only.1 h.only.2.1
  | @loadMutHit k load f v m1 h => exact (h.shift hw hp).before (write_only _ hp k f).1 (write_only _ hp k f).2
  | loadMutFail h => exact h.shift hw hp
  | @loadMut k v f log m1 m' h fill =>
    exact ((fill.shift h.absent (h.wf hw) hp).after h.only.1 h.only.2.1).before (write_only _ hp k f).1 (write_only _ hp k f).2
  | guardHit h => exact h.shift hw hp
  | guard h guarded => exact (guarded.shift h.absent (h.wf hw) hp).after h.only.1 h.only.2.1
  | @guardMutHit k f use v m1 h => exact (h.shift hw hp).before (write_only _ hp k f).1 (write_only _ hp k f).2
  | guardMut h guarded => exact (guarded.shift h.absent (h.wf hw) hp).after h.only.1 h.only.2.1

/-! ### Two cold items -/

omit [DecidableEq K] in
theorem prefix_split {X Y A B : List K} {a : K} (h : X ++ a :: Y = A ++ B) (ha : a ∈ B) (hY : a ∉ Y) :
    ∃ C, X = A ++ C ∧ B = C ++ a :: Y := by
  rcases List.append_eq_append_iff.mp h with ⟨D, h1, h2⟩ | ⟨D, h1, h2⟩
  · cases D with
    | nil => exact ⟨[], by simpa using h1.symm, by simpa using h2.symm⟩
    | cons d D =>
      rw [List.cons_append, List.cons.injEq] at h2
      exact absurd (by rw [h2.2]; exact List.mem_append_right _ ha) hY
  · exact ⟨D, h1, h2⟩

/-- `k1` is cold and was not looked up since the hand was there last, and `k2` is not in front of it. -/
structure Ahead (k1 k2 : K) (m : Clock K V) : Prop where
  idle : ∀ i, m.items k1 = some i → i.hot = false ∧ i.refs = 0
  order : k1 ∈ m.cold → ∃ A B, m.cold = A ++ k1 :: B ∧ k2 ∉ A

omit [DecidableEq K] in
theorem Shift.order {key : Option K} {loose : Prop} {m m' : Clock K V} {L : List (Event K V)} {k1 k2 : K}
    (h : Shift key loose m L m') (hw : WF c m) (hk : key ≠ some k1) (hne : k1 ≠ k2) (ha : Ahead k1 k2 m) :
    Ahead k1 k2 m' ∧ (k1 ∈ m'.cold → k1 ∈ m.cold ∧
      (k2 ∈ m.cold → key ≠ some k2 → ¬ loose → k2 ∈ m'.cold)) := by
  obtain ⟨p, T, A, e, hT, hpx⟩ := h.pre
  have main : k1 ∈ m'.cold → k1 ∈ m.cold ∧ (∃ A' B', m'.cold = A' ++ k1 :: B' ∧ k2 ∉ A') ∧
      (k2 ∈ m.cold → key ≠ some k2 → ¬ loose → k2 ∈ m'.cold) := by
    intro h1
    have hin : k1 ∈ m.cold.filter p := by
      have : k1 ∈ m.cold.filter p ++ T := by rw [e]; exact List.mem_append_right _ h1
      rcases List.mem_append.mp this with h2 | h2
      · exact h2
      · exact absurd (hT _ h2) hk
    obtain ⟨hc, hpk⟩ := List.mem_filter.mp hin
    obtain ⟨X, Y, f1, f2⟩ := ha.order hc
    have hN := hw.coldN
    rw [f1] at hN e
    rw [List.filter_append, List.filter_cons_of_pos hpk, List.append_assoc, List.cons_append] at e
    have hY : k1 ∉ Y := (List.nodup_cons.mp (List.nodup_append.mp hN).2.1).1
    obtain ⟨C, g1, g2⟩ := prefix_split e h1 (fun h => by
      rcases List.mem_append.mp h with h | h
      · exact hY (List.mem_filter.mp h).1
      · exact hk (hT _ h))
    refine ⟨hc, ⟨C, _, g2, fun h => ?_⟩, fun h2 h3 h4 => ?_⟩
    · have : k2 ∈ X.filter p := by rw [g1]; exact List.mem_append_right _ h
      exact f2 (List.mem_filter.mp this).1
    · have hp2 : p k2 = true := by
        cases hb : p k2 with
        | true => rfl
        | false =>
          rcases hpx k2 hb with h | h
          · exact absurd h h3
          · exact absurd h h4
      rw [f1, List.mem_append, List.mem_cons] at h2
      rw [g2]
      rcases h2 with h2 | h2 | h2
      · exact absurd h2 f2
      · exact absurd h2.symm hne
      · exact List.mem_append_right _ (List.mem_cons_of_mem _ (List.mem_append_left _ (List.mem_filter.mpr ⟨h2, hp2⟩)))
  refine ⟨⟨fun i hi => ?_, fun h1 => (main h1).2.1⟩, fun h1 => ⟨(main h1).1, (main h1).2.2⟩⟩
  cases hm : m.items k1 with
  | none => rw [h.none k1 hk hm] at hi; cases hi
  | some j =>
    obtain ⟨a1, a2⟩ := ha.idle j hm
    by_cases hc : k1 ∈ m'.cold
    · rw [h.same k1 hc hk, hm] at hi; cases hi; exact ⟨a1, a2⟩
    · rw [h.gone k1 j hk hm a1 a2 hc] at hi; cases hi

/-- A call that does not use the item of `k` is about other keys, or does nothing. -/
theorem Step.unused {m m' : Clock K V} {op : Op K V} {out : Out K V} {L : List (Event K V)} (h : Step c m op out L m') {k : K}
    (hu : Unused k op) : op.key? ≠ some k ∨ (m' = m ∧ L = []) := by
  rcases hu with h1 | rfl | rfl
  · exact .inl h1
  · cases h; exact .inr ⟨rfl, rfl⟩
  · cases h; exact .inr ⟨rfl, rfl⟩

/-- What a history does to two cold items. -/
theorem run_order {target cap gcap : Nat} {s0 s : Shard K V} {h : List (Unsync.Call K V)} {k1 k2 : K} {m0 : Clock K V}
    (hr : Unsync.Run c s0 h s) (h0 : Reach c target cap gcap s0) (hm : s0.Implements c m0) (hne : k1 ≠ k2) (hp : Plainly c)
    (ha : Ahead k1 k2 m0) (hu : ∀ x ∈ h, Unused k1 x.op) :
    ∃ m, s.Implements c m ∧ Ahead k1 k2 m ∧ (k1 ∈ m.cold → k1 ∈ m0.cold ∧ m.items k1 = m0.items k1 ∧
      (k2 ∈ m0.cold → (∀ x ∈ h, Unused k2 x.op ∧ x.op.sweeps = false) →
        k2 ∈ m.cold ∧ m.items k2 = m0.items k2 ∧ ∀ x ∈ h, ∀ e ∈ x.log, e.key ≠ k2)) := by
  induction hr with
  | start => exact ⟨m0, hm, ha, fun h => ⟨h, rfl, fun h2 _ => ⟨h2, rfl, fun x hx => by cases hx⟩⟩⟩
  | @layout h s m p hr hperm hpx ih =>
    obtain ⟨m1, ⟨R, F, h2, rfl⟩, h3, h4⟩ := ih hu
    refine ⟨_, ⟨R, F, h2, ?_⟩, h3, h4⟩
    exact (Shard.abs_relayout (hr.reach h0).inv.toInv0 hperm hpx).symm
  | @call h s s' op out q hr hs ih =>
    obtain ⟨m1, h1, h2, h3⟩ := ih (fun x hx => hu x (List.mem_append_left _ hx))
    have hwf := h1.wf (hr.reach h0).inv.toInv0
    obtain ⟨R, F, g1, rfl⟩ := h1
    obtain ⟨m', h4, h5⟩ := (step_sim (hr.reach h0).inv.toInv0 g1 op).of_ok hs
    have hu1 := hu _ (List.mem_append_right _ List.mem_cons_self)
    rcases h5.unused hu1 with hk | ⟨rfl, hl⟩
    · have hsh := h5.shift hwf hp
      obtain ⟨h6, h7⟩ := hsh.order hwf hk hne h2
      refine ⟨m', h4, h6, fun hc => ?_⟩
      obtain ⟨d1, d2⟩ := h7 hc
      obtain ⟨e1, e2, e3⟩ := h3 d1
      refine ⟨e1, (hsh.same k1 hc hk).trans e2, fun hc2 hu2 => ?_⟩
      obtain ⟨f1, f2, f3⟩ := e3 hc2 (fun x hx => hu2 x (List.mem_append_left _ hx))
      obtain ⟨hux, hsw⟩ := hu2 _ (List.mem_append_right _ List.mem_cons_self)
      rcases h5.unused hux with hk2 | ⟨rfl, hl⟩
      · have f4 := d2 f1 hk2 (by rw [hsw]; simp)
        refine ⟨f4, (hsh.same k2 f4 hk2).trans f2, fun x hx e he => ?_⟩
        rcases List.mem_append.mp hx with hx | hx
        · exact f3 x hx e he
        · simp only [List.mem_singleton] at hx
          subst hx
          intro hek
          exact hsh.logs e he (by rw [hek]; exact hk2) (by rw [hek]; exact f4)
      · refine ⟨f1, f2, fun x hx e he => ?_⟩
        rcases List.mem_append.mp hx with hx | hx
        · exact f3 x hx e he
        · simp only [List.mem_singleton] at hx
          subst hx
          rw [show q.log = [] from hl] at he; cases he
    · refine ⟨_, h4, h2, fun hc => ?_⟩
      obtain ⟨e1, e2, e3⟩ := h3 hc
      refine ⟨e1, e2, fun hc2 hu2 => ?_⟩
      obtain ⟨f1, f2, f3⟩ := e3 hc2 (fun x hx => hu2 x (List.mem_append_left _ hx))
      refine ⟨f1, f2, fun x hx e he => ?_⟩
      rcases List.mem_append.mp hx with hx | hx
      · exact f3 x hx e he
      · simp only [List.mem_singleton] at hx
        subst hx
        rw [show q.log = [] from hl] at he; cases he

end QuickCache.Spec.Clock
