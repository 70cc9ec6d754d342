import Verif.Proofs.Options

/-!
# Properties of the options and of the constructors (C38, C39, C40, C42, C43)
-/

namespace QuickCache.Props
open SyncCache
variable {K V RS : Type _}

/-- The estimated number of items each of `n` shards is built for: the total divided by `n`, rounded up, where the sum
formed on the way stops at `u64::MAX`. -/
def itemsPerShard (items n : Nat) : Nat := min (items + (n - 1)) (2 ^ 64 - 1) / n

/-- Requested: 13 shards for 300 items and a capacity of 1003. -/
def exOptions : Options := { shards := 13, hot := 97 / 100, ghost := 1 / 2, items := 300, weight := 1003 }

/-! ### C38 -/

/-- C38: for every requested number of shards up to `2^63` and every capacity the constructor succeeds; the number of
shards is a power of two, at most every power of two that is at least the request, and either 1 or such that each shard
is built for at least 32 items; a larger power of two (below twice the request) would give each shard fewer than 32. -/
theorem C38 (o : Options) (hs : o.shards ≤ 2 ^ 63) :
    ∃ s : SyncCache K V, withOptions o = .ok s ∧ (∃ j, s.numShards = 2 ^ j) ∧
      (∀ i, o.shards ≤ 2 ^ i → s.numShards ≤ 2 ^ i) ∧
      (s.numShards = 1 ∨ 32 ≤ itemsPerShard o.items s.numShards) ∧
      (∀ i, s.numShards < 2 ^ i → 2 ^ i < 2 * o.shards → itemsPerShard o.items (2 ^ i) < 32) ∧
      ∀ x ∈ s.shards, x = Shard.fromOptions o.hot o.ghost (itemsPerShard o.items s.numShards) x.capacity := by
  obtain ⟨j, -, h1, h2, h3, h4⟩ := numShards_spec o hs
  refine ⟨_, by simp only [withOptions, h1, Res.ok_bind]; rfl, ⟨j, ?_⟩, ?_⟩
  · simp [SyncCache.numShards]
  · simp only [SyncCache.numShards, List.length_replicate]
    refine ⟨h2, h3, ?_, ?_⟩
    · intro i hi
      exact h4 i ((Nat.pow_lt_pow_iff_right (by norm_num)).mp hi)
    · intro x hx
      rw [List.eq_of_mem_replicate hx]; rfl

/-- C38, without the rounding: if the sums do not reach `2^64`, then with more than one shard each shard's part of the
items exceeds 31, and with a larger power of two it would not. -/
theorem C38_items (o : Options) (hs : o.shards ≤ 2 ^ 63) (hi : o.items + 2 * o.shards ≤ 2 ^ 64) (h0 : 0 < o.shards)
    {s : SyncCache K V} (h : withOptions o = .ok s) :
    (s.numShards = 1 ∨ 31 * s.numShards < o.items) ∧
    ∀ i, s.numShards < 2 ^ i → 2 ^ i < 2 * o.shards → o.items ≤ 31 * 2 ^ i := by
  obtain ⟨s', h1, ⟨j, h2⟩, h3, h4, h5, -⟩ := C38 (K := K) (V := V) o hs
  rw [h] at h1; cases h1
  have hj : s.numShards ≤ 2 * o.shards := by
    have h6 := h3 (Nat.clog 2 o.shards) (Nat.le_pow_clog (by norm_num) _)
    rcases Nat.lt_or_ge 1 o.shards with h7 | h7
    · have h8 := Nat.pow_pred_clog_lt_self (b := 2) (by norm_num) h7
      have h9 := Nat.clog_pos (b := 2) (by norm_num) (show 2 ≤ o.shards from h7)
      obtain ⟨m, hm⟩ : ∃ m, Nat.clog 2 o.shards = m + 1 := ⟨_, (Nat.succ_pred_eq_of_pos h9).symm⟩
      rw [hm] at h6 h8
      simp only [Nat.pred_succ] at h8
      rw [Nat.pow_succ] at h6
      omega
    · have h8 := h3 0 (by omega)
      omega
  have hpos : 0 < s.numShards := by rw [h2]; exact Nat.two_pow_pos j
  refine ⟨?_, ?_⟩
  · refine h4.imp_right fun h6 => ?_
    unfold itemsPerShard at h6
    rw [Nat.le_div_iff_mul_le hpos] at h6
    omega
  · intro i hi1 hi2
    have h6 := h5 i hi1 hi2
    unfold itemsPerShard at h6
    rw [Nat.div_lt_iff_lt_mul (by omega)] at h6
    omega

/-- 13 requested shards would be rounded to 16; for 300 items that is halved to 8, each built for 38 items. -/
example : (withOptions exOptions : Res (SyncCache Nat Nat)).map (·.numShards) = .ok 8 ∧ itemsPerShard 300 8 = 38 ∧
    itemsPerShard 300 16 = 19 ∧ exOptions.shards ≤ 2 ^ 63 := by decide +kernel

/-- Without the bound on the request the constructor panics (in builds with overflow checks). -/
example : (withOptions { exOptions with shards := 2 ^ 63 + 1 } : Res (SyncCache Nat Nat)).map (·.numShards) =
    .error .overflow := by decide +kernel

/-! ### C39 -/

/-- C39: `capacity()` and `shard_capacity()` do not fail, the former is `num_shards()` times the latter, at least the
requested capacity and above it by less than `num_shards()`; if the request is within `num_shards() - 1` of `u64::MAX`,
the total may instead fall short, by less than `num_shards()`. -/
theorem C39 (o : Options) (hw : o.weight < 2 ^ 64) {s : SyncCache K V} (h : withOptions o = .ok s)
    (hs : o.shards ≤ 2 ^ 63) :
    ∃ total each, s.capacity = .ok total ∧ s.shardCapacity = .ok each ∧ total = s.numShards * each ∧ total < 2 ^ 64 ∧
      (o.weight + s.numShards ≤ 2 ^ 64 → o.weight ≤ total ∧ total < o.weight + s.numShards) ∧
      (2 ^ 64 < o.weight + s.numShards → o.weight < total + s.numShards) := by
  obtain ⟨j, -, h1, -⟩ := numShards_spec o hs
  simp only [withOptions, h1, Res.ok_bind] at h
  cases h
  have hpos := Nat.two_pow_pos j
  have hlen : (List.replicate (2 ^ j) (Shard.fromOptions o.hot o.ghost (share o.items (2 ^ j))
      (share o.weight (2 ^ j)) : Shard K V)).length = 2 ^ j := by simp
  have hb : 2 ^ j * share o.weight (2 ^ j) < 2 ^ 64 := by
    rcases Nat.lt_or_ge (2 ^ 64) (o.weight + 2 ^ j) with h2 | h2
    · exact (share_bounds_sat hpos hw h2).1
    · have := (share_bounds hpos h2).2; omega
  refine ⟨2 ^ j * share o.weight (2 ^ j), share o.weight (2 ^ j), ?_, ?_, ?_, hb, ?_⟩
  · simp only [SyncCache.capacity, List.map_replicate, SyncCache.sum]
    have := SyncCache.sum_replicate (x := share o.weight (2 ^ j)) (2 ^ j) 0 (by omega)
    rw [Nat.zero_add] at this
    exact this
  · unfold SyncCache.shardCapacity
    rw [List.getElem?_replicate, if_pos hpos]; rfl
  · simp only [SyncCache.numShards, hlen]
  · simp only [SyncCache.numShards, hlen]
    exact ⟨fun h2 => share_bounds hpos h2, fun h2 => (share_bounds_sat hpos hw h2).2⟩

/-- Capacity 1003 over 8 shards: 126 each, 1008 in total. -/
example : (withOptions exOptions : Res (SyncCache Nat Nat)).bind (fun s => s.capacity) = .ok 1008 := by decide +kernel

/-- A request at the upper end, where the total falls short by 7. -/
example : (withOptions { exOptions with weight := 2 ^ 64 - 1 } : Res (SyncCache Nat Nat)).bind (fun s => s.capacity) =
    .ok (2 ^ 64 - 8) := by decide +kernel

/-! ### C40 -/

/-- C40: whatever the hash function, every key is routed to an existing shard, determined by its hash alone; and every
shard is reachable: for each there is a hash leading to it. -/
theorem C40 (o : Options) (hs : o.shards ≤ 2 ^ 63) {s : SyncCache K V} (h : withOptions o = .ok s) :
    (∃ route : UInt64 → Nat, ∀ (c : Cfg K V RS) (k : K), route (c.hash k) < s.shards.length ∧
      s.shardFor c k = some (route (c.hash k))) ∧
    ∀ i, i < s.shards.length → ∃ h : UInt64, ∀ (c : Cfg K V RS) (k : K), c.hash k = h → s.shardFor c k = some i := by
  obtain ⟨j, hj, h1, -⟩ := numShards_spec o hs
  simp only [withOptions, h1, Res.ok_bind] at h
  cases h
  simp only [SyncCache.shardFor, List.length_replicate]
  constructor
  · refine ⟨shardIdx (UInt64.ofNat (2 ^ j - 1)), fun c k => ⟨shardIdx_lt hj _, ?_⟩⟩
    rw [if_pos (shardIdx_lt hj _)]
  · intro i hi
    obtain ⟨x, hx⟩ := shardIdx_onto hj hi
    refine ⟨x, fun c k hk => ?_⟩
    rw [hk, if_pos (shardIdx_lt hj _), hx]

/-- The bits that select one of the 8 shards are bits 32 to 34 of the hash. -/
example : (withOptions exOptions : Res (SyncCache Nat Nat)).map (fun s => shardIdx s.mask 0x0000000500000003) = .ok 5 := by
  decide +kernel

/-! ### C42 -/

/-- The values given to a setter in a sequence of setter calls: the last one. -/
def lastGiven {α : Type _} (get : Builder.Setter → Option α) (l : List Builder.Setter) : Option α :=
  (l.filterMap get).getLast?

/-- The argument of `weight_capacity`. -/
def givenWeight : Builder.Setter → Option Nat | .weight n => some n | _ => none
/-- The argument of `estimated_items_capacity`. -/
def givenItems : Builder.Setter → Option Nat | .items n => some n | _ => none
/-- The argument of `shards`. -/
def givenShards : Builder.Setter → Option Nat | .shards n => some n | _ => none
/-- The argument of `hot_allocation`, if it is a number. -/
def givenHot : Builder.Setter → Option ℚ | .hot (.fin q) => some q | _ => none
/-- The argument of `ghost_allocation`, if it is a number. -/
def givenGhost : Builder.Setter → Option ℚ | .ghost (.fin q) => some q | _ => none

/-- A fraction is a number between 0 and 1. -/
def IsFraction : F64 → Prop | .fin q => 0 ≤ q ∧ q ≤ 1 | _ => False

/-- The setter calls are valid: the arguments of `hot_allocation` and `ghost_allocation` are fractions. -/
def ValidSetter : Builder.Setter → Prop | .hot f => IsFraction f | .ghost f => IsFraction f | _ => True

theorem inUnit_some {f : F64} : IsFraction f → ∃ q, f = .fin q ∧ Builder.inUnit f = some q := by
  cases f with
  | nan => exact False.elim
  | inf b => exact False.elim
  | fin q =>
    rintro ⟨h0, h1⟩
    refine ⟨q, rfl, ?_⟩
    simp only [Builder.inUnit]
    rw [if_pos]
    rw [min_eq_left h1, max_eq_right h0]

theorem inUnit_none {f : F64} (h : ¬ IsFraction f) : Builder.inUnit f = none := by
  cases f with
  | nan => rfl
  | inf b => rfl
  | fin q =>
    simp only [Builder.inUnit]
    rw [if_neg]
    intro he
    apply h
    constructor
    · rw [← he]; exact le_max_left _ _
    · rw [← he]; exact max_le (by norm_num) (min_le_right _ _)

/-- C42: the setters panic exactly if a fraction is not one. -/
theorem C42_setters (l : List Builder.Setter) :
    (∃ b, l.foldlM Builder.set .new = .ok b) ↔ ∀ x ∈ l, ValidSetter x := by
  suffices ∀ b, (∃ b', l.foldlM Builder.set b = .ok b') ↔ ∀ x ∈ l, ValidSetter x from this _
  induction l with
  | nil => intro b; simp
  | cons x l ih =>
    intro b
    rw [List.foldlM_cons]
    have key : (ValidSetter x ∧ ∃ b1, b.set x = .ok b1) ∨ (¬ ValidSetter x ∧ ∃ p, b.set x = .error p) := by
      cases x with
      | hot f =>
        by_cases hf : IsFraction f
        · obtain ⟨q, -, h⟩ := inUnit_some hf
          left; exact ⟨hf, _, by simp only [Builder.set, h]; rfl⟩
        · right; exact ⟨hf, _, by simp only [Builder.set, inUnit_none hf]; rfl⟩
      | ghost f =>
        by_cases hf : IsFraction f
        · obtain ⟨q, -, h⟩ := inUnit_some hf
          left; exact ⟨hf, _, by simp only [Builder.set, h]; rfl⟩
        · right; exact ⟨hf, _, by simp only [Builder.set, inUnit_none hf]; rfl⟩
      | shards n => exact Or.inl ⟨trivial, _, rfl⟩
      | items n => exact Or.inl ⟨trivial, _, rfl⟩
      | weight n => exact Or.inl ⟨trivial, _, rfl⟩
    rcases key with ⟨hv, b1, h⟩ | ⟨hv, p, h⟩
    · rw [h, Res.ok_bind, ih]
      simp [hv]
    · rw [h, Res.error_bind]
      simp [hv]

theorem lastGiven_cons {α : Type _} (get : Builder.Setter → Option α) (x : Builder.Setter) (l : List Builder.Setter) :
    lastGiven get (x :: l) = (lastGiven get l).or (get x) := by
  unfold lastGiven
  rw [List.filterMap_cons]
  cases get x with
  | none => simp
  | some a => simp only [List.getLast?_cons]; cases (List.filterMap get l).getLast? <;> rfl

theorem set_fields {b b1 : Builder} {x : Builder.Setter} (h : b.set x = .ok b1) :
    b1.weight = (givenWeight x).or b.weight ∧ b1.items = (givenItems x).or b.items ∧
    b1.shards = (givenShards x).or b.shards ∧ b1.hot = (givenHot x).or b.hot ∧ b1.ghost = (givenGhost x).or b.ghost := by
  cases x with
  | hot f =>
    by_cases hf : IsFraction f
    · obtain ⟨q, rfl, hq⟩ := inUnit_some hf
      simp only [Builder.set, hq] at h; cases h
      exact ⟨rfl, rfl, rfl, rfl, rfl⟩
    · simp only [Builder.set, inUnit_none hf] at h; cases h
  | ghost f =>
    by_cases hf : IsFraction f
    · obtain ⟨q, rfl, hq⟩ := inUnit_some hf
      simp only [Builder.set, hq] at h; cases h
      exact ⟨rfl, rfl, rfl, rfl, rfl⟩
    · simp only [Builder.set, inUnit_none hf] at h; cases h
  | shards n => cases h; exact ⟨rfl, rfl, rfl, rfl, rfl⟩
  | items n => cases h; exact ⟨rfl, rfl, rfl, rfl, rfl⟩
  | weight n => cases h; exact ⟨rfl, rfl, rfl, rfl, rfl⟩

theorem setters_fields (l : List Builder.Setter) : ∀ {b b' : Builder}, l.foldlM Builder.set b = .ok b' →
    b'.weight = (lastGiven givenWeight l).or b.weight ∧ b'.items = (lastGiven givenItems l).or b.items ∧
    b'.shards = (lastGiven givenShards l).or b.shards ∧ b'.hot = (lastGiven givenHot l).or b.hot ∧
    b'.ghost = (lastGiven givenGhost l).or b.ghost := by
  induction l with
  | nil => intro b b' h; cases h; exact ⟨rfl, rfl, rfl, rfl, rfl⟩
  | cons x l ih =>
    intro b b' h
    rw [List.foldlM_cons] at h
    cases hx : b.set x with
    | error p => rw [hx, Res.error_bind] at h; cases h
    | ok b1 =>
      rw [hx, Res.ok_bind] at h
      obtain ⟨h1, h2, h3, h4, h5⟩ := ih h
      obtain ⟨g1, g2, g3, g4, g5⟩ := set_fields hx
      simp only [lastGiven_cons, Option.or_assoc, ← g1, ← g2, ← g3, ← g4, ← g5]
      exact ⟨h1, h2, h3, h4, h5⟩

/-- C42: after any sequence of setter calls, `build` succeeds exactly if `weight_capacity` and
`estimated_items_capacity` were among them; the options returned are the values given last, or the documented defaults:
four times the available parallelism for the shards, 97% and 50% (as `f64`) for the allocations. Otherwise the error names
the missing value, the weight capacity first. -/
theorem C42_build (l : List Builder.Setter) (par : Nat) {b : Builder} (h : l.foldlM Builder.set .new = .ok b) :
    b.build par =
      match lastGiven givenWeight l, lastGiven givenItems l with
      | none, _ => .error .noWeight
      | some _, none => .error .noItems
      | some w, some i => .ok {
          shards := (lastGiven givenShards l).getD (par * 4)
          hot := (lastGiven givenHot l).getD (rnd (97 / 100))
          ghost := (lastGiven givenGhost l).getD (rnd (1 / 2))
          items := i
          weight := w } := by
  obtain ⟨h1, h2, h3, h4, h5⟩ := setters_fields l h
  simp only [Builder.new, Option.or_none] at h1 h2 h3 h4 h5
  unfold Builder.build
  rw [h1, h2, h3, h4, h5]
  cases lastGiven givenWeight l with
  | none => rfl
  | some w => cases lastGiven givenItems l <;> rfl

/-- Setting a value twice, an allocation once, the shards not at all. -/
example : ([.items 5, .weight 100, .items 7, .hot (.fin (1 / 4))] : List Builder.Setter).foldlM Builder.set .new =
    .ok ⟨none, some (1 / 4), none, some 7, some 100⟩ ∧
    (∀ x ∈ ([.items 5, .weight 100, .items 7, .hot (.fin (1 / 4))] : List Builder.Setter), ValidSetter x) ∧
    ¬ ValidSetter (.ghost .nan) := by
  refine ⟨?_, ?_, fun h => h⟩
  · have : max 0 (min (1 / 4 : ℚ) 1) = 1 / 4 := by norm_num
    simp only [List.foldlM_cons, List.foldlM_nil, Builder.set, Builder.new, Builder.inUnit, this, Res.ok_bind, if_true]
    rfl
  · intro x hx
    simp only [List.mem_cons, List.not_mem_nil, or_false] at hx
    rcases hx with rfl | rfl | rfl | rfl
    · trivial
    · trivial
    · trivial
    · exact ⟨by norm_num, by norm_num⟩

/-! ### C43 -/

/-- C43: with fractions between 0 and 1 and sizes up to `2^53`, the hot target of a shard is at most its capacity and the
bound on ghosts at most the number of items it was built for. -/
theorem C43 {hot ghost : ℚ} (h0 : 0 ≤ hot) (h1 : hot ≤ 1) (g0 : 0 ≤ ghost) (g1 : ghost ≤ 1) {items weight : Nat} :
    let s : Shard K V := Shard.fromOptions hot ghost items weight
    s.capacity = weight ∧ (weight ≤ 2 ^ 53 → s.weightTargetHot ≤ weight) ∧
      (items ≤ 2 ^ 53 → s.capacityNonResident ≤ items) :=
  ⟨rfl, fracOf_le h0 h1, fracOf_le g0 g1⟩

/-- C43: up to `2^53` the hot target is the capacity times the hot fraction, rounded down or up to a whole number, and the
bound on ghosts is the number of items times the ghost fraction, rounded likewise. -/
theorem C43_product {hot ghost : ℚ} (h0 : 0 ≤ hot) (h1 : hot ≤ 1) (g0 : 0 ≤ ghost) (g1 : ghost ≤ 1) {items weight : Nat} :
    let s : Shard K V := Shard.fromOptions hot ghost items weight
    (weight ≤ 2 ^ 53 → ⌊(weight : ℚ) * hot⌋₊ ≤ s.weightTargetHot ∧ s.weightTargetHot ≤ ⌈(weight : ℚ) * hot⌉₊) ∧
      (items ≤ 2 ^ 53 → ⌊(items : ℚ) * ghost⌋₊ ≤ s.capacityNonResident ∧
        s.capacityNonResident ≤ ⌈(items : ℚ) * ghost⌉₊) :=
  ⟨fracOf_bounds h0 h1, fracOf_bounds g0 g1⟩

/-- C43: the options that `build` returns always have such fractions. -/
theorem C43_build (l : List Builder.Setter) (par : Nat) {b : Builder} {o : Options}
    (h : l.foldlM Builder.set .new = .ok b) (hb : b.build par = .ok o) :
    0 ≤ o.hot ∧ o.hot ≤ 1 ∧ 0 ≤ o.ghost ∧ o.ghost ≤ 1 := by
  have hv := (C42_setters l).mp ⟨b, h⟩
  rw [C42_build l par h] at hb
  have gen : ∀ (get : Builder.Setter → Option ℚ) (d : ℚ), 0 ≤ d → d ≤ 1 →
      (∀ x q, ValidSetter x → get x = some q → 0 ≤ q ∧ q ≤ 1) →
      0 ≤ (lastGiven get l).getD d ∧ (lastGiven get l).getD d ≤ 1 := by
    intro get d d0 d1 hg
    cases hl : lastGiven get l with
    | none => exact ⟨d0, d1⟩
    | some q =>
      have := List.mem_of_getLast? hl
      rw [List.mem_filterMap] at this
      obtain ⟨x, hx, hq⟩ := this
      exact hg x q (hv x hx) hq
  have hhot := gen givenHot (rnd (97 / 100)) (rnd_nonneg (by norm_num))
    (by have := rnd_le (x := 97 / 100) (n := 1) (by norm_num) (by norm_num) (by norm_num); simpa using this) (by
      intro x q hx hq
      cases x with
      | hot f => cases f with
        | fin q' => cases hq; exact hx
        | nan => cases hq
        | inf b => cases hq
      | _ => cases hq)
  have hghost := gen givenGhost (rnd (1 / 2)) (rnd_nonneg (by norm_num))
    (by have := rnd_le (x := 1 / 2) (n := 1) (by norm_num) (by norm_num) (by norm_num); simpa using this) (by
      intro x q hx hq
      cases x with
      | ghost f => cases f with
        | fin q' => cases hq; exact hx
        | nan => cases hq
        | inf b => cases hq
      | _ => cases hq)
  split at hb
  · cases hb
  · cases hb
  · cases hb
    exact ⟨hhot.1, hhot.2, hghost.1, hghost.2⟩

/-- Just above `2^53` the bound fails: rounding puts the target one above the capacity. -/
example : (Shard.fromOptions 1 0 0 (2 ^ 53 + 3) : Shard Nat Nat).weightTargetHot = 2 ^ 53 + 4 := by decide +kernel

/-- The default cache of capacity 1 has target 0: items of weight 1 are never admitted. -/
example : (Shard.fromOptions defaultHot defaultGhost 1 1 : Shard Nat Nat).weightTargetHot = 0 := by decide +kernel

/-- A case of the theorem: 97% of 1000 is 970. -/
example : (Shard.fromOptions defaultHot defaultGhost 1000 1000 : Shard Nat Nat).weightTargetHot = 970 := by
  decide +kernel

end QuickCache.Props
