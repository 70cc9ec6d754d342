import Verif.Model.Sync
import Mathlib.Tactic.Linarith
import Mathlib.Tactic.Positivity
import Mathlib.Tactic.NormNum
import Mathlib.Tactic.Ring

/-!
# Lemmas about rounding and about sizing the shards
-/

namespace QuickCache

/-! ### Rounding -/

theorem roundEven_int (n : ℤ) : roundEven n = n := by
  unfold roundEven; simp

theorem roundEven_le {y : ℚ} {m : ℤ} (h : y ≤ m) : roundEven y ≤ m := by
  by_cases he : y = m
  · rw [he, roundEven_int]
  · have hlt : y < m := lt_of_le_of_ne h he
    have hf : ⌊y⌋ < m := Int.floor_lt.mpr hlt
    unfold roundEven
    split
    · omega
    · split
      · omega
      · split <;> omega

theorem roundEven_nonneg {y : ℚ} (h : 0 ≤ y) : 0 ≤ roundEven y := by
  have hf : 0 ≤ ⌊y⌋ := Int.floor_nonneg.mpr h
  unfold roundEven
  split
  · omega
  · split
    · omega
    · split <;> omega

theorem rnd_nonneg {x : ℚ} (h : 0 ≤ x) : 0 ≤ rnd x := by
  unfold rnd
  split
  · exact le_refl _
  · have h1 : (0 : ℚ) < 2 ^ ulpExp x := zpow_pos (by norm_num) _
    have h2 := roundEven_nonneg (y := x / 2 ^ ulpExp x) (div_nonneg h h1.le)
    have : (0 : ℚ) ≤ (roundEven (x / 2 ^ ulpExp x) : ℚ) := by exact_mod_cast h2
    exact mul_nonneg this h1.le

theorem ulpExp_le {x : ℚ} (hx : 0 < x) (h : x < 2 ^ 53) : ulpExp x ≤ 0 := by
  unfold ulpExp
  have : Int.log 2 x < 53 := by
    apply (Int.lt_zpow_iff_log_lt (b := 2) (by norm_num) hx).mp
    exact_mod_cast h
  omega

theorem scale_int (n : Nat) {e : ℤ} (he : e ≤ 0) : ∃ m : ℤ, (n : ℚ) / 2 ^ e = m ∧ (m : ℚ) * 2 ^ e = n := by
  refine ⟨n * 2 ^ (-e).toNat, ?_, ?_⟩
  · have : (2 : ℚ) ^ e = (2 ^ (-e).toNat)⁻¹ := by
      rw [← zpow_natCast, ← zpow_neg]; congr 1; omega
    rw [this]; push_cast; field_simp
  · have : (2 : ℚ) ^ e = (2 ^ (-e).toNat)⁻¹ := by
      rw [← zpow_natCast, ← zpow_neg]; congr 1; omega
    rw [this]; push_cast; field_simp

/-- Integers up to `2^53` are represented exactly. -/
theorem rnd_nat {n : Nat} (h : n ≤ 2 ^ 53) : rnd n = n := by
  unfold rnd
  split
  · rename_i h0; rw [h0]
  · rename_i h0
    have hpos : (0 : ℚ) < n := by
      rcases Nat.eq_zero_or_pos n with h1 | h1
      · exact absurd (by simp [h1]) h0
      · exact_mod_cast h1
    by_cases hlt : n < 2 ^ 53
    · obtain ⟨m, h1, h2⟩ := scale_int n (ulpExp_le hpos (by exact_mod_cast hlt))
      rw [h1, roundEven_int, h2]
    · have : n = 2 ^ 53 := by omega
      subst this
      have e1 : ulpExp ((2 ^ 53 : ℕ) : ℚ) = 1 := by
        unfold ulpExp
        have h3 : Int.log 2 ((2 ^ 53 : ℕ) : ℚ) = 53 := by
          have := Int.log_zpow (R := ℚ) (b := 2) (by norm_num) 53
          have e : (((2 : ℕ) : ℚ) ^ (53 : ℤ)) = ((2 ^ 53 : ℕ) : ℚ) := by norm_num
          rw [e] at this; exact this
        rw [h3]; rfl
      rw [e1]
      have e2 : ((2 ^ 53 : ℕ) : ℚ) / 2 ^ (1 : ℤ) = ((2 ^ 52 : ℤ) : ℚ) := by norm_num
      rw [e2, roundEven_int]; norm_num

/-- Rounding does not cross an integer up to `2^53`. -/
theorem rnd_le {x : ℚ} {n : Nat} (h0 : 0 ≤ x) (h : x ≤ n) (hn : n ≤ 2 ^ 53) : rnd x ≤ n := by
  by_cases hx : x = n
  · rw [hx, rnd_nat hn]
  · have hlt : x < n := lt_of_le_of_ne h hx
    unfold rnd
    split
    · exact_mod_cast Nat.zero_le n
    · rename_i hne
      have hpos : 0 < x := lt_of_le_of_ne h0 (Ne.symm hne)
      have hb : x < 2 ^ 53 := lt_of_lt_of_le hlt (by exact_mod_cast hn)
      obtain ⟨m, h1, h2⟩ := scale_int n (ulpExp_le hpos hb)
      have hp : (0 : ℚ) < 2 ^ ulpExp x := zpow_pos (by norm_num) _
      have h3 : x / 2 ^ ulpExp x ≤ (m : ℚ) := by
        rw [← h1]; exact div_le_div_of_nonneg_right h hp.le
      have h4 := roundEven_le h3
      calc (roundEven (x / 2 ^ ulpExp x) : ℚ) * 2 ^ ulpExp x ≤ (m : ℚ) * 2 ^ ulpExp x := by
            apply mul_le_mul_of_nonneg_right _ hp.le
            exact_mod_cast h4
        _ = n := h2

theorem fracOf_le {n : Nat} {f : ℚ} (h0 : 0 ≤ f) (h1 : f ≤ 1) (hn : n ≤ 2 ^ 53) : fracOf n f ≤ n := by
  unfold fracOf
  rw [rnd_nat hn]
  have hm : (n : ℚ) * f ≤ n := by
    have : (0 : ℚ) ≤ n := by positivity
    nlinarith
  have hp : 0 ≤ (n : ℚ) * f := by positivity
  have h2 := rnd_le hp hm hn
  have : ⌊rnd ((n : ℚ) * f)⌋₊ ≤ n := by
    have := Nat.floor_le_floor h2
    simpa using this
  omega

theorem roundEven_ge {y : ℚ} {m : ℤ} (h : m ≤ y) : m ≤ roundEven y := by
  have hf : m ≤ ⌊y⌋ := Int.le_floor.mpr h
  unfold roundEven
  split
  · omega
  · split
    · omega
    · split <;> omega

theorem rnd_ge {x : ℚ} {n : Nat} (h : n ≤ x) (hb : x ≤ 2 ^ 53) : n ≤ rnd x := by
  by_cases hx : x = ((2 ^ 53 : ℕ) : ℚ)
  · rw [hx, rnd_nat (Nat.le_refl _), ← hx]; exact h
  · have hlt : x < 2 ^ 53 := lt_of_le_of_ne hb (by intro e; apply hx; rw [e]; norm_num)
    unfold rnd
    split
    · rename_i h0; rw [← h0]; exact h
    · rename_i hne
      have h0 : (0 : ℚ) ≤ x := le_trans (by positivity) h
      have hpos : 0 < x := lt_of_le_of_ne h0 (Ne.symm hne)
      obtain ⟨m, h1, h2⟩ := scale_int n (ulpExp_le hpos hlt)
      have hp : (0 : ℚ) < 2 ^ ulpExp x := zpow_pos (by norm_num) _
      have h3 : (m : ℚ) ≤ x / 2 ^ ulpExp x := by
        rw [← h1]; exact div_le_div_of_nonneg_right h hp.le
      have h4 := roundEven_ge h3
      calc (n : ℚ) = (m : ℚ) * 2 ^ ulpExp x := h2.symm
        _ ≤ (roundEven (x / 2 ^ ulpExp x) : ℚ) * 2 ^ ulpExp x := by
            apply mul_le_mul_of_nonneg_right _ hp.le
            exact_mod_cast h4

/-- The exact product, rounded down or up to an integer. -/
theorem fracOf_bounds {n : Nat} {f : ℚ} (h0 : 0 ≤ f) (h1 : f ≤ 1) (hn : n ≤ 2 ^ 53) :
    ⌊(n : ℚ) * f⌋₊ ≤ fracOf n f ∧ fracOf n f ≤ ⌈(n : ℚ) * f⌉₊ := by
  unfold fracOf
  rw [rnd_nat hn]
  have hnq : (n : ℚ) ≤ 2 ^ 53 := by exact_mod_cast hn
  have hm : (n : ℚ) * f ≤ n := by
    have : (0 : ℚ) ≤ n := by positivity
    nlinarith
  have hp : 0 ≤ (n : ℚ) * f := by positivity
  have hc : ⌈(n : ℚ) * f⌉₊ ≤ n := Nat.ceil_le.mpr hm
  have h2 := rnd_le hp (Nat.le_ceil _) (hc.trans hn)
  have h3 := rnd_ge (Nat.floor_le hp) (hm.trans hnq)
  have h4 : ⌊rnd ((n : ℚ) * f)⌋₊ ≤ ⌈(n : ℚ) * f⌉₊ := by
    have := Nat.floor_le_floor h2
    simpa using this
  have h5 : ⌊(n : ℚ) * f⌋₊ ≤ ⌊rnd ((n : ℚ) * f)⌋₊ := Nat.le_floor h3
  have : (2 : Nat) ^ 53 < 2 ^ 64 := by norm_num
  omega

/-! ### Sizing -/

theorem share_anti {t m n : Nat} (hn : 0 < n) (hm : n ≤ m) (ht : t < 2 ^ 64) (h : share t n < 32) : share t m < 32 := by
  unfold share satAdd at *
  rw [Nat.div_lt_iff_lt_mul (by omega)] at h ⊢
  omega

theorem shardLoop_spec (items : Nat) : ∀ (fuel k : Nat), 2 ^ k < fuel →
    ∃ j, j ≤ k ∧ shardLoop items fuel (2 ^ k) = .ok (2 ^ j) ∧ (2 ^ j = 1 ∨ 32 ≤ share items (2 ^ j)) ∧
      ∀ i, j < i → i ≤ k → share items (2 ^ i) < 32 := by
  intro fuel
  induction fuel with
  | zero => intro k h; exact absurd h (Nat.not_lt_zero _)
  | succ fuel ih =>
    intro k hk
    unfold shardLoop
    split
    · rename_i h
      obtain ⟨h1, h2⟩ := h
      cases k with
      | zero => simp at h2
      | succ k =>
        have e : 2 ^ (k + 1) / 2 = 2 ^ k := by rw [Nat.pow_succ]; omega
        rw [e]
        have hpos : 0 < 2 ^ k := Nat.two_pow_pos k
        obtain ⟨j, g1, g2, g3, g4⟩ := ih k (by rw [Nat.pow_succ] at hk; omega)
        refine ⟨j, by omega, g2, g3, fun i hi hik => ?_⟩
        by_cases hi' : i = k + 1
        · subst hi'; exact h1
        · exact g4 i hi (by omega)
    · rename_i h
      refine ⟨k, Nat.le_refl _, rfl, ?_, fun i h1 h2 => by omega⟩
      by_cases h1 : 1 < 2 ^ k
      · right
        by_contra h2
        exact h ⟨by omega, h1⟩
      · left; have := Nat.two_pow_pos k; omega

theorem share_bounds {t n : Nat} (hn : 0 < n) (h : t + n ≤ 2 ^ 64) : t ≤ n * share t n ∧ n * share t n < t + n := by
  unfold share satAdd
  have e : min (t + (n - 1)) (2 ^ 64 - 1) = t + (n - 1) := by omega
  rw [e]
  have h1 := Nat.div_add_mod (t + (n - 1)) n
  have h2 := Nat.mod_lt (t + (n - 1)) hn
  generalize n * ((t + (n - 1)) / n) = z at *
  omega

theorem share_bounds_sat {t n : Nat} (hn : 0 < n) (ht : t < 2 ^ 64) (h : 2 ^ 64 < t + n) :
    n * share t n < 2 ^ 64 ∧ t < n * share t n + n := by
  unfold share satAdd
  have e : min (t + (n - 1)) (2 ^ 64 - 1) = 2 ^ 64 - 1 := by omega
  rw [e]
  have h1 := Nat.div_add_mod (2 ^ 64 - 1) n
  have h2 := Nat.mod_lt (2 ^ 64 - 1) hn
  generalize n * ((2 ^ 64 - 1) / n) = z at *
  omega

/-! ### Building the sharded cache -/

theorem numShards_spec (o : Options) (hs : o.shards ≤ 2 ^ 63) :
    ∃ j, j ≤ 63 ∧ numShards o = .ok (2 ^ j) ∧ (∀ i, o.shards ≤ 2 ^ i → 2 ^ j ≤ 2 ^ i) ∧
      (2 ^ j = 1 ∨ 32 ≤ share o.items (2 ^ j)) ∧
      ∀ i, j < i → 2 ^ i < 2 * o.shards → share o.items (2 ^ i) < 32 := by
  have hk : Nat.clog 2 o.shards ≤ 63 := (Nat.clog_le_iff_le_pow (by norm_num)).mpr hs
  have hlt : 2 ^ Nat.clog 2 o.shards < 2 ^ 64 := Nat.pow_lt_pow_right (by norm_num) (by omega)
  obtain ⟨j, h1, h2, h3, h4⟩ := shardLoop_spec o.items (2 ^ Nat.clog 2 o.shards + 1) (Nat.clog 2 o.shards) (by omega)
  refine ⟨j, by omega, ?_, ?_, h3, ?_⟩
  · simp only [numShards, nextPow2, if_pos hlt, Res.ok_bind]
    exact h2
  · intro i hi
    apply Nat.pow_le_pow_right (by norm_num)
    exact Nat.le_trans h1 ((Nat.clog_le_iff_le_pow (by norm_num)).mpr hi)
  · intro i hji hi
    apply h4 i hji
    by_contra hcon
    have h5 : o.shards ≤ 2 ^ (i - 1) := by
      apply (Nat.clog_le_iff_le_pow (by norm_num)).mp; omega
    obtain ⟨i', rfl⟩ : ∃ i', i = i' + 1 := ⟨i - 1, by omega⟩
    simp only [Nat.add_sub_cancel] at h5
    rw [Nat.pow_succ] at hi
    omega

namespace SyncCache
variable {K V : Type _}

theorem sum_replicate {x : Nat} : ∀ n acc, acc + n * x < 2 ^ 64 →
    (List.replicate n (Except.ok x : Res Nat)).foldlM (fun acc y => do cadd acc (← y)) acc = .ok (acc + n * x) := by
  intro n
  induction n with
  | zero => intro acc _; simp
  | succ n ih =>
    intro acc h
    rw [Nat.add_mul, Nat.one_mul] at h
    rw [List.replicate_succ, List.foldlM_cons]
    simp only [Res.ok_bind]
    rw [cadd_ok (by omega), Res.ok_bind, ih _ (by omega), Nat.add_mul]
    congr 1; omega

end SyncCache

/-! ### Routing -/

theorem shardIdx_lt {j : Nat} (hj : j ≤ 63) (h : UInt64) : shardIdx (UInt64.ofNat (2 ^ j - 1)) h < 2 ^ j := by
  unfold shardIdx
  have hp : (2 : Nat) ^ j < 2 ^ 64 := Nat.pow_lt_pow_right (by norm_num) (by omega)
  have : (UInt64.ofNat (2 ^ j - 1)).toNat = 2 ^ j - 1 := by
    rw [UInt64.toNat_ofNat']; exact Nat.mod_eq_of_lt (by omega)
  rw [UInt64.toNat_and, this, Nat.and_two_pow_sub_one_eq_mod]
  exact Nat.mod_lt _ (Nat.two_pow_pos j)

theorem rotate_rotate (x : UInt64) : let y := (x >>> 32) ||| (x <<< 32); (y >>> 32) ||| (y <<< 32) = x := by
  intro y
  apply UInt64.toBitVec_inj.mp
  simp only [y, UInt64.toBitVec_or, UInt64.toBitVec_shiftRight, UInt64.toBitVec_shiftLeft]
  apply BitVec.eq_of_getLsbD_eq
  intro i hi
  simp
  by_cases h : i < 32
  · simp [h]; grind
  · simp [h]; grind

theorem shardIdx_onto {j : Nat} (hj : j ≤ 63) {i : Nat} (hi : i < 2 ^ j) :
    ∃ h, shardIdx (UInt64.ofNat (2 ^ j - 1)) h = i := by
  have hp : (2 : Nat) ^ j < 2 ^ 64 := Nat.pow_lt_pow_right (by norm_num) (by omega)
  refine ⟨(UInt64.ofNat i >>> 32) ||| (UInt64.ofNat i <<< 32), ?_⟩
  unfold shardIdx
  rw [rotate_rotate]
  have h1 : (UInt64.ofNat (2 ^ j - 1)).toNat = 2 ^ j - 1 := by
    rw [UInt64.toNat_ofNat']; exact Nat.mod_eq_of_lt (by omega)
  have h2 : (UInt64.ofNat i).toNat = i := by
    rw [UInt64.toNat_ofNat']; exact Nat.mod_eq_of_lt (by omega)
  rw [UInt64.toNat_and, h1, h2, Nat.and_two_pow_sub_one_eq_mod, Nat.mod_eq_of_lt hi]

end QuickCache
