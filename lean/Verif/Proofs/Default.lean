import Verif.Model.Default
import Verif.Proofs.Options

/-!
# Lemmas about the default share of hot items
-/

namespace QuickCache

theorem roundEven_close (y : ℚ) : (roundEven y : ℚ) ≤ y + 1 / 2 ∧ y - 1 / 2 ≤ roundEven y := by
  have h1 := Int.floor_le y
  have h2 := Int.lt_floor_add_one y
  unfold roundEven
  split
  · constructor <;> linarith
  · split
    · push_cast; constructor <;> linarith
    · split
      · constructor <;> linarith
      · push_cast; constructor <;> linarith

/-- Rounding a number that is not tiny changes it by no more than the 2^53th part. -/
theorem rnd_close {x : ℚ} (h : 1 / 2 ≤ x) : rnd x ≤ x + x / 2 ^ 53 ∧ x - x / 2 ^ 53 ≤ rnd x := by
  have hpos : 0 < x := by linarith
  have hlog : (-1 : ℤ) ≤ Int.log 2 x := by
    rw [← Int.zpow_le_iff_le_log (by norm_num) hpos]
    norm_num; linarith
  have hu : ulpExp x = Int.log 2 x - 52 := by unfold ulpExp; omega
  have hle : ((2 : ℕ) : ℚ) ^ Int.log 2 x ≤ x := Int.zpow_log_le_self (by norm_num) hpos
  have hp : (0 : ℚ) < 2 ^ ulpExp x := zpow_pos (by norm_num) _
  have hul : (2 : ℚ) ^ ulpExp x ≤ x / 2 ^ 52 := by
    rw [hu, zpow_sub₀ (by norm_num)]
    push_cast at hle
    rw [show (2 : ℚ) ^ (52 : ℤ) = 2 ^ 52 by norm_cast]
    exact div_le_div_of_nonneg_right hle (by positivity)
  have hr : rnd x = roundEven (x / 2 ^ ulpExp x) * 2 ^ ulpExp x := by
    unfold rnd; rw [if_neg (by linarith)]
  obtain ⟨c1, c2⟩ := roundEven_close (x / 2 ^ ulpExp x)
  have e : x / 2 ^ ulpExp x * 2 ^ ulpExp x = x := by field_simp
  rw [hr]
  constructor
  · have := mul_le_mul_of_nonneg_right c1 hp.le
    rw [add_mul, e] at this
    nlinarith
  · have := mul_le_mul_of_nonneg_right c2 hp.le
    rw [sub_mul, e] at this
    nlinarith

theorem defaultHot_bounds : (9699 / 10000 : ℚ) ≤ defaultHot ∧ defaultHot ≤ 9701 / 10000 := by
  have := rnd_close (x := 97 / 100) (by norm_num)
  unfold defaultHot
  constructor
  · refine le_trans ?_ this.2; norm_num
  · refine le_trans this.1 ?_; norm_num

/-- The hot share of a capacity of at least two items. -/
theorem hotShare_bounds {n : Nat} (h : 1 ≤ n) :
    (9697 / 10000 : ℚ) * n ≤ rnd (rnd n * defaultHot) ∧ rnd (rnd n * defaultHot) ≤ (9703 / 10000 : ℚ) * n := by
  have hn : (1 : ℚ) ≤ n := by exact_mod_cast h
  obtain ⟨a1, a2⟩ := rnd_close (x := n) (by linarith)
  obtain ⟨b1, b2⟩ := defaultHot_bounds
  have e : (0 : ℚ) < n / 2 ^ 53 := by positivity
  have e' : (n : ℚ) / 2 ^ 53 ≤ n / 1000000 := by
    apply div_le_div_of_nonneg_left (by linarith) (by norm_num) (by norm_num)
  have l : (n : ℚ) * (9698 / 10000) ≤ rnd n * defaultHot := by nlinarith
  have u : rnd n * defaultHot ≤ n * (9702 / 10000) := by nlinarith
  have hx : (1 / 2 : ℚ) ≤ rnd n * defaultHot := by linarith
  obtain ⟨c1, c2⟩ := rnd_close hx
  generalize rnd n * defaultHot = x at *
  have f : x / 2 ^ 53 ≤ x / 1000000 := by
    apply div_le_div_of_nonneg_left (by linarith) (by norm_num) (by norm_num)
  constructor <;> linarith

/-- The hot target of `Cache::new(n)` is below `n`. -/
theorem fracOf_default_le (n : Nat) : fracOf n defaultHot ≤ n ∧ (0 < n → fracOf n defaultHot < n) := by
  rcases Nat.eq_zero_or_pos n with rfl | h
  · refine ⟨?_, by omega⟩
    have := defaultHot_bounds
    exact fracOf_le (by linarith [this.1]) (by linarith [this.2]) (by norm_num)
  · have h1 := (hotShare_bounds h).2
    have hn : (0 : ℚ) < n := by exact_mod_cast h
    have h2 : ⌊rnd (rnd n * defaultHot)⌋₊ < n := by
      rw [Nat.floor_lt']
      · linarith
      · omega
    unfold fracOf
    omega

/-- From two items on, it is not zero. -/
theorem fracOf_default_pos {n : Nat} (h : 2 ≤ n) : 1 ≤ fracOf n defaultHot := by
  have h1 := (hotShare_bounds (show 1 ≤ n by omega)).1
  have hn : (2 : ℚ) ≤ n := by exact_mod_cast h
  have h2 : 1 ≤ ⌊rnd (rnd n * defaultHot)⌋₊ := by
    rw [Nat.one_le_floor_iff]
    linarith
  unfold fracOf
  omega

/-- It is about 97 % of `n`. -/
theorem fracOf_default_lower {n : Nat} (h : 1 ≤ n) (h64 : n < 2 ^ 64) : 969 * n < 1000 * (fracOf n defaultHot + 1) := by
  have h1 := (hotShare_bounds h).1
  have hn : (1 : ℚ) ≤ n := by exact_mod_cast h
  have h2 := Nat.lt_floor_add_one (rnd (rnd n * defaultHot))
  have h3 : (969 * n : ℚ) < 1000 * ((⌊rnd (rnd n * defaultHot)⌋₊ : ℚ) + 1) := by linarith
  have h4 : 969 * n < 1000 * (⌊rnd (rnd n * defaultHot)⌋₊ + 1) := by exact_mod_cast h3
  unfold fracOf
  omega

/-- For one item, or none, it is zero. -/
theorem fracOf_default_zero {n : Nat} (h : n ≤ 1) : fracOf n defaultHot = 0 := by
  have h1 := fracOf_default_le n
  omega

theorem ofCapacities_new (par n : Nat) : Options.ofCapacities par n n = .ok (.ofNew par n) := rfl

end QuickCache
