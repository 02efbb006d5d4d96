import Verif.Model.CpmRound
import Verif.Proofs.Float64

/-!
# Helper lemmas: rounding to 53 digits without underflow
-/

namespace BNS

theorem float53_eq (x : ℚ) : x = x * 2 ^ (-ulp53 x) * (2 : ℚ) ^ ulp53 x := by
  rw [mul_assoc, ← zpow_add₀ (by norm_num), neg_add_cancel, zpow_zero, mul_one]

theorem float53_zero : float53 0 = 0 := by
  unfold float53
  rw [zero_mul]
  have := roundEven_int 0
  simp only [Int.cast_zero] at this
  rw [this]
  simp

theorem float53_rel (x : ℚ) : |float53 x - x| ≤ (2 : ℚ) ^ (-53 : ℤ) * |x| := by
  by_cases hx : x = 0
  · subst hx
    rw [float53_zero]
    simp
  have h1 : |float53 x - x| ≤ 1 / 2 * (2 : ℚ) ^ ulp53 x := by
    conv_lhs => rw [float53_eq x]
    rw [show float53 (x * 2 ^ (-ulp53 x) * 2 ^ ulp53 x) = float53 x by rw [← float53_eq]]
    unfold float53
    rw [← sub_mul, abs_mul, abs_of_pos (two_zpow_pos _)]
    exact mul_le_mul_of_nonneg_right (roundEven_abs _) (two_zpow_pos _).le
  have h2 : (2 : ℚ) ^ Int.log 2 |x| ≤ |x| := by
    have := Int.zpow_log_le_self (R := ℚ) (b := 2) (by norm_num) (abs_pos.2 hx)
    exact_mod_cast this
  have h3 : 1 / 2 * (2 : ℚ) ^ (Int.log 2 |x| - 52) = (2 : ℚ) ^ (-53 : ℤ) * 2 ^ Int.log 2 |x| := by
    rw [← zpow_add₀ (by norm_num), show (-53 : ℤ) + Int.log 2 |x| = (Int.log 2 |x| - 52) + -1 by ring,
      zpow_add₀ (by norm_num : (2 : ℚ) ≠ 0) (Int.log 2 |x| - 52)]
    norm_num
    ring
  unfold ulp53 at h1
  rw [h3] at h1
  exact h1.trans (mul_le_mul_of_nonneg_left h2 (two_zpow_pos _).le)

theorem float53_nonneg {x : ℚ} (h : 0 ≤ x) : 0 ≤ float53 x := by
  unfold float53
  refine mul_nonneg ?_ (two_zpow_pos _).le
  exact_mod_cast roundEven_nonneg (mul_nonneg h (two_zpow_pos _).le)

theorem float64_zero : float64 0 = 0 := by
  unfold float64
  rw [zero_mul]
  have := roundEven_int 0
  simp only [Int.cast_zero] at this
  rw [this]
  simp

theorem float64_eq_float53 {x : ℚ} (h : x = 0 ∨ (2 : ℚ) ^ (-1022 : ℤ) ≤ |x|) :
    float64 x = float53 x := by
  rcases h with rfl | h
  · rw [float64_zero, float53_zero]
  · have hx : 0 < |x| := (two_zpow_pos _).trans_le h
    have h1 : (-1022 : ℤ) ≤ Int.log 2 |x| := by
      have := (Int.zpow_le_iff_le_log (R := ℚ) (b := 2) (x := -1022) (by norm_num) hx).1
        (by exact_mod_cast h)
      exact this
    have : ulpExp x = ulp53 x := by
      unfold ulpExp ulp53
      exact max_eq_left (by omega)
    unfold float64 float53
    rw [this]

end BNS
