import Mathlib.Analysis.Convex.SpecificFunctions.Basic
import Mathlib.Analysis.Complex.ExponentialBounds
import Mathlib.Tactic.Linarith
import Mathlib.Tactic.Positivity
import Mathlib.Tactic.FieldSimp
import Verif.Model.PfMap
import Verif.Proofs.Monad

/-!
# Lemmas on distances and ground motion
-/

namespace BNS

/-- The squared distance of the point from the point at `t` of the line. -/
theorem dist_line (x1 y1 x2 y2 x0 y0 t : ℝ) :
    (x0 - (x1 + t * (x2 - x1))) ^ 2 + (y0 - (y1 + t * (y2 - y1))) ^ 2 =
      ((x0 - x1) ^ 2 + (y0 - y1) ^ 2) - 2 * t * ((x0 - x1) * (x2 - x1) + (y0 - y1) * (y2 - y1)) +
        t ^ 2 * ((x2 - x1) ^ 2 + (y2 - y1) ^ 2) := by ring

/-- The end point with `t = 0` is nearest when the projection lies before it. -/
theorem dist_before {a s L t : ℝ} (hL : 0 < L) (hs : s < 0) (ht : 0 ≤ t) :
    a ≤ a - 2 * t * s + t ^ 2 * L := by
  have h1 : 0 ≤ t * (-s) := mul_nonneg ht (by linarith)
  have h2 : 0 ≤ t ^ 2 * L := by positivity
  linarith

/-- The end point with `t = 1` is nearest when the projection lies behind it. -/
theorem dist_behind {a s L t : ℝ} (hL : 0 < L) (hs : L < s) (ht : t ≤ 1) :
    a - 2 * 1 * s + 1 ^ 2 * L ≤ a - 2 * t * s + t ^ 2 * L := by
  have h1 : 0 ≤ (1 - t) * (s - L) := mul_nonneg (by linarith) (by linarith)
  have h2 : 0 ≤ (1 - t) ^ 2 * L := by positivity
  nlinarith

/-- The projection is nearest. -/
theorem dist_at {a s L t : ℝ} (hL : 0 < L) :
    a - s ^ 2 / L ≤ a - 2 * t * s + t ^ 2 * L := by
  have h : a - 2 * t * s + t ^ 2 * L - (a - s ^ 2 / L) = (t * L - s) ^ 2 / L := by
    field_simp
    ring
  have : 0 ≤ (t * L - s) ^ 2 / L := by positivity
  linarith

/-- The logarithm of `x ^ 2 + h2` grows at least `2 * θ` times as fast as that of `x`. -/
theorem log_grow {A A' h2 θ : ℝ} (hA : 0 < A) (hA' : A ≤ A') (h0 : 0 ≤ h2)
    (hθ : θ * (A ^ 2 + h2) ≤ A ^ 2) :
    2 * θ * Real.log (A' / A) ≤ Real.log (A' ^ 2 + h2) - Real.log (A ^ 2 + h2) := by
  have hP : 0 < A ^ 2 + h2 := by positivity
  have hA'0 : 0 < A' := lt_of_lt_of_le hA hA'
  set w : ℝ := A ^ 2 / (A ^ 2 + h2) with hw
  have hw0 : 0 ≤ w := by positivity
  have hw1 : w ≤ 1 := by rw [hw, div_le_one hP]; linarith
  have hθw : θ ≤ w := by rw [hw, le_div_iff₀ hP]; exact hθ
  have hl : 0 ≤ Real.log (A' / A) := Real.log_nonneg (by rwa [le_div_iff₀ hA, one_mul])
  have hc := strictConcaveOn_log_Ioi.concaveOn.2 (x := A' ^ 2 / A ^ 2) (y := 1)
    (Set.mem_Ioi.2 (by positivity)) (Set.mem_Ioi.2 one_pos) hw0 (show 0 ≤ 1 - w by linarith)
    (by ring)
  simp only [smul_eq_mul, Real.log_one, mul_zero, add_zero, mul_one] at hc
  have e1 : w * (A' ^ 2 / A ^ 2) + (1 - w) = (A' ^ 2 + h2) / (A ^ 2 + h2) := by
    rw [hw]
    field_simp
    ring
  have e2 : Real.log (A' ^ 2 / A ^ 2) = 2 * Real.log (A' / A) := by
    rw [← div_pow, Real.log_pow]
    norm_num
  have e3 : Real.log ((A' ^ 2 + h2) / (A ^ 2 + h2)) =
      Real.log (A' ^ 2 + h2) - Real.log (A ^ 2 + h2) :=
    Real.log_div (by positivity) (by positivity)
  rw [e1, e2, e3] at hc
  nlinarith [mul_le_mul_of_nonneg_right hθw hl]

/-- The same for the larger of the argument and a bound. -/
theorem log_grow_max {r r' a h2 θ : ℝ} (hr : 0 ≤ r) (hrr : r ≤ r') (ha : 0 < a) (h0 : 0 ≤ h2)
    (hp : 0 < r ^ 2 + h2) (hθ1 : θ ≤ 1) (hθ : θ * (a ^ 2 + h2) ≤ a ^ 2) :
    2 * θ * (Real.log (max r' a / a) - Real.log (max r a / a)) ≤
      Real.log (r' ^ 2 + h2) - Real.log (r ^ 2 + h2) := by
  have hm : 0 < max r a := lt_max_of_lt_right ha
  have hm' : 0 < max r' a := lt_max_of_lt_right ha
  have hmm : max r a ≤ max r' a := max_le_max hrr le_rfl
  have e : Real.log (max r' a / a) - Real.log (max r a / a) = Real.log (max r' a / max r a) := by
    rw [Real.log_div hm'.ne' ha.ne', Real.log_div hm.ne' ha.ne', Real.log_div hm'.ne' hm.ne']
    ring
  rw [e]
  have hθm : θ * (max r a ^ 2 + h2) ≤ max r a ^ 2 := by
    have : a ^ 2 ≤ max r a ^ 2 := pow_le_pow_left₀ ha.le (le_max_right _ _) 2
    nlinarith
  refine (log_grow hm hmm h0 hθm).trans ?_
  by_cases h1 : r' ≤ a
  · rw [max_eq_right h1, max_eq_right (hrr.trans h1), sub_self]
    have : Real.log (r ^ 2 + h2) ≤ Real.log (r' ^ 2 + h2) := by
      refine Real.log_le_log hp ?_
      have := pow_le_pow_left₀ hr hrr 2
      linarith
    linarith
  · push Not at h1
    rw [max_eq_left h1.le]
    have : Real.log (r ^ 2 + h2) ≤ Real.log (max r a ^ 2 + h2) := by
      refine Real.log_le_log hp ?_
      have := pow_le_pow_left₀ hr (le_max_left r a) 2
      linarith
    linarith

/-- The far-field term with maxima instead of cases. -/
theorem far_term (r : ℝ) :
    (if r ≤ 70 then (0 : ℝ) else if r ≤ 130 then 0.299 * Real.log (r / 70)
      else 0.299 * Real.log (r / 70) + 0.503 * Real.log (r / 130)) =
      0.299 * Real.log (max r 70 / 70) + 0.503 * Real.log (max r 130 / 130) := by
  by_cases h : r ≤ 70
  · rw [if_pos h, max_eq_right h, max_eq_right (h.trans (by norm_num))]
    norm_num
  · rw [if_neg h, max_eq_left (not_le.1 h).le]
    by_cases h' : r ≤ 130
    · rw [if_pos h', max_eq_right h']
      norm_num
    · rw [if_neg h', max_eq_left (not_le.1 h').le]

/-- The saturation term of magnitudes up to 8.5 is small. -/
theorem sat_le {Mw : ℝ} (h : Mw ≤ 8.5) : (0.299 * Real.exp (0.503 * Mw)) ^ 2 ≤ 1970 := by
  have h1 : Real.exp (0.503 * Mw) ≤ Real.exp 5 := Real.exp_le_exp.2 (by linarith)
  have h2 : Real.exp 5 ≤ 148.42 := by
    have e : Real.exp 5 = Real.exp 1 ^ 5 := by rw [← Real.exp_nat_mul]; norm_num
    rw [e]
    have := pow_le_pow_left₀ (Real.exp_pos 1).le Real.exp_one_lt_d9.le 5
    refine this.trans ?_
    norm_num
  have h3 : 0 < Real.exp (0.503 * Mw) := Real.exp_pos _
  have h4 : 0.299 * Real.exp (0.503 * Mw) ≤ 44.38 := by linarith
  have := pow_le_pow_left₀ (by positivity) h4 2
  refine this.trans ?_
  norm_num

end BNS
