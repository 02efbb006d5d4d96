import Verif.Proofs.Float53
import Verif.Proofs.CpmRound
import Mathlib.Tactic.Linarith
import Mathlib.Tactic.Ring
import Mathlib.Tactic.Positivity
import Mathlib.Tactic.FieldSimp

/-! Quotients of the bounds of `get_prob_bnd` with rounding errors. -/

namespace BNS

/-- The upper bound: a numerator with an absolute error, a denominator with a relative one. -/
theorem cond_upper {a b u b' W Q s t T D e η : ℚ} (hb : 0 < b) (hb1 : b ≤ 1) (he : 0 ≤ e) (he1 : e ≤ 1 / 2)
    (hT : 0 ≤ T) (hT1 : T ≤ 1 / 2) (hD : 0 ≤ D) (hD1 : D ≤ b / 2) (hs0 : 0 ≤ s)
    (hs : s ≤ a + u) (ht : b ≤ t) (hst : s ≤ t) (hW : |W - (a + u)| ≤ D) (hb' : |b' - b| ≤ T * b)
    (hη : 0 ≤ η)
    (hη1 : η ≤ e) (hQ : |Q - W / b'| ≤ e * |W / b'| + η) :
    s / t ≤ min 1 Q + (4 * e + 3 * T + D) / b := by
  rw [abs_le] at hW hb'
  have htp : 0 < t := by linarith
  have hX : 0 ≤ (4 * e + 3 * T + D) / b := by positivity
  have h1 : s / t ≤ 1 := by rw [div_le_one htp]; exact hst
  rcases min_cases (1 : ℚ) Q with ⟨hm, -⟩ | ⟨hm, hlt⟩
  · rw [hm]; linarith
  rw [hm]
  have hb2 : b / 2 ≤ b' := by nlinarith [hb'.1]
  have hbp : 0 < b' := by linarith
  have hWD : -D ≤ W := by linarith [hW.1]
  have hqb : W / b' * b' = W := div_mul_cancel₀ _ hbp.ne'
  set q := W / b' with hq
  have hq1 : -1 ≤ q := by
    rw [hq, le_div_iff₀ hbp]; linarith
  clear_value q
  rw [abs_le] at hQ
  have hq2 : |q| ≤ 3 := by
    rw [abs_le]
    refine ⟨by linarith, ?_⟩
    by_contra hc
    have hc' : 3 < q := not_le.1 hc
    rw [abs_of_pos (by linarith)] at hQ
    nlinarith [hQ.1]
  have e1 : e * |q| ≤ e * 3 := mul_le_mul_of_nonneg_left hq2 he
  have h2 : s / t ≤ s / b := div_le_div_of_nonneg_left hs0 hb ht
  have h3 : s / b ≤ (W + D) / b := div_le_div_of_nonneg_right (by linarith [hW.1]) hb.le
  have h4 : q * b' ≤ q * b + 3 * (T * b) := by
    have : |q * (b' - b)| ≤ 3 * (T * b) := by
      rw [abs_mul]
      exact mul_le_mul hq2 (abs_le.2 hb') (abs_nonneg _) (by norm_num)
    have := (abs_le.1 this).2
    linarith [mul_sub q b' b]
  have h5 : (W + D) / b ≤ q + 3 * T + D / b := by
    rw [← hqb, div_le_iff₀ hb]
    have : D / b * b = D := div_mul_cancel₀ _ hb.ne'
    nlinarith
  have h6 : 4 * e + 3 * T + D / b ≤ (4 * e + 3 * T + D) / b := by
    rw [le_div_iff₀ hb]
    have : D / b * b = D := div_mul_cancel₀ _ hb.ne'
    nlinarith
  linarith [hQ.1]

/-- The lower bound: a numerator with a relative error, a denominator with an absolute one. -/
theorem cond_lower {a b u a' W Q s t T D e η : ℚ} (ha : 0 ≤ a) (hb : 0 < b) (hb1 : b ≤ 1) (hu : 0 ≤ u)
    (he : 0 ≤ e) (he1 : e ≤ 1 / 2) (hT : 0 ≤ T) (hT1 : T ≤ 1 / 2) (hD : 0 ≤ D) (hD1 : D ≤ b / 2)
    (hs : a ≤ s) (ht : 0 < t) (htu : t ≤ b + u) (hst : s ≤ t) (hW : |W - (b + u)| ≤ D)
    (ha0 : 0 ≤ a') (ha' : |a' - a| ≤ T * a) (hη : 0 ≤ η)
    (hη1 : η ≤ e) (hQ0 : 0 ≤ Q) (hQ : |Q - a' / W| ≤ e * |a' / W| + η) :
    Q ≤ s / t + (2 * D + 4 * e + 2 * T) / b ∧ 0 < W := by
  rw [abs_le] at hW ha'
  have hv : b / 2 + u ≤ W := by linarith [hW.1]
  have hWp : 0 < W := by linarith
  have hvp : 0 < b + u := by linarith
  have hq0 : 0 ≤ a' / W := by positivity
  have hqb : a' / W * W = a' := div_mul_cancel₀ _ hWp.ne'
  rw [abs_of_nonneg hq0, abs_le] at hQ
  set q := a' / W with hq
  clear_value q
  refine ⟨?_, hWp⟩
  have h1 : a / (b + u) ≤ s / t := div_le_div₀ (by linarith) hs ht htu
  have hrb : a / (b + u) * (b + u) = a := div_mul_cancel₀ _ hvp.ne'
  have hr0 : 0 ≤ a / (b + u) := by positivity
  have hr1 : a / (b + u) ≤ 1 := by rw [div_le_one hvp]; linarith
  set r := a / (b + u) with hr
  clear_value r
  have hyb : a / W * W = a := div_mul_cancel₀ _ hWp.ne'
  have hy0 : 0 ≤ a / W := by positivity
  set y := a / W with hy
  clear_value y
  -- `a / W ≤ r + 2 D / b`
  have hdb : D / b * b = D := div_mul_cancel₀ _ hb.ne'
  have hd0 : 0 ≤ D / b := by positivity
  set d := D / b with hd
  clear_value d
  have h2 : y ≤ r + 2 * d := by
    by_contra hc
    have hc' := not_le.1 hc
    have k1 : (r + 2 * d) * W < a := by rw [← hyb]; exact mul_lt_mul_of_pos_right hc' hWp
    have k2 : r * (b + u - D) ≤ r * W := mul_le_mul_of_nonneg_left (by linarith [hW.1]) hr0
    have k3 : d * (b / 2) ≤ d * W := mul_le_mul_of_nonneg_left (by linarith) hd0
    nlinarith
  have h3 : y ≤ 2 := by
    have : d ≤ 1 / 2 := by nlinarith
    linarith
  have h4 : q ≤ y + T * y := by
    have : q * W ≤ (y + T * y) * W := by
      rw [hqb, add_mul, mul_assoc, hyb]; linarith [ha'.2]
    exact le_of_mul_le_mul_right this hWp
  have h5 : T * y ≤ T * 2 := mul_le_mul_of_nonneg_left h3 hT
  have h6 : e * q ≤ e * 3 := mul_le_mul_of_nonneg_left (by nlinarith) he
  have h7 : 2 * d + 4 * e + 2 * T ≤ (2 * D + 4 * e + 2 * T) / b := by
    rw [le_div_iff₀ hb]; nlinarith
  linarith [hQ.2]

theorem round53_float53 : Round53 float53 (fun _ => True) 0 :=
  ⟨trivial, trivial, fun _ => trivial, fun _ => float53_nonneg, fun _ _ _ _ => float53_rel _,
    fun _ _ _ _ => float53_rel _, fun x => by simpa using float53_rel x, le_rfl, (two_zpow_pos _).le⟩

theorem round53_float64 : Round53 float64 Grid ((2 : ℚ) ^ (-1075 : ℤ)) :=
  ⟨Grid.zero, Grid.one, float64_grid, fun _ => float64_nonneg,
    fun _ _ ha hb => float64_rel (ha.add hb), fun _ _ ha hb => float64_rel (ha.sub hb), float64_err,
    (two_zpow_pos _).le, zpow_le_zpow_right₀ (by norm_num) (by norm_num)⟩

theorem Round53.within {fl : ℚ → ℚ} {F : ℚ → Prop} {η : ℚ} (h : Round53 fl F η) :
    (Arith.ofRound fl).Within F ((2 : ℚ) ^ (-53 : ℤ)) η :=
  ofRound_within ⟨(two_zpow_pos _).le, by norm_num⟩ h.eta.1 h.zero h.one h.mem h.nonneg h.add h.sub h.any

/-- Adding the probability not in the table to a computed probability: absolute error. -/
theorem bound_near {fl : ℚ → ℚ} {F : ℚ → Prop} {η : ℚ} (hF : Round53 fl F η) {a a' s' S T : ℚ}
    (fa : F a') (fs : F s') (hT : 0 ≤ T) (hT1 : T ≤ 1) (ha : 0 ≤ a) (ha1 : a ≤ 1)
    (hS : 0 ≤ S) (hS1 : S ≤ 1) (ra : |a' - a| ≤ T * a) (rs : |s' - S| ≤ T * S) :
    |(Arith.ofRound fl).sum [a', (Arith.ofRound fl).sub 1 s'] - (a + (1 - S))| ≤
      2 * T + 10 * (2 : ℚ) ^ (-53 : ℤ) := by
  show |fl (fl (0 + a') + fl (1 - s')) - (a + (1 - S))| ≤ _
  set e := (2 : ℚ) ^ (-53 : ℤ) with he
  have epos : 0 < e := two_zpow_pos _
  have esm : e ≤ 1 / 100 := by rw [he]; norm_num
  have ra' : |a' - a| ≤ T := ra.trans (by nlinarith)
  have rs' : |s' - S| ≤ T := rs.trans (by nlinarith)
  rw [abs_le] at ra' rs'
  have f1 := hF.sub 1 s' hF.one fs
  have f2 := hF.add 0 a' hF.zero fa
  have fu : F (fl (1 - s')) := hF.mem _
  have fb : F (fl (0 + a')) := hF.mem _
  set u := fl (1 - s') with hu
  set b := fl (0 + a') with hb
  have f3 := hF.add b u fb fu
  rw [← he] at f1 f2 f3
  clear_value u b e
  have g1 : |1 - s'| ≤ 1 + T := by rw [abs_le]; constructor <;> linarith [ra'.1, rs'.1, rs'.2]
  have g2 : |0 + a'| ≤ 1 + T := by
    rw [zero_add, abs_le]; constructor <;> linarith [ra'.1, ra'.2]
  have m1 : |u - (1 - s')| ≤ 2 * e := f1.trans (by nlinarith)
  have m2 : |b - (0 + a')| ≤ 2 * e := f2.trans (by nlinarith)
  rw [abs_le] at m1 m2 g1 g2
  have g3 : |b + u| ≤ 5 := by rw [abs_le]; constructor <;>
    linarith [m1.1, m1.2, m2.1, m2.2, g1.1, g1.2, g2.1, g2.2]
  have m3 : |fl (b + u) - (b + u)| ≤ 5 * e := f3.trans (by nlinarith)
  rw [abs_le] at m3 ⊢
  constructor <;> linarith [m3.1, m3.2, m1.1, m1.2, m2.1, m2.2, ra'.1, ra'.2, rs'.1, rs'.2]

end BNS
