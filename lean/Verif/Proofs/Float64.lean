import Verif.Spec.Round
import Mathlib.Data.Int.Log
import Mathlib.Tactic.Linarith
import Mathlib.Tactic.Ring
import Mathlib.Tactic.NormNum
import Mathlib.Tactic.Positivity
import Mathlib.Algebra.Order.BigOperators.Group.List

/-! Helper lemmas: rounding to double precision, and sums formed from left to right. -/

namespace BNS

/-! ## The nearest integer -/

theorem roundEven_abs (y : ℚ) : |(roundEven y : ℚ) - y| ≤ 1 / 2 := by
  have h1 := Int.floor_le y
  have h2 := Int.lt_floor_add_one y
  unfold roundEven
  rw [abs_le]
  split
  · constructor <;> linarith
  · split
    · push_cast
      constructor <;> linarith
    · split
      · constructor <;> linarith
      · push_cast
        constructor <;> linarith

theorem roundEven_int (z : ℤ) : roundEven (z : ℚ) = z := by
  unfold roundEven
  rw [Int.floor_intCast, if_pos (by norm_num)]

theorem roundEven_nonneg {y : ℚ} (h : 0 ≤ y) : 0 ≤ roundEven y := by
  have := Int.floor_nonneg.2 h
  unfold roundEven
  split
  · exact this
  · split
    · omega
    · split <;> omega

/-! ## Double precision -/

/-- The multiples of the smallest positive double. -/
def Grid (x : ℚ) : Prop := ∃ z : ℤ, x = z * (2 : ℚ) ^ (-1074 : ℤ)

theorem two_zpow_pos (u : ℤ) : 0 < (2 : ℚ) ^ u := zpow_pos (by norm_num) u

theorem float64_eq (x : ℚ) : x = x * 2 ^ (-ulpExp x) * (2 : ℚ) ^ ulpExp x := by
  rw [mul_assoc, ← zpow_add₀ (by norm_num), neg_add_cancel, zpow_zero, mul_one]

theorem float64_half (x : ℚ) : |float64 x - x| ≤ 1 / 2 * (2 : ℚ) ^ ulpExp x := by
  have h : float64 x - x =
      (roundEven (x * 2 ^ (-ulpExp x)) - x * 2 ^ (-ulpExp x)) * (2 : ℚ) ^ ulpExp x := by
    rw [sub_mul, ← float64_eq x]
    rfl
  rw [h, abs_mul, abs_of_pos (two_zpow_pos _)]
  exact mul_le_mul_of_nonneg_right (roundEven_abs _) (two_zpow_pos _).le

theorem float64_grid (x : ℚ) : Grid (float64 x) := by
  have hu : -1074 ≤ ulpExp x := le_max_right _ _
  obtain ⟨n, hn⟩ := Int.eq_ofNat_of_zero_le (show 0 ≤ ulpExp x + 1074 by omega)
  refine ⟨roundEven (x * 2 ^ (-ulpExp x)) * 2 ^ n, ?_⟩
  have e : ulpExp x = n + -1074 := by omega
  unfold float64
  have e2 : (2 : ℚ) ^ ulpExp x = 2 ^ n * 2 ^ (-1074 : ℤ) := by
    rw [e, zpow_add₀ (by norm_num), zpow_natCast]
  push_cast
  rw [mul_assoc, ← e2]

/-- Above the smallest exponent the error is relative. -/
theorem float64_normal {x : ℚ} (h : -1074 ≤ Int.log 2 |x| - 52) (hx : x ≠ 0) :
    |float64 x - x| ≤ (2 : ℚ) ^ (-53 : ℤ) * |x| := by
  have hu : ulpExp x = Int.log 2 |x| - 52 := max_eq_left h
  have h1 := float64_half x
  have h2 : (2 : ℚ) ^ Int.log 2 |x| ≤ |x| := by
    have := Int.zpow_log_le_self (R := ℚ) (b := 2) (by norm_num) (abs_pos.2 hx)
    exact_mod_cast this
  have h3 : 1 / 2 * (2 : ℚ) ^ (Int.log 2 |x| - 52) = (2 : ℚ) ^ (-53 : ℤ) * 2 ^ Int.log 2 |x| := by
    rw [← zpow_add₀ (by norm_num), show (-53 : ℤ) + Int.log 2 |x| = (Int.log 2 |x| - 52) + -1 by ring,
      zpow_add₀ (by norm_num : (2 : ℚ) ≠ 0) (Int.log 2 |x| - 52)]
    norm_num
    ring
  rw [hu, h3] at h1
  exact h1.trans (mul_le_mul_of_nonneg_left h2 (two_zpow_pos _).le)

/-- Sums and differences of doubles: relative error. -/
theorem float64_rel {x : ℚ} (hx : Grid x) : |float64 x - x| ≤ (2 : ℚ) ^ (-53 : ℤ) * |x| := by
  by_cases h : -1074 ≤ Int.log 2 |x| - 52
  · by_cases h0 : x = 0
    · subst h0
      have : float64 0 = 0 := by
        unfold float64
        rw [zero_mul]
        have := roundEven_int 0
        simp only [Int.cast_zero] at this
        rw [this]
        simp
      rw [this]
      simp
    · exact float64_normal h h0
  · obtain ⟨z, hz⟩ := hx
    have hu : ulpExp x = -1074 := max_eq_right (by omega)
    have e : x * 2 ^ (-ulpExp x) = (z : ℚ) := by
      rw [hu, hz, mul_assoc, ← zpow_add₀ (by norm_num)]
      norm_num
    have : float64 x = x := by
      unfold float64
      rw [e, roundEven_int, hu, ← hz]
    rw [this, sub_self, abs_zero]
    exact mul_nonneg (two_zpow_pos _).le (abs_nonneg _)

/-- Any result: relative error, and half the smallest positive double. -/
theorem float64_err (x : ℚ) :
    |float64 x - x| ≤ (2 : ℚ) ^ (-53 : ℤ) * |x| + (2 : ℚ) ^ (-1075 : ℤ) := by
  by_cases h : -1074 ≤ Int.log 2 |x| - 52
  · by_cases h0 : x = 0
    · have := float64_rel (x := x) ⟨0, by rw [h0]; simp⟩
      linarith [two_zpow_pos (-1075)]
    · linarith [float64_normal h h0, two_zpow_pos (-1075)]
  · have hu : ulpExp x = -1074 := max_eq_right (by omega)
    have h1 := float64_half x
    rw [hu] at h1
    have e : 1 / 2 * (2 : ℚ) ^ (-1074 : ℤ) = (2 : ℚ) ^ (-1075 : ℤ) := by
      rw [show (-1075 : ℤ) = -1074 + -1 by norm_num, zpow_add₀ (by norm_num)]
      norm_num
      ring
    rw [e] at h1
    linarith [mul_nonneg (two_zpow_pos (-53)).le (abs_nonneg x)]

theorem float64_nonneg {x : ℚ} (h : 0 ≤ x) : 0 ≤ float64 x := by
  unfold float64
  refine mul_nonneg ?_ (two_zpow_pos _).le
  exact_mod_cast roundEven_nonneg (mul_nonneg h (two_zpow_pos _).le)

theorem Grid.add {a b : ℚ} (ha : Grid a) (hb : Grid b) : Grid (a + b) := by
  obtain ⟨z, rfl⟩ := ha
  obtain ⟨w, rfl⟩ := hb
  exact ⟨z + w, by push_cast; ring⟩

theorem Grid.sub {a b : ℚ} (ha : Grid a) (hb : Grid b) : Grid (a - b) := by
  obtain ⟨z, rfl⟩ := ha
  obtain ⟨w, rfl⟩ := hb
  exact ⟨z - w, by push_cast; ring⟩

theorem Grid.zero : Grid 0 := ⟨0, by simp⟩

theorem Grid.one : Grid 1 := by
  refine ⟨2 ^ 1074, ?_⟩
  push_cast
  rw [← zpow_natCast, ← zpow_add₀ (by norm_num)]
  norm_num

/-! ## The nearest double -/

theorem roundEven_nearest (y : ℚ) (k : ℤ) : |(roundEven y : ℚ) - y| ≤ |(k : ℚ) - y| := by
  by_cases h : k = roundEven y
  · rw [h]
  · have h1 := abs_le.1 (roundEven_abs y)
    have h2 := roundEven_abs y
    rcases lt_or_gt_of_ne h with hlt | hlt
    · have : (k : ℚ) + 1 ≤ roundEven y := by exact_mod_cast hlt
      rw [abs_sub_comm (k : ℚ), abs_of_nonneg (by linarith : 0 ≤ y - k)]
      linarith
    · have : (roundEven y : ℚ) + 1 ≤ k := by exact_mod_cast hlt
      rw [abs_of_nonneg (by linarith : 0 ≤ (k : ℚ) - y)]
      linarith

theorem roundEven_tie {y : ℚ} {k : ℤ} (hk : k ≠ roundEven y)
    (h : |(roundEven y : ℚ) - y| = |(k : ℚ) - y|) : roundEven y % 2 = 0 := by
  have h0 := roundEven_abs y
  have h1 := abs_le.1 h0
  have half : |(roundEven y : ℚ) - y| = 1 / 2 := by
    rcases lt_or_gt_of_ne hk with hlt | hlt
    · have : (k : ℚ) + 1 ≤ roundEven y := by exact_mod_cast hlt
      rw [abs_sub_comm (k : ℚ), abs_of_nonneg (by linarith : 0 ≤ y - k)] at h
      linarith
    · have : (roundEven y : ℚ) + 1 ≤ k := by exact_mod_cast hlt
      rw [abs_of_nonneg (by linarith : 0 ≤ (k : ℚ) - y)] at h
      linarith
  have f1 := Int.floor_le y
  have f2 := Int.lt_floor_add_one y
  unfold roundEven at half ⊢
  split at half
  · rw [abs_sub_comm, abs_of_nonneg (by linarith)] at half
    linarith
  · split at half
    · push_cast at half
      rw [abs_of_nonneg (by linarith)] at half
      linarith
    · rename_i a b
      rw [if_neg a, if_neg b]
      split <;> omega

theorem abs_lt_log (x : ℚ) : |x| < (2 : ℚ) ^ (Int.log 2 |x| + 1) := by
  have := Int.lt_zpow_succ_log_self (R := ℚ) (b := 2) (by norm_num) |x|
  exact_mod_cast this

theorem float64_double (x : ℚ) : IsDouble (float64 x) := by
  refine ⟨roundEven (x * 2 ^ (-ulpExp x)), ulpExp x, ?_, le_max_right _ _, rfl⟩
  have hu : Int.log 2 |x| - 52 ≤ ulpExp x := le_max_left _ _
  have h1 : |x * 2 ^ (-ulpExp x)| < 2 ^ 53 := by
    rw [abs_mul, abs_of_pos (two_zpow_pos _)]
    refine (mul_lt_mul_of_pos_right (abs_lt_log x) (two_zpow_pos _)).trans_le ?_
    rw [← zpow_add₀ (by norm_num), ← zpow_natCast]
    exact zpow_le_zpow_right₀ (by norm_num) (by push_cast; omega)
  have h2 := roundEven_nearest (x * 2 ^ (-ulpExp x))
  rw [abs_lt] at h1
  have h3 := abs_le.1 (roundEven_abs (x * 2 ^ (-ulpExp x)))
  rw [abs_le]
  constructor
  · have : ((-2 ^ 53 - 1 : ℤ) : ℚ) < roundEven (x * 2 ^ (-ulpExp x)) := by
      push_cast
      linarith [h3.1, h1.1]
    have := Int.cast_lt.1 this
    omega
  · have : (roundEven (x * 2 ^ (-ulpExp x)) : ℚ) < ((2 ^ 53 + 1 : ℤ) : ℚ) := by
      push_cast
      linarith [h3.2, h1.2]
    have := Int.cast_lt.1 this
    omega

/-- Against multiples of the last digit. -/
theorem float64_grid_near (x : ℚ) (k : ℤ) :
    |float64 x - x| = |(roundEven (x * 2 ^ (-ulpExp x)) : ℚ) - x * 2 ^ (-ulpExp x)| *
      (2 : ℚ) ^ ulpExp x ∧
    |k * (2 : ℚ) ^ ulpExp x - x| = |(k : ℚ) - x * 2 ^ (-ulpExp x)| * (2 : ℚ) ^ ulpExp x := by
  have key : ∀ k : ℤ, |k * (2 : ℚ) ^ ulpExp x - x| =
      |(k : ℚ) - x * 2 ^ (-ulpExp x)| * (2 : ℚ) ^ ulpExp x := by
    intro k
    have h : k * (2 : ℚ) ^ ulpExp x - x = (k - x * 2 ^ (-ulpExp x)) * (2 : ℚ) ^ ulpExp x := by
      rw [sub_mul, ← float64_eq x]
    rw [h, abs_mul, abs_of_pos (two_zpow_pos _)]
  exact ⟨key _, key k⟩

/-- A double that is not a multiple of the last digit is nearer to zero than `x`, and further from
`x` than the power of two between them. -/
theorem double_cases {x y : ℚ} (hy : IsDouble y) : (∃ k : ℤ, y = k * (2 : ℚ) ^ ulpExp x) ∨
    ∃ k : ℤ, |k * (2 : ℚ) ^ ulpExp x - x| < |y - x| := by
  obtain ⟨m, e, hm, he, rfl⟩ := hy
  by_cases hle : ulpExp x ≤ e
  · obtain ⟨n, hn⟩ := Int.eq_ofNat_of_zero_le (show 0 ≤ e - ulpExp x by omega)
    refine .inl ⟨m * 2 ^ n, ?_⟩
    have : e = n + ulpExp x := by omega
    rw [this, zpow_add₀ (by norm_num), zpow_natCast]
    push_cast
    ring
  · push Not at hle
    have hu : ulpExp x = Int.log 2 |x| - 52 := by
      unfold ulpExp at hle ⊢
      omega
    by_cases hx : x = 0
    · by_cases hy : (m : ℚ) * (2 : ℚ) ^ e = 0
      · exact .inl ⟨0, by rw [hy]; simp⟩
      · refine .inr ⟨0, ?_⟩
        rw [hx, Int.cast_zero, zero_mul, sub_zero, sub_zero, abs_zero]
        exact abs_pos.2 hy
    · have hlog : (2 : ℚ) ^ Int.log 2 |x| ≤ |x| := by
        have := Int.zpow_log_le_self (R := ℚ) (b := 2) (by norm_num) (abs_pos.2 hx)
        exact_mod_cast this
      have htop : (2 : ℚ) ^ Int.log 2 |x| = 2 ^ 52 * (2 : ℚ) ^ ulpExp x := by
        rw [hu, ← zpow_natCast, ← zpow_add₀ (by norm_num)]
        congr 1
        push_cast
        ring
      have htop' : (2 : ℚ) ^ Int.log 2 |x| = 4503599627370496 * (2 : ℚ) ^ ulpExp x := by
        rw [htop]
        norm_num
      have hy : |(m : ℚ) * (2 : ℚ) ^ e| ≤ (2 : ℚ) ^ Int.log 2 |x| := by
        rw [abs_mul, abs_of_pos (two_zpow_pos e)]
        have hm' : |(m : ℚ)| ≤ 2 ^ 53 := by exact_mod_cast hm
        refine (mul_le_mul_of_nonneg_right hm' (two_zpow_pos e).le).trans ?_
        rw [← zpow_natCast, ← zpow_add₀ (by norm_num)]
        exact zpow_le_zpow_right₀ (by norm_num) (by push_cast; omega)
      generalize (m : ℚ) * (2 : ℚ) ^ e = y at hy
      rcases hy.lt_or_eq with hlt | heq
      · right
        rcases lt_or_gt_of_ne hx with hneg | hpos
        · refine ⟨-2 ^ 52, ?_⟩
          push_cast
          rw [neg_mul, ← htop']
          rw [abs_of_neg hneg] at hlog hlt ⊢
          have h1 := (abs_lt.1 hlt).1
          rw [abs_of_nonneg (by linarith), abs_of_nonneg (by linarith)]
          linarith
        · refine ⟨2 ^ 52, ?_⟩
          push_cast
          rw [← htop']
          rw [abs_of_pos hpos] at hlog hlt ⊢
          have h1 := (abs_lt.1 hlt).2
          rw [abs_of_nonpos (by linarith), abs_of_nonpos (by linarith)]
          linarith
      · left
        rcases abs_choice y with h | h
        · exact ⟨2 ^ 52, by push_cast; rw [← htop', ← heq, h]⟩
        · refine ⟨-2 ^ 52, ?_⟩
          push_cast
          rw [neg_mul, ← htop', ← heq, h, neg_neg]

theorem float64_nearest {x y : ℚ} (hy : IsDouble y) : |float64 x - x| ≤ |y - x| := by
  have key : ∀ k : ℤ, |float64 x - x| ≤ |k * (2 : ℚ) ^ ulpExp x - x| := by
    intro k
    obtain ⟨h1, h2⟩ := float64_grid_near x k
    rw [h1, h2]
    exact mul_le_mul_of_nonneg_right (roundEven_nearest _ _) (two_zpow_pos _).le
  rcases double_cases (x := x) hy with ⟨k, rfl⟩ | ⟨k, hk⟩
  · exact key k
  · exact (key k).trans hk.le

theorem float64_tie {x y : ℚ} (hy : IsDouble y) (hne : y ≠ float64 x)
    (h : |float64 x - x| = |y - x|) : ∃ m : ℤ, float64 x = (2 * m : ℤ) * (2 : ℚ) ^ ulpExp x := by
  rcases double_cases (x := x) hy with ⟨k, rfl⟩ | ⟨k, hk⟩
  · obtain ⟨h1, h2⟩ := float64_grid_near x k
    rw [h1, h2] at h
    have h := mul_right_cancel₀ (two_zpow_pos (ulpExp x)).ne' h
    have hk : k ≠ roundEven (x * 2 ^ (-ulpExp x)) := by
      rintro rfl
      exact hne rfl
    have := roundEven_tie hk h
    refine ⟨roundEven (x * 2 ^ (-ulpExp x)) / 2, ?_⟩
    have e : 2 * (roundEven (x * 2 ^ (-ulpExp x)) / 2) = roundEven (x * 2 ^ (-ulpExp x)) := by
      omega
    rw [e]
    rfl
  · obtain ⟨h1, h2⟩ := float64_grid_near x k
    have : |float64 x - x| ≤ |k * (2 : ℚ) ^ ulpExp x - x| := by
      rw [h1, h2]
      exact mul_le_mul_of_nonneg_right (roundEven_nearest _ _) (two_zpow_pos _).le
    linarith

/-! ## Rounding after every operation -/

/-- Rounding every operation is accurate arithmetic. -/
theorem ofRound_within {fl : ℚ → ℚ} {F : ℚ → Prop} {ε η : ℚ} (he : 0 ≤ ε ∧ ε < 1) (hη : 0 ≤ η)
    (h0 : F 0) (h1 : F 1) (hF : ∀ x, F (fl x)) (hnn : ∀ x, 0 ≤ x → 0 ≤ fl x)
    (hadd : ∀ a b, F a → F b → |fl (a + b) - (a + b)| ≤ ε * |a + b|)
    (hsub : ∀ a b, F a → F b → |fl (a - b) - (a - b)| ≤ ε * |a - b|)
    (hmul : ∀ x, |fl x - x| ≤ ε * |x| + η) : (Arith.ofRound fl).Within F ε η := by
  refine ⟨he, hη, h1, ?_, ?_, fun a b ha hb => ⟨hF _, hsub a b ha hb⟩⟩
  · have key : ∀ (l : List ℚ) (q s : ℚ) (e : ℕ), (∀ x ∈ l, F x ∧ 0 ≤ x) → F q → 0 ≤ s →
        (1 - ε) ^ e * s ≤ q → q ≤ (1 + ε) ^ e * s →
        F (l.foldl (fun a x => fl (a + x)) q) ∧
        (1 - ε) ^ (e + l.length) * (s + l.sum) ≤ l.foldl (fun a x => fl (a + x)) q ∧
        l.foldl (fun a x => fl (a + x)) q ≤ (1 + ε) ^ (e + l.length) * (s + l.sum) := by
      intro l
      induction l with
      | nil =>
        intro q s e _ hq _ hlo hup
        simpa using ⟨hq, hlo, hup⟩
      | cons x l ih =>
        intro q s e hl hq hs hlo hup
        obtain ⟨hFx, hx⟩ := hl x List.mem_cons_self
        have hle : (1 - ε) ^ e ≤ 1 := pow_le_one₀ (by linarith [he.2]) (by linarith [he.1])
        have hge : 1 ≤ (1 + ε) ^ e := one_le_pow₀ (by linarith [he.1])
        have hl0 : 0 ≤ (1 - ε) ^ e := pow_nonneg (by linarith [he.2]) e
        have hq0 : 0 ≤ q := le_trans (mul_nonneg hl0 hs) hlo
        have hr := hadd q x hq hFx
        rw [abs_of_nonneg (add_nonneg hq0 hx), abs_le] at hr
        have a1 : (1 - ε) ^ e * (s + x) ≤ q + x := by nlinarith
        have a2 : q + x ≤ (1 + ε) ^ e * (s + x) := by nlinarith
        have step := ih (fl (q + x)) (s + x) (e + 1)
          (fun y hy => hl y (List.mem_cons_of_mem _ hy)) (hF _) (by linarith) ?_ ?_
        · simp only [List.foldl_cons, List.sum_cons, List.length_cons]
          rw [show e + (l.length + 1) = e + 1 + l.length by ring, ← add_assoc]
          exact step
        · have := mul_le_mul_of_nonneg_left a1 (show 0 ≤ 1 - ε by linarith [he.2])
          rw [pow_succ]
          linarith [hr.1]
        · have := mul_le_mul_of_nonneg_left a2 (show 0 ≤ 1 + ε by linarith [he.1])
          rw [pow_succ]
          linarith [hr.2]
    intro l hl
    have := key l 0 0 0 hl h0 le_rfl (by simp) (by simp)
    simp only [zero_add] at this
    exact this
  · intro a b _ _ ha hb
    have h := hmul (a * b)
    rw [abs_of_nonneg (mul_nonneg ha hb), abs_le] at h
    exact ⟨hF _, hnn _ (mul_nonneg ha hb), by show _ ≤ fl (a * b); linarith [h.1],
      by show fl (a * b) ≤ _; linarith [h.2]⟩

end BNS
