import Verif.Proofs.CpmRoundElim

/-! Arithmetic with underflow keeps `NearU`. -/

namespace BNS

set_option linter.unusedSectionVars false

open List

section
variable {A : Arith} {F : ℚ → Prop} {ε η : ℚ}

theorem up_le_two (he : 0 ≤ ε ∧ ε < 1) (k : ℕ) : (1 + ε) ^ k ≤ 2 ^ k :=
  pow_le_pow_left₀ (by linarith [he.1]) (by linarith [he.2]) k

theorem mul_lower {x y X Y a b : ℚ} (hx : 0 ≤ x) (hy : 0 ≤ y) (hX : 0 ≤ X) (hY : 0 ≤ Y) (ha : 0 ≤ a)
    (hb : 0 ≤ b) (h1 : X - a ≤ x) (h2 : Y - b ≤ y) : X * Y - a * Y - b * X ≤ x * y := by
  have hxy := mul_nonneg hx hy
  by_cases hXa : X ≤ a
  · nlinarith
  by_cases hYb : Y ≤ b
  · nlinarith
  have h3 : (X - a) * (Y - b) ≤ x * y :=
    mul_le_mul h1 h2 (by linarith) hx
  nlinarith [mul_nonneg ha hb]

theorem mul_upper {x y X Y a b : ℚ} (hy : 0 ≤ y) (hX : 0 ≤ X) (ha : 0 ≤ a)
    (h1 : x ≤ X + a) (h2 : y ≤ Y + b) : x * y ≤ X * Y + a * Y + b * X + a * b := by
  have := mul_le_mul h1 h2 hy (by linarith)
  nlinarith

theorem nat_le_two_pow (n : ℕ) : (n : ℚ) ≤ 2 ^ n := by
  have : n ≤ 2 ^ n := Nat.lt_two_pow_self.le
  exact_mod_cast this

theorem counted_nearU (hA : A.Within F ε η) (hη : η ≤ 1) : Counted A (NearU F ε η) where
  one k := by
    have h8 : 0 ≤ η * 8 ^ k := mul_nonneg hA.eta (by positivity)
    refine ⟨hA.one, zero_le_one, zero_le_one, one_le_pow₀ (by norm_num), ?_, ?_⟩
    · rw [mul_one]; linarith [low_le_one hA.eps k]
    · rw [mul_one]; linarith [up_ge_one hA.eps k]
  mono k m x' x hk h := by
    have h8 : η * 8 ^ k ≤ η * 8 ^ m :=
      mul_le_mul_of_nonneg_left (pow_le_pow_right₀ (by norm_num) hk) hA.eta
    refine ⟨h.repr, h.nonneg', h.nonneg, h.le.trans (pow_le_pow_right₀ (by norm_num) hk), ?_, ?_⟩
    · linarith [mul_le_mul_of_nonneg_right (low_anti hA.eps hk) h.nonneg, h.low]
    · linarith [mul_le_mul_of_nonneg_right (up_mono hA.eps hk) h.nonneg, h.up]
  mul k m x' x y' y hx hy := by
    obtain ⟨h1, h2, h3, h4⟩ := hA.mul x' y' hx.repr hy.repr hx.nonneg' hy.nonneg'
    have e1 : 0 ≤ 1 - ε := by linarith [hA.eps.2]
    have e2 : 0 ≤ 1 + ε := by linarith [hA.eps.1]
    have hη0 := hA.eta
    have a0 : 0 ≤ η * 8 ^ k := mul_nonneg hη0 (by positivity)
    have b0 : 0 ≤ η * 8 ^ m := mul_nonneg hη0 (by positivity)
    have c0 : 0 ≤ η * 8 ^ (k + m) := mul_nonneg hη0 (by positivity)
    have pw : ∀ j : ℕ, ∀ z : ℚ, 0 ≤ z → z ≤ 2 ^ j → (1 + ε) ^ j * z ≤ 8 ^ j := by
      intro j z hz hz2
      have := mul_le_mul (up_le_two hA.eps j) hz2 hz (by positivity)
      rw [← mul_pow] at this
      exact this.trans (pow_le_pow_left₀ (by norm_num) (by norm_num) j)
    have pl : ∀ j : ℕ, ∀ z : ℚ, 0 ≤ z → z ≤ 2 ^ j → (1 - ε) ^ j * z ≤ 8 ^ j := by
      intro j z hz hz2
      refine le_trans (mul_le_mul_of_nonneg_right ?_ hz) (pw j z hz hz2)
      exact (low_le_one hA.eps j).trans (up_ge_one hA.eps j)
    have e8 : η * 8 ^ k * 8 ^ m = η * 8 ^ (k + m) := by rw [pow_add]; ring
    have e8' : η * 8 ^ m * 8 ^ k = η * 8 ^ (k + m) := by rw [pow_add]; ring
    have eS : η * 8 ^ (k + m + 1) = 8 * (η * 8 ^ (k + m)) := by rw [pow_succ]; ring
    have hηc : η ≤ η * 8 ^ (k + m) := le_mul_of_one_le_right hη0 (one_le_pow₀ (by norm_num))
    refine ⟨h1, h2, mul_nonneg hx.nonneg hy.nonneg, ?_, ?_, ?_⟩
    · have := mul_le_mul hx.le hy.le hy.nonneg (by positivity)
      rw [← pow_add] at this
      exact this.trans (pow_le_pow_right₀ (by norm_num) (by omega))
    · have X0 : 0 ≤ (1 - ε) ^ k * x := mul_nonneg (pow_nonneg e1 k) hx.nonneg
      have Y0 : 0 ≤ (1 - ε) ^ m * y := mul_nonneg (pow_nonneg e1 m) hy.nonneg
      have hl := mul_lower hx.nonneg' hy.nonneg' X0 Y0 a0 b0 hx.low hy.low
      have t1 := mul_le_mul_of_nonneg_left (pl m y hy.nonneg hy.le) a0
      have t2 := mul_le_mul_of_nonneg_left (pl k x hx.nonneg hx.le) b0
      rw [e8] at t1
      rw [e8'] at t2
      have e : (1 - ε) ^ (k + m + 1) * (x * y) =
          (1 - ε) * ((1 - ε) ^ k * x * ((1 - ε) ^ m * y)) := by rw [pow_succ, pow_add]; ring
      rw [e, eS]
      generalize (1 - ε) ^ k * x * ((1 - ε) ^ m * y) = Z at *
      generalize η * 8 ^ (k + m) = c at *
      have h5 : Z - 2 * c ≤ x' * y' := by linarith
      have h6 := mul_le_mul_of_nonneg_left h5 e1
      have h7 : (1 - ε) * (2 * c) ≤ 2 * c := by nlinarith [hA.eps.1]
      linarith [mul_sub (1 - ε) Z (2 * c)]
    · have X0 : 0 ≤ (1 + ε) ^ k * x := mul_nonneg (pow_nonneg e2 k) hx.nonneg
      have hl := mul_upper hy.nonneg' X0 a0 hx.up hy.up
      have t1 := mul_le_mul_of_nonneg_left (pw m y hy.nonneg hy.le) a0
      have t2 := mul_le_mul_of_nonneg_left (pw k x hx.nonneg hx.le) b0
      have t3 : η * 8 ^ k * (η * 8 ^ m) ≤ η * 8 ^ (k + m) := by
        have : η * 8 ^ k * (η * 8 ^ m) = η * (η * 8 ^ (k + m)) := by rw [pow_add]; ring
        rw [this]
        exact mul_le_of_le_one_left c0 hη
      rw [e8] at t1
      rw [e8'] at t2
      have e : (1 + ε) ^ (k + m + 1) * (x * y) =
          (1 + ε) * ((1 + ε) ^ k * x * ((1 + ε) ^ m * y)) := by rw [pow_succ, pow_add]; ring
      rw [e, eS]
      generalize (1 + ε) ^ k * x * ((1 + ε) ^ m * y) = Z at *
      generalize η * 8 ^ (k + m) = c at *
      have h5 : x' * y' ≤ Z + 3 * c := by linarith
      have h6 := mul_le_mul_of_nonneg_left h5 e2
      have h7 : (1 + ε) * (3 * c) ≤ 6 * c := by nlinarith [hA.eps.2]
      linarith [mul_add (1 + ε) Z (3 * c)]
  sum k n l' l h hn := by
    have hm : ∀ x ∈ l', F x ∧ 0 ≤ x := by
      clear hn
      induction h with
      | nil => simp
      | cons h1 h2 ih =>
        intro x hx
        rcases List.mem_cons.1 hx with rfl | hx
        · exact ⟨h1.repr, h1.nonneg'⟩
        · exact ih x hx
    obtain ⟨h1, h2, h3⟩ := hA.sum l' hm
    have hs : 0 ≤ l.sum ∧ 0 ≤ l'.sum ∧ l.sum ≤ l.length * 2 ^ k ∧
        (1 - ε) ^ k * l.sum - l.length * (η * 8 ^ k) ≤ l'.sum ∧
        l'.sum ≤ (1 + ε) ^ k * l.sum + l.length * (η * 8 ^ k) := by
      clear hn hm h1 h2 h3
      induction h with
      | nil => simp
      | cons h1 h2 ih =>
        obtain ⟨i1, i2, i3, i4, i5⟩ := ih
        simp only [List.sum_cons, List.length_cons, Nat.cast_add, Nat.cast_one]
        refine ⟨add_nonneg h1.nonneg i1, add_nonneg h1.nonneg' i2, ?_, ?_, ?_⟩
        · linarith [h1.le, add_mul (1 : ℚ) 1 1]
        · rw [mul_add]; linarith [h1.low]
        · rw [mul_add]; linarith [h1.up]
    obtain ⟨s0, s0', s3, s1, s2⟩ := hs
    rw [h.length_eq] at h2 h3
    have hη0 := hA.eta
    have a0 : 0 ≤ η * 8 ^ k := mul_nonneg hη0 (by positivity)
    have hn' : (l.length : ℚ) ≤ n := by exact_mod_cast hn
    have hn2 : (l.length : ℚ) ≤ 2 ^ n := hn'.trans (nat_le_two_pow n)
    have e8 : η * 8 ^ (k + n) = 2 ^ n * (4 ^ n * (η * 8 ^ k)) := by
      have : (8 : ℚ) ^ n = 2 ^ n * 4 ^ n := by rw [← mul_pow]; norm_num
      rw [pow_add, this]; ring
    have h4n : (1 : ℚ) ≤ 4 ^ n := one_le_pow₀ (by norm_num)
    have h2n : (1 : ℚ) ≤ 2 ^ n := one_le_pow₀ (by norm_num)
    have h24 : (2 : ℚ) ^ n ≤ 4 ^ n := pow_le_pow_left₀ (by norm_num) (by norm_num) n
    refine ⟨h1, ?_, s0, ?_, ?_, ?_⟩
    · exact (mul_nonneg (low_pos hA.eps _) s0').trans h2
    · refine s3.trans ?_
      rw [pow_add, mul_comm]
      exact mul_le_mul_of_nonneg_left hn2 (by positivity)
    · have hE : (l.length : ℚ) * (η * 8 ^ k) ≤ η * 8 ^ (k + n) := by
        rw [e8]
        refine mul_le_mul hn2 ?_ a0 (by positivity)
        exact le_mul_of_one_le_left a0 h4n
      have p0 := low_pos hA.eps n
      have p1 := low_le_one hA.eps n
      have hL0 : 0 ≤ (l.length : ℚ) * (η * 8 ^ k) := mul_nonneg (Nat.cast_nonneg _) a0
      have k1 := mul_le_mul_of_nonneg_left s1 p0
      have k2 := mul_le_mul_of_nonneg_right (low_anti hA.eps hn) s0'
      have k3 : (1 - ε) ^ (k + n) * l.sum = (1 - ε) ^ n * ((1 - ε) ^ k * l.sum) := by
        rw [pow_add]; ring
      have k4 : (1 - ε) ^ n * ((l.length : ℚ) * (η * 8 ^ k)) ≤ (l.length : ℚ) * (η * 8 ^ k) :=
        mul_le_of_le_one_left hL0 p1
      rw [mul_sub] at k1
      rw [k3]
      linarith
    · have p0 : 0 ≤ (1 + ε) ^ n := zero_le_one.trans (up_ge_one hA.eps n)
      have hL0 : 0 ≤ (l.length : ℚ) * (η * 8 ^ k) := mul_nonneg (Nat.cast_nonneg _) a0
      have k1 := mul_le_mul_of_nonneg_left s2 p0
      have k2 := mul_le_mul_of_nonneg_right (up_mono hA.eps hn) s0'
      have k3 : (1 + ε) ^ (k + n) * l.sum = (1 + ε) ^ n * ((1 + ε) ^ k * l.sum) := by
        rw [pow_add]; ring
      have k4 : (1 + ε) ^ n * ((l.length : ℚ) * (η * 8 ^ k)) ≤ η * 8 ^ (k + n) := by
        rw [e8]
        refine mul_le_mul (up_le_two hA.eps n) ?_ hL0 (by positivity)
        exact mul_le_mul_of_nonneg_right (hn2.trans h24) a0
      rw [mul_add] at k1
      rw [k3]
      linarith

end

end BNS
