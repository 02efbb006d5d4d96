import Mathlib.Probability.Distributions.Gaussian.Multivariate
import Mathlib.Probability.Distributions.Gaussian.HasGaussianLaw.Independence
import Mathlib.Tactic.Linarith
import Mathlib.Tactic.Positivity

/-!
# Multivariate normal vectors

Laws of signed coordinates, and how the probability of an orthant of two coordinates changes with the
sign of their covariance.
-/

namespace BNS

open ProbabilityTheory MeasureTheory WithLp
open scoped Matrix RealInnerProductSpace

set_option linter.unusedSectionVars false

section
variable {ι κ : Type} [Fintype ι] [DecidableEq ι] [Fintype κ] [DecidableEq κ]

/-- The vector of the coordinates `e k`, each multiplied by `s k`. -/
noncomputable def signedCoords (e : κ → ι) (s : κ → ℝ) :
    EuclideanSpace ℝ ι →L[ℝ] EuclideanSpace ℝ κ :=
  (EuclideanSpace.equiv κ ℝ).symm.toContinuousLinearMap.comp
    (ContinuousLinearMap.pi fun k => s k • EuclideanSpace.proj (e k))

theorem signedCoords_apply (e : κ → ι) (s : κ → ℝ) (x : EuclideanSpace ℝ ι) (k : κ) :
    signedCoords e s x k = s k * x (e k) := by
  simp [signedCoords]

theorem signed_posSemidef {S : Matrix ι ι ℝ} (hS : S.PosSemidef) (e : κ → ι) (s : κ → ℝ) :
    (Matrix.of fun k l => s k * s l * S (e k) (e l)).PosSemidef := by
  have h := (hS.submatrix e).conjTranspose_mul_mul_same (Matrix.diagonal s)
  convert h using 1
  ext k l
  simp [Matrix.diagonal_mul, Matrix.mul_diagonal]
  ring

/-- Coordinates of a normal vector, some with their signs changed, are a normal vector. -/
theorem map_signedCoords {μ : EuclideanSpace ℝ ι} {S : Matrix ι ι ℝ} (hS : S.PosSemidef) (e : κ → ι)
    (s : κ → ℝ) :
    (multivariateGaussian μ S).map (signedCoords e s) =
      multivariateGaussian (signedCoords e s μ) (Matrix.of fun k l => s k * s l * S (e k) (e l)) := by
  apply IsGaussian.ext
  · simp only [id_eq, integral_id_multivariateGaussian]
    rw [ContinuousLinearMap.integral_id_map, integral_id_multivariateGaussian]
    exact IsGaussian.integrable_id
  rw [← ContinuousLinearMap.toBilinForm_inj]
  refine LinearMap.BilinForm.ext_basis (EuclideanSpace.basisFun κ ℝ).toBasis fun i j ↦ ?_
  rw [ContinuousLinearMap.toBilinForm_apply, ContinuousLinearMap.toBilinForm_apply,
    covarianceBilin_apply_eq_cov, covariance_map]
  · have hc (i : κ) : (fun u ↦ ⟪(EuclideanSpace.basisFun κ ℝ).toBasis i, u⟫) ∘
        signedCoords e s = fun u ↦ s i * u (e i) := by
      ext; simp [PiLp.inner_apply, signedCoords_apply]
    simp_rw [hc, covarianceBilin_multivariateGaussian (signed_posSemidef hS e s)]
    rw [covariance_const_mul_left, covariance_const_mul_right,
      covariance_eval_multivariateGaussian hS]
    simp
    ring
  any_goals exact Measurable.aestronglyMeasurable (by fun_prop)
  · fun_prop
  · exact IsGaussian.memLp_two_id

end

theorem ms_le_le {X : Type} [MeasurableSpace X] {f g h k : X → ℝ} (hf : Measurable f) (hg : Measurable g)
    (hh : Measurable h) (hk : Measurable k) : MeasurableSet {x | f x ≤ g x ∧ h x ≤ k x} :=
  (measurableSet_le hf hg).inter (measurableSet_le hh hk)

theorem ms_le_lt {X : Type} [MeasurableSpace X] {f g h k : X → ℝ} (hf : Measurable f) (hg : Measurable g)
    (hh : Measurable h) (hk : Measurable k) : MeasurableSet {x | f x ≤ g x ∧ h x < k x} :=
  (measurableSet_le hf hg).inter (measurableSet_lt hh hk)

/-- Two independent numbers, the second symmetric: tilting the first towards the second makes the
orthant where both are low more probable than the one where the second is high. -/
theorem tilt_lt {μW μU : Measure ℝ} [IsFiniteMeasure μW] [IsFiniteMeasure μU]
    (hsym : μU.map (fun u => -u) = μU) (hW : 0 < μW (Set.Ioo (-1) 1)) (hU : ∀ c, 0 < μU (Set.Iio c))
    {β : ℝ} (hβ : 0 < β) (a t : ℝ) :
    (μW.prod μU).real {x | x.1 + β * x.2 ≤ a ∧ -t < x.2} <
      (μW.prod μU).real {x | x.1 + β * x.2 ≤ a ∧ x.2 ≤ t} := by
  set ν := μW.prod μU with hν
  let C : Set (ℝ × ℝ) := {x | x.1 + β * x.2 ≤ a ∧ -t < x.2 ∧ x.2 ≤ t}
  let A1 : Set (ℝ × ℝ) := {x | x.1 + β * x.2 ≤ a ∧ x.2 ≤ -|t|}
  let B1 : Set (ℝ × ℝ) := {x | x.1 + β * x.2 ≤ a ∧ |t| < x.2}
  let B2 : Set (ℝ × ℝ) := {x | x.1 - β * x.2 ≤ a ∧ x.2 < -|t|}
  let c : ℝ := -(|t| + (|a| + 1) / β)
  let D : Set (ℝ × ℝ) := Set.Ioo (-1) 1 ×ˢ Set.Iio c
  have mA1 : MeasurableSet A1 := ms_le_le (by fun_prop) (by fun_prop) (by fun_prop) (by fun_prop)
  have mB1 : MeasurableSet B1 := ms_le_lt (by fun_prop) (by fun_prop) (by fun_prop) (by fun_prop)
  have mD : MeasurableSet D := measurableSet_Ioo.prod measurableSet_Iio
  have hA : {x : ℝ × ℝ | x.1 + β * x.2 ≤ a ∧ x.2 ≤ t} = C ∪ A1 := by
    ext x
    simp only [Set.mem_ofPred_eq, Set.mem_union, C, A1]
    constructor
    · rintro ⟨h1, h2⟩
      by_cases h : -t < x.2
      · exact Or.inl ⟨h1, h, h2⟩
      · refine Or.inr ⟨h1, ?_⟩
        rcases abs_cases t with ⟨h', _⟩ | ⟨h', _⟩ <;> rw [h'] <;> linarith
    · rintro (⟨h1, -, h2⟩ | ⟨h1, h2⟩)
      · exact ⟨h1, h2⟩
      · exact ⟨h1, h2.trans (neg_abs_le t)⟩
  have hB : {x : ℝ × ℝ | x.1 + β * x.2 ≤ a ∧ -t < x.2} = C ∪ B1 := by
    ext x
    simp only [Set.mem_ofPred_eq, Set.mem_union, C, B1]
    constructor
    · rintro ⟨h1, h2⟩
      by_cases h : x.2 ≤ t
      · exact Or.inl ⟨h1, h2, h⟩
      · refine Or.inr ⟨h1, ?_⟩
        rcases abs_cases t with ⟨h', _⟩ | ⟨h', _⟩ <;> rw [h'] <;> linarith
    · rintro (⟨h1, h2, -⟩ | ⟨h1, h2⟩)
      · exact ⟨h1, h2⟩
      · exact ⟨h1, (neg_le_abs t).trans_lt h2⟩
  have dA : Disjoint C A1 := by
    rw [Set.disjoint_left]
    rintro x ⟨-, h2, h3⟩ ⟨-, h5⟩
    rcases abs_cases t with ⟨h', _⟩ | ⟨h', _⟩ <;> rw [h'] at h5 <;> linarith
  have dB : Disjoint C B1 := by
    rw [Set.disjoint_left]
    rintro x ⟨-, -, h3⟩ ⟨-, h5⟩
    exact absurd (h5.trans_le h3) (not_lt.2 (le_abs_self t))
  have hpres : ν.map (fun x : ℝ × ℝ => (x.1, -x.2)) = ν := by
    have h : (fun x : ℝ × ℝ => (x.1, -x.2)) = Prod.map id (fun u => -u) := rfl
    rw [hν, h, ← Measure.map_prod_map _ _ measurable_id measurable_neg, Measure.map_id, hsym]
  have hB12 : ν.real B1 = ν.real B2 := by
    have hmB2 : MeasurableSet B2 := ms_le_lt (by fun_prop) (by fun_prop) (by fun_prop) (by fun_prop)
    conv_rhs => rw [← hpres]
    rw [map_measureReal_apply (by fun_prop) hmB2]
    congr 1
    ext x
    simp only [Set.mem_ofPred_eq, Set.mem_preimage, B1, B2, mul_neg, sub_neg_eq_add, neg_lt_neg_iff]
  have hsub : B2 ∪ D ⊆ A1 := by
    rintro x (⟨h1, h2⟩ | ⟨⟨h1, h2⟩, h3⟩)
    · refine ⟨?_, h2.le⟩
      have : x.2 < 0 := h2.trans_le (neg_nonpos.2 (abs_nonneg t))
      nlinarith
    · have h3' : x.2 < -(|t| + (|a| + 1) / β) := h3
      have hp : 0 < (|a| + 1) / β := by positivity
      refine ⟨?_, by linarith⟩
      have h4 : β * x.2 < -(|a| + 1) := by
        have : x.2 < -((|a| + 1) / β) := by linarith [abs_nonneg t]
        calc β * x.2 < β * -((|a| + 1) / β) := by nlinarith
          _ = -(|a| + 1) := by field_simp
      have := neg_abs_le a
      linarith
  have dBD : Disjoint B2 D := by
    rw [Set.disjoint_left]
    rintro x ⟨h1, -⟩ ⟨⟨h2, -⟩, h3⟩
    have h3' : x.2 < -(|t| + (|a| + 1) / β) := h3
    have h4 : β * x.2 < -(|a| + 1) := by
      have : x.2 < -((|a| + 1) / β) := by linarith [abs_nonneg t]
      calc β * x.2 < β * -((|a| + 1) / β) := by nlinarith
        _ = -(|a| + 1) := by field_simp
    have := le_abs_self a
    linarith
  have hD : 0 < ν.real D := by
    rw [measureReal_def, ENNReal.toReal_pos_iff]
    refine ⟨?_, measure_lt_top _ _⟩
    rw [hν, Measure.prod_prod]
    exact ENNReal.mul_pos hW.ne' (hU c).ne'
  have h1 : ν.real B2 + ν.real D ≤ ν.real A1 := by
    rw [← measureReal_union dBD mD]
    exact measureReal_mono hsub
  rw [hA, hB, measureReal_union dA mA1, measureReal_union dB mB1, hB12]
  linarith

/-- An interval around the mean is not empty for a normal number, also for a constant one. -/
theorem gauss_near (m : ℝ) (v : NNReal) : 0 < gaussianReal m v (Set.Ioo (m - 1) (m + 1)) := by
  by_cases hv : v = 0
  · subst hv
    rw [gaussianReal_zero_var, Measure.dirac_apply' _ measurableSet_Ioo]
    simp
  · rw [pos_iff_ne_zero]
    intro h
    have := gaussianReal_absolutelyContinuous' m hv h
    rw [Real.volume_Ioo] at this
    simp at this
    norm_num at this

theorem gauss_low (m : ℝ) {v : NNReal} (hv : v ≠ 0) (c : ℝ) : 0 < gaussianReal m v (Set.Iio c) := by
  rw [pos_iff_ne_zero]
  intro h
  have := gaussianReal_absolutelyContinuous' m hv h
  simp at this

/-- Two normal numbers with positive covariance: the orthant `x 0 ≤ 0`, `x 1 > 0` is less probable
than the orthant `x 0 ≤ 0`, `x 1 ≤ 2 * μ 1`. -/
theorem orthant_lt {μ : EuclideanSpace ℝ (Fin 2)} {S : Matrix (Fin 2) (Fin 2) ℝ} (hS : S.PosSemidef)
    (hc : 0 < S 0 1) :
    (multivariateGaussian μ S).real {x | x 0 ≤ 0 ∧ 0 < x 1} <
      (multivariateGaussian μ S).real {x | x 0 ≤ 0 ∧ x 1 ≤ 2 * μ 1} := by
  set P := multivariateGaussian μ S with hP
  have h10 : S 1 0 = S 0 1 := by simpa using hS.1.apply 0 1
  have hv : 0 < S 1 1 := by
    by_contra hn
    have hd := hS.det_nonneg
    have h0 := hS.diag_nonneg (i := 0)
    rw [Matrix.det_fin_two, h10] at hd
    nlinarith
  set β := S 0 1 / S 1 1 with hβ
  have hβ0 : 0 < β := div_pos hc hv
  let W0 : EuclideanSpace ℝ (Fin 2) → ℝ := fun x => x 0 - β * x 1
  let U0 : EuclideanSpace ℝ (Fin 2) → ℝ := fun x => x 1
  have hg : HasGaussianLaw (fun x : EuclideanSpace ℝ (Fin 2) => (W0 x, U0 x)) P := by
    have h := (IsGaussian.hasGaussianLaw_id (μ := P)).map
      (((EuclideanSpace.proj (0 : Fin 2) : EuclideanSpace ℝ (Fin 2) →L[ℝ] ℝ) -
        β • (EuclideanSpace.proj (1 : Fin 2) : EuclideanSpace ℝ (Fin 2) →L[ℝ] ℝ)).prod
        (EuclideanSpace.proj (1 : Fin 2)))
    exact h
  have hl : ∀ i : Fin 2, MemLp (fun x : EuclideanSpace ℝ (Fin 2) => x i) 2 P := fun i =>
    (IsGaussian.hasGaussianLaw_id (μ := P)).map
      (EuclideanSpace.proj i : EuclideanSpace ℝ (Fin 2) →L[ℝ] ℝ) |>.memLp_two
  have hcov : cov[W0, U0; P] = 0 := by
    have : W0 = (fun x : EuclideanSpace ℝ (Fin 2) => x 0) - fun x => β * x 1 := rfl
    rw [this, covariance_sub_left (hl 0) ((hl 1).const_mul β) (hl 1), covariance_const_mul_left,
      covariance_eval_multivariateGaussian hS]
    have h11 : cov[fun x : EuclideanSpace ℝ (Fin 2) => x 1, U0; P] = S 1 1 :=
      covariance_eval_multivariateGaussian hS 1 1
    rw [h11, hβ]
    field_simp
    ring
  have hind := hg.indepFun_of_covariance_eq_zero hcov
  -- the laws of the two independent numbers
  obtain ⟨mW, vW, hWlaw⟩ : ∃ m v, P.map W0 = gaussianReal m v := ⟨_, _, hg.fst.map_eq_gaussianReal⟩
  have hUlaw : P.map U0 = gaussianReal (μ 1) (S 1 1).toNNReal :=
    (measurePreserving_eval_multivariateGaussian hS).map_eq
  have hmW : Measurable W0 := by fun_prop
  have hmU : Measurable U0 := by fun_prop
  have hind2 : IndepFun (fun x => W0 x - mW) (fun x => U0 x - μ 1) P :=
    hind.comp (φ := fun w => w - mW) (ψ := fun u => u - μ 1) (by fun_prop) (by fun_prop)
  have hmap := (indepFun_iff_map_prod_eq_prod_map_map (μ := P) (by fun_prop) (by fun_prop)).1 hind2
  have hW1 : P.map (fun x => W0 x - mW) = gaussianReal 0 vW := by
    have : (fun x => W0 x - mW) = (fun w => w - mW) ∘ W0 := rfl
    rw [this, ← Measure.map_map (by fun_prop) hmW, hWlaw, gaussianReal_map_sub_const, sub_self]
  have hU1 : P.map (fun x => U0 x - μ 1) = gaussianReal 0 (S 1 1).toNNReal := by
    have : (fun x => U0 x - μ 1) = (fun u => u - μ 1) ∘ U0 := rfl
    rw [this, ← Measure.map_map (by fun_prop) hmU, hUlaw, gaussianReal_map_sub_const, sub_self]
  rw [hW1, hU1] at hmap
  have hvn : (S 1 1).toNNReal ≠ 0 := by simpa using hv
  have key := tilt_lt (μW := gaussianReal 0 vW) (μU := gaussianReal 0 (S 1 1).toNNReal)
    (by rw [gaussianReal_map_neg, neg_zero]) (by simpa using gauss_near 0 vW) (gauss_low 0 hvn) hβ0
    (-(mW + β * μ 1)) (μ 1)
  rw [← hmap, map_measureReal_apply (by fun_prop)
      (ms_le_lt (by fun_prop) (by fun_prop) (by fun_prop) (by fun_prop)),
    map_measureReal_apply (by fun_prop)
      (ms_le_le (by fun_prop) (by fun_prop) (by fun_prop) (by fun_prop))]
    at key
  convert key using 3
  · ext x
    simp only [Set.mem_ofPred_eq, Set.mem_preimage, W0, U0]
    constructor <;> rintro ⟨h1, h2⟩ <;> exact ⟨by linarith, by linarith⟩
  · ext x
    simp only [Set.mem_ofPred_eq, Set.mem_preimage, W0, U0]
    constructor <;> rintro ⟨h1, h2⟩ <;> exact ⟨by linarith, by linarith⟩

end BNS
