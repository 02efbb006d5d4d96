import Verif.Proofs.BrcDominance
import Verif.Spec.Sensitivity
import Mathlib.Algebra.Order.Ring.Abs

/-! Helper lemmas: expectations under two sets of component distributions. -/

namespace BNS

set_option linter.unusedSectionVars false

variable {K : Type} [DecidableEq K]

theorem abs_sum_le_dist {p q e : ℕ → ℚ} {n : ℕ} (h0 : ∀ i < n, 0 ≤ e i) (h1 : ∀ i < n, e i ≤ 1)
    (hn : ∑ i ∈ Finset.range n, p i = ∑ i ∈ Finset.range n, q i) :
    |∑ i ∈ Finset.range n, (p i - q i) * e i| ≤ stateDist p q n := by
  have h : ∑ i ∈ Finset.range n, (p i - q i) * e i =
      ∑ i ∈ Finset.range n, (p i - q i) * (e i - 1 / 2) := by
    have : ∑ i ∈ Finset.range n, (p i - q i) * (1 / 2 : ℚ) = 0 := by
      rw [← Finset.sum_mul, Finset.sum_sub_distrib, hn, sub_self, zero_mul]
    simp only [mul_sub, Finset.sum_sub_distrib] at this ⊢
    linarith
  rw [h]
  refine (Finset.abs_sum_le_sum_abs _ _).trans ?_
  unfold stateDist
  rw [div_eq_mul_inv (∑ i ∈ Finset.range n, |p i - q i|), Finset.sum_mul]
  refine Finset.sum_le_sum fun i hi => ?_
  have a := h0 i (Finset.mem_range.1 hi)
  have b := h1 i (Finset.mem_range.1 hi)
  rw [abs_mul]
  refine mul_le_mul_of_nonneg_left ?_ (abs_nonneg _)
  rw [abs_le]
  constructor <;> linarith

theorem weighted_unit {p : K → ℕ → ℚ} {g : (K → ℕ) → ℚ} (h0 : ∀ x, 0 ≤ g x) (h1 : ∀ x, g x ≤ 1) :
    ∀ {vs : List (K × ℕ)}, (vs.map Prod.fst).Nodup → ProbOK vs p → ∀ x,
      0 ≤ sumOver vs (fun z => weight vs p z * g z) x ∧
      sumOver vs (fun z => weight vs p z * g z) x ≤ 1
  | [], _, _, x => by simpa [sumOver, weight] using ⟨h0 x, h1 x⟩
  | (k, n) :: vs, hn, hp, x => by
    rw [List.map_cons, List.nodup_cons] at hn
    rw [weighted_cons hn.1]
    have hk : (k, n) ∈ (k, n) :: vs := List.mem_cons_self ..
    have hp' : ProbOK vs p := ⟨fun kn h => hp.nonneg kn (List.mem_cons_of_mem _ h),
      fun kn h => hp.total kn (List.mem_cons_of_mem _ h)⟩
    have hnn : ∀ i ∈ Finset.range n, 0 ≤ p k i :=
      fun i hi => hp.nonneg (k, n) hk i (Finset.mem_range.1 hi)
    constructor
    · exact Finset.sum_nonneg fun i hi =>
        mul_nonneg (hnn i hi) (weighted_unit h0 h1 hn.2 hp' _).1
    · calc _ ≤ ∑ i ∈ Finset.range n, p k i * 1 := Finset.sum_le_sum fun i hi =>
            mul_le_mul_of_nonneg_left (weighted_unit h0 h1 hn.2 hp' _).2 (hnn i hi)
        _ = 1 := by simpa using hp.total (k, n) hk

theorem weighted_near {p q : K → ℕ → ℚ} {g : (K → ℕ) → ℚ} (h0 : ∀ x, 0 ≤ g x)
    (h1 : ∀ x, g x ≤ 1) :
    ∀ {vs : List (K × ℕ)}, (vs.map Prod.fst).Nodup → ProbOK vs p → ProbOK vs q → ∀ x,
      |sumOver vs (fun z => weight vs p z * g z) x - sumOver vs (fun z => weight vs q z * g z) x| ≤
        compDist vs p q
  | [], _, _, _, x => by simp [sumOver, weight, compDist]
  | (k, n) :: vs, hn, hp, hq, x => by
    rw [List.map_cons, List.nodup_cons] at hn
    rw [weighted_cons hn.1, weighted_cons hn.1]
    have hk : (k, n) ∈ (k, n) :: vs := List.mem_cons_self ..
    have hp' : ProbOK vs p := ⟨fun kn h => hp.nonneg kn (List.mem_cons_of_mem _ h),
      fun kn h => hp.total kn (List.mem_cons_of_mem _ h)⟩
    have hq' : ProbOK vs q := ⟨fun kn h => hq.nonneg kn (List.mem_cons_of_mem _ h),
      fun kn h => hq.total kn (List.mem_cons_of_mem _ h)⟩
    set a := fun i => sumOver vs (fun z => weight vs p z * g z) (Function.update x k i) with ha
    set b := fun i => sumOver vs (fun z => weight vs q z * g z) (Function.update x k i) with hb
    have e : ∑ i ∈ Finset.range n, p k i * a i - ∑ i ∈ Finset.range n, q k i * b i =
        ∑ i ∈ Finset.range n, (p k i - q k i) * a i +
          ∑ i ∈ Finset.range n, q k i * (a i - b i) := by
      rw [← Finset.sum_sub_distrib, ← Finset.sum_add_distrib]
      exact Finset.sum_congr rfl fun i _ => by ring
    have s1 : |∑ i ∈ Finset.range n, (p k i - q k i) * a i| ≤ stateDist (p k) (q k) n :=
      abs_sum_le_dist (fun i _ => (weighted_unit h0 h1 hn.2 hp' _).1)
        (fun i _ => (weighted_unit h0 h1 hn.2 hp' _).2)
        ((hp.total _ hk).trans (hq.total _ hk).symm)
    have s2 : |∑ i ∈ Finset.range n, q k i * (a i - b i)| ≤ compDist vs p q := by
      refine (Finset.abs_sum_le_sum_abs _ _).trans ?_
      calc _ ≤ ∑ i ∈ Finset.range n, q k i * compDist vs p q := Finset.sum_le_sum fun i hi => by
            have hq0 := hq.nonneg (k, n) hk i (Finset.mem_range.1 hi)
            rw [abs_mul, abs_of_nonneg hq0]
            exact mul_le_mul_of_nonneg_left (weighted_near h0 h1 hn.2 hp' hq' _) hq0
        _ = compDist vs p q := by
            rw [← Finset.sum_mul, hq.total (k, n) hk, one_mul]
    change |∑ i ∈ Finset.range n, p k i * a i - ∑ i ∈ Finset.range n, q k i * b i| ≤ _
    rw [e]
    refine (abs_add_le _ _).trans ?_
    have : compDist ((k, n) :: vs) p q = stateDist (p k) (q k) n + compDist vs p q := by
      simp [compDist]
    rw [this]
    exact add_le_add s1 s2

theorem probOf_near {vs : List (K × ℕ)} (hv : VarisOK vs) {p q : K → ℕ → ℚ} (hp : ProbOK vs p)
    (hq : ProbOK vs q) (E : (K → ℕ) → Prop) [DecidablePred E] :
    |probOf vs p E - probOf vs q E| ≤ compDist vs p q := by
  have h : ∀ r : K → ℕ → ℚ, probOf vs r E =
      sumOver vs (fun z => weight vs r z * if E z then 1 else 0) fun _ => 0 := by
    intro r
    refine sumOver_congr' _ hv.nodup _ fun y _ _ => ?_
    by_cases hy : E y <;> simp [hy]
  rw [h, h]
  exact weighted_near (fun x => by split <;> norm_num) (fun x => by split <;> norm_num) hv.nodup hp hq _

end BNS
