import Verif.Proofs.BrcBox

/-! Helper lemmas: expectations of antitone functions under better component distributions. -/

namespace BNS

set_option linter.unusedSectionVars false

variable {K : Type} [DecidableEq K]

theorem abel_le {p q e : ℕ → ℚ} {n : ℕ} (he : ∀ i j, i ≤ j → e j ≤ e i)
    (hle : ∀ m ≤ n, ∑ i ∈ Finset.range m, q i ≤ ∑ i ∈ Finset.range m, p i)
    (hn : ∑ i ∈ Finset.range n, q i = ∑ i ∈ Finset.range n, p i) :
    ∑ i ∈ Finset.range n, q i * e i ≤ ∑ i ∈ Finset.range n, p i * e i := by
  have key : ∀ m < n, (∑ i ∈ Finset.range (m + 1), p i - ∑ i ∈ Finset.range (m + 1), q i) * e m ≤
      ∑ i ∈ Finset.range (m + 1), p i * e i - ∑ i ∈ Finset.range (m + 1), q i * e i := by
    intro m
    induction m with
    | zero => intro _; simp; linarith
    | succ m ih =>
      intro hm
      have h1 := ih (by omega)
      have h2 := hle (m + 1) (by omega)
      have h3 := mul_le_mul_of_nonneg_left (he m (m + 1) (by omega)) (sub_nonneg.2 h2)
      rw [Finset.sum_range_succ p (m + 1), Finset.sum_range_succ q (m + 1),
        Finset.sum_range_succ (fun i => p i * e i) (m + 1),
        Finset.sum_range_succ (fun i => q i * e i) (m + 1)]
      linarith
  cases n with
  | zero => simp
  | succ n =>
    have := key n (by omega)
    rw [hn, sub_self, zero_mul] at this
    linarith

theorem update_mono {x y : K → ℕ} (h : x ≤ y) (k : K) {i j : ℕ} (hij : i ≤ j) :
    Function.update x k i ≤ Function.update y k j := by
  intro a
  by_cases ha : a = k
  · subst ha
    simpa using hij
  · simpa [Function.update_of_ne ha] using h a

theorem weighted_cons {k : K} {n : ℕ} {vs : List (K × ℕ)} (hk : k ∉ vs.map Prod.fst)
    (p : K → ℕ → ℚ) (g : (K → ℕ) → ℚ) (x : K → ℕ) :
    sumOver ((k, n) :: vs) (fun y => weight ((k, n) :: vs) p y * g y) x =
      ∑ i ∈ Finset.range n, p k i *
        sumOver vs (fun y => weight vs p y * g y) (Function.update x k i) := by
  simp only [sumOver]
  refine Finset.sum_congr rfl fun i _ => ?_
  have h : (fun y : K → ℕ => weight ((k, n) :: vs) p y * g y) =
      fun y => p k (y k) * (weight vs p y * g y) := by
    funext y
    simp [weight, mul_assoc]
  rw [h, sumOver_mul_indep vs (fun y => weight vs p y * g y) (fun y => p k (y k)) _
    (fun y y' h => by rw [h k hk])]
  simp

theorem weighted_antitone {p : K → ℕ → ℚ} {g : (K → ℕ) → ℚ} (hg : ∀ x y, x ≤ y → g y ≤ g x) :
    ∀ {vs : List (K × ℕ)}, (vs.map Prod.fst).Nodup → (∀ kn ∈ vs, ∀ i < kn.2, 0 ≤ p kn.1 i) →
      ∀ {x y : K → ℕ}, x ≤ y → sumOver vs (fun z => weight vs p z * g z) y ≤
        sumOver vs (fun z => weight vs p z * g z) x
  | [], _, _, x, y, h => by simpa [sumOver, weight] using hg x y h
  | (k, n) :: vs, hn, hp, x, y, h => by
    rw [List.map_cons, List.nodup_cons] at hn
    rw [weighted_cons hn.1, weighted_cons hn.1]
    refine Finset.sum_le_sum fun i hi => ?_
    refine mul_le_mul_of_nonneg_left ?_ (hp (k, n) (List.mem_cons_self ..) i (Finset.mem_range.1 hi))
    refine weighted_antitone hg hn.2 (fun kn hkn => hp kn (List.mem_cons_of_mem _ hkn)) ?_
    exact update_mono h k le_rfl

theorem weighted_dominated {p q : K → ℕ → ℚ} {g : (K → ℕ) → ℚ} (hg : ∀ x y, x ≤ y → g y ≤ g x) :
    ∀ {vs : List (K × ℕ)}, (vs.map Prod.fst).Nodup → ProbOK vs p → ProbOK vs q →
      (∀ kn ∈ vs, ∀ m ≤ kn.2, ∑ i ∈ Finset.range m, q kn.1 i ≤ ∑ i ∈ Finset.range m, p kn.1 i) →
      ∀ x, sumOver vs (fun z => weight vs q z * g z) x ≤ sumOver vs (fun z => weight vs p z * g z) x
  | [], _, _, _, _, x => by simp [sumOver, weight]
  | (k, n) :: vs, hn, hp, hq, hd, x => by
    rw [List.map_cons, List.nodup_cons] at hn
    rw [weighted_cons hn.1, weighted_cons hn.1]
    have hp' : ProbOK vs p := ⟨fun kn h => hp.nonneg kn (List.mem_cons_of_mem _ h),
      fun kn h => hp.total kn (List.mem_cons_of_mem _ h)⟩
    have hq' : ProbOK vs q := ⟨fun kn h => hq.nonneg kn (List.mem_cons_of_mem _ h),
      fun kn h => hq.total kn (List.mem_cons_of_mem _ h)⟩
    have hk : (k, n) ∈ (k, n) :: vs := List.mem_cons_self ..
    refine le_trans (Finset.sum_le_sum fun i hi => mul_le_mul_of_nonneg_left
      (weighted_dominated hg hn.2 hp' hq' (fun kn h => hd kn (List.mem_cons_of_mem _ h)) _)
      (hq.nonneg (k, n) hk i (Finset.mem_range.1 hi))) ?_
    refine abel_le (fun i j hij => ?_) (hd (k, n) hk) ((hq.total _ hk).trans (hp.total _ hk).symm)
    refine weighted_antitone hg hn.2 hp'.nonneg ?_
    exact update_mono le_rfl k hij

theorem pFail_dominated {vs : List (K × ℕ)} (hv : VarisOK vs) {Φ : (K → ℕ) → Bool}
    (hc : Coherent vs Φ) {p q : K → ℕ → ℚ} (hp : ProbOK vs p) (hq : ProbOK vs q)
    (hd : ∀ kn ∈ vs, ∀ m ≤ kn.2,
      ∑ i ∈ Finset.range m, q kn.1 i ≤ ∑ i ∈ Finset.range m, p kn.1 i) :
    pFail vs q Φ ≤ pFail vs p Φ := by
  have h : ∀ r : K → ℕ → ℚ, pFail vs r Φ =
      sumOver vs (fun z => weight vs r z * if Φ z = false then 1 else 0) fun _ => 0 := by
    intro r
    refine sumOver_congr' _ hv.nodup _ fun y _ _ => ?_
    by_cases hy : Φ y = false <;> simp [hy]
  rw [h, h]
  refine weighted_dominated (fun x y hxy => ?_) hv.nodup hp hq hd _
  by_cases hy : Φ y = false
  · have hx : Φ x = false := by
      by_contra hx
      rw [Bool.not_eq_false] at hx
      rw [hc x y (fun kn _ => hxy kn.1) hx] at hy
      cases hy
    simp [hx, hy]
  · rw [if_neg hy]
    split <;> norm_num

end BNS
