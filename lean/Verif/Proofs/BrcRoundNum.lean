import Verif.Proofs.BrcRoundRun
import Mathlib.Algebra.Order.Ring.Pow
import Mathlib.Tactic.Positivity
import Mathlib.Tactic.GCongr

/-! Helper lemmas: how far rounded sums, products and differences are off. -/

namespace BNS

set_option linter.unusedSectionVars false

variable {K : Type} [DecidableEq K] {A : Arith} {vs : List (K × ℕ)} {F : ℚ → Prop} {ε η : ℚ}

/-! ## Powers -/

theorem low_pos (h : 0 ≤ ε ∧ ε < 1) (k : ℕ) : 0 ≤ (1 - ε) ^ k := pow_nonneg (by linarith [h.2]) k

theorem low_le_one (h : 0 ≤ ε ∧ ε < 1) (k : ℕ) : (1 - ε) ^ k ≤ 1 :=
  pow_le_one₀ (by linarith [h.2]) (by linarith [h.1])

theorem up_ge_one (h : 0 ≤ ε ∧ ε < 1) (k : ℕ) : 1 ≤ (1 + ε) ^ k :=
  one_le_pow₀ (by linarith [h.1])

theorem low_anti (h : 0 ≤ ε ∧ ε < 1) {k m : ℕ} (hk : k ≤ m) : (1 - ε) ^ m ≤ (1 - ε) ^ k :=
  pow_le_pow_of_le_one (by linarith [h.2]) (by linarith [h.1]) hk

theorem up_mono (h : 0 ≤ ε ∧ ε < 1) {k m : ℕ} (hk : k ≤ m) : (1 + ε) ^ k ≤ (1 + ε) ^ m :=
  pow_le_pow_right₀ (by linarith [h.1]) hk

theorem low_add_up (h : 0 ≤ ε ∧ ε < 1) (k : ℕ) : 2 ≤ (1 - ε) ^ k + (1 + ε) ^ k := by
  have h1 := one_add_mul_le_pow (a := ε) (by linarith [h.1]) k
  have h2 := one_add_mul_le_pow (a := -ε) (by linarith [h.2]) k
  rw [← sub_eq_add_neg] at h2
  nlinarith

/-! ## Sums and products -/

theorem sum_le_mul {α : Type} (l : List α) (f g : α → ℚ) (u : ℚ)
    (h : ∀ a ∈ l, f a ≤ u * g a) : (l.map f).sum ≤ u * (l.map g).sum := by
  induction l with
  | nil => simp
  | cons a l ih =>
    have h1 := h a List.mem_cons_self
    have h2 := ih fun b hb => h b (List.mem_cons_of_mem _ hb)
    simp only [List.map_cons, List.sum_cons]
    linarith

theorem mul_le_sum {α : Type} (l : List α) (f g : α → ℚ) (u : ℚ)
    (h : ∀ a ∈ l, u * g a ≤ f a) : u * (l.map g).sum ≤ (l.map f).sum := by
  induction l with
  | nil => simp
  | cons a l ih =>
    have h1 := h a List.mem_cons_self
    have h2 := ih fun b hb => h b (List.mem_cons_of_mem _ hb)
    simp only [List.map_cons, List.sum_cons]
    linarith

/-- A rounded sum over a range of states. -/
theorem rangeProbR_near (hA : A.Within F ε η) {probs pr : K → ℕ → ℚ} (hp : ProbOK vs pr)
    (hn : NearProbs F ε vs probs pr) {kn : K × ℕ} (hkn : kn ∈ vs) {lo hi : ℕ} (hhi : hi < kn.2) :
    F (rangeProbR A (probs kn.1) lo hi) ∧
    0 ≤ rangeProb (pr kn.1) lo hi ∧ rangeProb (pr kn.1) lo hi ≤ 1 ∧
    (1 - ε) ^ (kn.2 + 1) * rangeProb (pr kn.1) lo hi ≤ rangeProbR A (probs kn.1) lo hi ∧
    rangeProbR A (probs kn.1) lo hi ≤ (1 + ε) ^ (kn.2 + 1) * rangeProb (pr kn.1) lo hi := by
  have he := hA.eps
  have hlt : ∀ i ∈ List.range' lo (hi + 1 - lo), i < kn.2 := by
    intro i hi
    rw [List.mem_range'_1] at hi
    omega
  have h0 : 0 ≤ rangeProb (pr kn.1) lo hi := by
    refine List.sum_nonneg fun q hq => ?_
    obtain ⟨i, hi, rfl⟩ := List.mem_map.1 hq
    exact hp.nonneg kn hkn i (hlt i hi)
  have h1 : rangeProb (pr kn.1) lo hi ≤ 1 := by
    rw [rangeProb_eq _ hhi, ← hp.total kn hkn]
    refine Finset.sum_le_sum fun i hi => ?_
    have := hp.nonneg kn hkn i (Finset.mem_range.1 hi)
    split
    · exact le_rfl
    · exact this
  have hge : ∀ i ∈ List.range' lo (hi + 1 - lo), 0 ≤ probs kn.1 i := by
    intro i hi
    refine le_trans ?_ (hn kn hkn i (hlt i hi)).2.1
    exact mul_nonneg (by linarith [he.2]) (hp.nonneg kn hkn i (hlt i hi))
  have hs := hA.sum ((List.range' lo (hi + 1 - lo)).map (probs kn.1)) (by
    intro q hq
    obtain ⟨i, hi, rfl⟩ := List.mem_map.1 hq
    exact ⟨(hn kn hkn i (hlt i hi)).1, hge i hi⟩)
  rw [List.length_map, List.length_range'] at hs
  have hlen : hi + 1 - lo ≤ kn.2 := by omega
  have hlo := mul_le_sum (List.range' lo (hi + 1 - lo)) (probs kn.1) (pr kn.1) (1 - ε)
    fun i hi => (hn kn hkn i (hlt i hi)).2.1
  have hup := sum_le_mul (List.range' lo (hi + 1 - lo)) (probs kn.1) (pr kn.1) (1 + ε)
    fun i hi => (hn kn hkn i (hlt i hi)).2.2
  refine ⟨hs.1, h0, h1, ?_, ?_⟩
  · refine le_trans ?_ hs.2.1
    have e1 := low_anti he hlen
    have e2 := low_pos he (hi + 1 - lo)
    have e3 : 0 ≤ (1 - ε) * rangeProb (pr kn.1) lo hi := mul_nonneg (by linarith [he.2]) h0
    calc (1 - ε) ^ (kn.2 + 1) * rangeProb (pr kn.1) lo hi
        = (1 - ε) ^ kn.2 * ((1 - ε) * rangeProb (pr kn.1) lo hi) := by ring
      _ ≤ (1 - ε) ^ (hi + 1 - lo) * ((1 - ε) * rangeProb (pr kn.1) lo hi) :=
          mul_le_mul_of_nonneg_right e1 e3
      _ ≤ _ := mul_le_mul_of_nonneg_left hlo e2
  · refine le_trans hs.2.2 ?_
    have e1 := up_mono he hlen
    have e2 : 0 ≤ (1 + ε) ^ (hi + 1 - lo) := by linarith [up_ge_one he (hi + 1 - lo)]
    have e3 : 0 ≤ (1 + ε) * rangeProb (pr kn.1) lo hi := mul_nonneg (by linarith [he.1]) h0
    calc (1 + ε) ^ (hi + 1 - lo) * ((List.range' lo (hi + 1 - lo)).map (probs kn.1)).sum
        ≤ (1 + ε) ^ (hi + 1 - lo) * ((1 + ε) * rangeProb (pr kn.1) lo hi) :=
          mul_le_mul_of_nonneg_left hup e2
      _ ≤ (1 + ε) ^ kn.2 * ((1 + ε) * rangeProb (pr kn.1) lo hi) :=
          mul_le_mul_of_nonneg_right e1 e3
      _ = _ := by ring

/-- A rounded product: every factor is between 0 and 1, apart from rounding. -/
theorem foldl_near {α : Type} (hA : A.Within F ε η) (l : List α) (r s : α → ℚ) (m : α → ℕ)
    (h : ∀ a ∈ l, F (r a) ∧ 0 ≤ s a ∧ s a ≤ 1 ∧ (1 - ε) ^ m a * s a ≤ r a ∧
      r a ≤ (1 + ε) ^ m a * s a)
    (q p : ℚ) (e j : ℕ) (hF : F q) (hp : 0 ≤ p) (hq : 0 ≤ q) (hlo : (1 - ε) ^ e * p - j * η ≤ q)
    (hup : q ≤ (1 + ε) ^ e * (p + j * η)) :
    F ((l.map r).foldl A.mul q) ∧ 0 ≤ (l.map r).foldl A.mul q ∧
    (1 - ε) ^ (e + (l.map fun a => m a + 1).sum) * (p * (l.map s).prod) -
      (j + l.length : ℕ) * η ≤ (l.map r).foldl A.mul q ∧
    (l.map r).foldl A.mul q ≤ (1 + ε) ^ (e + (l.map fun a => m a + 1).sum) *
      (p * (l.map s).prod + (j + l.length : ℕ) * η) := by
  induction l generalizing q p e j with
  | nil => simpa using ⟨hF, hq, by linarith, hup⟩
  | cons a l ih =>
    have he := hA.eps
    have heta := hA.eta
    obtain ⟨hFr, s0, s1, rlo, rup⟩ := h a List.mem_cons_self
    have hr : 0 ≤ r a := le_trans (mul_nonneg (low_pos he _) s0) rlo
    obtain ⟨mF, m0, mlo, mup⟩ := hA.mul q (r a) hF hFr hq hr
    have hj : 0 ≤ (j : ℚ) * η := mul_nonneg (Nat.cast_nonneg _) heta
    have step := ih (fun b hb => h b (List.mem_cons_of_mem _ hb)) (A.mul q (r a)) (p * s a)
      (e + (m a + 1)) (j + 1) mF (mul_nonneg hp s0) m0 ?_ ?_
    · simp only [List.map_cons, List.foldl_cons, List.sum_cons, List.prod_cons, List.length_cons]
      have e1 : e + (m a + 1 + (l.map fun a => m a + 1).sum) =
          e + (m a + 1) + (l.map fun a => m a + 1).sum := by ring
      have e2 : j + (l.length + 1) = j + 1 + l.length := by ring
      rw [e1, e2, ← mul_assoc p]
      exact step
    · refine le_trans ?_ mlo
      have d1 : (1 - ε) ^ m a * s a * q ≤ r a * q := mul_le_mul_of_nonneg_right rlo hq
      have d2 : (1 - ε) ^ m a * s a * ((1 - ε) ^ e * p - j * η) ≤ (1 - ε) ^ m a * s a * q :=
        mul_le_mul_of_nonneg_left hlo (mul_nonneg (low_pos he _) s0)
      have d3 : (1 - ε) * ((1 - ε) ^ m a * s a * ((1 - ε) ^ e * p - j * η)) ≤
          (1 - ε) * (q * r a) :=
        mul_le_mul_of_nonneg_left (by linarith) (by linarith [he.2])
      have d4 : (1 - ε) ^ (m a + 1) * s a ≤ 1 :=
        mul_le_one₀ (low_le_one he _) s0 s1
      have d5 : (1 - ε) ^ (m a + 1) * s a * (j * η) ≤ 1 * (j * η) :=
        mul_le_mul_of_nonneg_right d4 hj
      have d6 : (1 - ε) ^ (e + (m a + 1)) * (p * s a) =
          (1 - ε) * ((1 - ε) ^ m a * s a * ((1 - ε) ^ e * p - j * η)) +
            (1 - ε) ^ (m a + 1) * s a * (j * η) := by ring
      push_cast
      linarith
    · refine le_trans mup ?_
      have u0 : 0 ≤ (1 + ε) ^ m a * s a := mul_nonneg (by linarith [up_ge_one he (m a)]) s0
      have d1 : q * r a ≤ (1 + ε) ^ e * (p + j * η) * ((1 + ε) ^ m a * s a) := by
        refine mul_le_mul hup rup hr ?_
        exact mul_nonneg (by linarith [up_ge_one he e]) (by linarith)
      have d2 : (1 + ε) * (q * r a) ≤
          (1 + ε) * ((1 + ε) ^ e * (p + j * η) * ((1 + ε) ^ m a * s a)) :=
        mul_le_mul_of_nonneg_left d1 (by linarith [he.1])
      have d3 : (1 + ε) * ((1 + ε) ^ e * (p + j * η) * ((1 + ε) ^ m a * s a)) =
          (1 + ε) ^ (e + (m a + 1)) * (p * s a + s a * (j * η)) := by ring
      have d4 : s a * (j * η) ≤ 1 * (j * η) := mul_le_mul_of_nonneg_right s1 hj
      have g1 := up_ge_one he (e + (m a + 1))
      have d5 : (1 + ε) ^ (e + (m a + 1)) * (p * s a + s a * (j * η)) ≤
          (1 + ε) ^ (e + (m a + 1)) * (p * s a + j * η) :=
        mul_le_mul_of_nonneg_left (by linarith) (by linarith)
      have d6 : η ≤ (1 + ε) ^ (e + (m a + 1)) * η := le_mul_of_one_le_left heta g1
      push_cast
      calc (1 + ε) * (q * r a) + η
          ≤ (1 + ε) ^ (e + (m a + 1)) * (p * s a + j * η) +
            (1 + ε) ^ (e + (m a + 1)) * η := by linarith
        _ = _ := by ring

/-- The rounded probability of a box. -/
theorem approxProbR_near (hv : VarisOK vs) (hA : A.Within F ε η) {probs pr : K → ℕ → ℚ}
    (hp : ProbOK vs pr) (hn : NearProbs F ε vs probs pr) {b : Branch K} (hb : BoxOK vs b)
    (hbp : b.p = approxProbR A vs probs b.down b.up) : PNear F ε η vs pr b := by
  have h := foldl_near hA vs (fun kn => rangeProbR A (probs kn.1) (b.down kn.1) (b.up kn.1))
    (fun kn => rangeProb (pr kn.1) (b.down kn.1) (b.up kn.1)) (fun kn => kn.2 + 1)
    (fun kn hkn => rangeProbR_near hA hp hn hkn (hb kn hkn).2) 1 1 0 0 hA.one (by norm_num) (by norm_num)
    (by simp) (by simp)
  have e : (vs.map fun kn => kn.2 + 1 + 1).sum = roundings vs := rfl
  simp only [Nat.zero_add, one_mul, e] at h
  refine ⟨?_, ?_, ?_, ?_⟩
  · rw [hbp]; exact h.1
  · rw [hbp]; exact h.2.1
  · rw [hbp, ← approxProb_eq hv pr hb]; exact h.2.2.1
  · rw [hbp, ← approxProb_eq hv pr hb]; exact h.2.2.2

/-- Nearness of the stored probabilities is kept. -/
theorem kept_near (hv : VarisOK vs) (hA : A.Within F ε η) {probs pr : K → ℕ → ℚ}
    (hp : ProbOK vs pr) (hn : NearProbs F ε vs probs pr) :
    KeptR A vs probs (PNear F ε η vs pr) := by
  have he := hA.eps
  have heta := hA.eta
  refine ⟨fun rules b hb => ?_, fun rules => ⟨fun b h => ⟨h.1, h.2.1, h.2.2, h.2.3, h.2.4⟩, ?_⟩⟩
  · have h1 := initBranch_p hv hp rules b hb
    have h2 : b.p = 1 := by
      simp only [initBranch, List.mem_singleton] at hb
      rw [hb]
    have hl : 0 ≤ (vs.length : ℚ) * η := mul_nonneg (Nat.cast_nonneg _) heta
    refine ⟨by rw [h2]; exact hA.one, by rw [h2]; norm_num, ?_, ?_⟩
    · rw [← h1, h2]
      linarith [low_le_one he (roundings vs)]
    · rw [← h1, h2]
      nlinarith [up_ge_one he (roundings vs)]
  · intro b h hl xd hx st h1 h2 flag
    have hbox : BoxOK vs (b.newBranchR A vs rules probs xd st flag) := by
      rw [newBranchR_eq]
      exact newBranch_boxOK h.1 rules probs h1 h2 flag
    refine ⟨hbox, approxProbR_near hv hA hp hn hbox ?_⟩
    rw [newBranchR_eq]

/-- Nothing to keep. -/
theorem kept_true (A : Arith) (vs : List (K × ℕ)) (probs : K → ℕ → ℚ) :
    KeptR A vs probs (fun _ => True) := by
  refine ⟨fun _ _ _ => trivial, fun rules => ⟨fun b h => h, ?_⟩⟩
  intro b h hl xd hx st h1 h2 flag
  refine ⟨?_, trivial⟩
  rw [newBranchR_eq]
  exact newBranch_boxOK h.1 rules probs h1 h2 flag

/-! ## The monitor -/

/-- `partition_prob` without stored probabilities. -/
theorem partition_probOf (hv : VarisOK vs) (pr : K → ℕ → ℚ) {brs : List (Branch K)}
    (hpart : Partition vs brs) (S : Branch K → Bool) (hS : ∀ b q, S { b with p := q } = S b) :
    ((brs.filter S).map fun b => probOf vs pr (InBox vs b)).sum =
      probOf vs pr (fun x => ∃ b ∈ brs, S b = true ∧ InBox vs b x) := by
  have h := partition_prob hv pr
    (brs := brs.map fun b => { b with p := probOf vs pr (InBox vs b) }) ⟨?_, ?_⟩ ?_ S
  · rw [List.filter_map, List.map_map] at h
    have e : (S ∘ fun b : Branch K => { b with p := probOf vs pr (InBox vs b) }) = S :=
      funext fun b => hS b _
    rw [e] at h
    refine Eq.trans ?_ (h.trans (probOf_congr hv pr _ _ fun x _ => ?_))
    · rfl
    · constructor
      · rintro ⟨b, hb, h1, h2⟩
        obtain ⟨b', hb', rfl⟩ := List.mem_map.1 hb
        exact ⟨b', hb', (hS _ _).symm.trans h1, h2⟩
      · rintro ⟨b, hb, h1, h2⟩
        exact ⟨_, List.mem_map_of_mem hb, (hS _ _).trans h1, h2⟩
  · intro b hb
    obtain ⟨b', hb', rfl⟩ := List.mem_map.1 hb
    exact hpart.1 b' hb'
  · intro x hx
    rw [List.countP_map]
    exact hpart.2 x hx
  · intro b hb
    obtain ⟨b', hb', rfl⟩ := List.mem_map.1 hb
    rfl

theorem sum_near {pr : K → ℕ → ℚ} (l : List (Branch K)) (h : ∀ b ∈ l, PNear F ε η vs pr b) :
    (1 - ε) ^ roundings vs * (l.map fun b => probOf vs pr (InBox vs b)).sum -
      l.length * (vs.length * η) ≤ (l.map fun b => b.p).sum ∧
    (l.map fun b => b.p).sum ≤ (1 + ε) ^ roundings vs *
      ((l.map fun b => probOf vs pr (InBox vs b)).sum + l.length * (vs.length * η)) := by
  induction l with
  | nil => simp
  | cons b l ih =>
    have h1 := h b List.mem_cons_self
    obtain ⟨i1, i2⟩ := ih fun b hb => h b (List.mem_cons_of_mem _ hb)
    simp only [List.map_cons, List.sum_cons, List.length_cons]
    push_cast
    constructor
    · have := h1.low
      linarith
    · have := h1.up
      linarith

/-- The rounded total of the selected branches. -/
theorem filter_near (hv : VarisOK vs) (hA : A.Within F ε η) {pr : K → ℕ → ℚ} (hp : ProbOK vs pr)
    {brs : List (Branch K)} (hpart : Partition vs brs) (hn : ∀ b ∈ brs, PNear F ε η vs pr b)
    (S : Branch K → Bool) (hS : ∀ b q, S { b with p := q } = S b) :
    let P := probOf vs pr (fun x => ∃ b ∈ brs, S b = true ∧ InBox vs b x)
    F (A.sum ((brs.filter S).map fun b => b.p)) ∧
    (1 - ε) ^ (brs.length + roundings vs) * P - brs.length * (vs.length * η) ≤
      A.sum ((brs.filter S).map fun b => b.p) ∧
    A.sum ((brs.filter S).map fun b => b.p) ≤
      (1 + ε) ^ (brs.length + roundings vs) * (P + brs.length * (vs.length * η)) := by
  intro P
  have he := hA.eps
  have hP : 0 ≤ P := probOf_nonneg hv hp _
  have hmem : ∀ b ∈ brs.filter S, PNear F ε η vs pr b := fun b hb => hn b (List.mem_filter.1 hb).1
  obtain ⟨h1, h2⟩ := sum_near (brs.filter S) hmem
  rw [partition_probOf hv pr hpart S hS] at h1 h2
  have hs := hA.sum ((brs.filter S).map fun b => b.p) (by
    intro q hq
    obtain ⟨b, hb, rfl⟩ := List.mem_map.1 hq
    exact ⟨(hmem b hb).repr, (hmem b hb).nonneg⟩)
  rw [List.length_map] at hs
  have hlen : (brs.filter S).length ≤ brs.length := List.length_filter_le _ _
  generalize hM : (brs.filter S).length = M at *
  generalize ((brs.filter S).map fun b => b.p) = l at *
  have hlq : (M : ℚ) ≤ brs.length := by exact_mod_cast hlen
  have hc : 0 ≤ (vs.length : ℚ) * η := mul_nonneg (Nat.cast_nonneg _) hA.eta
  have hMc : (M : ℚ) * (vs.length * η) ≤ brs.length * (vs.length * η) :=
    mul_le_mul_of_nonneg_right hlq hc
  have hM0 : 0 ≤ (M : ℚ) * (vs.length * η) := mul_nonneg (Nat.cast_nonneg _) hc
  refine ⟨hs.1, ?_, ?_⟩
  · refine le_trans ?_ hs.2.1
    have d1 := mul_le_mul_of_nonneg_left h1 (low_pos he M)
    have d2 : (1 - ε) ^ M * (M * (vs.length * η)) ≤ 1 * (M * (vs.length * η)) :=
      mul_le_mul_of_nonneg_right (low_le_one he M) hM0
    have d3 : (1 - ε) ^ (brs.length + roundings vs) * P ≤ (1 - ε) ^ (M + roundings vs) * P :=
      mul_le_mul_of_nonneg_right (low_anti he (by omega)) hP
    have d4 : (1 - ε) ^ (M + roundings vs) * P = (1 - ε) ^ M * ((1 - ε) ^ roundings vs * P) := by
      ring
    have d5 : (1 - ε) ^ M * ((1 - ε) ^ roundings vs * P - M * (vs.length * η)) =
      (1 - ε) ^ M * ((1 - ε) ^ roundings vs * P) - (1 - ε) ^ M * (M * (vs.length * η)) := by ring
    change (1 - ε) ^ M * ((1 - ε) ^ roundings vs * P - M * (vs.length * η)) ≤ _ at d1
    linarith
  · refine le_trans hs.2.2 ?_
    have g := up_ge_one he M
    have d1 : (1 + ε) ^ M * l.sum ≤
        (1 + ε) ^ M * ((1 + ε) ^ roundings vs * (P + M * (vs.length * η))) :=
      mul_le_mul_of_nonneg_left h2 (by linarith)
    refine le_trans d1 ?_
    rw [← mul_assoc, ← pow_add]
    have g' := up_ge_one he (M + roundings vs)
    exact mul_le_mul (up_mono he (by omega)) (by linarith) (by linarith)
      (by linarith [up_ge_one he (brs.length + roundings vs)])

/-- From the factors to an absolute error. -/
theorem abs_of_factors (he : 0 ≤ ε ∧ ε < 1) {k : ℕ} {t P q : ℚ} (ht : 0 ≤ t) (h0 : 0 ≤ P)
    (h1 : P ≤ 1) (hlo : (1 - ε) ^ k * P - t ≤ q) (hup : q ≤ (1 + ε) ^ k * (P + t)) :
    |q - P| ≤ (1 + ε) ^ k * (1 + t) - 1 := by
  have g := up_ge_one he k
  have g2 := low_le_one he k
  have g3 := low_add_up he k
  rw [abs_le]
  constructor <;> nlinarith

/-- A rounded difference. -/
theorem sub_near (hA : A.Within F ε η) {a b x y s t : ℚ} (hFa : F a) (hFb : F b) (ha : |a - x| ≤ s) (hb : |b - y| ≤ t)
    (h0 : 0 ≤ x - y) (h1 : x - y ≤ 1) :
    |A.sub a b - (x - y)| ≤ s + t + ε * (1 + (s + t)) := by
  have h := (hA.sub a b hFa hFb).2
  have he := hA.eps
  have d : |a - b - (x - y)| ≤ s + t := by
    have : a - b - (x - y) = (a - x) - (b - y) := by ring
    rw [this]
    exact (abs_sub _ _).trans (add_le_add ha hb)
  have d2 : |a - b| ≤ 1 + (s + t) := by
    have : a - b = (x - y) + (a - b - (x - y)) := by ring
    rw [this]
    refine (abs_add_le _ _).trans ?_
    rw [abs_of_nonneg h0]
    linarith
  have d3 : A.sub a b - (x - y) = (A.sub a b - (a - b)) + (a - b - (x - y)) := by ring
  rw [d3]
  refine (abs_add_le _ _).trans ?_
  have := mul_le_mul_of_nonneg_left d2 he.1
  linarith

/-- The values of a row, against the probabilities they stand for. -/
structure RowNear (ε η : ℚ) (vs : List (K × ℕ)) (L S : ℚ) (row : MonRow) : Prop where
  rel : row.pfLow ≤ (1 + ε) ^ (row.noBr + roundings vs) * (L + row.noBr * (vs.length * η))
  low : |row.pfLow - L| ≤ tolerance ε η vs row.noBr
  up : |row.pfUp - (1 - S)| ≤ tolerance ε η vs row.noBr
  bu : |row.prBu - (1 - L - S)| ≤ 2 * tolerance ε η vs row.noBr

theorem monRowR_near (hv : VarisOK vs) (hA : A.Within F ε η) {pr : K → ℕ → ℚ} (hp : ProbOK vs pr)
    {Φ : (K → ℕ) → Bool} (hcoh : Coherent vs Φ)
    {brs : List (Branch K)} (hpart : Partition vs brs) (hl : ∀ b ∈ brs, LabelsOK Φ b)
    (hn : ∀ b ∈ brs, PNear F ε η vs pr b) (rules : Rules K) :
    RowNear ε η vs (probOf vs pr (fun x => ∃ b ∈ brs, b.upState = .f ∧ InBox vs b x))
      (probOf vs pr (fun x => ∃ b ∈ brs, b.downState = .s ∧ InBox vs b x))
      (monRowR A brs rules) := by
  have he := hA.eps
  have eL : probOf vs pr (fun x => ∃ b ∈ brs, decide (b.upState = .f) = true ∧ InBox vs b x) =
      probOf vs pr (fun x => ∃ b ∈ brs, b.upState = .f ∧ InBox vs b x) :=
    probOf_congr hv pr _ _ fun x _ => by simp
  have eS : probOf vs pr (fun x => ∃ b ∈ brs, decide (b.downState = .s) = true ∧ InBox vs b x) =
      probOf vs pr (fun x => ∃ b ∈ brs, b.downState = .s ∧ InBox vs b x) :=
    probOf_congr hv pr _ _ fun x _ => by simp
  obtain ⟨lF, l1, l2⟩ := filter_near hv hA hp hpart hn (fun b => decide (b.upState = .f))
    (fun _ _ => rfl)
  obtain ⟨sF, s1, s2⟩ := filter_near hv hA hp hpart hn (fun b => decide (b.downState = .s))
    (fun _ _ => rfl)
  rw [eL] at l1 l2
  rw [eS] at s1 s2
  have hLS := probOf_add_le hv hp (fun x => ∃ b ∈ brs, b.upState = .f ∧ InBox vs b x)
    (fun x => ∃ b ∈ brs, b.downState = .s ∧ InBox vs b x) (by
      rintro x hx ⟨b, hb, hu, hin⟩ ⟨b', hb', hd, hin'⟩
      have h1 := hcoh b'.down x (fun kn hkn => (hin' kn hkn).1) ((hl b' hb').1.1 hd)
      have h2 := hcoh x b.up (fun kn hkn => (hin kn hkn).2) h1
      rw [(hl b hb).2.2 hu] at h2
      cases h2)
  have hL0 := probOf_nonneg hv hp (fun x => ∃ b ∈ brs, b.upState = .f ∧ InBox vs b x)
  have hS0 := probOf_nonneg hv hp (fun x => ∃ b ∈ brs, b.downState = .s ∧ InBox vs b x)
  generalize probOf vs pr (fun x => ∃ b ∈ brs, b.upState = .f ∧ InBox vs b x) = L at *
  generalize probOf vs pr (fun x => ∃ b ∈ brs, b.downState = .s ∧ InBox vs b x) = S at *
  have ht : 0 ≤ (brs.length : ℚ) * (vs.length * η) :=
    mul_nonneg (Nat.cast_nonneg _) (mul_nonneg (Nat.cast_nonneg _) hA.eta)
  have aL := abs_of_factors he ht hL0 (by linarith) l1 l2
  have aS := abs_of_factors he ht hS0 (by linarith) s1 s2
  have hT : tolerance ε η vs brs.length = (1 + ε) ^ 2 * ((1 + ε) ^ (brs.length + roundings vs) *
      (1 + brs.length * (vs.length * η))) - 1 := by
    unfold tolerance
    ring
  have hU : 1 ≤ (1 + ε) ^ (brs.length + roundings vs) * (1 + brs.length * (vs.length * η)) :=
    one_le_mul_of_one_le_of_one_le (up_ge_one he _) (by linarith)
  show RowNear ε η vs L S { monRow brs rules with
    pfLow := A.sum ((brs.filter fun b => b.upState = .f).map fun b => b.p)
    pfUp := A.sub 1 (A.sum ((brs.filter fun b => b.downState = .s).map fun b => b.p))
    prBu := A.sub (A.sub 1 (A.sum ((brs.filter fun b => b.upState = .f).map fun b => b.p)))
      (A.sum ((brs.filter fun b => b.downState = .s).map fun b => b.p)) }
  generalize A.sum ((brs.filter fun b => b.upState = .f).map fun b => b.p) = f at *
  generalize A.sum ((brs.filter fun b => b.downState = .s).map fun b => b.p) = s at *
  have hone : |(1 : ℚ) - 1| ≤ 0 := by simp
  have bL := sub_near hA hA.one lF hone aL (by linarith) (by linarith)
  have bS := sub_near hA hA.one sF hone aS (by linarith) (by linarith)
  have bU := sub_near hA (hA.sub 1 f hA.one lF).1 sF bL aS (by linarith) (by linarith)
  refine ⟨l2, ?_, ?_, ?_⟩
  · show |f - L| ≤ tolerance ε η vs brs.length
    rw [hT]
    generalize (1 + ε) ^ (brs.length + roundings vs) * (1 + brs.length * (vs.length * η)) = U at *
    have hU0 : 0 ≤ U := by linarith
    refine aL.trans ?_
    linarith [mul_nonneg he.1 hU0, mul_nonneg he.1 (mul_nonneg he.1 hU0), he.1]
  · show |A.sub 1 s - (1 - S)| ≤ tolerance ε η vs brs.length
    rw [hT]
    generalize (1 + ε) ^ (brs.length + roundings vs) * (1 + brs.length * (vs.length * η)) = U at *
    have hU0 : 0 ≤ U := by linarith
    refine bS.trans ?_
    linarith [mul_nonneg he.1 hU0, mul_nonneg he.1 (mul_nonneg he.1 hU0), he.1]
  · show |A.sub (A.sub 1 f) s - (1 - L - S)| ≤ 2 * tolerance ε η vs brs.length
    rw [hT]
    generalize (1 + ε) ^ (brs.length + roundings vs) * (1 + brs.length * (vs.length * η)) = U at *
    have hU0 : 0 ≤ U := by linarith
    refine bU.trans ?_
    linarith [mul_nonneg he.1 hU0, mul_nonneg he.1 (mul_nonneg he.1 hU0), he.1]

end BNS
