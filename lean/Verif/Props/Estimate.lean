import Verif.Proofs.Ratio
import Verif.Examples.Cpm
import Mathlib.Tactic.NormNum

/-!
# Properties C50, C52, C53 and C66: estimates from samples, ratios, chunks

`Hit`, `wt`, `hitWeight`, `hitCount` are in Spec/Estimate.lean: which samples answer a query and
what they weigh.
-/

namespace BNS

set_option linter.unusedSectionVars false

section
variable {K : Type} [DecidableEq K] {U : K → Variable K} {M : Cpm K} {cv : List (Variable K)}
  {cs : List ℕ} {flag : Bool}

/-! ## C50: the maximum likelihood estimate -/

/-- What the maximum likelihood estimate is, for every number of rounds: the table's probability
plus the remaining probability times the weight of the samples that answer the query over the number
of samples *of one round*. -/
theorem C50_mle_value (h : WF U (noSamples M)) (hs : SamplesOK M) (hq : QueryOK U M.getNames cv cs)
    {nsr : ℕ} (hd : nsr = 0 ∨ nsr ∣ M.Cs.length) (h0 : M.Cs ≠ [])
    (h1 : M.ps = [] → nsr = 0 ∨ nsr = M.Cs.length) :
    ∃ a var, M.getProb cv cs flag = .ok a ∧ M.estimateMle cv cs flag nsr = .ok
      (a + (1 - M.p.sum) * (hitWeight M cv cs flag /
          (if nsr = 0 then M.Cs.length else nsr : ℕ)), var) :=
  ⟨_, _, getProb_samples h hs hq flag, mle_ok h hs hq hd h0 h1 (getProb_samples h hs hq flag)⟩

/-- One round and unit weights: the estimate is the table's probability plus the remaining
probability times the fraction of the samples that answer the query.  It is a probability, the
variance is that of a proportion, and the estimates of an event and of its complement add up to one.
Missing for the full claim: more than one round (`C50_not_rounds`, `C50_rounds_raise`). -/
theorem C50_mle_partial (h : WF U (noSamples M)) (hs : SamplesOK M)
    (hq : QueryOK U M.getNames cv cs) (hp : SubProb M) {nsr : ℕ}
    (hr : nsr = 0 ∨ nsr = M.Cs.length) (h0 : M.Cs ≠ []) (hu : ∀ j < M.Cs.length, wt M j = 1) :
    ∃ a a', M.getProb cv cs true = .ok a ∧ M.getProb cv cs false = .ok a' ∧ ∃ e e' : ℚ,
      e = a + (1 - M.p.sum) * ((hitCount M cv cs true : ℚ) / M.Cs.length) ∧
      0 ≤ e ∧ e ≤ 1 ∧ 0 ≤ e' ∧ e' ≤ 1 ∧ e + e' = 1 ∧
      M.estimateMle cv cs true nsr = .ok (e, (hitCount M cv cs true : ℚ) / M.Cs.length *
        (1 - (hitCount M cv cs true : ℚ) / M.Cs.length) / M.Cs.length) ∧
      M.estimateMle cv cs false nsr = .ok (e', (hitCount M cv cs false : ℚ) / M.Cs.length *
        (1 - (hitCount M cv cs false : ℚ) / M.Cs.length) / M.Cs.length) := by
  have hlen : 0 < M.Cs.length := List.length_pos_iff.2 h0
  have hd : nsr = 0 ∨ nsr ∣ M.Cs.length := hr.imp id fun e => by rw [e]
  have e2 : (if nsr = 0 then M.Cs.length else nsr) = M.Cs.length := by
    rcases hr with e | e <;> simp [e]
  have e1 : (if nsr = 0 then 1 else M.Cs.length / nsr) = 1 := by
    rcases hr with e | e
    · simp [e]
    · rw [if_neg (by omega), e, Nat.div_self hlen]
  have hvar : ∀ fl, ((List.range 1).foldl (mleStep M cv cs fl M.Cs.length) (0, 0)).2 =
      (hitCount M cv cs fl : ℚ) / M.Cs.length *
        (1 - (hitCount M cv cs fl : ℚ) / M.Cs.length) / M.Cs.length := by
    intro fl
    have hw1 : (rowRange 0 M.Cs.length).map (wt M) = List.replicate M.Cs.length 1 := by
      rw [List.eq_replicate_iff]
      refine ⟨by simp [rowRange_length], fun b hb => ?_⟩
      obtain ⟨j, hj, rfl⟩ := List.mem_map.1 hb
      exact hu j (by have := (mem_rowRange.1 hj).2; omega)
    have hsum : ((rowRange 0 M.Cs.length).map (hw M cv cs fl)).sum = hitCount M cv cs fl := by
      rw [← hitWeight_unit hu, hitWeight_eq]
      simp [rowRange]
    simp only [List.range_one, List.foldl_cons, List.foldl_nil, mleStep, hw1, hsum]
    rw [List.getD_eq_getElem _ _ (by simpa using hlen), List.getElem_replicate, if_pos]
    · ring
    · simp only [allclose, List.all_eq_true, List.mem_replicate, decide_eq_true_eq]
      rintro x ⟨-, rfl⟩
      norm_num
  have hest : ∀ fl a, M.getProb cv cs fl = .ok a → M.estimateMle cv cs fl nsr = .ok
      (a + (1 - M.p.sum) * ((hitCount M cv cs fl : ℚ) / M.Cs.length),
        (hitCount M cv cs fl : ℚ) / M.Cs.length *
          (1 - (hitCount M cv cs fl : ℚ) / M.Cs.length) / M.Cs.length) := by
    intro fl a ha
    rw [mle_ok h hs hq hd h0 (fun _ => hr) ha, e1, e2, hvar, hitWeight_unit hu]
  obtain ⟨a, ha⟩ : ∃ a, M.getProb cv cs true = .ok a := ⟨_, getProb_samples h hs hq true⟩
  obtain ⟨a', ha'⟩ : ∃ a, M.getProb cv cs false = .ok a := ⟨_, getProb_samples h hs hq false⟩
  have hb := getProb_bounds h hs hp.nonneg hq ha
  have hb' := getProb_bounds h hs hp.nonneg hq ha'
  have hsum := getProb_compl h hs hq ha ha'
  have t1 := hest _ _ ha
  have t2 := hest _ _ ha'
  have hcq : (hitCount M cv cs true : ℚ) + hitCount M cv cs false = M.Cs.length := by
    exact_mod_cast hitCount_compl M cv cs
  have hlq : (0 : ℚ) < M.Cs.length := by exact_mod_cast hlen
  have hf : (hitCount M cv cs true : ℚ) / M.Cs.length +
      hitCount M cv cs false / M.Cs.length = 1 := by
    rw [← add_div, hcq, div_self hlq.ne']
  have f1 : (0 : ℚ) ≤ (hitCount M cv cs true : ℚ) / M.Cs.length := by positivity
  have f2 : (0 : ℚ) ≤ (hitCount M cv cs false : ℚ) / M.Cs.length := by positivity
  have hp1 := hp.le_one
  refine ⟨a, a', ha, ha', _, _, rfl, ?_, ?_, ?_, ?_, ?_, t1, t2⟩
  all_goals
    clear t1 t2 hest hvar
    revert f1 f2 hf
    generalize (hitCount M cv cs true : ℚ) / M.Cs.length = m
    generalize (hitCount M cv cs false : ℚ) / M.Cs.length = m'
    intro hf f1 f2
    nlinarith

/-- One round and any weights: the variance of the maximum likelihood estimate.  With `m` the weight
of the samples that answer the query over the number `n` of samples, it is `w² (1 - m) m / n` when all
weights are within `10⁻⁴ + 10⁻⁵ |w|` of the first one, `w`, and otherwise the sum of the squared
deviations over `n²`. -/
theorem C50_mle_variance (h : WF U (noSamples M)) (hs : SamplesOK M)
    (hq : QueryOK U M.getNames cv cs) (h0 : M.Cs ≠ []) {n m : ℚ} (hn : n = M.Cs.length)
    (hm : m = hitWeight M cv cs flag / n) :
    ∃ e var, M.estimateMle cv cs flag 0 = .ok (e, var) ∧
      ((∀ j < M.Cs.length, |wt M j - wt M 0| ≤ 1 / 10000 + 1 / 100000 * |wt M 0|) →
        var = wt M 0 ^ 2 * (1 - m) * m / n) ∧
      ((∃ j < M.Cs.length, 1 / 10000 + 1 / 100000 * |wt M 0| < |wt M j - wt M 0|) →
        var = ((List.range M.Cs.length).map fun j =>
          ((if Hit M cv cs flag (M.Cs.getD j []) then wt M j else 0) - m) ^ 2).sum / n ^ 2) := by
  have hlen : 0 < M.Cs.length := List.length_pos_iff.2 h0
  have hr : rowRange 0 M.Cs.length = List.range M.Cs.length := by
    unfold rowRange; simp
  refine ⟨_, _, mle_ok h hs hq (.inl rfl) h0 (fun _ => .inl rfl) (getProb_samples h hs hq flag), ?_⟩
  simp only [if_true, List.range_one, List.foldl_cons, List.foldl_nil, mleStep, zero_add, hr]
  have hw0 : ((List.range M.Cs.length).map (wt M)).getD 0 0 = wt M 0 := by simp [hlen]
  have hmean : ((List.range M.Cs.length).map (hw M cv cs flag)).sum / (M.Cs.length : ℚ) = m := by
    rw [hm, hn]; rfl
  rw [hw0, hmean, ← hn]
  have hall : allclose ((List.range M.Cs.length).map (wt M)) (wt M 0) = true ↔
      ∀ j < M.Cs.length, |wt M j - wt M 0| ≤ 1 / 10000 + 1 / 100000 * |wt M 0| := by
    unfold allclose
    simp
  constructor
  · intro hc
    rw [if_pos (hall.2 hc)]
  · rintro ⟨j, hj, hc⟩
    rw [if_neg (fun ha => absurd (hall.1 ha j hj) (not_le.2 hc)), List.map_map, eq_comm]
    generalize List.range M.Cs.length = l
    induction l with
    | nil => simp
    | cons a l ih =>
      simp only [List.map_cons, List.sum_cons, add_div, ih, Function.comp]
      congr 1
      unfold hw
      rw [div_pow]

/-- With several rounds and no stored probabilities the estimators raise `IndexError`: the unit
weights have one entry per sample of all the rounds. -/
theorem C50_rounds_raise (h : WF U (noSamples M)) (hs : SamplesOK M)
    (hq : QueryOK U M.getNames cv cs) {nsr : ℕ} (h1 : 0 < nsr) (h2 : nsr < M.Cs.length)
    (hd : nsr ∣ M.Cs.length) (hps : M.ps = []) :
    M.estimateMle cv cs flag nsr = .error .index ∧
      M.estimateBayes cv cs flag nsr = .error .index := by
  have h0 : M.Cs ≠ [] := by intro e; rw [e] at h2; simp at h2
  have hw : estWeights M cv cs flag nsr 0 = .error .index := by
    unfold estWeights
    rw [sampleRows_ok h0 (by omega), ok_bind, sampleMask_ok h hs hq.ev hq.nodup (by omega), ok_bind]
    have hne : rowRange 0 nsr ≠ [] := by
      intro e
      have := rowRange_length 0 nsr
      rw [e] at this
      simp at this
      omega
    have hrw : roundWeights M 0 nsr = List.replicate M.q.length 1 := by
      unfold roundWeights
      rw [hps, takeRows_nil hne]
    simp only [hrw, zeroAt]
    rw [if_neg, error_bind]
    cases flag <;> simp [rowRange_length, hs.qLen] <;> omega
  obtain ⟨k, hk⟩ := hd
  have hk0 : k ≠ 0 := by rintro rfl; omega
  obtain ⟨k, rfl⟩ := Nat.exists_eq_succ_of_ne_zero hk0
  have hrg : List.range (M.Cs.length / nsr) = 0 :: (List.range k).map Nat.succ := by
    rw [hk, Nat.mul_div_cancel_left _ h1, List.range_succ_eq_map]
  constructor
  · unfold Cpm.estimateMle
    rw [getProb_samples h hs hq flag, ok_bind, estRounds_ok (.inr ⟨_, hk⟩), ok_bind, if_neg h1.ne']
    simp only [hrg, List.foldlM_cons]
    rw [show mleRound M cv cs flag nsr (0, 0) 0 = .error .index by
      unfold mleRound; rw [hw, error_bind], error_bind, error_bind]
  · unfold Cpm.estimateBayes
    rw [getProb_samples h hs hq flag, ok_bind, estRounds_ok (.inr ⟨_, hk⟩), ok_bind, if_neg h1.ne']
    simp only [hrg, List.foldlM_cons]
    rw [show bayesRound M cv cs flag nsr none 0 = .error .index by
      unfold bayesRound; rw [hw, error_bind], error_bind, error_bind]

/-- Samples that do not divide into rounds are refused, and so is an event without samples. -/
theorem C50_refused (h : WF U (noSamples M)) (hs : SamplesOK M) (hq : QueryOK U M.getNames cv cs) :
    (∀ nsr, 0 < nsr → ¬ nsr ∣ M.Cs.length →
      M.estimateMle cv cs flag nsr = .error .assertion ∧
      M.estimateBayes cv cs flag nsr = .error .assertion) ∧
    (M.Cs = [] → M.estimateMle cv cs flag 0 = .error .index ∧
      M.estimateBayes cv cs flag 0 = .error .index ∧
      ∀ nsr, 0 < nsr → M.estimateBayes cv cs flag nsr = .error .unbound) := by
  constructor
  · intro nsr h1 hd
    have : estRounds M.Cs.length nsr = .error .assertion := by
      unfold estRounds
      rw [if_neg h1.ne', pyAssert_false (fun e => hd (Nat.dvd_of_mod_eq_zero e))]
      rfl
    unfold Cpm.estimateMle Cpm.estimateBayes
    rw [getProb_samples h hs hq flag, ok_bind, ok_bind, this]
    exact ⟨rfl, rfl⟩
  · intro h0
    have hw : ∀ n, estWeights M cv cs flag n 0 = .error .index := by
      intro n
      unfold estWeights sampleRows
      rw [if_pos h0]; rfl
    refine ⟨?_, ?_, fun nsr h1 => ?_⟩
    · unfold Cpm.estimateMle
      rw [getProb_samples h hs hq flag, ok_bind, estRounds_ok (.inl rfl), ok_bind, if_pos rfl]
      simp only [List.range_one, List.foldlM_cons]
      unfold mleRound
      rw [hw]; rfl
    · unfold Cpm.estimateBayes
      rw [getProb_samples h hs hq flag, ok_bind, estRounds_ok (.inl rfl), ok_bind, if_pos rfl]
      simp only [List.range_one, List.foldlM_cons]
      unfold bayesRound
      rw [hw]; rfl
    · unfold Cpm.estimateBayes
      rw [getProb_samples h hs hq flag, ok_bind, estRounds_ok (.inr (by simp [h0])), ok_bind,
        if_neg h1.ne', h0]
      simp [pure_ok, ok_bind]

/-! ## C50: the Bayesian estimate -/

/-- For every number of rounds the Bayesian estimate is a probability, strictly between the
bounds given by the table, and its variance is positive. -/
theorem C50_bayes (h : WF U (noSamples M)) (hs : SamplesOK M) (hq : QueryOK U M.getNames cv cs)
    (hp : SubProb M) {nsr : ℕ} (hd : nsr = 0 ∨ nsr ∣ M.Cs.length) (h0 : M.Cs ≠ [])
    (h1 : M.ps = [] → nsr = 0 ∨ nsr = M.Cs.length) (hw0 : ∀ j < M.Cs.length, 0 ≤ wt M j) :
    ∃ a e var, M.getProb cv cs flag = .ok a ∧ M.estimateBayes cv cs flag nsr = .ok (e, var) ∧
      a ≤ e ∧ e ≤ a + (1 - M.p.sum) ∧ (M.p.sum < 1 → a < e ∧ e < a + (1 - M.p.sum)) ∧
      0 ≤ e ∧ e ≤ 1 ∧ 0 < var := by
  have ha := getProb_samples h hs hq flag
  have hb := getProb_bounds h hs hp.nonneg hq ha
  revert hb ha
  generalize (maskRows (M.C.map fun r => if flag then compatRow (noSamples M) cv cs r else
    !compatRow (noSamples M) cv cs r) M.p).sum = a
  intro ha hb
  have hlen : 0 < M.Cs.length := List.length_pos_iff.2 h0
  have hmain : ∃ x y : ℚ, 0 < x ∧ 0 < y ∧ M.estimateBayes cv cs flag nsr =
      .ok (a + (1 - M.p.sum) * (x / (x + y)), x * y / (x + y) ^ 2 / (x + y + 1)) := by
    unfold Cpm.estimateBayes
    rw [ha, ok_bind, estRounds_ok hd, ok_bind]
    set rn := (if nsr = 0 then (1, M.Cs.length) else (M.Cs.length / nsr, nsr)) with hrn
    have e1 : rn.1 = if nsr = 0 then 1 else M.Cs.length / nsr := by rw [hrn]; split <;> rfl
    have e2 : rn.2 = if nsr = 0 then M.Cs.length else nsr := by rw [hrn]; split <;> rfl
    have hmul : rn.1 * rn.2 = M.Cs.length := by
      rw [e1, e2]
      split
      · simp
      · exact Nat.div_mul_cancel (hd.resolve_left (by assumption))
    have hpos : 0 < rn.2 := by rw [e2]; split <;> omega
    have hpos1 : 0 < rn.1 := Nat.pos_of_ne_zero fun e => by rw [e] at hmul; omega
    have hfold := foldlM_ok (f := bayesRound M cv cs flag rn.2)
      (g := fun acc i => some ((acc.getD (1 / 100, 1 / 100)).1 +
          nTrue ((rowRange i rn.2).map (hw M cv cs flag)) ((rowRange i rn.2).map (wt M)),
        (acc.getD (1 / 100, 1 / 100)).2 + (nEff ((rowRange i rn.2).map (wt M)) -
          nTrue ((rowRange i rn.2).map (hw M cv cs flag)) ((rowRange i rn.2).map (wt M)))))
      (P := fun acc => 0 < (acc.getD (1 / 100, 1 / 100)).1 ∧ 0 < (acc.getD (1 / 100, 1 / 100)).2)
      (l := List.range rn.1) (b := none) ⟨by norm_num, by norm_num⟩ (fun acc hacc i hi => by
        have hin : (i + 1) * rn.2 ≤ M.Cs.length := by
          rw [← hmul]
          exact Nat.mul_le_mul_right _ (List.mem_range.1 hi)
        refine ⟨bayesRound_ok h hs hq.ev hq.nodup hpos hin ?_ acc, ?_⟩
        · intro hps
          rw [e2]
          rcases h1 hps with e | e <;> simp [e]
        · have hwj : ∀ j ∈ rowRange i rn.2, 0 ≤ wt M j := fun j hj =>
            hw0 j (by have := (mem_rowRange.1 hj).2; omega)
          have := nTrue_bounds (l := rowRange i rn.2) (f := hw M cv cs flag) (g := wt M)
            (fun j hj => (hw_bounds (hwj j hj)).1) (fun j hj => (hw_bounds (hwj j hj)).2)
          simp only [Option.getD_some]
          constructor <;> linarith [hacc.1, hacc.2, this.1, this.2])
    rw [hfold.1, ok_bind]
    have hsome : ∃ xy, (List.range rn.1).foldl (fun (acc : Option (ℚ × ℚ)) i =>
        some ((acc.getD (1 / 100, 1 / 100)).1 +
          nTrue ((rowRange i rn.2).map (hw M cv cs flag)) ((rowRange i rn.2).map (wt M)),
        (acc.getD (1 / 100, 1 / 100)).2 + (nEff ((rowRange i rn.2).map (wt M)) -
          nTrue ((rowRange i rn.2).map (hw M cv cs flag)) ((rowRange i rn.2).map (wt M))))) none =
        some xy := by
      obtain ⟨k, hk⟩ := Nat.exists_eq_succ_of_ne_zero hpos1.ne'
      rw [hk, List.range_succ, List.foldl_append]
      exact ⟨_, rfl⟩
    obtain ⟨⟨x, y⟩, hxy⟩ := hsome
    have hP := hfold.2
    rw [hxy] at hP ⊢
    exact ⟨x, y, hP.1, hP.2, rfl⟩
  obtain ⟨x, y, hx, hy, he⟩ := hmain
  refine ⟨a, _, _, ha, he, ?_⟩
  have hm0 : 0 < x / (x + y) := by positivity
  have hm1 : x / (x + y) < 1 := (div_lt_one (by linarith)).2 (by linarith)
  have hv : 0 < x * y / (x + y) ^ 2 / (x + y + 1) := by positivity
  revert hm0 hm1
  generalize x / (x + y) = m
  intro hm0 hm1
  have hp1 := hp.le_one
  refine ⟨by nlinarith, by nlinarith, fun hlt => ⟨by nlinarith, by nlinarith⟩, by nlinarith,
    by nlinarith, hv⟩

/-- One round and any weights: with total weight `W` and Kish's effective sample size
`E = W² / Σ w²`, the Bayesian estimate is the table's probability plus the remaining probability
times `(0.01 + E · (weight of the hits) / W) / (0.02 + E)`, with the variance of that beta
distribution. -/
theorem C50_bayes_weighted (h : WF U (noSamples M)) (hs : SamplesOK M)
    (hq : QueryOK U M.getNames cv cs) (h0 : M.Cs ≠ []) {W E : ℚ}
    (hW : W = ((List.range M.Cs.length).map (wt M)).sum)
    (hE : E = W ^ 2 / ((List.range M.Cs.length).map fun j => wt M j ^ 2).sum) :
    ∃ a, M.getProb cv cs flag = .ok a ∧ M.estimateBayes cv cs flag 0 = .ok
      (a + (1 - M.p.sum) * ((1 / 100 + hitWeight M cv cs flag / W * E) / (1 / 50 + E)),
        (1 / 100 + hitWeight M cv cs flag / W * E) *
          (1 / 100 + (E - hitWeight M cv cs flag / W * E)) / (1 / 50 + E) ^ 2 / (1 / 50 + E + 1)) := by
  obtain ⟨a, ha⟩ : ∃ a, M.getProb cv cs flag = .ok a := ⟨_, getProb_samples h hs hq flag⟩
  refine ⟨a, ha, ?_⟩
  have hlen : 0 < M.Cs.length := List.length_pos_iff.2 h0
  have hlq : (0 : ℚ) < M.Cs.length := by exact_mod_cast hlen
  unfold Cpm.estimateBayes
  rw [ha, ok_bind, estRounds_ok (.inl rfl), ok_bind, if_pos rfl]
  simp only [List.range_one, List.foldlM_cons, List.foldlM_nil]
  rw [bayesRound_ok h hs hq.ev hq.nodup hlen (by omega) (fun _ => rfl), ok_bind, pure_ok, ok_bind]
  have hr : rowRange 0 M.Cs.length = List.range M.Cs.length := by simp [rowRange]
  have hsum : ((List.range M.Cs.length).map (hw M cv cs flag)).sum = hitWeight M cv cs flag := by
    rw [hitWeight_eq]
  have hne : nEff ((List.range M.Cs.length).map (wt M)) = E := by
    unfold nEff
    rw [← hW, hE, List.map_map, List.length_map, List.length_range]
    simp only [Function.comp_def]
    field_simp
  rw [nTrue_eq, hr, hsum, hne, ← hW]
  simp only [Option.getD_none, pure_ok]
  have e : (1 / 100 + hitWeight M cv cs flag / W * E +
      (1 / 100 + (E - hitWeight M cv cs flag / W * E))) = 1 / 50 + E := by ring
  rw [e]

/-- One round and unit weights: the Bayesian estimate is the table's probability plus the remaining
probability times `(0.01 + hits) / (0.02 + samples)`, with the variance of that beta distribution. -/
theorem C50_bayes_unit (h : WF U (noSamples M)) (hs : SamplesOK M) (hq : QueryOK U M.getNames cv cs)
    (h0 : M.Cs ≠ []) (hu : ∀ j < M.Cs.length, wt M j = 1) :
    ∃ a, M.getProb cv cs flag = .ok a ∧ M.estimateBayes cv cs flag 0 = .ok
      (a + (1 - M.p.sum) * ((1 / 100 + hitCount M cv cs flag) / (1 / 50 + M.Cs.length)),
        (1 / 100 + hitCount M cv cs flag) * (1 / 100 + (M.Cs.length - hitCount M cv cs flag)) /
          (1 / 50 + M.Cs.length) ^ 2 / (1 / 50 + M.Cs.length + 1)) := by
  obtain ⟨a, ha⟩ : ∃ a, M.getProb cv cs flag = .ok a := ⟨_, getProb_samples h hs hq flag⟩
  refine ⟨a, ?_⟩
  have hlen : 0 < M.Cs.length := List.length_pos_iff.2 h0
  have hlq : (0 : ℚ) < M.Cs.length := by exact_mod_cast hlen
  unfold Cpm.estimateBayes
  rw [ha, ok_bind, estRounds_ok (.inl rfl), ok_bind, if_pos rfl]
  simp only [List.range_one, List.foldlM_cons, List.foldlM_nil]
  rw [bayesRound_ok h hs hq.ev hq.nodup hlen (by omega) (fun _ => rfl), ok_bind, pure_ok, ok_bind]
  have hw1 : (rowRange 0 M.Cs.length).map (wt M) = List.replicate M.Cs.length 1 := by
    rw [List.eq_replicate_iff]
    refine ⟨by simp [rowRange_length], fun b hb => ?_⟩
    obtain ⟨j, hj, rfl⟩ := List.mem_map.1 hb
    exact hu j (by have := (mem_rowRange.1 hj).2; omega)
  have hsum : ((rowRange 0 M.Cs.length).map (hw M cv cs flag)).sum = hitCount M cv cs flag := by
    rw [← hitWeight_unit hu, hitWeight_eq]
    simp [rowRange]
  have hne : nEff (List.replicate M.Cs.length 1) = M.Cs.length := by
    unfold nEff
    simp
    field_simp
  rw [nTrue_eq, hw1, hsum, hne]
  refine ⟨trivial, ?_⟩
  simp only [Option.getD_none, pure_ok, List.sum_replicate, nsmul_eq_mul, mul_one]
  rw [div_mul_cancel₀ _ hlq.ne']
  have e : (1 / 100 + (hitCount M cv cs flag : ℚ) +
      (1 / 100 + ((M.Cs.length : ℚ) - hitCount M cv cs flag))) = 1 / 50 + M.Cs.length := by ring
  rw [e]

end

/-! ## Witnesses for C50 -/

namespace Ex

/-- Half of the probability is in the table, the rest in four samples with unit weight. -/
def estM (ps : List ℚ) : Cpm ℕ :=
  { vars := [U 0, U 2], noChild := 2, C := [[0, 0], [1, 3]], p := [1 / 4, 1 / 4]
    Cs := [[0, 1], [0, 2], [1, 2], [0, 1]], q := [1 / 2, 1 / 2, 1 / 2, 1 / 2], ps := ps
    sampleIdx := [0, 1, 2, 3] }

/-- the hypotheses are met, and the estimates are not trivial -/
example : WF U (noSamples (estM [])) ∧ SamplesOK (estM []) ∧
    QueryOK U (estM []).getNames [U 0] [0] ∧ SubProb (estM []) ∧ (estM []).Cs ≠ [] ∧
    (∀ j < (estM []).Cs.length, wt (estM []) j = 1) ∧
    (estM []).estimateMle [U 0] [0] true 0 = .ok (1 / 4 + 1 / 2 * (3 / 4), 3 / 4 * (1 / 4) / 4) ∧
    (estM []).estimateBayes [U 0] [0] true 0 =
      .ok (1 / 4 + 1 / 2 * (301 / 402), 3.01 * 1.01 / 4.02 ^ 2 / 5.02) := by
  refine ⟨by decide +kernel, by decide +kernel, ⟨?_, by decide, by decide +kernel, by decide⟩,
    by decide +kernel, by decide, by decide +kernel, by decide +kernel, by decide +kernel⟩
  exact ⟨rfl, by decide +kernel, by decide +kernel⟩

/-- one round with different weights: total weight 4.5, effective size 20.25 / 6.25 = 3.24, the hits
carry the weight 3.5 -/
example : ((List.range 4).map (wt (estM [1 / 2, 1 / 4, 1 / 2, 1]))).sum = 9 / 2 ∧
    hitWeight (estM [1 / 2, 1 / 4, 1 / 2, 1]) [U 0] [0] true = 7 / 2 ∧
    ((estM [1 / 2, 1 / 4, 1 / 2, 1]).estimateBayes [U 0] [0] true 0).toOption.map Prod.fst =
      some (1 / 4 + 1 / 2 * ((1 / 100 + 7 / 9 * (81 / 25)) / (1 / 50 + 81 / 25))) := by
  decide +kernel

/-- the same for two rounds with different weights -/
example : SamplesOK (estM [1 / 2, 1 / 4, 1 / 2, 1]) ∧
    (∀ j < 4, 0 ≤ wt (estM [1 / 2, 1 / 4, 1 / 2, 1]) j) ∧
    (estM [1 / 2, 1 / 4, 1 / 2, 1]).estimateBayes [U 0] [0] true 2 ≠
      (estM []).estimateBayes [U 0] [0] true 0 := by
  decide +kernel

end Ex

/-- With two rounds the maximum likelihood estimate is not a probability: the rounds' fractions are
added, not averaged.  Unit weights, four samples in two rounds, a query that every sample
answers. -/
theorem C50_not_rounds : ∃ M : Cpm ℕ, WF Ex.U (noSamples M) ∧ SamplesOK M ∧ SubProb M ∧
    QueryOK Ex.U M.getNames [Ex.U 2] [5] ∧ (∀ j < M.Cs.length, wt M j = 1) ∧
    M.estimateMle [Ex.U 2] [5] true 0 = .ok (3 / 4, 0) ∧
    ∃ e v, M.estimateMle [Ex.U 2] [5] true 2 = .ok (e, v) ∧ 1 < e := by
  refine ⟨Ex.estM [1 / 2, 1 / 2, 1 / 2, 1 / 2], by decide +kernel, by decide +kernel,
    by decide +kernel, ⟨⟨rfl, by decide +kernel, by decide +kernel⟩, by decide, by decide +kernel,
    by decide⟩, by decide +kernel, by decide +kernel, 5 / 4, 0, by decide +kernel, by norm_num⟩

/-! ## C52: the ratio of two estimates -/

/-- For every outcome of the draws (non-negative numbers) the sampled ratios, their mean and the
interval lie between 0 and 1, and the interval is one.  No denominator is zero (numpy would return
`nan`). -/
theorem C52_ratio {draws : List (ℚ × ℚ)} {k1 k2 q a1 a2 b1 b2 p : ℚ} (hk1 : 0 ≤ k1) (hk2 : 0 ≤ k2)
    (hq : 0 ≤ q) (ha1 : 0 < a1) (ha2 : 0 < a2) (hb1 : 0 < b1) (hb2 : 0 < b2) (hp0 : 0 < p)
    (hp1 : p < 1) (hd : draws ≠ []) (hx : ∀ x ∈ draws, 0 ≤ x.1 ∧ 0 ≤ x.2)
    (_hden : ∀ x ∈ draws, 0 < q * (x.1 + x.2) + k1 + k2) :
    (∀ x ∈ draws, 0 ≤ ratio k1 k2 q x ∧ ratio k1 k2 q x ≤ 1) ∧
    ∃ m lo hi, getRatDist draws k1 k2 q a1 a2 b1 b2 p = .ok (m, lo, hi) ∧
      m = (draws.map fun x => (q * x.1 + k1) / (q * (x.1 + x.2) + k1 + k2)).sum / draws.length ∧
      0 ≤ m ∧ m ≤ 1 ∧ 0 ≤ lo ∧ lo ≤ hi ∧ hi ≤ 1 := by
  have hr : ∀ x ∈ draws, 0 ≤ ratio k1 k2 q x ∧ ratio k1 k2 q x ≤ 1 := fun x hx' =>
    ratio_mem hk1 hk2 hq (hx x hx')
  refine ⟨hr, ?_⟩
  set rat := draws.map (ratio k1 k2 q) with hrat
  have hrm : ∀ y ∈ rat, 0 ≤ y ∧ y ≤ 1 := by
    intro y hy
    obtain ⟨x, hx', rfl⟩ := List.mem_map.1 hy
    exact hr x hx'
  have hne : rat ≠ [] := by simpa [hrat] using hd
  have hs : (rat.insertionSort (· ≤ ·)).Pairwise (· ≤ ·) := List.pairwise_insertionSort _ _
  have hsm : ∀ y ∈ rat.insertionSort (· ≤ ·), 0 ≤ y ∧ y ≤ 1 := fun y hy =>
    hrm y ((List.mem_insertionSort _).1 hy)
  obtain ⟨l1, l2, l3⟩ := percentile_ok hne (t := 1 / 2 * (1 - p)) (by linarith) (by linarith)
  obtain ⟨u1, u2, u3⟩ := percentile_ok hne (t := 1 - 1 / 2 * (1 - p)) (by linarith) (by linarith)
  have hm := mean_mem hrm
  have hlen : rat.length = draws.length := by simp [hrat]
  rw [hlen] at hm
  have hlq : (1 : ℚ) ≤ rat.length := by exact_mod_cast List.length_pos_iff.2 hne
  refine ⟨_, _, _, ?_, rfl, ?_, ?_, (lerp_mem hs l2 l3 hsm).1,
    lerp_mono hs l2 (by nlinarith) u3, (lerp_mem hs u2 u3 hsm).2⟩
  · unfold getRatDist
    rw [if_neg, if_neg, if_neg]
    · simp only
      rw [← hrat, l1, ok_bind, u1, ok_bind, pure_ok, hlen]
      rfl
    · push Not; exact ⟨ha1, hb1, ha2, hb2⟩
    · push Not; exact ⟨hp0, hp1⟩
    · simp [hk1, hk2, ha1.le, ha2.le, hb1.le, hb2.le]
  · exact hm.1
  · exact hm.2

/-- What is refused with `ValueError`: a negative number, a confidence level outside (0,1), a beta
distribution without positive parameters. -/
theorem C52_refused (draws : List (ℚ × ℚ)) (k1 k2 q a1 a2 b1 b2 p : ℚ)
    (h : k1 < 0 ∨ k2 < 0 ∨ a1 ≤ 0 ∨ a2 ≤ 0 ∨ b1 ≤ 0 ∨ b2 ≤ 0 ∨ p ≤ 0 ∨ 1 ≤ p) :
    getRatDist draws k1 k2 q a1 a2 b1 b2 p = .error .value := by
  unfold getRatDist
  by_cases c1 : ([k1, k2, a1, a2, b1, b2].all (0 ≤ ·)) = true
  · by_cases c2 : 0 < p ∧ p < 1
    · have c3 : ¬ (0 < a1 ∧ 0 < b1 ∧ 0 < a2 ∧ 0 < b2) := by
        simp at c1
        rintro ⟨d1, d2, d3, d4⟩
        rcases h with h | h | h | h | h | h | h | h <;> linarith [c1.1, c1.2.1, c2.1, c2.2]
      rw [if_neg (by simpa using c1), if_neg (by simpa using c2), if_pos c3]
    · rw [if_neg (by simpa using c1), if_pos c2]
  · rw [if_pos (by simpa using c1)]

/-- The check does not cover `q`: with a negative remaining probability the "ratio" is not a
probability. -/
theorem C52_negative_q_accepted :
    getRatDist [(1 / 10, 9 / 10)] 1 0 (-1 / 2) 1 1 1 1 (9 / 10) =
      .ok (19 / 10, 19 / 10, 19 / 10) := by
  decide +kernel

/-- the hypotheses of `C52_ratio` are met by three draws -/
example : getRatDist [(1 / 10, 9 / 10), (1 / 2, 1 / 2), (1 / 4, 3 / 4)] (1 / 10) (1 / 5) (1 / 2)
    (1 / 100) 3 2 1 (1 / 2) = .ok (29 / 96, 15 / 64, 23 / 64) := by
  decide +kernel

/-! ## C66: conditional estimates -/

section
variable {K : Type} [DecidableEq K] {U : K → Variable K} {M : Cpm K}
  {cv1 cv2 : List (Variable K)} {cs1 cs2 : List ℕ}

/-- When the first event implies the second one, the conditional estimate succeeds for every number
of rounds and every outcome of the draws; the estimate and its interval lie between 0 and 1.
Missing for the full claim: events that are not nested (`C66_not_nested`). -/
theorem C66_conditional_partial (h : WF U (noSamples M)) (hs : SamplesOK M)
    (hq1 : QueryOK U M.getNames cv1 cs1) (hq2 : QueryOK U M.getNames cv2 cs2) (hp : SubProb M)
    (hsub : ∀ x, Consistent (M.vars.map Variable.name) cv1 cs1 x →
      Consistent (M.vars.map Variable.name) cv2 cs2 x)
    {nsr : ℕ} (hd : nsr = 0 ∨ nsr ∣ M.Cs.length) (h0 : M.Cs ≠ [])
    (h1 : M.ps = [] → nsr = 0 ∨ nsr = M.Cs.length) (hw0 : ∀ j < M.Cs.length, 0 < wt M j)
    {draws : List (ℚ × ℚ)} (hdr : draws ≠ []) (hx : ∀ x ∈ draws, 0 < x.1 ∧ 0 < x.2) {p : ℚ}
    (hp0 : 0 < p) (hp1 : p < 1) {a b : ℚ} (ha : M.getProb cv1 cs1 true = .ok a)
    (hb : M.getProb cv2 cs2 true = .ok b) (hmass : 0 < b ∨ M.p.sum < 1) :
    ∃ m lo hi, M.estimateCond draws cv1 cs1 cv2 cs2 nsr p = .ok (m, lo, hi) ∧
      m = (draws.map fun x => ((1 - M.p.sum) * x.1 + a) /
        ((1 - M.p.sum) * (x.1 + x.2) + b)).sum / draws.length ∧
      0 ≤ m ∧ m ≤ 1 ∧ 0 ≤ lo ∧ lo ≤ hi ∧ hi ≤ 1 := by
  have hlen : 0 < M.Cs.length := List.length_pos_iff.2 h0
  have hab := getProb_mono h hs hp.nonneg hq1 hq2 hsub ha hb
  have hba := getProb_bounds h hs hp.nonneg hq1 ha
  have hpl := hp.le_one
  have hmain : ∃ x1 y1 x2 y2 : ℚ, 0 < x1 ∧ 0 < y1 ∧ 0 < x2 ∧ 0 < y2 ∧
      M.estimateCond draws cv1 cs1 cv2 cs2 nsr p =
        getRatDist draws a (b - a) (1 - M.p.sum) x1 x2 y1 y2 p := by
    unfold Cpm.estimateCond
    rw [estRounds_ok hd, ok_bind]
    set rn := (if nsr = 0 then (1, M.Cs.length) else (M.Cs.length / nsr, nsr)) with hrn
    have e1 : rn.1 = if nsr = 0 then 1 else M.Cs.length / nsr := by rw [hrn]; split <;> rfl
    have e2 : rn.2 = if nsr = 0 then M.Cs.length else nsr := by rw [hrn]; split <;> rfl
    have hmul : rn.1 * rn.2 = M.Cs.length := by
      rw [e1, e2]
      split
      · simp
      · exact Nat.div_mul_cancel (hd.resolve_left (by assumption))
    have hpos : 0 < rn.2 := by rw [e2]; split <;> omega
    have hpos1 : 0 < rn.1 := Nat.pos_of_ne_zero fun e => by rw [e] at hmul; omega
    have hfold := foldlM_ok (f := condRound M cv1 cs1 cv2 cs2 rn.2)
      (g := condStep M cv1 cs1 cv2 cs2 rn.2) (P := Pos4)
      (l := List.range rn.1) (b := none) (by unfold Pos4; norm_num) (fun acc hacc i hi => by
        have hin : (i + 1) * rn.2 ≤ M.Cs.length := by
          rw [← hmul]
          exact Nat.mul_le_mul_right _ (List.mem_range.1 hi)
        refine ⟨condRound_ok h hs hq1.ev hq1.nodup hq2.ev hq2.nodup hpos hin ?_ acc,
          condStep_pos hin (fun j hj => (hw0 j hj).le) hsub hacc⟩
        intro hps
        rw [e2]
        rcases h1 hps with e | e <;> simp [e])
    rw [hfold.1, ok_bind, ha, ok_bind, hb, ok_bind]
    have hsome : ∃ xy, (List.range rn.1).foldl (condStep M cv1 cs1 cv2 cs2 rn.2) none = some xy := by
      obtain ⟨k, hk⟩ := Nat.exists_eq_succ_of_ne_zero hpos1.ne'
      rw [hk, List.range_succ, List.foldl_append]
      exact ⟨_, rfl⟩
    obtain ⟨⟨x1, y1, x2, y2⟩, hxy⟩ := hsome
    have hP := hfold.2
    rw [hxy] at hP ⊢
    obtain ⟨p1, p2, p3, p4⟩ := hP
    exact ⟨x1, y1, x2, y2, p1, p2, p3, p4, rfl⟩
  obtain ⟨x1, y1, x2, y2, g1, g2, g3, g4, he⟩ := hmain
  have := (C52_ratio (draws := draws) (k1 := a) (k2 := b - a) (q := 1 - M.p.sum) hba.1
    (by linarith) (by linarith) g1 g3 g2 g4 hp0 hp1 hdr
    (fun x hx' => ⟨(hx x hx').1.le, (hx x hx').2.le⟩) (fun x hx' => by
      obtain ⟨f1, f2⟩ := hx x hx'
      rcases hmass with hm | hm
      · have : 0 ≤ (1 - M.p.sum) * (x.1 + x.2) := mul_nonneg (by linarith) (by linarith)
        linarith
      · have : 0 < (1 - M.p.sum) * (x.1 + x.2) := mul_pos (by linarith) (by linarith)
        linarith [hba.1])).2
  obtain ⟨m, lo, hi, r1, r2, r3⟩ := this
  refine ⟨m, lo, hi, by rw [he, r1], ?_, r3⟩
  rw [r2]
  congr 3
  funext x
  congr 1
  ring

end

/-- the hypotheses of `C66_conditional_partial` are met: `P(X0 = 0, X2 ∈ {1, 2} | X2 ∈ {1, 2})` -/
example : QueryOK Ex.U (Ex.estM []).getNames [Ex.U 0, Ex.U 2] [0, 5] ∧
    QueryOK Ex.U (Ex.estM []).getNames [Ex.U 2] [5] ∧
    (∀ x, Consistent ((Ex.estM []).vars.map Variable.name) [Ex.U 0, Ex.U 2] [0, 5] x →
      Consistent ((Ex.estM []).vars.map Variable.name) [Ex.U 2] [5] x) ∧
    (∀ j < (Ex.estM []).Cs.length, 0 < wt (Ex.estM []) j) ∧
    (Ex.estM []).getProb [Ex.U 2] [5] true = .ok (1 / 4) ∧
    (Ex.estM []).estimateCond [(1 / 2, 1 / 4), (3 / 4, 1 / 8)] [Ex.U 0, Ex.U 2] [0, 5]
      [Ex.U 2] [5] 0 (1 / 2) = .ok (26 / 55, 24 / 55, 28 / 55) := by
  refine ⟨⟨⟨rfl, by decide +kernel, by decide +kernel⟩, by decide, by decide +kernel, by decide⟩,
    ⟨⟨rfl, by decide +kernel, by decide +kernel⟩, by decide, by decide +kernel, by decide⟩, ?_,
    by decide +kernel, by decide +kernel, by decide +kernel⟩
  intro x hx p hp
  exact hx p (by simp only [List.zip_cons_cons, List.zip_nil_right, List.mem_cons] at hp ⊢; tauto)

/-- Without the implication a conditional estimate is refused: `P(X0 = 0 | X2 = 2)` has a meaning,
but the table's part of the first event is larger than that of the second one. -/
theorem C66_not_nested : ∃ M : Cpm ℕ, WF Ex.U (noSamples M) ∧ SamplesOK M ∧ SubProb M ∧
    QueryOK Ex.U M.getNames [Ex.U 0] [0] ∧ QueryOK Ex.U M.getNames [Ex.U 2] [2] ∧
    ∀ draws : List (ℚ × ℚ), M.estimateCond draws [Ex.U 0] [0] [Ex.U 2] [2] 0 (1 / 2) =
      .error .value := by
  refine ⟨Ex.estM [], by decide +kernel, by decide +kernel, by decide +kernel,
    ⟨⟨rfl, by decide +kernel, by decide +kernel⟩, by decide, by decide +kernel, by decide⟩,
    ⟨⟨rfl, by decide +kernel, by decide +kernel⟩, by decide, by decide +kernel, by decide⟩, ?_⟩
  intro draws
  have e1 : estRounds (Ex.estM []).Cs.length 0 = .ok (1, 4) := rfl
  have e2 : ∃ x, (List.range 1).foldlM
      (condRound (Ex.estM []) [Ex.U 0] [0] [Ex.U 2] [2] 4) none = .ok (some x) :=
    ⟨(301 / 100, 101 / 100, -99 / 100, 501 / 100), by decide +kernel⟩
  obtain ⟨⟨x1, y1, x2, y2⟩, e2⟩ := e2
  have e3 : (Ex.estM []).getProb [Ex.U 0] [0] true = .ok (1 / 4) := by decide +kernel
  have e4 : (Ex.estM []).getProb [Ex.U 2] [2] true = .ok 0 := by decide +kernel
  unfold Cpm.estimateCond
  rw [e1, ok_bind, e2, ok_bind, e3, ok_bind, e4, ok_bind]
  exact C52_refused _ _ _ _ _ _ _ _ _ (.inr (.inl (by norm_num)))

/-! ## C53: chunks and equal elements -/

/-- A positive chunk size: the chunks are consecutive, none is empty, all but the last have the
given length, and together they are the list.  A zero size is refused. -/
theorem C53_split {α : Type} (l : List α) (n : ℕ) (hn : 0 < n) :
    (∃ chunks, pySplit l n = .ok chunks ∧ chunks.flatten = l ∧
      (∀ c ∈ chunks, c ≠ [] ∧ c.length ≤ n) ∧
      ∀ i, i + 1 < chunks.length → ∀ c, chunks[i]? = some c → c.length = n) ∧
    pySplit l 0 = .error .value := by
  refine ⟨?_, rfl⟩
  have e : pySplit l n = .ok ((List.range ((l.length + n - 1) / n)).map
      fun j => (l.drop (j * n)).take n) := by
    unfold pySplit
    rw [if_neg (by omega), if_neg (by omega)]
    simp
  set m := (l.length + n - 1) / n with hm
  have hmn : l.length ≤ m * n := by
    have := Nat.div_add_mod (l.length + n - 1) n
    have h2 := Nat.mod_lt (l.length + n - 1) hn
    rw [← hm, Nat.mul_comm] at this
    omega
  have hlt : ∀ j < m, j * n < l.length := by
    intro j hj
    have h1 : (j + 1) * n ≤ l.length + n - 1 :=
      (Nat.mul_le_mul_right n hj).trans (Nat.div_mul_le_self _ _)
    rw [Nat.add_mul] at h1
    omega
  refine ⟨_, e, ?_, ?_, ?_⟩
  · rw [chunk_flatten, List.take_of_length_le hmn]
  · intro c hc
    obtain ⟨j, hj, rfl⟩ := List.mem_map.1 hc
    have := hlt j (List.mem_range.1 hj)
    refine ⟨?_, by simp⟩
    intro e0
    have := congrArg List.length e0
    simp at this
    omega
  · intro i hi c hc
    have hi' : i + 1 < m := by simpa using hi
    rw [List.getElem?_map, List.getElem?_range (by omega)] at hc
    simp only [Option.map_some, Option.some.injEq] at hc
    subst hc
    have := hlt (i + 1) hi'
    rw [Nat.add_mul] at this
    simp
    omega

/-- A negative chunk size is accepted and loses the whole list. -/
theorem C53_split_negative {α : Type} (l : List α) (n : ℤ) (hn : n < 0) : pySplit l n = .ok [] := by
  unfold pySplit
  rw [if_neg (by omega), if_pos hn]

/-- `all_equal` is true exactly when all the elements are equal. -/
theorem C53_all_equal {α : Type} [DecidableEq α] (l : List α) :
    allEqual l = true ↔ ∀ x ∈ l, ∀ y ∈ l, x = y := by
  cases l with
  | nil => simp [allEqual]
  | cons a t =>
    have key : (t.dropWhile (· = a)).isEmpty = true ↔ ∀ x ∈ t, x = a := by
      induction t with
      | nil => simp
      | cons b t ih =>
        by_cases hb : b = a
        · rw [List.dropWhile_cons_of_pos (by simpa using hb), ih]
          simp [hb]
        · rw [List.dropWhile_cons_of_neg (by simpa using hb)]
          simp [hb]
    show (t.dropWhile (· = a)).isEmpty = true ↔ _
    rw [key]
    constructor
    · intro h x hx y hy
      have : ∀ z ∈ a :: t, z = a := by simpa using h
      rw [this x hx, this y hy]
    · intro h x hx
      exact h x (by simp [hx]) a (by simp)

example : pySplit [1, 2, 3, 4, 5] 2 = .ok [[1, 2], [3, 4], [5]] ∧ allEqual [1, 1, 2] = false ∧
    allEqual [3, 3] = true := by decide +kernel

end BNS
