import Verif.Proofs.Mcs

/-!
# C51: Monte Carlo simulation of the unspecified branches

`r` are the uniform numbers; the theorems hold for all of them.
-/

namespace BNS

set_option linter.unusedSectionVars false

variable {K : Type} [DecidableEq K] {c : McsCfg K}

/-! ## C51: the samples and the estimate -/

/-- Whenever the simulation returns: at least ten samples were drawn, every one of them lies in the
box of an unspecified branch, and with `k` failing samples among the `n` drawn the estimate is the
known failure probability plus the unspecified probability times `(0.01 + k) / (0.02 + n)`.  It
lies within the bounds given by the branches, and the target coefficient of variation is met. -/
theorem C51_estimate {r : ℕ → ℕ → ℚ} {fuel : ℕ} {pf cov2 : ℚ} {n : ℕ}
    (hle : ∀ b ∈ c.brs, ∀ e ∈ c.names, b.down e ≤ b.up e)
    (h : mcsUnknownSimple c r fuel = .ok (pf, cov2, n)) :
    ∃ rows : List (List ℕ), rows.length = n ∧ 10 ≤ n ∧
      (∀ row ∈ rows, ∃ b ∈ c.brs, Unspec b ∧ InRow c.names b row) ∧
      ∃ k, k = (rows.countP fun row => (c.sysFun fun e => row.getD (c.names.idxOf e) 0).st = .f) ∧
        pf = failMass c.brs + unkMass c.brs * ((1 / 100 + k) / (1 / 50 + n)) ∧
        cov2 = unkMass c.brs ^ 2 *
          ((1 / 100 + k) * (1 / 100 + (n - k)) / (1 / 50 + n) ^ 2 / (1 / 50 + n + 1)) / pf ^ 2 ∧
        (0 < unkMass c.brs → failMass c.brs < pf ∧ pf < failMass c.brs + unkMass c.brs) ∧
        0 ≤ c.covT ∧ cov2 ≤ c.covT ^ 2 := by
  unfold mcsUnknownSimple mcsRun at h
  simp only [bind_ok] at h
  obtain ⟨st, ⟨st0, h1, h2⟩, h3⟩ := h
  split at h2
  · cases h2
  rename_i hn
  cases h2
  cases h3
  obtain ⟨hi, hg, -⟩ := mcsLoop_inv (P := fun row => ∃ b ∈ c.brs, Unspec b ∧ InRow c.names b row)
    (fun i row hrow => drawSample_inside hle hrow) (mcsInv_zero _) h1
  have hlate := hi.late (by omega)
  rw [estimate_eq, pfLow_eq, pU_eq, Prod.mk.injEq] at hlate
  have hk : st.nfail = (st.samples.map Prod.fst).countP
      fun row => (c.sysFun fun e => row.getD (c.names.idxOf e) 0).st = .f := by
    rw [hi.fail, List.countP_map]
    refine List.countP_congr fun s hs => ?_
    simp only [Function.comp, decide_eq_true_eq]
    exact (hi.flag s hs).2
  have hkn : st.nfail ≤ st.nsamp := by rw [hi.len, hi.fail]; exact List.countP_le_length
  refine ⟨st.samples.map Prod.fst, by simp [hi.len], by omega, ?_, st.nfail, hk, hlate.1, ?_, ?_, ?_⟩
  · intro row hrow
    obtain ⟨s, hs, rfl⟩ := List.mem_map.1 hrow
    exact (hi.flag s hs).1
  · rw [hlate.2, ← hlate.1]
  · intro hu
    rw [hlate.1]
    have hkn' : (st.nfail : ℚ) ≤ st.nsamp := by exact_mod_cast hkn
    have h0 : (0 : ℚ) < (1 / 100 + st.nfail) / (1 / 50 + st.nsamp) := by positivity
    have h1 : (1 / 100 + (st.nfail : ℚ)) / (1 / 50 + st.nsamp) < 1 := by
      rw [div_lt_one (by positivity)]
      linarith
    constructor <;> nlinarith
  · unfold mcsGoOn at hg
    simp only [decide_eq_false_iff_not, not_or, not_lt] at hg
    exact hg

/-- With a positive known failure probability and two-state components the simulation ends, for any
uniform numbers, as soon as `unknown² / (4 n known²) ≤ cov_t²`. -/
theorem C51_terminates (hc : McsOK c) (hf : 0 < failMass c.brs) (h0 : 0 < c.covT)
    (h1 : c.covT < 1) {n : ℕ} (hn : 10 ≤ n)
    (hb : unkMass c.brs ^ 2 ≤ 4 * n * failMass c.brs ^ 2 * c.covT ^ 2) {r : ℕ → ℕ → ℚ}
    (hr : Uniform r) : ∃ pf cov2 m, mcsUnknownSimple c r n = .ok (pf, cov2, m) ∧ m ≤ n := by
  have hpos := (brs_probs_ok hc).2.2
  rw [← pU_eq, ← pfLow_eq] at hb
  rw [← pfLow_eq] at hf
  obtain ⟨st, hst⟩ := mcsLoop_ok hc hr hn (fun m k hm hk => by
    have h2 := cov2_le hf hpos.le (n := m) (k := k) (by omega) hk
    unfold mcsGoOn
    simp only [decide_eq_false_iff_not, not_or, not_lt]
    refine ⟨h0.le, h2.trans ?_⟩
    have hn' : (0 : ℚ) < n := by exact_mod_cast (show 0 < n by omega)
    have hm' : (n : ℚ) ≤ m := by exact_mod_cast hm
    rw [div_le_iff₀ (by nlinarith [sq_pos_of_pos hf])]
    have : 0 ≤ c.pfLow ^ 2 * c.covT ^ 2 := by positivity
    nlinarith) (fuel := n) (mcsInv_zero _) (by simp)
  have h10 := mcsLoop_ten h1 (mcsInv_zero _) hst
  have hle := mcsLoop_nsamp (mcsInv_zero _) hst
  refine ⟨st.pf, st.cov2, st.nsamp, ?_, by simpa using hle⟩
  unfold mcsUnknownSimple mcsRun
  rw [hst, ok_bind, if_neg (by omega)]
  rfl

/-- More fuel does not change the result: it is that of the unbounded loop. -/
theorem C51_fuel {r : ℕ → ℕ → ℚ} {fuel : ℕ} {x : ℚ × ℚ × ℕ}
    (h : mcsUnknownSimple c r fuel = .ok x) (k : ℕ) :
    mcsUnknownSimple c r (fuel + k) = .ok x := by
  unfold mcsUnknownSimple mcsRun at h ⊢
  simp only [bind_ok] at h ⊢
  obtain ⟨st, ⟨st0, h1, h2⟩, h3⟩ := h
  exact ⟨st, ⟨st0, mcsLoop_more h1 k, h2⟩, h3⟩

/-- Without a known failure probability the simulation of a system that never fails in the
unspecified branches goes on for ever: no number of iterations is enough. -/
theorem C51_not_terminates (hc : McsOK c) (hf : failMass c.brs = 0)
    (hs : ∀ x, (c.sysFun x).st ≠ .f) (hcov : c.covT < 1) {r : ℕ → ℕ → ℚ} (hr : Uniform r)
    (fuel : ℕ) : mcsUnknownSimple c r fuel = .error .fuel := by
  have hpos := (brs_probs_ok hc).2.2
  unfold mcsUnknownSimple mcsRun
  rw [mcsLoop_fuel hc hr (P := fun _ => True) (fun _ _ _ => trivial) _ fuel (mcsInv_zero _)]
  · rfl
  intro st hi
  have h0 : st.nfail = 0 := by
    rw [hi.fail, List.countP_eq_zero]
    intro s hm h
    exact hs _ ((hi.flag s hm).2.1 h)
  by_cases hn : 9 < st.nsamp
  · have hl := hi.late hn
    rw [pfLow_eq, hf, h0] at hl
    have := goOn_zero hpos hn hcov
    rw [← hl] at this
    exact this
  · rw [hi.early (by omega)]
    unfold mcsGoOn
    simp only [decide_eq_true_eq]
    by_cases h : c.covT < 0
    · exact .inl h
    · right
      nlinarith

/-- What the simulation refuses: no unspecified branch; components with three or more states left
open in the unspecified branches, or two states whose probabilities do not add up to one; a target
of one or more (an unbound variable). -/
theorem C51_refused {r : ℕ → ℕ → ℚ} (hr : Uniform r) {fuel : ℕ} :
    ((∀ b ∈ c.brs, ¬ Unspec b) → c.covT < 1 → mcsUnknownSimple c r (fuel + 1) = .error .value) ∧
    ((∀ b ∈ c.brs, Unspec b → ∃ e ∈ c.names, b.down e + 1 < b.up e ∨
      (b.up e = b.down e + 1 ∧ c.probs e (b.down e) + c.probs e (b.up e) ≠ 1)) → c.covT < 1 →
      mcsUnknownSimple c r (fuel + 1) = .error .value) ∧
    (1 ≤ c.covT → mcsUnknownSimple c r fuel = .error .unbound) := by
  have key : (∀ b ∈ c.brs, Unspec b → ∃ e ∈ c.names, b.down e + 1 < b.up e ∨
      (b.up e = b.down e + 1 ∧ c.probs e (b.down e) + c.probs e (b.up e) ≠ 1)) → c.covT < 1 →
      mcsUnknownSimple c r (fuel + 1) = .error .value := by
    intro hb hcov
    unfold mcsUnknownSimple mcsRun mcsLoop
    rw [if_pos]
    · unfold mcsStep
      rw [drawSample_refused (fun j => (hr _ j).2) hb]
      rfl
    · unfold mcsGoOn
      simp only [decide_eq_true_eq]
      by_cases h : c.covT < 0
      · exact .inl h
      · right
        show c.covT ^ 2 < 1
        nlinarith
  refine ⟨fun hn => key fun b hb hu => absurd hu (hn b hb), key, fun hcov => ?_⟩
  have hg : mcsGoOn c.covT ({} : McsState).cov2 = false := by
    unfold mcsGoOn
    simp only [decide_eq_false_iff_not, not_or, not_lt]
    constructor <;> nlinarith
  unfold mcsUnknownSimple mcsRun
  have : mcsLoop c r fuel {} = .ok {} := by
    cases fuel <;> unfold mcsLoop <;> rw [if_neg (by rw [hg]; simp)]
  rw [this]
  rfl

namespace Ex

/-- Two components with two states; the system fails, according to the first branch, if component 0
does, and is unknown otherwise (`q` is the state of the first branch). -/
def mcsCase (q : St) : McsCfg ℕ where
  names := [0, 1]
  brs := [⟨fun _ => 0, fun k => if k = 0 then 0 else 1, q, q, 1 / 4⟩,
    ⟨fun k => if k = 0 then 1 else 0, fun _ => 1, .u, .s, 3 / 4⟩]
  probs := fun _ i => if i = 0 then 1 / 4 else 3 / 4
  sysFun := fun _ => { val := 0, st := .s, min := [] }
  covT := 1 / 2

theorem mcsCase_ok (q : St) : McsOK (mcsCase q) where
  nonneg := by
    intro b hb
    simp only [mcsCase, List.mem_cons, List.not_mem_nil, or_false] at hb
    rcases hb with rfl | rfl <;> norm_num
  some := ⟨⟨fun k => if k = 0 then 1 else 0, fun _ => 1, .u, .s, 3 / 4⟩, by simp [mcsCase],
    .inl rfl, by norm_num⟩
  two := by
    intro b hb _ e he
    simp only [mcsCase, List.mem_cons, List.not_mem_nil, or_false] at hb he
    rcases hb with rfl | rfl <;> rcases he with rfl | rfl <;> simp [TwoState, mcsCase] <;> norm_num

end Ex

/-- Non-vacuity of termination: ten samples are enough, whatever the uniform numbers. -/
example {r : ℕ → ℕ → ℚ} (hr : Uniform r) :
    ∃ pf cov2 m, mcsUnknownSimple (Ex.mcsCase .f) r 10 = .ok (pf, cov2, m) ∧ m ≤ 10 :=
  C51_terminates (Ex.mcsCase_ok .f) (by decide +kernel) (by decide +kernel) (by decide +kernel) le_rfl
    (by decide +kernel) hr

/-- Non-vacuity of the opposite: without the known failures it goes on for ever. -/
example {r : ℕ → ℕ → ℚ} (hr : Uniform r) (fuel : ℕ) :
    mcsUnknownSimple (Ex.mcsCase .s) r fuel = .error .fuel :=
  C51_not_terminates (Ex.mcsCase_ok .s) (by decide +kernel) (by simp [Ex.mcsCase])
    (by decide +kernel) hr fuel

end BNS
