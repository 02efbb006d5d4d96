import Verif.Props.BrcLocal

/-!
# Property C115 in floating-point arithmetic
-/

namespace BNS

set_option linter.unusedSectionVars false

section
variable {K : Type} [DecidableEq K] {Φ : (K → ℕ) → Bool} {A : Arith} {F : ℚ → Prop} {ε η : ℚ}

open Classical in
/-- In floating-point arithmetic the bounds hold, up to the tolerance of C102, for every coherent system
that agrees with the answers the run has seen. -/
theorem C115_tolerance {c : RunCfg K} (hv : VarisOK c.vs) (hA : A.Within F ε η) {p : K → ℕ → ℚ}
    (hp : ProbOK c.vs p) (hn : NearProbs F ε c.vs c.probs p)
    {rules : Rules K} {brs : Option (List (Branch K))} {st : RunState K}
    (h : runR A c rules brs = .ok st) (hcoh : Coherent c.vs Φ)
    (hs : StartOKR c Φ (PNear F ε η c.vs p) rules brs)
    (hst : ∀ x ∈ st.evals, (c.sysFun x).st = if Φ x then .s else .f)
    (hmin : ∀ x ∈ st.evals, (c.sysFun x).min ≠ [] → RuleOK c.vs (c.sysFun x).min ∧
      (Φ x = true → ValidS c.vs Φ (c.sysFun x).min ∧ AppliesS (c.sysFun x).min x) ∧
      (Φ x = false → ValidF c.vs Φ (c.sysFun x).min ∧ AppliesF (c.sysFun x).min x)) :
    ∀ row ∈ st.mon, row.pfLow - tolerance ε η c.vs row.noBr ≤ pFail c.vs p Φ ∧
      pFail c.vs p Φ ≤ row.pfUp + tolerance ε η c.vs row.noBr := by
  have h2 := C115_local (f := fun x => if x ∈ st.evals then c.sysFun x
    else ⟨0, if Φ x then .s else .f, []⟩) h (fun x hx => by simp [hx])
  intro row hr
  have := (C102_bounds_partial (c := c.withSys fun x => if x ∈ st.evals then c.sysFun x
    else ⟨0, if Φ x then .s else .f, []⟩) ⟨hv, hcoh, sysOK_patch hst hmin⟩ hA hp hn
    ⟨hs.dict, hs.valid, hs.part, hs.labels, hs.near⟩ h2).1 row hr
  exact ⟨this.1, this.2.1⟩

end

/-- The system of `Ex.equal`, which is not coherent, with the probabilities as Python stores them. -/
def Ex.floatEqual : RunCfg ℕ := { Ex.floatSeries with sysFun := Ex.equal.sysFun }

/-- Non-vacuity of `C115_tolerance`: a run in doubles with a system function that is not coherent and the
series system, with which it agrees at the three vectors it evaluated. -/
example : ∃ st, runR (Arith.ofRound float64) Ex.floatEqual { s := [], f := [] } none = .ok st ∧
    st.evals.length = 3 ∧ ∀ row ∈ st.mon,
      row.pfLow - tolerance ((2 : ℚ) ^ (-53 : ℤ)) ((2 : ℚ) ^ (-1075 : ℤ)) Ex.floatEqual.vs row.noBr ≤
        pFail Ex.floatEqual.vs Ex.tenths Ex.seriesΦ ∧
      pFail Ex.floatEqual.vs Ex.tenths Ex.seriesΦ ≤
        row.pfUp + tolerance ((2 : ℚ) ^ (-53 : ℤ)) ((2 : ℚ) ^ (-1075 : ℤ)) Ex.floatEqual.vs
          row.noBr := by
  have k : (runR (Arith.ofRound float64) Ex.floatEqual { s := [], f := [] } none).toOption.map
      (fun st => (st.evals.length,
        st.evals.all fun x => decide ((x 0 = x 1) ↔ (1 ≤ x 0 ∧ 1 ≤ x 1)))) = some (3, true) := by
    decide +kernel
  cases h : runR (Arith.ofRound float64) Ex.floatEqual { s := [], f := [] } none with
  | error e => rw [h] at k; cases k
  | ok st =>
    rw [h] at k
    simp only [Except.toOption, Option.map_some, Option.some.injEq, Prod.mk.injEq,
      decide_eq_true_eq, List.all_eq_true] at k
    refine ⟨st, rfl, k.1, C115_tolerance (c := Ex.floatEqual) Ex.floatSeries_ok.vs C102_float64 Ex.tenths_ok
      Ex.tenths_near h Ex.floatSeries_ok.coh (Ex.startR_empty _ _) (fun x hx => ?_)
      (fun x _ hm => absurd rfl hm)⟩
    have := k.2 x hx
    by_cases hq : x 0 = x 1
    · simp [Ex.floatEqual, Ex.equal, Ex.seriesΦ, hq, this.mp hq]
    · have hn : ¬(1 ≤ x 0 ∧ 1 ≤ x 1) := fun hc => hq (this.mpr hc)
      unfold Ex.seriesΦ
      rw [decide_eq_false hn]
      simp [Ex.floatEqual, Ex.equal, hq]

#print axioms C115_tolerance

end BNS
