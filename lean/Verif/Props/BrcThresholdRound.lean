import Verif.Props.BrcThreshold
import Verif.Props.BrcReuseRound

/-!
# Property C111 in floating-point arithmetic
-/

namespace BNS

set_option linter.unusedSectionVars false

section
variable {K : Type} [DecidableEq K] {Φ Φ₁ Φ₂ : (K → ℕ) → Bool} {A A1 A2 : Arith} {F : ℚ → Prop}
  {ε η : ℚ}

theorem evals_coveredR {c : RunCfg K} (hc : SysCfgOK c Φ) {rules : Rules K}
    {brs : Option (List (Branch K))} (hs : StartOKR c Φ (fun _ => True) rules brs) {st : RunState K}
    (h : runR A c rules brs = .ok st) : ∀ x ∈ st.evals, InSpace c.vs x ∧
      (Φ x = true → CoveredS st.rules x) ∧ (Φ x = false → CoveredF st.rules x) := by
  obtain ⟨st1, h1, rfl⟩ := runR_eq h
  obtain ⟨hi, -⟩ := runR_inv hc (kept_true A c.vs c.probs) hs h1
  have hv := hi.start.valid
  have key : ∀ x ∈ st1.evals, InSpace c.vs x ∧
      (Φ x = true → CoveredS st1.rules x) ∧ (Φ x = false → CoveredF st1.rules x) := by
    intro x hx
    obtain ⟨hin, hcov⟩ := hi.evals x hx
    refine ⟨hin, fun ht => ?_, fun ht => ?_⟩
    · rcases hcov with e | ⟨r, hr, ha⟩
      · exact e
      · rw [hv.f r hr x hin ha] at ht
        cases ht
    · rcases hcov with ⟨r, hr, ha⟩ | e
      · rw [hv.s r hr x hin ha] at ht
        cases ht
      · exact e
  split <;> exact key

theorem runR_uncovered {c : RunCfg K} (hc : SysCfgOK c Φ)
    (hm : c.activeDecomp = true ∨ 2 * (c.vs.map Prod.snd).prod ≤ c.maxNb) {rules : Rules K}
    {brs : Option (List (Branch K))} (hs : StartOKR c Φ (fun _ => True) rules brs) {st : RunState K}
    (h : runR A c rules brs = .ok st) : ∀ x ∈ st.evals, getState x rules = .u := by
  obtain ⟨st1, h1, rfl⟩ := runR_eq h
  have key : ∀ x ∈ st1.evals, getState x rules = .u := by
    refine (runLoopR_ind hc (kept_true A c.vs c.probs)
      (fun _ st => Grows rules st.rules ∧ ∀ x ∈ st.evals, getState x rules = .u)
      (fun st => ∀ x ∈ st.evals, getState x rules = .u) ?_ (fun _ _ h => h.2)
      (fun _ _ _ _ _ h _ _ => h.2) (fun _ _ _ _ _ _ _ h _ _ _ => h.2) (runInvR_init hs)
      ⟨⟨fun _ h => h, fun _ h => h⟩, by simp⟩ h1).1
    intro r st trunc brs x st' hv ⟨hG, hI⟩ hd hu hstep
    refine ⟨⟨fun y hy => hstep.grows.1 y (hG.1 y hy), fun y hy => hstep.grows.2 y (hG.2 y hy)⟩, ?_⟩
    rw [hstep.evals]
    intro y hy
    rcases List.mem_append.1 hy with hy | hy
    · exact hI y hy
    · rw [List.mem_singleton] at hy
      subst hy
      obtain ⟨h2, h3⟩ := getState_u.1 (unknown_uncoveredR hc hm hd hu)
      exact getState_u.2 ⟨fun h => h2 (hG.1 _ h), fun h => h3 (hG.2 _ h)⟩
  split <;> exact key

/-- `C111_between` with any arithmetic in the earlier runs and accurate arithmetic in the last: its
bounds are valid for its own requirement up to the tolerance of C102, and no vector already found to
survive the stricter or fail the looser requirement is evaluated. -/
theorem C111_tolerance_partial {c₁ c₂ c : RunCfg K} (hc₁ : SysCfgOK c₁ Φ₁) (hc₂ : SysCfgOK c₂ Φ₂)
    (hc : SysCfgOK c Φ) (e₁ : c₁.vs = c.vs) (e₂ : c₂.vs = c.vs)
    (h₁ : ∀ x, InSpace c.vs x → Φ₁ x = true → Φ x = true)
    (h₂ : ∀ x, InSpace c.vs x → Φ x = true → Φ₂ x = true)
    (hm : c.activeDecomp = true ∨ 2 * (c.vs.map Prod.snd).prod ≤ c.maxNb)
    {r₁ r₂ : Rules K} {b₁ b₂ : Option (List (Branch K))}
    (hs₁ : StartOKR c₁ Φ₁ (fun _ => True) r₁ b₁) (hs₂ : StartOKR c₂ Φ₂ (fun _ => True) r₂ b₂)
    {st₁ st₂ st : RunState K} (hr₁ : runR A1 c₁ r₁ b₁ = .ok st₁) (hr₂ : runR A2 c₂ r₂ b₂ = .ok st₂)
    (hA : A.Within F ε η) {pr : K → ℕ → ℚ} (hp : ProbOK c.vs pr)
    (hn : NearProbs F ε c.vs c.probs pr)
    (h : runR A c { s := st₁.rules.s, f := st₂.rules.f } none = .ok st) :
    (∀ row ∈ st.mon, row.pfLow - tolerance ε η c.vs row.noBr ≤ pFail c.vs pr Φ ∧
      pFail c.vs pr Φ ≤ row.pfUp + tolerance ε η c.vs row.noBr) ∧
    (∀ x ∈ st₁.evals, Φ₁ x = true → ∀ y ∈ st.evals, ∃ kn ∈ c.vs, x kn.1 ≠ y kn.1) ∧
    (∀ x ∈ st₂.evals, Φ₂ x = false → ∀ y ∈ st.evals, ∃ kn ∈ c.vs, x kn.1 ≠ y kn.1) := by
  have s₁ := startR_rules hc₁ hs₁ hr₁ (c' := c) e₁.symm fun _ => True
  have s₂ := startR_rules hc₂ hs₂ hr₂ (c' := c) e₂.symm fun _ => True
  have hs := start_between s₁.dict s₂.dict s₁.valid s₂.valid h₁ h₂ (c := c) rfl
  have hsR : ∀ N : Branch K → Prop, StartOKR c Φ N { s := st₁.rules.s, f := st₂.rules.f } none :=
    fun N => ⟨hs.dict, hs.valid, by simp, by simp, by simp⟩
  have hun := runR_uncovered hc hm (hsR _) h
  refine ⟨fun row hr => ?_, fun x hx ht y hy => ?_, fun x hx ht y hy => ?_⟩
  · have := (C102_bounds_partial hc hA hp hn (hsR _) h).1 row hr
    exact ⟨this.1, this.2.1⟩
  · by_contra hno
    push Not at hno
    refine (getState_u.1 (hun y hy)).1 ((getState_congr hs.dict hno).1.1 ?_)
    exact (evals_coveredR hc₁ hs₁ hr₁ x hx).2.1 ht
  · by_contra hno
    push Not at hno
    refine (getState_u.1 (hun y hy)).2 ((getState_congr hs.dict hno).2.1 ?_)
    exact (evals_coveredR hc₂ hs₂ hr₂ x hx).2.2 ht

end

/-- Two components of which one suffices, failing with probability 0.1 and 0.2, as Python stores
them. -/
def Ex.floatEither : RunCfg ℕ := { Ex.floatSeries with sysFun := Ex.either.sysFun }

theorem Ex.floatEither_ok : SysCfgOK Ex.floatEither Ex.eitherΦ :=
  ⟨Ex.either_ok.vs, Ex.either_ok.coh, Ex.either_ok.sys⟩

/-- Non-vacuity of `C111_tolerance_partial`: survival rules of an exact run for the series system,
failure rules of a run in doubles, and a run in doubles that starts with both, ends `complete` and
evaluates two vectors. -/
example : ∃ st₁ st₂ st, runR Arith.exact Ex.halves { s := [], f := [] } none = .ok st₁ ∧
    runR (Arith.ofRound float64) Ex.floatEither { s := [], f := [] } none = .ok st₂ ∧
    runR (Arith.ofRound float64) Ex.floatEither { s := st₁.rules.s, f := st₂.rules.f } none = .ok st ∧
    st.outFlag = some .complete ∧ st.evals.map (fun x => (x 0, x 1)) = [(1, 0), (0, 1)] ∧
    ∀ row ∈ st.mon,
      row.pfLow - tolerance ((2 : ℚ) ^ (-53 : ℤ)) ((2 : ℚ) ^ (-1075 : ℤ)) Ex.floatEither.vs row.noBr ≤
        pFail Ex.floatEither.vs Ex.tenths Ex.eitherΦ ∧
      pFail Ex.floatEither.vs Ex.tenths Ex.eitherΦ ≤
        row.pfUp + tolerance ((2 : ℚ) ^ (-53 : ℤ)) ((2 : ℚ) ^ (-1075 : ℤ)) Ex.floatEither.vs
          row.noBr := by
  have hk : ((runR Arith.exact Ex.halves { s := [], f := [] } none).bind fun st₁ =>
      (runR (Arith.ofRound float64) Ex.floatEither { s := [], f := [] } none).bind fun st₂ =>
        runR (Arith.ofRound float64) Ex.floatEither { s := st₁.rules.s, f := st₂.rules.f }
          none).toOption.map (fun st => (st.outFlag, st.evals.map fun x => (x 0, x 1))) =
      some (some .complete, [(1, 0), (0, 1)]) := by decide +kernel
  cases h1 : runR Arith.exact Ex.halves { s := [], f := [] } none with
  | error e => rw [h1] at hk; cases hk
  | ok st₁ =>
    rw [h1] at hk
    simp only [Except.bind] at hk
    cases h2 : runR (Arith.ofRound float64) Ex.floatEither { s := [], f := [] } none with
    | error e => rw [h2] at hk; cases hk
    | ok st₂ =>
      rw [h2] at hk
      simp only at hk
      cases h : runR (Arith.ofRound float64) Ex.floatEither
          { s := st₁.rules.s, f := st₂.rules.f } none with
      | error e => rw [h] at hk; cases hk
      | ok st =>
        rw [h] at hk
        simp only [Except.toOption, Option.map_some, Option.some.injEq, Prod.mk.injEq] at hk
        exact ⟨st₁, st₂, st, rfl, rfl, h, hk.1, hk.2,
          (C111_tolerance_partial Ex.halves_ok Ex.floatEither_ok Ex.floatEither_ok rfl rfl Ex.looser
            (fun _ _ h => h) (.inl rfl) (Ex.startR_empty _ _) (Ex.startR_empty _ _) h1 h2
            C102_float64 Ex.tenths_ok Ex.tenths_near h).1⟩

end BNS
