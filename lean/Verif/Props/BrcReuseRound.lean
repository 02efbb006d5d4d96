import Verif.Props.BrcReuse
import Verif.Props.SysNetUnder

/-!
# Property C110 in floating-point arithmetic
-/

namespace BNS

set_option linter.unusedSectionVars false

section
variable {K : Type} [DecidableEq K] {Φ : (K → ℕ) → Bool} {A A1 : Arith} {F : ℚ → Prop} {ε η : ℚ}

theorem startR_rules {c : RunCfg K} (hc : SysCfgOK c Φ) {rules : Rules K}
    {brs : Option (List (Branch K))} (hs : StartOKR c Φ (fun _ => True) rules brs)
    {st : RunState K} (h : runR A1 c rules brs = .ok st) {c' : RunCfg K} (hvs : c'.vs = c.vs)
    (N : Branch K → Prop) : StartOKR c' Φ N st.rules none := by
  obtain ⟨st1, h1, rfl⟩ := runR_eq h
  obtain ⟨hi, -⟩ := runR_inv hc (kept_true A1 c.vs c.probs) hs h1
  have e1 := hi.start.dict
  have e2 := hi.start.valid
  rw [← hvs] at e1 e2
  split <;> exact ⟨e1, e2, by simp, by simp, by simp⟩

theorem unknown_uncoveredR {N : Branch K → Prop} {c : RunCfg K} (hc : SysCfgOK c Φ)
    (hm : c.activeDecomp = true ∨ 2 * (c.vs.map Prod.snd).prod ≤ c.maxNb) {st : RunState K}
    {trunc} {brs : List (Branch K)}
    (hd : DecompOutR c.vs Φ N st.rules c.maxNb (c.startBrs st) brs trunc) {x : K → ℕ}
    (hu : UnknownEnd brs x) : getState x st.rules = .u := by
  obtain ⟨b, hb, h⟩ := hu
  rcases hm with ha | hm
  · have he := hd.exact (by unfold RunCfg.startBrs; rw [if_pos ha]) b hb
    rcases h with ⟨rfl, h⟩ | ⟨rfl, h⟩
    · rw [← he.2, h]
    · rw [← he.1, h]
  · have ht : trunc = false := by
      cases trunc with
      | false => rfl
      | true =>
        have := hd.limit rfl
        have := partition_length hc.vs hd.part
        unfold spaceSize at this
        omega
    have hnew := hd.new ht b hb
    rcases h with ⟨rfl, h⟩ | ⟨rfl, h⟩
    · exact hnew.2 h
    · exact hnew.1 h

/-- The rules of a complete run with enough branches decide every component vector, whatever the
arithmetic. -/
theorem completeR_covered {c : RunCfg K} (hc : SysCfgOK c Φ) {rules : Rules K}
    {brs : Option (List (Branch K))} (hs : StartOKR c Φ (fun _ => True) rules brs)
    (hb : ResumeOK c rules brs) (hm : 2 * (c.vs.map Prod.snd).prod ≤ c.maxNb) {st : RunState K}
    (h : runR A1 c rules brs = .ok st) (hf : st.outFlag = some .complete) {x : K → ℕ}
    (hx : InSpace c.vs x) : getState x st.rules ≠ .u := by
  obtain ⟨st1, h1, rfl⟩ := runR_eq h
  have key : st1.outFlag = some .complete → ∀ x, InSpace c.vs x → getState x st1.rules ≠ .u := by
    refine (runLoopR_ind hc (kept_true A1 c.vs c.probs)
      (fun _ st => st.outFlag ≠ some .complete ∧ CovInv c st)
      (fun st => st.outFlag = some .complete → ∀ x, InSpace c.vs x → getState x st.rules ≠ .u)
      ?_ ?_ ?_ ?_ (runInvR_init hs)
      ⟨by simp, fun ha bs hbs b hm => (hb ha bs hbs b hm).1⟩ h1).1
    · intro r st trunc brs x st' hv hI hd hu hstep
      refine ⟨?_, ?_⟩
      · rw [hstep.flag]
        split <;> simp
      · intro _ bs hbs b hb
        rw [hstep.brs] at hbs
        injection hbs with hbs
        subst hbs
        exact hstep.grows.cov (hd.cov hI.2.start b hb)
    · intro st _ hI hf
      exact absurd hf hI.1
    · intro r st trunc brs hv hI hd hno _ x hx
      have ht : trunc = false := by
        cases trunc with
        | false => rfl
        | true =>
          have := hd.limit rfl
          have := partition_length hc.vs hd.part
          unfold spaceSize at this
          omega
      subst ht
      obtain ⟨b, hb, hin⟩ := hd.part.exists hx
      have hbox := hd.part.1 b hb
      have he := (uniform_of_exact hbox hv.start.dict hv.start.valid
        (exact_of_cov_new hv.start.valid hbox (hd.cov hI.2.start b hb) (hd.new rfl b hb))
        (hd.done rfl b hb) hin).1
      rw [he]
      exact (hno b hb).1
    · intro r st trunc brs x flag hv hI hd hu hfl hf
      simp only [Option.some.injEq] at hf
      subst hf
      simp at hfl
  split at hf <;> split <;> exact key hf x hx

/-- The same as `C110_no_evaluation` with any arithmetic in either run. -/
theorem C110_any_arithmetic {c c' : RunCfg K} (hc : SysCfgOK c Φ) (hc' : SysCfgOK c' Φ)
    (hvs : c'.vs = c.vs) (h0' : 0 < c'.maxSf)
    (hm : 2 * (c.vs.map Prod.snd).prod ≤ c.maxNb)
    (hm' : c'.activeDecomp = true ∨ 2 * (c.vs.map Prod.snd).prod ≤ c'.maxNb) {rules : Rules K}
    {brs : Option (List (Branch K))} (hs : StartOKR c Φ (fun _ => True) rules brs)
    (hb : ResumeOK c rules brs) {st st' : RunState K} (h : runR A1 c rules brs = .ok st)
    (hf : st.outFlag = some .complete) (h' : runR A c' st.rules none = .ok st') :
    st'.evals = [] ∧ st'.rules = st.rules ∧ st'.outFlag = some .complete := by
  have hs' := startR_rules hc hs h hvs fun _ => True
  have hno : ∀ x, InSpace c'.vs x → getState x st.rules ≠ .u :=
    fun x hx => completeR_covered hc hs hb hm h hf (hvs ▸ hx)
  obtain ⟨st1, h1, rfl⟩ := runR_eq h'
  have key : st1.evals = [] ∧ st1.rules = st.rules ∧ st1.outFlag = some .complete := by
    refine (runLoopR_ind hc' (kept_true A c'.vs c'.probs)
      (fun r s => 0 < r ∧ s.evals = [] ∧ s.rules = st.rules)
      (fun s => s.evals = [] ∧ s.rules = st.rules ∧ s.outFlag = some .complete)
      ?_ (fun _ _ h => absurd h.1 (lt_irrefl _)) (fun _ _ _ _ _ h _ _ => ⟨h.2.1, h.2.2, rfl⟩) ?_
      (runInvR_init hs') ⟨h0', rfl, rfl⟩ h1).1
    · intro r s trunc bs x s' hv hI hd hu hstep
      have hun := unknown_uncoveredR hc' (by rw [hvs]; exact hm') hd hu
      rw [hI.2.2] at hun
      exact absurd hun (hno x (hu.inSpace hd.part.1))
    · intro r s trunc bs x flag hv hI hd hu hfl
      have hun := unknown_uncoveredR hc' (by rw [hvs]; exact hm') hd hu
      rw [hI.2.2] at hun
      exact absurd hun (hno x (hu.inSpace hd.part.1))
  split <;> exact key

/-- With the rules of a complete run and other component probabilities, both bounds of the second
run, computed with accurate arithmetic, are the new failure probability up to the tolerance of C102.
Missing for the full claim: as for `C110_exact_partial`. -/
theorem C110_tolerance_partial {c c' : RunCfg K} (hc : SysCfgOK c Φ) (hc' : SysCfgOK c' Φ)
    (hvs : c'.vs = c.vs) (h0' : 0 < c'.maxSf)
    (hm : 2 * (c.vs.map Prod.snd).prod ≤ c.maxNb)
    (hm' : 2 * (c.vs.map Prod.snd).prod ≤ c'.maxNb) {rules : Rules K}
    {brs : Option (List (Branch K))} (hs : StartOKR c Φ (fun _ => True) rules brs)
    (hb : ResumeOK c rules brs) {st : RunState K} (h : runR A1 c rules brs = .ok st)
    (hf : st.outFlag = some .complete) (hA : A.Within F ε η) {pr : K → ℕ → ℚ}
    (hp : ProbOK c'.vs pr) (hn : NearProbs F ε c'.vs c'.probs pr) :
    ∃ st' row, runR A c' st.rules none = .ok st' ∧ st'.evals = [] ∧ st'.outFlag = some .complete ∧
      st'.mon.getLast? = some row ∧
      |row.pfLow - pFail c'.vs pr Φ| ≤ tolerance ε η c'.vs row.noBr ∧
      |row.pfUp - pFail c'.vs pr Φ| ≤ tolerance ε η c'.vs row.noBr := by
  have hm2 : 2 * (c'.vs.map Prod.snd).prod ≤ c'.maxNb := by rw [hvs]; exact hm'
  obtain ⟨st', h'⟩ := C102_returns_other (A := A) hc' hm2 (startR_rules hc hs h hvs fun _ => True)
    (resume_none _ _)
  obtain ⟨k1, -, k3⟩ := C110_any_arithmetic hc hc' hvs h0' hm (.inr hm') hs hb h hf h'
  obtain ⟨row, e1, e2, e3⟩ := C102_exact hc' hA hp hn
    (startR_rules hc hs h hvs (PNear F ε η c'.vs pr)) (resume_none _ _) hm2 h' k3
  exact ⟨st', row, h', k1, k3, e1, e2, e3⟩

end

/-- The series system: rules from an exact run with probabilities 1/2, then doubles for 0.1 and 0.2. -/
example : ∃ st st' row, runR Arith.exact Ex.halves { s := [], f := [] } none = .ok st ∧
    runR (Arith.ofRound float64) Ex.floatSeries st.rules none = .ok st' ∧ st'.evals = [] ∧
    st'.mon.getLast? = some row ∧
    |row.pfLow - pFail Ex.floatSeries.vs Ex.tenths Ex.seriesΦ| ≤
      tolerance ((2 : ℚ) ^ (-53 : ℤ)) ((2 : ℚ) ^ (-1075 : ℤ)) Ex.floatSeries.vs row.noBr := by
  have h1 : (runR Arith.exact Ex.halves { s := [], f := [] } none).toOption.map
      (fun st => st.outFlag) = some (some .complete) := by
    decide +kernel
  obtain ⟨st, h⟩ := C102_returns (A := Arith.exact) Ex.halves_ok rfl (Ex.startR_empty _ _)
  rw [h] at h1
  simp only [Except.toOption, Option.map_some, Option.some.injEq] at h1
  obtain ⟨st', row, e1, e2, -, e4, e5, -⟩ := C110_tolerance_partial Ex.halves_ok
    Ex.floatSeries_ok rfl (by decide) (by decide) (by decide) (Ex.startR_empty _ _)
    (resume_none _ _) h h1 C102_float64 Ex.tenths_ok Ex.tenths_near
  exact ⟨st, st', row, h, e1, e2, e4, e5⟩

end BNS
