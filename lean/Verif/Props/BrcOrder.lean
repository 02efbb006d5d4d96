import Verif.Proofs.BrcOrder
import Verif.Props.BrcDominance

/-!
# Property C114: the order of the components, and components that do not matter
-/

namespace BNS

set_option linter.unusedSectionVars false

section
variable {K : Type} [DecidableEq K] {Φ : (K → ℕ) → Bool} {A A' : Arith} {F F' : ℚ → Prop}
  {ε η ε' η' : ℚ}

theorem coherent_congr {vs : List (K × ℕ)} (h : Coherent vs Φ) (x y : K → ℕ)
    (hxy : ∀ kn ∈ vs, x kn.1 = y kn.1) (hx : Φ x = false) : Φ y = false := by
  by_contra hy
  rw [Bool.not_eq_false] at hy
  rw [h y x (fun kn hk => (hxy kn hk).ge) hy] at hx
  cases hx

/-- The bounds of two analyses of the same system, with the components in another order, further
components the system does not look at, and other limits, options, rules and branches, overlap. -/
theorem C114_bounds {c c' : RunCfg K} {extra : List (K × ℕ)} (hc : CfgOK c Φ) (hc' : CfgOK c' Φ)
    (hperm : c'.vs.Perm (c.vs ++ extra))
    (hpp : ∀ kn ∈ c.vs, ∀ i < kn.2, c'.probs kn.1 i = c.probs kn.1 i) {r r' : Rules K}
    {b b' : Option (List (Branch K))} (hs : StartOK c Φ r b) (hs' : StartOK c' Φ r' b')
    {st st' : RunState K} (h : run c r b = .ok st) (h' : run c' r' b' = .ok st') :
    pFail c'.vs c'.probs Φ = pFail c.vs c.probs Φ ∧
    ∀ row ∈ st.mon, ∀ row' ∈ st'.mon, row.pfLow ≤ row'.pfUp ∧ row'.pfLow ≤ row.pfUp := by
  have e : pFail c'.vs c'.probs Φ = pFail c.vs c.probs Φ :=
    probOf_extra hperm hc'.vs hc'.probs hpp (coherent_congr hc.coh)
  refine ⟨e, fun row hr row' hr' => ?_⟩
  have h1 := (C27_bounds hc hs h).1 row hr
  have h2 := (C27_bounds hc' hs' h').1 row' hr'
  rw [e] at h2
  exact ⟨h1.1.trans h2.2, h2.1.trans h1.2⟩

/-- Complete analyses with enough branches report the same number.  Missing: branch limits that are
reached (`C28_complete_not_exact`), and runs that are not complete (`C114_not_unfinished`). -/
theorem C114_exact_partial {c c' : RunCfg K} {extra : List (K × ℕ)} (hc : CfgOK c Φ)
    (hc' : CfgOK c' Φ) (hperm : c'.vs.Perm (c.vs ++ extra))
    (hpp : ∀ kn ∈ c.vs, ∀ i < kn.2, c'.probs kn.1 i = c.probs kn.1 i)
    (hm : 2 * (c.vs.map Prod.snd).prod ≤ c.maxNb) (hm' : 2 * (c'.vs.map Prod.snd).prod ≤ c'.maxNb)
    {r r' : Rules K} {b b' : Option (List (Branch K))} (hs : StartOK c Φ r b)
    (hs' : StartOK c' Φ r' b') (hb : ResumeOK c r b) (hb' : ResumeOK c' r' b')
    {st st' : RunState K} (h : run c r b = .ok st) (h' : run c' r' b' = .ok st')
    (hf : st.outFlag = some .complete) (hf' : st'.outFlag = some .complete) :
    ∃ row row', st.mon.getLast? = some row ∧ st'.mon.getLast? = some row' ∧
      row'.pfLow = row.pfLow ∧ row'.pfUp = row.pfUp := by
  have e := (C114_bounds hc hc' hperm hpp hs hs' h h').1
  obtain ⟨-, row, -, k1, -, k2, k3⟩ := C28_enough_branches_partial hc hs hb hm h hf
  obtain ⟨-, row', -, l1, -, l2, l3⟩ := C28_enough_branches_partial hc' hs' hb' hm' h' hf'
  exact ⟨row, row', k1, l1, by rw [l2, k2, e], by rw [l3, k3, e]⟩

/-- In floating-point arithmetic the bounds overlap up to the tolerances of C102. -/
theorem C114_tolerance {c c' : RunCfg K} {extra : List (K × ℕ)} (hc : SysCfgOK c Φ)
    (hc' : SysCfgOK c' Φ) (hperm : c'.vs.Perm (c.vs ++ extra)) (hA : A.Within F ε η)
    (hA' : A'.Within F' ε' η') {p p' : K → ℕ → ℚ} (hp : ProbOK c.vs p) (hp' : ProbOK c'.vs p')
    (hn : NearProbs F ε c.vs c.probs p) (hn' : NearProbs F' ε' c'.vs c'.probs p')
    (hpp : ∀ kn ∈ c.vs, ∀ i < kn.2, p' kn.1 i = p kn.1 i) {r r' : Rules K}
    {b b' : Option (List (Branch K))} (hs : StartOKR c Φ (PNear F ε η c.vs p) r b)
    (hs' : StartOKR c' Φ (PNear F' ε' η' c'.vs p') r' b') {st st' : RunState K}
    (h : runR A c r b = .ok st) (h' : runR A' c' r' b' = .ok st') :
    ∀ row ∈ st.mon, ∀ row' ∈ st'.mon,
      row.pfLow ≤ row'.pfUp + tolerance ε η c.vs row.noBr + tolerance ε' η' c'.vs row'.noBr ∧
      row'.pfLow ≤ row.pfUp + tolerance ε η c.vs row.noBr + tolerance ε' η' c'.vs row'.noBr := by
  have e : pFail c'.vs p' Φ = pFail c.vs p Φ :=
    probOf_extra hperm hc'.vs hp' hpp (coherent_congr hc.coh)
  intro row hr row' hr'
  obtain ⟨h1, h2, -⟩ := (C102_bounds_partial hc hA hp hn hs h).1 row hr
  obtain ⟨h3, h4, -⟩ := (C102_bounds_partial hc' hA' hp' hn' hs' h').1 row' hr'
  constructor <;> linarith

end

/-- The system of C112 with the components in another order, after one that does not matter if
`further` is set. -/
def Ex.bridgeRev (further : Bool) (m : ℕ) : RunCfg ℕ :=
  { Ex.bridge (1 / 2) m with vs := (if further then [(3, 2)] else []) ++ [(2, 2), (1, 2), (0, 2)] }

theorem Ex.bridgeRev_ok (further : Bool) (m : ℕ) : CfgOK (Ex.bridgeRev further m) Ex.bridgeΦ := by
  have hsub : ∀ kn ∈ (Ex.bridge (1 / 2) m).vs, kn ∈ (Ex.bridgeRev further m).vs := by
    cases further <;> simp [Ex.bridge, Ex.bridgeRev]
  have hv : VarisOK (Ex.bridgeRev further m).vs := by
    cases further <;> exact ⟨by simp [Ex.bridgeRev], by simp [Ex.bridgeRev]⟩
  have hp : ∀ g, ProbOK (Ex.bridgeRev g 0).vs (Ex.bridgeRev g 0).probs := by
    intro g
    cases g <;> exact ⟨by decide +kernel, by decide +kernel⟩
  refine ⟨hv, fun x y h hx => (Ex.bridge_sys (1 / 2) m).coh x y (fun kn hk => h kn (hsub kn hk)) hx,
    hp further, ?_⟩
  refine ⟨fun x _ => ?_, fun x _ h => absurd rfl h, fun x _ h => absurd rfl h,
    fun x _ h => absurd rfl h⟩
  by_cases h : 1 ≤ x 0 ∧ (1 ≤ x 1 ∨ 1 ≤ x 2) <;>
    simp [Ex.bridgeRev, Ex.bridge, Ex.bridgeΦ, h]

/-- With a limit on the evaluations the bounds depend on the order of the components: after four
evaluations they are 1/10 and 19/100 in one order and 0 and 29/200 in the other. -/
theorem C114_not_unfinished : ∃ (c c' : RunCfg ℕ) (Φ : (ℕ → ℕ) → Bool) (st st' : RunState ℕ)
    (row row' : MonRow), CfgOK c Φ ∧ CfgOK c' Φ ∧ c'.vs.Perm c.vs ∧ c'.probs = c.probs ∧
    c'.sysFun = c.sysFun ∧ c'.maxSf = c.maxSf ∧
    run c { s := [], f := [] } none = .ok st ∧ run c' { s := [], f := [] } none = .ok st' ∧
    st.mon.getLast? = some row ∧ st'.mon.getLast? = some row' ∧
    row'.pfLow < row.pfLow ∧ row'.pfUp < row.pfUp := by
  have k : (run (Ex.bridge (1 / 2) 4) { s := [], f := [] } none).toOption.map
      (fun st => st.mon.getLast?.map fun r => (r.pfLow, r.pfUp)) =
      some (some (1 / 10, 19 / 100)) := by decide +kernel
  have k' : (run (Ex.bridgeRev false 4) { s := [], f := [] } none).toOption.map
      (fun st => st.mon.getLast?.map fun r => (r.pfLow, r.pfUp)) = some (some (0, 29 / 200)) := by
    decide +kernel
  cases h : run (Ex.bridge (1 / 2) 4) { s := [], f := [] } none with
  | error e => rw [h] at k; cases k
  | ok st =>
    cases h' : run (Ex.bridgeRev false 4) { s := [], f := [] } none with
    | error e => rw [h'] at k'; cases k'
    | ok st' =>
      rw [h] at k
      rw [h'] at k'
      simp only [Except.toOption, Option.map_some, Option.some.injEq, Option.map_eq_some_iff,
        Prod.mk.injEq] at k k'
      obtain ⟨row, k1, k2, k3⟩ := k
      obtain ⟨row', l1, l2, l3⟩ := k'
      refine ⟨Ex.bridge (1 / 2) 4, Ex.bridgeRev false 4, Ex.bridgeΦ, st, st', row, row',
        Ex.bridge_ok (1 / 2) 4 ⟨by decide +kernel, by decide +kernel⟩, Ex.bridgeRev_ok false 4,
        by decide, rfl, rfl, rfl, h, h', k1, l1, ?_, ?_⟩
      · rw [k2, l2]; norm_num
      · rw [k3, l3]; norm_num

/-- Run to the end, with a further component and in the other order: the hypotheses of
`C114_exact_partial` are met. -/
example : ∃ st st' row row', run (Ex.bridge (1 / 2) 40) { s := [], f := [] } none = .ok st ∧
    run (Ex.bridgeRev true 40) { s := [], f := [] } none = .ok st' ∧
    st.mon.getLast? = some row ∧ st'.mon.getLast? = some row' ∧
    row'.pfLow = row.pfLow ∧ row'.pfUp = row.pfUp := by
  have k : (run (Ex.bridge (1 / 2) 40) { s := [], f := [] } none).toOption.map
      (fun st => st.outFlag) = some (some .complete) := by decide +kernel
  have k' : (run (Ex.bridgeRev true 40) { s := [], f := [] } none).toOption.map
      (fun st => st.outFlag) = some (some .complete) := by decide +kernel
  cases h : run (Ex.bridge (1 / 2) 40) { s := [], f := [] } none with
  | error e => rw [h] at k; cases k
  | ok st =>
    cases h' : run (Ex.bridgeRev true 40) { s := [], f := [] } none with
    | error e => rw [h'] at k'; cases k'
    | ok st' =>
      rw [h] at k
      rw [h'] at k'
      simp only [Except.toOption, Option.map_some, Option.some.injEq] at k k'
      obtain ⟨row, row', e⟩ := C114_exact_partial (extra := [(3, 2)])
        (Ex.bridge_ok (1 / 2) 40 ⟨by decide +kernel, by decide +kernel⟩) (Ex.bridgeRev_ok true 40)
        (by decide) (fun _ _ _ _ => rfl) (by decide) (by decide) (Ex.start_empty _)
        (Ex.start_empty _) (resume_none _ _) (resume_none _ _) h h' k k'
      exact ⟨st, st', row, row', rfl, rfl, e⟩

/-- The series system in doubles with its components in the other order. -/
def Ex.floatRev : RunCfg ℕ := { Ex.floatSeries with vs := [(1, 2), (0, 2)] }

theorem Ex.floatRev_perm : Ex.floatRev.vs.Perm (Ex.floatSeries.vs ++ []) := by decide

theorem Ex.floatRev_mem {kn : ℕ × ℕ} : kn ∈ Ex.floatRev.vs ↔ kn ∈ Ex.floatSeries.vs := by
  rw [Ex.floatRev_perm.mem_iff, List.append_nil]

theorem Ex.floatRev_ok : SysCfgOK Ex.floatRev Ex.seriesΦ := by
  refine ⟨⟨by decide, by decide⟩,
    fun x y h => Ex.floatSeries_ok.coh x y fun kn hk => h kn (Ex.floatRev_mem.2 hk), ?_⟩
  refine ⟨fun x _ => ?_, fun x _ h => absurd rfl h, fun x _ h => absurd rfl h,
    fun x _ h => absurd rfl h⟩
  by_cases h : 1 ≤ x 0 ∧ 1 ≤ x 1 <;> simp [Ex.floatRev, Ex.floatSeries, Ex.series, Ex.seriesΦ, h]

/-- Non-vacuity of `C114_tolerance`: the series system in doubles in both orders. -/
example : ∃ st st', runR (Arith.ofRound float64) Ex.floatSeries { s := [], f := [] } none = .ok st ∧
    runR (Arith.ofRound float64) Ex.floatRev { s := [], f := [] } none = .ok st' ∧
    ∀ row ∈ st.mon, ∀ row' ∈ st'.mon, row.pfLow ≤ row'.pfUp +
      tolerance ((2 : ℚ) ^ (-53 : ℤ)) ((2 : ℚ) ^ (-1075 : ℤ)) Ex.floatSeries.vs row.noBr +
      tolerance ((2 : ℚ) ^ (-53 : ℤ)) ((2 : ℚ) ^ (-1075 : ℤ)) Ex.floatRev.vs row'.noBr := by
  obtain ⟨st, h⟩ := C102_returns (A := Arith.ofRound float64) Ex.floatSeries_ok rfl
    (Ex.startR_empty _ _)
  obtain ⟨st', h'⟩ := C102_returns (A := Arith.ofRound float64) Ex.floatRev_ok rfl
    (Ex.startR_empty _ _)
  have hp : ProbOK Ex.floatRev.vs Ex.tenths :=
    ⟨fun kn hk => Ex.tenths_ok.nonneg kn (Ex.floatRev_mem.1 hk),
      fun kn hk => Ex.tenths_ok.total kn (Ex.floatRev_mem.1 hk)⟩
  have hn : NearProbs Grid ((2 : ℚ) ^ (-53 : ℤ)) Ex.floatRev.vs Ex.floatRev.probs Ex.tenths :=
    fun kn hk => Ex.tenths_near kn (Ex.floatRev_mem.1 hk)
  exact ⟨st, st', h, h', fun row hr row' hr' => (C114_tolerance Ex.floatSeries_ok Ex.floatRev_ok
    Ex.floatRev_perm C102_float64 C102_float64 Ex.tenths_ok hp Ex.tenths_near hn
    (fun _ _ _ _ => rfl) (Ex.startR_empty _ _) (Ex.startR_empty _ _) h h' row hr row' hr').1⟩

end BNS
