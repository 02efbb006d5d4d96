import Verif.Proofs.BrcDominance
import Verif.Props.BrcThresholdRound

/-!
# Property C112: results for better components and easier requirements
-/

namespace BNS

set_option linter.unusedSectionVars false

section
variable {K : Type} [DecidableEq K] {Φ Φ' : (K → ℕ) → Bool} {A A' : Arith} {F F' : ℚ → Prop}
  {ε η ε' η' : ℚ}

/-- A requirement that is easier to meet, with components that are at least as good: the failure
probability is not larger.  Better means that every component is below each of its states with at most
the same probability. -/
theorem C112_true_values {vs : List (K × ℕ)} (hv : VarisOK vs) (hΦ : Coherent vs Φ)
    {p p' : K → ℕ → ℚ} (hp : ProbOK vs p) (hp' : ProbOK vs p')
    (he : ∀ x, InSpace vs x → Φ x = true → Φ' x = true)
    (hd : ∀ kn ∈ vs, ∀ m ≤ kn.2,
      ∑ i ∈ Finset.range m, p' kn.1 i ≤ ∑ i ∈ Finset.range m, p kn.1 i) :
    pFail vs p' Φ' ≤ pFail vs p Φ := by
  refine le_trans (probOf_mono hv hp' _ _ fun x hx h => ?_) (pFail_dominated hv hΦ hp hp' hd)
  by_contra hn
  rw [Bool.not_eq_false] at hn
  rw [he x hx hn] at h
  cases h

/-- No lower bound reported for better components or an easier requirement exceeds an upper bound
reported for the worse ones, whatever the limits, options, rules and branches of the two runs. -/
theorem C112_bounds {c c' : RunCfg K} (hc : CfgOK c Φ) (hc' : CfgOK c' Φ') (hvs : c'.vs = c.vs)
    (he : ∀ x, InSpace c.vs x → Φ x = true → Φ' x = true)
    (hd : ∀ kn ∈ c.vs, ∀ m ≤ kn.2,
      ∑ i ∈ Finset.range m, c'.probs kn.1 i ≤ ∑ i ∈ Finset.range m, c.probs kn.1 i)
    {r r' : Rules K} {b b' : Option (List (Branch K))} (hs : StartOK c Φ r b)
    (hs' : StartOK c' Φ' r' b') {st st' : RunState K} (h : run c r b = .ok st)
    (h' : run c' r' b' = .ok st') :
    ∀ row ∈ st.mon, ∀ row' ∈ st'.mon, row'.pfLow ≤ row.pfUp := by
  intro row hr row' hr'
  have h1 := ((C27_bounds hc hs h).1 row hr).2
  have h2 := ((C27_bounds hc' hs' h').1 row' hr').1
  rw [hvs] at h2
  exact h2.trans ((C112_true_values hc.vs hc.coh hc.probs (by rw [← hvs]; exact hc'.probs) he hd).trans
    h1)

/-- With complete runs and enough branches the reported probabilities are in the right order.
Missing: branch limits that are reached, where `complete` does not mean exact
(`C28_complete_not_exact`), and runs that are not complete (`C112_not_each_bound`). -/
theorem C112_exact_partial {c c' : RunCfg K} (hc : CfgOK c Φ) (hc' : CfgOK c' Φ')
    (hvs : c'.vs = c.vs) (he : ∀ x, InSpace c.vs x → Φ x = true → Φ' x = true)
    (hd : ∀ kn ∈ c.vs, ∀ m ≤ kn.2,
      ∑ i ∈ Finset.range m, c'.probs kn.1 i ≤ ∑ i ∈ Finset.range m, c.probs kn.1 i)
    (hm : 2 * (c.vs.map Prod.snd).prod ≤ c.maxNb) (hm' : 2 * (c.vs.map Prod.snd).prod ≤ c'.maxNb)
    {r r' : Rules K} {b b' : Option (List (Branch K))} (hs : StartOK c Φ r b)
    (hs' : StartOK c' Φ' r' b') (hb : ResumeOK c r b) (hb' : ResumeOK c' r' b')
    {st st' : RunState K} (h : run c r b = .ok st) (h' : run c' r' b' = .ok st')
    (hf : st.outFlag = some .complete) (hf' : st'.outFlag = some .complete) :
    ∃ row row', st.mon.getLast? = some row ∧ st'.mon.getLast? = some row' ∧
      row'.pfLow ≤ row.pfLow ∧ row'.pfUp ≤ row.pfUp := by
  obtain ⟨-, row, -, k1, -, k2, k3⟩ := C28_enough_branches_partial hc hs hb hm h hf
  obtain ⟨-, row', -, l1, -, l2, l3⟩ :=
    C28_enough_branches_partial hc' hs' hb' (by rw [hvs]; exact hm') h' hf'
  have := C112_true_values hc.vs hc.coh hc.probs (by rw [← hvs]; exact hc'.probs) he hd
  refine ⟨row, row', k1, l1, ?_, ?_⟩
  · rw [l2, k2, hvs]; exact this
  · rw [l3, k3, hvs]; exact this

/-- In floating-point arithmetic the same up to the tolerances of C102. -/
theorem C112_tolerance {c c' : RunCfg K} (hc : SysCfgOK c Φ) (hc' : SysCfgOK c' Φ')
    (hvs : c'.vs = c.vs) (he : ∀ x, InSpace c.vs x → Φ x = true → Φ' x = true)
    (hA : A.Within F ε η) (hA' : A'.Within F' ε' η') {p p' : K → ℕ → ℚ} (hp : ProbOK c.vs p)
    (hp' : ProbOK c'.vs p') (hn : NearProbs F ε c.vs c.probs p)
    (hn' : NearProbs F' ε' c'.vs c'.probs p')
    (hd : ∀ kn ∈ c.vs, ∀ m ≤ kn.2,
      ∑ i ∈ Finset.range m, p' kn.1 i ≤ ∑ i ∈ Finset.range m, p kn.1 i)
    {r r' : Rules K} {b b' : Option (List (Branch K))} (hs : StartOKR c Φ (PNear F ε η c.vs p) r b)
    (hs' : StartOKR c' Φ' (PNear F' ε' η' c'.vs p') r' b') {st st' : RunState K}
    (h : runR A c r b = .ok st) (h' : runR A' c' r' b' = .ok st') :
    ∀ row ∈ st.mon, ∀ row' ∈ st'.mon, row'.pfLow ≤
      row.pfUp + tolerance ε η c.vs row.noBr + tolerance ε' η' c'.vs row'.noBr := by
  intro row hr row' hr'
  have h1 := ((C102_bounds_partial hc hA hp hn hs h).1 row hr).2.1
  have h2 := ((C102_bounds_partial hc' hA' hp' hn' hs' h').1 row' hr').1
  have h3 := C112_true_values hc.vs hc.coh hp (by rw [← hvs]; exact hp') he hd
  have h4 : pFail c'.vs p' Φ' = pFail c.vs p' Φ' := by rw [hvs]
  linarith

end

/-- A component in series with two of which one suffices; the last one fails with probability `q`, and
at most `m` vectors are evaluated. -/
def Ex.bridge (q : ℚ) (m : ℕ) : RunCfg ℕ :=
  { vs := [(0, 2), (1, 2), (2, 2)]
    probs := fun k i =>
      let f := if k = 2 then q else 1 / 10
      if i = 0 then f else 1 - f
    sysFun := fun x =>
      { val := 0, st := if 1 ≤ x 0 ∧ (1 ≤ x 1 ∨ 1 ≤ x 2) then .s else .f, min := [] }
    maxSf := m
    maxNb := 100 }

def Ex.bridgeΦ (x : ℕ → ℕ) : Bool := decide (1 ≤ x 0 ∧ (1 ≤ x 1 ∨ 1 ≤ x 2))

theorem Ex.bridge_sys (q : ℚ) (m : ℕ) : SysCfgOK (Ex.bridge q m) Ex.bridgeΦ := by
  refine ⟨⟨by simp [Ex.bridge], by simp [Ex.bridge]⟩, ?_, ?_⟩
  · intro x y h hx
    have h0 := h (0, 2) (by simp [Ex.bridge])
    have h1 := h (1, 2) (by simp [Ex.bridge])
    have h2 := h (2, 2) (by simp [Ex.bridge])
    simp only [Ex.bridgeΦ, decide_eq_true_eq] at hx ⊢
    simp only at h0 h1 h2
    omega
  · refine ⟨fun x _ => ?_, fun x _ h => absurd rfl h, fun x _ h => absurd rfl h,
      fun x _ h => absurd rfl h⟩
    by_cases h : 1 ≤ x 0 ∧ (1 ≤ x 1 ∨ 1 ≤ x 2) <;> simp [Ex.bridge, Ex.bridgeΦ, h]

theorem Ex.bridge_ok (q : ℚ) (m : ℕ) (hp : ProbOK (Ex.bridge q m).vs (Ex.bridge q m).probs) :
    CfgOK (Ex.bridge q m) Ex.bridgeΦ :=
  ⟨(Ex.bridge_sys q m).vs, (Ex.bridge_sys q m).coh, hp, (Ex.bridge_sys q m).sys⟩

theorem Ex.bridge_better (m : ℕ) : ∀ kn ∈ (Ex.bridge (1 / 2) m).vs, ∀ j ≤ kn.2,
    ∑ i ∈ Finset.range j, (Ex.bridge (1 / 10) m).probs kn.1 i ≤
      ∑ i ∈ Finset.range j, (Ex.bridge (1 / 2) m).probs kn.1 i := by
  have h : ∀ kn ∈ (Ex.bridge (1 / 2) 0).vs, ∀ j < kn.2 + 1,
    ∑ i ∈ Finset.range j, (Ex.bridge (1 / 10) 0).probs kn.1 i ≤
      ∑ i ∈ Finset.range j, (Ex.bridge (1 / 2) 0).probs kn.1 i := by decide +kernel
  exact fun kn hkn j hj => h kn hkn j (by omega)

/-- The bounds of an unfinished run are not ordered one by one: with the same limit of three
evaluations, lowering the failure probability of one component from 1/2 to 1/10 raises both bounds. -/
theorem C112_not_each_bound : ∃ (c c' : RunCfg ℕ) (Φ : (ℕ → ℕ) → Bool) (st st' : RunState ℕ)
    (row row' : MonRow), CfgOK c Φ ∧ CfgOK c' Φ ∧ c'.vs = c.vs ∧ c'.maxSf = c.maxSf ∧
    (∀ kn ∈ c.vs, ∀ m ≤ kn.2,
      ∑ i ∈ Finset.range m, c'.probs kn.1 i ≤ ∑ i ∈ Finset.range m, c.probs kn.1 i) ∧
    run c { s := [], f := [] } none = .ok st ∧ run c' { s := [], f := [] } none = .ok st' ∧
    st.mon.getLast? = some row ∧ st'.mon.getLast? = some row' ∧
    row.pfLow < row'.pfLow ∧ row.pfUp < row'.pfUp := by
  have k : (run (Ex.bridge (1 / 2) 3) { s := [], f := [] } none).toOption.map
      (fun st => st.mon.getLast?.map fun r => (r.pfLow, r.pfUp)) = some (some (0, 19 / 100)) := by
    decide +kernel
  have k' : (run (Ex.bridge (1 / 10) 3) { s := [], f := [] } none).toOption.map
      (fun st => st.mon.getLast?.map fun r => (r.pfLow, r.pfUp)) =
      some (some (1 / 10, 271 / 1000)) := by
    decide +kernel
  cases h : run (Ex.bridge (1 / 2) 3) { s := [], f := [] } none with
  | error e => rw [h] at k; cases k
  | ok st =>
    cases h' : run (Ex.bridge (1 / 10) 3) { s := [], f := [] } none with
    | error e => rw [h'] at k'; cases k'
    | ok st' =>
      rw [h] at k
      rw [h'] at k'
      simp only [Except.toOption, Option.map_some, Option.some.injEq, Option.map_eq_some_iff,
        Prod.mk.injEq] at k k'
      obtain ⟨row, k1, k2, k3⟩ := k
      obtain ⟨row', l1, l2, l3⟩ := k'
      refine ⟨Ex.bridge (1 / 2) 3, Ex.bridge (1 / 10) 3, Ex.bridgeΦ, st, st', row, row',
        Ex.bridge_ok _ _ ⟨by decide +kernel, by decide +kernel⟩,
        Ex.bridge_ok _ _ ⟨by decide +kernel, by decide +kernel⟩, rfl, rfl, Ex.bridge_better 3, h, h',
        k1, l1, ?_, ?_⟩
      · rw [k2, l2]; norm_num
      · rw [k3, l3]; norm_num

/-- Run to the end, the same two systems meet the hypotheses of `C112_exact_partial`. -/
example : ∃ st st' row row', run (Ex.bridge (1 / 2) 20) { s := [], f := [] } none = .ok st ∧
    run (Ex.bridge (1 / 10) 20) { s := [], f := [] } none = .ok st' ∧
    st.mon.getLast? = some row ∧ st'.mon.getLast? = some row' ∧
    row'.pfLow ≤ row.pfLow ∧ row'.pfUp ≤ row.pfUp := by
  have k : (run (Ex.bridge (1 / 2) 20) { s := [], f := [] } none).toOption.map
      (fun st => st.outFlag) = some (some .complete) := by decide +kernel
  have k' : (run (Ex.bridge (1 / 10) 20) { s := [], f := [] } none).toOption.map
      (fun st => st.outFlag) = some (some .complete) := by decide +kernel
  cases h : run (Ex.bridge (1 / 2) 20) { s := [], f := [] } none with
  | error e => rw [h] at k; cases k
  | ok st =>
    cases h' : run (Ex.bridge (1 / 10) 20) { s := [], f := [] } none with
    | error e => rw [h'] at k'; cases k'
    | ok st' =>
      rw [h] at k
      rw [h'] at k'
      simp only [Except.toOption, Option.map_some, Option.some.injEq] at k k'
      obtain ⟨row, row', e⟩ := C112_exact_partial
        (Ex.bridge_ok (1 / 2) 20 ⟨by decide +kernel, by decide +kernel⟩)
        (Ex.bridge_ok (1 / 10) 20 ⟨by decide +kernel, by decide +kernel⟩) rfl (fun _ _ h => h)
        (Ex.bridge_better 20) (by decide) (by decide) (Ex.start_empty _) (Ex.start_empty _)
        (resume_none _ _) (resume_none _ _) h h' k k'
      exact ⟨st, st', row, row', rfl, rfl, e⟩

/-- Non-vacuity of `C112_tolerance`: the series system and the system of which one component suffices,
both in doubles. -/
example : ∃ st st', runR (Arith.ofRound float64) Ex.floatSeries { s := [], f := [] } none = .ok st ∧
    runR (Arith.ofRound float64) Ex.floatEither { s := [], f := [] } none = .ok st' ∧
    ∀ row ∈ st.mon, ∀ row' ∈ st'.mon, row'.pfLow ≤ row.pfUp +
      tolerance ((2 : ℚ) ^ (-53 : ℤ)) ((2 : ℚ) ^ (-1075 : ℤ)) Ex.floatSeries.vs row.noBr +
      tolerance ((2 : ℚ) ^ (-53 : ℤ)) ((2 : ℚ) ^ (-1075 : ℤ)) Ex.floatEither.vs row'.noBr := by
  obtain ⟨st, h⟩ := C102_returns (A := Arith.ofRound float64) Ex.floatSeries_ok rfl
    (Ex.startR_empty _ _)
  obtain ⟨st', h'⟩ := C102_returns (A := Arith.ofRound float64) Ex.floatEither_ok rfl
    (Ex.startR_empty _ _)
  exact ⟨st, st', h, h', C112_tolerance Ex.floatSeries_ok Ex.floatEither_ok rfl Ex.looser C102_float64
    C102_float64 Ex.tenths_ok Ex.tenths_ok Ex.tenths_near Ex.tenths_near (fun _ _ _ _ => le_rfl)
    (Ex.startR_empty _ _) (Ex.startR_empty _ _) h h'⟩

end BNS
