import Verif.Props.SysNetRound
import Verif.Props.CpmRoundUnder

/-!
# Property C104: from `run` to the system probabilities in double precision, with underflow
-/

namespace BNS

set_option linter.unusedSectionVars false

open List

section
variable {K : Type} [LinearOrder K] {Φ : (K → ℕ) → Bool} {A1 : Arith} {sp : K → ℕ → ℚ}

/-- In double precision with underflow: as `C104_double_partial`, with an absolute error of at most
`2^(3 N - 1075)` besides, where `N` is the number of roundings.
Missing: overflow; for more than about 350 roundings the bound says nothing. -/
theorem C104_underflow_partial {c : RunCfg K} (hc : SysCfgOK c Φ) (h0 : 0 < c.maxSf)
    {pr : K → ℕ → ℚ} (hp : ProbOK c.vs pr)
    (hn : ∀ kn ∈ c.vs, ∀ i < kn.2, NearU OnGrid ((2 : ℚ) ^ (-53 : ℤ)) ((2 : ℚ) ^ (-1075 : ℤ)) 1
      (sp kn.1 i) (pr kn.1 i)) {rules : Rules K}
    {brs : Option (List (Branch K))} (hs : StartOKR c Φ (fun _ => True) rules brs)
    (hb : ResumeOK c rules brs)
    {st : RunState K} (h : runR A1 c rules brs = .ok st)
    {U : K → Variable K} {sys : K}
    (hU : SysVars U c.vs sys 3) {varis : K → Option (Variable K)}
    (hv : ∀ kn ∈ c.vs, varis kn.1 = some (U kn.1)) {lbl : St → Option ℕ}
    (hf : lbl .f = some 0) (hsv : lbl .s = some 1) (hu : lbl .u = some 2) :
    ∃ bs C, st.brs = some bs ∧ getCsys (c.vs.map Prod.fst) bs varis lbl = .ok (C, varis) ∧
      ∀ N, netRoundings c.vs bs.length ≤ N → N ≤ 2 ^ 52 →
      ∀ (cpms : List (Cpm K)) (ve : List (Variable K)),
        cpms.Perm (c.vs.map (compCpm U sp) ++ [sysCpm U c.vs sys C]) →
        ve.Perm (compVariables U c.vs) →
        ∃ P qf qs, variableElimR (Arith.ofRound float64) cpms ve = .ok P ∧
          P.getProbR (Arith.ofRound float64) [U sys] [0] true = .ok qf ∧
          P.getProbR (Arith.ofRound float64) [U sys] [1] true = .ok qs ∧ 0 ≤ qf ∧ 0 ≤ qs ∧
          qf - N * (2 : ℚ) ^ (-52 : ℤ) - (2 : ℚ) ^ (3 * (N : ℤ) - 1075) ≤ pFail c.vs pr Φ ∧
          pFail c.vs pr Φ ≤ 1 - qs + N * (2 : ℚ) ^ (-52 : ℤ) + (2 : ℚ) ^ (3 * (N : ℤ) - 1075) ∧
          (2 * (c.vs.map Prod.snd).prod ≤ c.maxNb → st.outFlag = some .complete →
            |qf - pFail c.vs pr Φ| ≤ N * (2 : ℚ) ^ (-52 : ℤ) * pFail c.vs pr Φ +
              (2 : ℚ) ^ (3 * (N : ℤ) - 1075) ∧
            |qs - (1 - pFail c.vs pr Φ)| ≤ N * (2 : ℚ) ^ (-52 : ℤ) * (1 - pFail c.vs pr Φ) +
              (2 : ℚ) ^ (3 * (N : ℤ) - 1075)) := by
  have hR := counted_nearU C102_float64 (zpow_le_one_of_nonpos₀ (by norm_num) (by norm_num))
  obtain ⟨bs, C, e1, e2, -, -, e5⟩ := C104_counted hc h0 hR hn hs h hU hv hf hsv hu
  have hlab : ∀ b ∈ bs, LabelsOK Φ b := by
    obtain ⟨-, -, hrun, -⟩ := C102_structure hc hs h
    obtain ⟨bs', hb', -, hlab⟩ := hrun h0
    rw [e1] at hb'
    cases hb'
    exact hlab
  refine ⟨bs, C, e1, e2, fun N hN hN' cpms ve hperm hve => ?_⟩
  obtain ⟨P, qf, qs, qu, g1, -, g3, g4, -, g6, g7, -⟩ := e5 cpms ve hperm hve
  have hT : 0 ≤ (N : ℚ) * (2 : ℚ) ^ (-52 : ℤ) := mul_nonneg (Nat.cast_nonneg _) (two_zpow_pos _).le
  have key : ∀ {q' q : ℚ}, NearU OnGrid ((2 : ℚ) ^ (-53 : ℤ)) ((2 : ℚ) ^ (-1075 : ℤ))
      (netRoundings c.vs bs.length) q' q →
      |q' - q| ≤ N * (2 : ℚ) ^ (-52 : ℤ) * q + (2 : ℚ) ^ (3 * (N : ℤ) - 1075) := by
    intro q' q hq
    have hqN := hR.mono _ _ _ _ hN hq
    have h1 := hqN.low
    have h2 := hqN.up
    rw [under_eq] at h1 h2
    exact relative_under hqN.nonneg h1 h2 hN'
  have r1 := key g6
  have r2 := key g7
  have m1 : probOf c.vs pr (fun x => ∃ b ∈ bs, b.label = .f ∧ InBox c.vs b x) ≤ pFail c.vs pr Φ := by
    refine probOf_mono hc.vs hp _ _ ?_
    rintro x - ⟨b, hb', hl', hx⟩
    exact (label_sound hc.coh (hlab b hb') hx).1 hl'
  have m2 : probOf c.vs pr (fun x => ∃ b ∈ bs, b.label = .s ∧ InBox c.vs b x) ≤
      1 - pFail c.vs pr Φ := by
    rw [← probOf_not hc.vs hp]
    refine probOf_mono hc.vs hp _ _ ?_
    rintro x - ⟨b, hb', hl', hx⟩
    rw [(label_sound hc.coh (hlab b hb') hx).2 hl']
    simp
  have n0 := probOf_nonneg hc.vs hp (fun x => Φ x = false)
  have n1 : pFail c.vs pr Φ ≤ 1 := by
    have := probOf_nonneg hc.vs hp (fun x => ¬ Φ x = false)
    rw [probOf_not hc.vs hp] at this
    linarith
  have n0' : 0 ≤ pFail c.vs pr Φ := n0
  refine ⟨P, qf, qs, g1, g3, g4, g6.nonneg', g7.nonneg', ?_, ?_, fun hm hcp => ?_⟩
  · have := (abs_le.1 r1).2
    have := mul_le_of_le_one_right hT (m1.trans n1)
    linarith
  · have := (abs_le.1 r2).2
    have := mul_le_of_le_one_right hT (m2.trans (sub_le_self _ n0'))
    linarith
  · obtain ⟨k1, k2, -⟩ := complete_events hc h0 hp hs hb hm h hcp e1
    rw [k1] at r1
    rw [k2] at r2
    exact ⟨r1, r2⟩

end

theorem Ex.tenths_near64 : ∀ kn ∈ Ex.floatSeries.vs, ∀ i < kn.2,
    NearU OnGrid ((2 : ℚ) ^ (-53 : ℤ)) ((2 : ℚ) ^ (-1075 : ℤ)) 1 (Ex.floatSeries.probs kn.1 i)
      (Ex.tenths kn.1 i) := by
  intro kn hkn i hi
  obtain ⟨h1, h2, h3⟩ := Ex.tenths_near kn hkn i hi
  have h0 := Ex.tenths_ok.nonneg kn hkn i hi
  have hle : Ex.tenths kn.1 i ≤ 2 ^ 1 := by
    have : ∀ kn ∈ Ex.floatSeries.vs, ∀ i < kn.2, Ex.tenths kn.1 i ≤ 2 ^ 1 := by decide +kernel
    exact this kn hkn i hi
  have hp := two_zpow_pos (-1075)
  have h5 : 0 ≤ (1 - (2 : ℚ) ^ (-53 : ℤ)) * Ex.tenths kn.1 i :=
    mul_nonneg (by linarith [C103_float53.1.eps.2]) h0
  exact ⟨h1, h5.trans h2, h0, hle, by rw [pow_one, pow_one]; linarith, by rw [pow_one, pow_one]; linarith⟩

/-- Non-vacuity: the series system, 42 roundings; the absolute error is below `2⁻⁹⁰⁰`. -/
example : ∃ st bs C, runR (Arith.ofRound float64) Ex.floatSeries { s := [], f := [] } none = .ok st ∧
    st.brs = some bs ∧ getCsys [0, 1] bs (some ∘ Ex.fserU) Ex.lbl = .ok (C, some ∘ Ex.fserU) ∧
    ∃ P qf, variableElimR (Arith.ofRound float64)
        (Ex.floatSeries.vs.map (compCpm Ex.fserU Ex.floatSeries.probs) ++
          [sysCpm Ex.fserU Ex.floatSeries.vs 9 C]) (compVariables Ex.fserU Ex.floatSeries.vs) = .ok P ∧
      P.getProbR (Arith.ofRound float64) [Ex.fserU 9] [0] true = .ok qf ∧
      |qf - pFail Ex.floatSeries.vs Ex.tenths Ex.seriesΦ| ≤
        (42 : ℕ) * (2 : ℚ) ^ (-52 : ℤ) * pFail Ex.floatSeries.vs Ex.tenths Ex.seriesΦ +
          (2 : ℚ) ^ (3 * ((42 : ℕ) : ℤ) - 1075) := by
  obtain ⟨st, h⟩ := C102_returns (A := Arith.ofRound float64) Ex.floatSeries_ok rfl
    (Ex.startR_empty _ _)
  have hf : (runR (Arith.ofRound float64) Ex.floatSeries { s := [], f := [] } none).toOption.map
      (fun st => (st.outFlag, st.brs.map List.length)) = some (some .complete, some 3) := by
    decide +kernel
  rw [h] at hf
  simp only [Except.toOption, Option.map_some, Option.some.injEq, Prod.mk.injEq] at hf
  obtain ⟨bs, C, e1, e2, e3⟩ := C104_underflow_partial (varis := some ∘ Ex.fserU) Ex.floatSeries_ok
    (by decide) Ex.tenths_ok Ex.tenths_near64 (Ex.startR_empty _ _) (resume_none _ _) h Ex.fserU_ok
    (fun _ _ => rfl) (lbl := Ex.lbl) rfl rfl rfl
  rw [e1] at hf
  have hlen : bs.length = 3 := by simpa using hf.2
  obtain ⟨P, qf, qs, g1, g2, g3, -, -, -, -, g6⟩ := e3 42 (by rw [hlen]; decide) (by norm_num) _ _
    (Perm.refl _) (Perm.refl _)
  exact ⟨st, bs, C, h, e1, e2, P, qf, g1, g2, (g6 (by decide) hf.1).1⟩

/-- The branches of an exact run with probabilities 1/2, and CPMs with 0.1 and 0.2 as stored. -/
def Ex.halves : RunCfg ℕ := { Ex.floatSeries with probs := fun _ _ => 1 / 2 }

theorem Ex.halves_ok : SysCfgOK Ex.halves Ex.seriesΦ :=
  ⟨Ex.floatSeries_ok.vs, Ex.floatSeries_ok.coh, Ex.floatSeries_ok.sys⟩

example : ∃ st bs C, runR Arith.exact Ex.halves { s := [], f := [] } none = .ok st ∧
    st.brs = some bs ∧ getCsys [0, 1] bs (some ∘ Ex.fserU) Ex.lbl = .ok (C, some ∘ Ex.fserU) ∧
    ∃ P qf, variableElimR (Arith.ofRound float64)
        (Ex.floatSeries.vs.map (compCpm Ex.fserU Ex.floatSeries.probs) ++
          [sysCpm Ex.fserU Ex.floatSeries.vs 9 C]) (compVariables Ex.fserU Ex.floatSeries.vs) = .ok P ∧
      P.getProbR (Arith.ofRound float64) [Ex.fserU 9] [0] true = .ok qf ∧
      |qf - pFail Ex.floatSeries.vs Ex.tenths Ex.seriesΦ| ≤
        (42 : ℕ) * (2 : ℚ) ^ (-52 : ℤ) * pFail Ex.floatSeries.vs Ex.tenths Ex.seriesΦ +
          (2 : ℚ) ^ (3 * ((42 : ℕ) : ℤ) - 1075) := by
  obtain ⟨st, h⟩ := C102_returns (A := Arith.exact) Ex.halves_ok rfl (Ex.startR_empty _ _)
  have hf : (runR Arith.exact Ex.halves { s := [], f := [] } none).toOption.map
      (fun st => (st.outFlag, st.brs.map List.length)) = some (some .complete, some 3) := by
    decide +kernel
  rw [h] at hf
  simp only [Except.toOption, Option.map_some, Option.some.injEq, Prod.mk.injEq] at hf
  obtain ⟨bs, C, e1, e2, e3⟩ := C104_underflow_partial (varis := some ∘ Ex.fserU) Ex.halves_ok
    (by decide) Ex.tenths_ok Ex.tenths_near64 (Ex.startR_empty _ _) (resume_none _ _) h Ex.fserU_ok
    (fun _ _ => rfl) (lbl := Ex.lbl) rfl rfl rfl
  rw [e1] at hf
  have hlen : bs.length = 3 := by simpa using hf.2
  obtain ⟨P, qf, qs, g1, g2, g3, -, -, -, -, g6⟩ := e3 42 (by rw [hlen]; decide) (by norm_num) _ _
    (Perm.refl _) (Perm.refl _)
  exact ⟨st, bs, C, h, e1, e2, P, qf, g1, g2, (g6 (by decide) hf.1).1⟩

end BNS
