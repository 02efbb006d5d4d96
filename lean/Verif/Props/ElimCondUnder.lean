import Verif.Props.ElimCondRound
import Verif.Props.CpmRoundUnder

/-!
# Property C107: `variable_elim_cond` in double precision, with underflow
-/

namespace BNS

set_option linter.unusedSectionVars false

open List

section
variable {K : Type} [LinearOrder K] {U : K → Variable K}

/-- Eliminating variables case by case in double precision, with underflow: it returns exactly when it
does with exact arithmetic, and besides the relative errors there is an absolute one, of at most
`2^(3 N - 1075)` per row of the result, where `N` is the number of roundings.
Missing: tables with samples, overflow; for more than about 350 roundings the bound says nothing. -/
theorem C107_double_partial {cpms' cpms cond' cond : List (Cpm K)}
    (h' : Forall₂ (SameTable (NearU OnGrid ((2 : ℚ) ^ (-53 : ℤ)) ((2 : ℚ) ^ (-1075 : ℤ)) 1)) cpms' cpms)
    (hc' : Forall₂ (SameTable (NearU OnGrid ((2 : ℚ) ^ (-53 : ℤ)) ((2 : ℚ) ^ (-1075 : ℤ)) 1)) cond' cond)
    {varis : List (Variable K)} {P : Cpm K} (h : CondTotOK U cpms varis cond P)
    {cvars : List (Variable K)} (hcn : (cvars.map Variable.name).Nodup) (hce : ∀ v ∈ cvars, U v.name = v)
    (hcm : ∀ k, k ∈ cvars.map Variable.name ↔ ∃ M ∈ cond, k ∈ M.getNames)
    (hleft : ∃ M ∈ cpms ++ cond, ∃ k ∈ M.getNames, k ∉ (cvars ++ varis).map Variable.name)
    (hcov : ∃ x, ∀ M ∈ cond, Covers M x)
    {N : ℕ} (hN : condRoundings 1 cpms varis cond ≤ N) (hN' : N ≤ 2 ^ 52) :
    (¬ FirstRowDominates cpms varis P →
      variableElimCondR (Arith.ofRound float64) cpms' varis cond' = .error .value) ∧
    (FirstRowDominates cpms varis P →
      ∃ R', variableElimCondR (Arith.ofRound float64) cpms' varis cond' = .ok (some R') ∧
        (∀ k, k ∈ R'.getNames ↔ (∃ M ∈ cpms ++ cond, k ∈ M.getNames) ∧
          k ∉ (cvars ++ varis).map Variable.name) ∧
        ∀ x, |dens R' x - sumOver ((cvars ++ varis).map fun v => (v.name, v.values.length))
            (jointDens (cpms ++ cond)) x| ≤
          N * (2 : ℚ) ^ (-52 : ℤ) * sumOver ((cvars ++ varis).map fun v => (v.name, v.values.length))
            (jointDens (cpms ++ cond)) x + R'.C.length * (2 : ℚ) ^ (3 * (N : ℤ) - 1075)) := by
  obtain ⟨hr1, hr2⟩ := C57_returns_iff cpms varis cond P h
  have hU := counted_nearU C102_float64 (zpow_le_one_of_nonpos₀ (by norm_num) (by norm_num))
  have hrel := variableElimCond_rel hU h' hc' varis
  refine ⟨fun hd => ?_, fun hd => ?_⟩
  · have e := hr2 hd
    rw [e] at hrel
    cases hx : variableElimCondR (Arith.ofRound float64) cpms' varis cond' with
    | error f => rw [hx] at hrel; rw [show f = .value from hrel]
    | ok r => rw [hx] at hrel; exact hrel.elim
  · obtain ⟨res, hres⟩ := hr1 hd
    obtain ⟨c1, c2⟩ := C57_conditioning_partial cpms varis cond h.ok cvars hcn hce hcm res hres
    obtain ⟨res', hres', hrr⟩ := hrel.of_ok hres
    cases hrr with
    | none =>
      obtain ⟨M, hM, k, hk, hkn⟩ := hleft
      exact (hkn (c1 rfl hcov M hM k hk)).elim
    | @some R' R hR =>
      obtain ⟨hw, -, hd, -, hnames⟩ := c2 R rfl
      refine ⟨R', hres', fun k => ?_, fun x => ?_⟩
      · rw [← hnames]
        unfold Cpm.getNames
        rw [hR.vars]
      · have hRN := hR.mono fun x' x => hU.mono _ _ x' x hN
        obtain ⟨h0, h1, h2⟩ := dens_nearU (two_zpow_pos _).le hRN x
        have hl : R.p.length = R'.C.length := by rw [hR.C, hw.pLen]
        rw [under_eq, hl] at h1 h2
        rw [← hd]
        exact relative_under h0 h1 h2 hN'

end

/-- Two components in series: at most 128 roundings; the relative error is at most `2⁻⁴⁵`, the absolute
one `2⁻⁶⁹¹` per row. -/
example : ∃ R', variableElimCondR (Arith.ofRound float64) ([Ex.comp3, Ex.seriesCpm].map Ex.stored64) [Ex.U 3]
      ([Ex.A'].map Ex.stored64) = .ok (some R') ∧
    ∀ x, |dens R' x - sumOver [(0, 2), (3, 2)] (jointDens [Ex.comp3, Ex.seriesCpm, Ex.A']) x| ≤
      (2 : ℚ) ^ (-45 : ℤ) * sumOver [(0, 2), (3, 2)] (jointDens [Ex.comp3, Ex.seriesCpm, Ex.A']) x +
        R'.C.length * (2 : ℚ) ^ (-691 : ℤ) := by
  have t2 := Ex.series_tot Ex.A' (.inr rfl)
  have hd : FirstRowDominates [Ex.comp3, Ex.seriesCpm] [Ex.U 3] Ex.A' := by
    by_contra hd
    have h2 : variableElimCond [Ex.comp3, Ex.seriesCpm] [Ex.U 3] [Ex.A'] ≠ .error .value := by
      decide +kernel
    exact h2 ((C57_returns_iff _ _ _ _ t2).2 hd)
  obtain ⟨R', hR', -, hx⟩ := (C107_double_partial
    (.cons (Ex.stored64_table _ (by decide +kernel) rfl) (.cons (Ex.stored64_table _ (by decide +kernel) rfl)
      .nil)) (.cons (Ex.stored64_table _ (by decide +kernel) rfl) .nil) t2 (cvars := [Ex.U 0])
    (by decide +kernel) (by decide +kernel) (fun k => by
      have : Ex.A'.getNames = [Ex.U 0].map Variable.name := by decide +kernel
      simp [this]) ⟨Ex.seriesCpm, by simp, 1, by decide +kernel, by decide +kernel⟩
    ⟨fun _ => 0, by decide +kernel⟩ (N := 128) (by decide +kernel) (by norm_num)).2 hd
  refine ⟨R', hR', fun x => (hx x).trans (le_of_eq ?_)⟩
  have e : ((128 : ℕ) : ℚ) * (2 : ℚ) ^ (-52 : ℤ) = (2 : ℚ) ^ (-45 : ℤ) := by norm_num
  rw [e]
  rfl

end BNS
