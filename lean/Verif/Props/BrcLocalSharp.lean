import Verif.Props.BrcLocal

/-!
# Property C115, continued: the bounds cannot be narrower
-/

namespace BNS

set_option linter.unusedSectionVars false

section
variable {K : Type} [DecidableEq K] {Φ : (K → ℕ) → Bool}

/-- A run that was not stopped by `max_sf` has decomposed with its final rules. -/
theorem last_row_rules {c : RunCfg K} (hc : CfgOK c Φ) (hm : 2 * (c.vs.map Prod.snd).prod ≤ c.maxNb)
    {rules : Rules K} (hs : StartOK c Φ rules none) {st : RunState K}
    (h : run c rules none = .ok st) : Grows rules st.rules ∧
    (st.outFlag = none ∨ st.outFlag = some .maxSf ∨ ∃ row, st.mon.getLast? = some row ∧
      row.pfLow = probOf c.vs c.probs (CoveredF st.rules) ∧
      row.pfUp = 1 - probOf c.vs c.probs (CoveredS st.rules)) := by
  obtain ⟨st1, h1, rfl⟩ := run_eq h
  have key : Grows rules st1.rules ∧ (st1.outFlag = none ∨ st1.outFlag = some .maxSf ∨
      (st1.started = true ∧
        (monRow (st1.brs.getD []) st1.rules).pfLow = probOf c.vs c.probs (CoveredF st1.rules) ∧
        (monRow (st1.brs.getD []) st1.rules).pfUp =
          1 - probOf c.vs c.probs (CoveredS st1.rules))) := by
    refine (runLoop_ind' hc (fun _ st => CovInv c st ∧ Grows rules st.rules ∧
        (st.outFlag = none ∨ st.outFlag = some .maxSf))
      (fun st => Grows rules st.rules ∧ (st.outFlag = none ∨ st.outFlag = some .maxSf ∨
        (st.started = true ∧
          (monRow (st.brs.getD []) st.rules).pfLow = probOf c.vs c.probs (CoveredF st.rules) ∧
          (monRow (st.brs.getD []) st.rules).pfUp =
            1 - probOf c.vs c.probs (CoveredS st.rules))))
      ?_ ?_ ?_ ?_ (runInv_init hs)
      ⟨(fun _ bs hb => by cases hb), ⟨fun _ h => h, fun _ h => h⟩, .inl rfl⟩ h1).1
    · intro r st trunc brs x st' hv ⟨hC, hG, _⟩ hd hu hgo hstep
      refine ⟨hC.step hd hstep, ⟨fun y hy => hstep.grows.1 y (hG.1 y hy),
        fun y hy => hstep.grows.2 y (hG.2 y hy)⟩, ?_⟩
      rw [hstep.flag]
      split <;> simp
    · intro st _ ⟨_, hG, hf⟩
      exact ⟨hG, hf.elim .inl fun h => .inr (.inl h)⟩
    · intro r st trunc brs hv ⟨hC, hG, _⟩ hd hno
      have ht := trunc_false hc hm hd
      subst ht
      exact ⟨hG, .inr (.inr ⟨rfl, monRow_rules hc hv hC hd st.rules⟩)⟩
    · intro r st trunc brs x flag hv ⟨hC, hG, _⟩ hd hu hfl
      have ht := trunc_false hc hm hd
      subst ht
      exact ⟨hG, .inr (.inr ⟨rfl, monRow_rules hc hv hC hd st.rules⟩)⟩
  obtain ⟨hG, hk⟩ := key
  by_cases hst : st1.started = true
  · rw [if_pos hst]
    refine ⟨hG, ?_⟩
    rcases hk with hk | hk | hk
    · exact .inl hk
    · exact .inr (.inl hk)
    · exact .inr (.inr ⟨_, by simp, hk.2⟩)
  · rw [if_neg hst]
    refine ⟨hG, ?_⟩
    rcases hk with hk | hk | hk
    · exact .inl hk
    · exact .inr (.inl hk)
    · exact absurd hk.1 hst

/-- What a minimum rule returned by the system function decides is decided by the rules. -/
def MinCov (c : RunCfg K) (Φ : (K → ℕ) → Bool) (rules : Rules K) (x : K → ℕ) : Prop :=
  (c.sysFun x).min ≠ [] →
    (Φ x = true → ∀ y, AppliesS (c.sysFun x).min y → CoveredS rules y) ∧
    (Φ x = false → ∀ y, AppliesF (c.sysFun x).min y → CoveredF rules y)

theorem runStep_minCov {c : RunCfg K} (hc : CfgOK c Φ) {st st' : RunState K}
    (hk : RulesDict c.vs st.rules) {brs : List (Branch K)} {x : K → ℕ} (hx : InSpace c.vs x)
    {last : Bool} (h : runStep c st brs x last = .ok st') : MinCov c Φ st'.rules x := by
  intro hn
  have hst := hc.sys.st x hx
  have hr : runSysFn c.vs c.sysFun x = ((c.sysFun x).min, (c.sysFun x).st) := by
    unfold runSysFn
    exact if_pos hn
  unfold runStep at h
  dsimp only at h
  rw [hr] at h
  dsimp only at h
  constructor
  · intro hΦ y hy
    rw [hst, if_pos hΦ] at h
    obtain ⟨rules', he, -, -, hcov⟩ := C19_survival hk (c.sysFun x).min
    rw [he, ok_bind] at h
    simp only [pure, Except.pure, Except.ok.injEq] at h
    subst h
    exact (hcov y).2 (.inr hy)
  · intro hΦ y hy
    rw [hst, if_neg (by simp [hΦ])] at h
    obtain ⟨rules', he, -, -, hcov⟩ := C19_failure hk (c.sysFun x).min
    rw [he, ok_bind] at h
    simp only [pure, Except.pure, Except.ok.injEq] at h
    subst h
    exact (hcov y).2 (.inr hy)

theorem evals_minCov {c : RunCfg K} (hc : CfgOK c Φ) {rules : Rules K}
    {brs : Option (List (Branch K))} (hs : StartOK c Φ rules brs) {st : RunState K}
    (h : run c rules brs = .ok st) : ∀ x ∈ st.evals, MinCov c Φ st.rules x := by
  obtain ⟨st1, h1, rfl⟩ := run_eq h
  have key : ∀ x ∈ st1.evals, MinCov c Φ st1.rules x := by
    refine runLoop_ind c (fun _ st => RunInv c Φ st ∧ ∀ x ∈ st.evals, MinCov c Φ st.rules x)
      (fun st => ∀ x ∈ st.evals, MinCov c Φ st.rules x) ?_ (fun _ h => h.2)
      (fun _ _ _ _ h _ _ => h.2) (fun _ _ _ _ _ _ h _ _ _ => h.2) _ _ _
      ⟨runInv_init hs, by simp⟩ h1
    intro r st trunc bcs x st' ⟨hv, hI⟩ hd hg _ hstep
    have ho := hv.decomp' hc hd
    have hx := (getCompSt_some hg).inSpace ho.part.1
    have hs' := stepOut_of hc hv hx hstep
    refine ⟨hv.step hc ho hx hs', fun y hy => ?_⟩
    rw [hs'.evals] at hy
    rcases List.mem_append.1 hy with hy | hy
    · intro hn
      exact ⟨fun ht z hz => hs'.grows.1 z ((hI y hy hn).1 ht z hz),
        fun ht z hz => hs'.grows.2 z ((hI y hy hn).2 ht z hz)⟩
    · rw [List.mem_singleton] at hy
      subst hy
      exact runStep_minCov hc hv.start.dict hx hstep
  split <;> exact key

/-- The bounds cannot be narrower without further evaluations: when the run was not stopped by
`max_sf` and the branch limit is large enough, there are two coherent systems that agree with the rules
handed in and with every answer the run has seen, one failing with the probability that is the last
lower bound and one with that of the last upper bound; the run is the same for both.
Missing: runs stopped by `max_sf`, whose last row does not yet use the last rule
(`C115_sharp_not_max_sf`); branch limits that are reached. -/
theorem C115_sharp_partial {c : RunCfg K} (hc : CfgOK c Φ)
    (hm : 2 * (c.vs.map Prod.snd).prod ≤ c.maxNb) {rules : Rules K} (hs : StartOK c Φ rules none)
    {st : RunState K} (h : run c rules none = .ok st) (h0 : st.outFlag ≠ none)
    (hf : st.outFlag ≠ some .maxSf) :
    ∃ (row : MonRow) (Φ₁ Φ₂ : (K → ℕ) → Bool), st.mon.getLast? = some row ∧
      pFail c.vs c.probs Φ₁ = row.pfLow ∧ pFail c.vs c.probs Φ₂ = row.pfUp ∧
      ∀ Φ', Φ' = Φ₁ ∨ Φ' = Φ₂ → Coherent c.vs Φ' ∧ StartOK c Φ' rules none ∧
        (∀ x ∈ st.evals, Φ' x = Φ x) ∧
        ∃ f, SysOK c.vs Φ' f ∧ run (c.withSys f) rules none = .ok st := by
  classical
  obtain ⟨hG, hk⟩ := last_row_rules hc hm hs h
  obtain ⟨row, hrow, hlow, hup⟩ := (hk.resolve_left h0).resolve_left hf
  have hd : RulesDict c.vs st.rules := (start_rules hc hs h (c' := c) rfl).dict
  have hv : RulesValid c.vs Φ st.rules := (C27_bounds hc hs h).2.2.1
  have hev := evals_covered hc hs h
  have hmc := evals_minCov hc hs h
  have hnF : ∀ x, InSpace c.vs x → Φ x = true → ¬ CoveredF st.rules x := by
    rintro x hx ht ⟨r, hr, ha⟩
    rw [hv.f r hr x hx ha] at ht
    cases ht
  have hnS : ∀ x, InSpace c.vs x → Φ x = false → ¬ CoveredS st.rules x := by
    rintro x hx ht ⟨r, hr, ha⟩
    rw [hv.s r hr x hx ha] at ht
    cases ht
  have fin : ∀ Φ' : (K → ℕ) → Bool, Coherent c.vs Φ' → StartOK c Φ' rules none →
      (∀ x ∈ st.evals, Φ' x = Φ x) →
      (∀ y, InSpace c.vs y → CoveredS st.rules y → Φ' y = true) →
      (∀ y, InSpace c.vs y → CoveredF st.rules y → Φ' y = false) → Coherent c.vs Φ' ∧ StartOK c Φ' rules none ∧
        (∀ x ∈ st.evals, Φ' x = Φ x) ∧
        ∃ f, SysOK c.vs Φ' f ∧ run (c.withSys f) rules none = .ok st := by
    intro Φ' a1 a2 a3 a4 a5
    refine ⟨a1, a2, a3, _, sysOK_patch (g := c.sysFun) (ev := st.evals) (fun x hx => ?_)
      (fun x hx hn => ⟨hc.sys.dict x (hev x hx).1 hn, fun ht => ?_, fun ht => ?_⟩),
      C115_local_exact h fun x hx => by simp [hx]⟩
    · rw [a3 x hx]
      exact hc.sys.st x (hev x hx).1
    · rw [a3 x hx] at ht
      exact ⟨fun y hy ha => a4 y hy ((hmc x hx hn).1 ht y ha),
        (hc.sys.minS x (hev x hx).1 hn ht).2⟩
    · rw [a3 x hx] at ht
      exact ⟨fun y hy ha => a5 y hy ((hmc x hx hn).2 ht y ha),
        (hc.sys.minF x (hev x hx).1 hn ht).2⟩
  refine ⟨row, fun x => !decide (CoveredF st.rules x), fun x => decide (CoveredS st.rules x), hrow,
    ?_, ?_, ?_⟩
  · rw [hlow]
    refine probOf_congr hc.vs _ _ _ fun x _ => ?_
    simp
  · rw [hup, ← probOf_not hc.vs hc.probs]
    refine probOf_congr hc.vs _ _ _ fun x _ => ?_
    simp
  rintro Φ' (rfl | rfl)
  · refine fin _ (fun x y hxy hx => ?_) ⟨hs.dict, ⟨fun r hr x hx ha => ?_, fun r hr x hx ha => ?_⟩,
      fun bs hb => by cases hb⟩ (fun x hx => ?_) (fun y hy hS => ?_) (fun y hy hF => by simpa using hF)
    · simp only [Bool.not_eq_true', decide_eq_false_iff_not] at hx ⊢
      exact fun hy => hx (CoveredF.down hd hxy hy)
    · simpa using hnF x hx (hs.valid.s r hr x hx ha)
    · simpa using hG.2 x ⟨r, hr, ha⟩
    · cases ht : Φ x with
      | true => simpa using hnF x (hev x hx).1 ht
      | false => simpa using (hev x hx).2.2 ht
    · obtain ⟨r, hr, ha⟩ := hS
      simpa using hnF y hy (hv.s r hr y hy ha)
  · refine fin _ (fun x y hxy hx => ?_) ⟨hs.dict, ⟨fun r hr x hx ha => ?_, fun r hr x hx ha => ?_⟩,
      fun bs hb => by cases hb⟩ (fun x hx => ?_) (fun y hy hS => by simpa using hS) (fun y hy hF => ?_)
    · simp only [decide_eq_true_eq] at hx ⊢
      exact CoveredS.up hd hxy hx
    · simpa using hG.1 x ⟨r, hr, ha⟩
    · simpa using hnS x hx (hs.valid.f r hr x hx ha)
    · cases ht : Φ x with
      | true => simpa using (hev x hx).2.1 ht
      | false => simpa using hnS x (hev x hx).1 ht
    · obtain ⟨r, hr, ha⟩ := hF
      simpa using hnS y hy (hv.f r hr y hy ha)

end

/-- The system of C112 with a limit on the number of rules. -/
def Ex.bridgeRules (n : ℕ) : RunCfg ℕ := { Ex.bridge (1 / 2) 20 with maxRules := some n }

theorem Ex.bridgeRules_ok (n : ℕ) : CfgOK (Ex.bridgeRules n) Ex.bridgeΦ :=
  have h := Ex.bridge_ok (1 / 2) 20 ⟨by decide +kernel, by decide +kernel⟩
  ⟨h.vs, h.coh, h.probs, h.sys⟩

theorem Ex.no_rules (c : RunCfg ℕ) (Φ : (ℕ → ℕ) → Bool) : StartOK c Φ { s := [], f := [] } none :=
  ⟨by simp [RulesDict], ⟨by simp, by simp⟩, fun bs hb => by cases hb⟩

/-- After one evaluation, which `max_sf` allows, the last upper bound is 1; the same evaluation with a
limit of one rule instead gives 119/200, and no coherent system in which the evaluated vector survives
fails with a larger probability. -/
theorem C115_sharp_not_max_sf : ∃ (c : RunCfg ℕ) (Φ : (ℕ → ℕ) → Bool) (st : RunState ℕ)
    (row : MonRow), CfgOK c Φ ∧ 2 * (c.vs.map Prod.snd).prod ≤ c.maxNb ∧
    (∀ x, (c.sysFun x).min = []) ∧ run c { s := [], f := [] } none = .ok st ∧
    st.mon.getLast? = some row ∧ ∀ Φ', Coherent c.vs Φ' → (∀ x ∈ st.evals, Φ' x = Φ x) →
      pFail c.vs c.probs Φ' < row.pfUp := by
  have k : (run (Ex.bridge (1 / 2) 1) { s := [], f := [] } none).toOption.map
      (fun st => (st.mon.getLast?.map (fun r => r.pfUp), st.evals.map fun x => (x 0, x 1, x 2))) =
      some (some 1, [(1, 1, 1)]) := by decide +kernel
  have k' : (run (Ex.bridgeRules 1) { s := [], f := [] } none).toOption.map
      (fun st => (st.mon.getLast?.map (fun r => r.pfUp), st.evals.map fun x => (x 0, x 1, x 2))) =
      some (some (119 / 200), [(1, 1, 1)]) := by decide +kernel
  cases h : run (Ex.bridge (1 / 2) 1) { s := [], f := [] } none with
  | error e => rw [h] at k; cases k
  | ok st =>
    cases h' : run (Ex.bridgeRules 1) { s := [], f := [] } none with
    | error e => rw [h'] at k'; cases k'
    | ok st' =>
      rw [h] at k
      rw [h'] at k'
      simp only [Except.toOption, Option.map_some, Option.some.injEq, Prod.mk.injEq,
        Option.map_eq_some_iff] at k k'
      obtain ⟨⟨row, k1, k2⟩, k3⟩ := k
      obtain ⟨⟨row', l1, l2⟩, l3⟩ := k'
      have hc := Ex.bridge_ok (1 / 2) 1 ⟨by decide +kernel, by decide +kernel⟩
      refine ⟨Ex.bridge (1 / 2) 1, Ex.bridgeΦ, st, row, hc, by decide, fun _ => rfl, h, k1,
        fun Φ' hcoh hag => ?_⟩
      have hx : ∀ y ∈ st'.evals, Φ' y = true ∧ y 0 = 1 ∧ y 1 = 1 := by
        intro y hy
        have hy' := List.mem_map_of_mem (f := fun x : ℕ → ℕ => (x 0, x 1, x 2)) hy
        rw [l3, ← k3] at hy'
        obtain ⟨x, hx, hxy⟩ := List.mem_map.1 hy'
        have hx1 := List.mem_map_of_mem (f := fun x : ℕ → ℕ => (x 0, x 1, x 2)) hx
        rw [k3, List.mem_singleton] at hx1
        simp only [Prod.mk.injEq] at hxy hx1
        refine ⟨hcoh x y ?_ ?_, by omega, by omega⟩
        · intro kn hkn
          simp only [Ex.bridge, List.mem_cons, List.not_mem_nil, or_false] at hkn
          rcases hkn with rfl | rfl | rfl <;> simp only <;> omega
        · rw [hag x hx]
          simp [Ex.bridgeΦ, hx1]
      have hb := C115_bounds (c := Ex.bridgeRules 1) (Φ := Φ') hc.vs hc.probs h' hcoh
        (Ex.no_rules _ _) (fun y hy => by
          obtain ⟨e1, e2, e3⟩ := hx y hy
          rw [e1]
          simp [Ex.bridgeRules, Ex.bridge, e2, e3]) (fun y _ hn => absurd rfl hn) row'
        (List.mem_of_getLast? l1)
      rw [k2]
      have h2 := hb.2
      rw [l2] at h2
      exact lt_of_le_of_lt h2 (by norm_num)

/-- With a limit of three rules the run ends before it is complete, with the bounds 1/10 and 29/200, and
the hypotheses of `C115_sharp_partial` are met. -/
example : ∃ st row, run (Ex.bridgeRules 3) { s := [], f := [] } none = .ok st ∧
    st.mon.getLast? = some row ∧ row.pfLow = 1 / 10 ∧ row.pfUp = 29 / 200 ∧
    ∃ Φ₁ Φ₂ : (ℕ → ℕ) → Bool,
      pFail (Ex.bridgeRules 3).vs (Ex.bridgeRules 3).probs Φ₁ = row.pfLow ∧
      pFail (Ex.bridgeRules 3).vs (Ex.bridgeRules 3).probs Φ₂ = row.pfUp := by
  have k : (run (Ex.bridgeRules 3) { s := [], f := [] } none).toOption.map
      (fun st => (st.mon.getLast?.map (fun r => (r.pfLow, r.pfUp)),
        decide (st.outFlag = some .maxRules))) = some (some (1 / 10, 29 / 200), true) := by
    decide +kernel
  cases h : run (Ex.bridgeRules 3) { s := [], f := [] } none with
  | error e => rw [h] at k; cases k
  | ok st =>
    rw [h] at k
    simp only [Except.toOption, Option.map_some, Option.some.injEq, Prod.mk.injEq,
      Option.map_eq_some_iff, decide_eq_true_eq] at k
    obtain ⟨⟨row, k1, k2, k3⟩, k4⟩ := k
    obtain ⟨row', Φ₁, Φ₂, e1, e2, e3, -⟩ := C115_sharp_partial (Ex.bridgeRules_ok 3) (by decide)
      (Ex.no_rules _ _) h (by simp [k4]) (by simp [k4])
    rw [k1] at e1
    cases e1
    exact ⟨st, row, rfl, k1, k2, k3, Φ₁, Φ₂, e2, e3⟩

#print axioms C115_sharp_partial
#print axioms C115_sharp_not_max_sf

end BNS
