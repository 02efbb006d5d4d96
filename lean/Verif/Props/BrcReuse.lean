import Verif.Props.BrcResume
import Verif.Props.BrcStop
import Verif.Props.SysNetRound

/-!
# Property C110: using the rules and branches of a run for other component probabilities
-/

namespace BNS

set_option linter.unusedSectionVars false

section
variable {K : Type} [DecidableEq K] {Φ : (K → ℕ) → Bool}

/-- The rules of a run can be handed to a run with other probabilities. -/
theorem start_rules {c : RunCfg K} (hc : CfgOK c Φ) {rules : Rules K}
    {brs : Option (List (Branch K))} (hs : StartOK c Φ rules brs) {st : RunState K}
    (h : run c rules brs = .ok st) {c' : RunCfg K} (hvs : c'.vs = c.vs) :
    StartOK c' Φ st.rules none := by
  obtain ⟨st1, h1, rfl⟩ := run_eq h
  obtain ⟨hi, -⟩ := run_inv hc hs h1
  obtain ⟨e1, e2, -⟩ : StartOK c Φ st1.rules st1.brs := hi.start
  rw [← hvs] at e1 e2
  split <;> exact ⟨e1, e2, by simp⟩

/-- The rules of a complete run with enough branches decide every component vector. -/
theorem complete_covered {c : RunCfg K} (hc : CfgOK c Φ) (h0 : 0 < c.maxSf) {rules : Rules K}
    {brs : Option (List (Branch K))} (hs : StartOK c Φ rules brs) (hb : ResumeOK c rules brs)
    (hm : 2 * (c.vs.map Prod.snd).prod ≤ c.maxNb) {st : RunState K}
    (h : run c rules brs = .ok st) (hf : st.outFlag = some .complete) {x : K → ℕ}
    (hx : InSpace c.vs x) : CoveredS st.rules x ∨ CoveredF st.rules x := by
  obtain ⟨bs, row, hbs, -, hall, -⟩ := C28_enough_branches_partial hc hs hb hm h hf
  obtain ⟨bs', -, hbs', hpart, -⟩ := (C27_bounds hc hs h).2.2.2 h0
  rw [hbs] at hbs'
  cases hbs'
  have hk : RulesDict c.vs st.rules := (start_rules hc hs h (c' := c) rfl).dict
  obtain ⟨b, hbm, hin⟩ := hpart.exists hx
  obtain ⟨hcov, -⟩ := run_mono hc h0 hs hb h hbs b hbm
  obtain ⟨heq, hne⟩ := hall b hbm
  cases hd : b.downState with
  | s => exact .inl (CoveredS.up hk (fun kn hkn => (hin kn hkn).1) (hcov.1.1 hd))
  | f => exact .inr (CoveredF.down hk (fun kn hkn => (hin kn hkn).2) (hcov.2.2 (by rw [← heq, hd])))
  | u => exact absurd hd hne

/-- The rules of one run handed to a run with other component probabilities (and other limits and
options): every bound the second run monitors is valid for the new probabilities, and no vector is
evaluated that the first run has evaluated. -/
theorem C110_rules {c c' : RunCfg K} (hc : CfgOK c Φ) (hc' : CfgOK c' Φ) (hvs : c'.vs = c.vs)
    (hm : c.activeDecomp = true ∨ 2 * (c.vs.map Prod.snd).prod ≤ c.maxNb)
    (hm' : c'.activeDecomp = true ∨ 2 * (c.vs.map Prod.snd).prod ≤ c'.maxNb) {rules : Rules K}
    {brs : Option (List (Branch K))} (hs : StartOK c Φ rules brs) {st st' : RunState K}
    (h : run c rules brs = .ok st) (h' : run c' st.rules none = .ok st') :
    (∀ row ∈ st'.mon, row.pfLow ≤ pFail c'.vs c'.probs Φ ∧ pFail c'.vs c'.probs Φ ≤ row.pfUp) ∧
    (∀ x ∈ st.evals, ∀ y ∈ st'.evals, ∃ kn ∈ c.vs, x kn.1 ≠ y kn.1) ∧
    st.evals.length + st'.evals.length ≤ (c.vs.map Prod.snd).prod := by
  have hs' := start_rules hc hs h hvs
  obtain ⟨h1, h2⟩ := C61_no_reevaluation hc hc' hvs hm hm' hs h hs' h'
  exact ⟨(C27_bounds hc' hs' h').1, (List.pairwise_append.1 h1).2.2, h2⟩

/-- With the rules of a complete run (with enough branches) and other component probabilities,
`run` evaluates the system function not once, keeps the rules, and ends `complete`. -/
theorem C110_no_evaluation {c c' : RunCfg K} (hc : CfgOK c Φ) (hc' : CfgOK c' Φ)
    (hvs : c'.vs = c.vs) (h0 : 0 < c.maxSf) (h0' : 0 < c'.maxSf)
    (hm : 2 * (c.vs.map Prod.snd).prod ≤ c.maxNb)
    (hm' : c'.activeDecomp = true ∨ 2 * (c.vs.map Prod.snd).prod ≤ c'.maxNb) {rules : Rules K}
    {brs : Option (List (Branch K))} (hs : StartOK c Φ rules brs) (hb : ResumeOK c rules brs)
    {st st' : RunState K} (h : run c rules brs = .ok st) (hf : st.outFlag = some .complete)
    (h' : run c' st.rules none = .ok st') :
    st'.evals = [] ∧ st'.rules = st.rules ∧ st'.outFlag = some .complete := by
  have hs' := start_rules hc hs h hvs
  have hm2 : c'.activeDecomp = true ∨ 2 * spaceSize c'.vs ≤ c'.maxNb := by
    unfold spaceSize
    rw [hvs]
    exact hm'
  have hno : ∀ x, InSpace c'.vs x → getState x st.rules ≠ .u := by
    intro x hx hu
    obtain ⟨h2, h3⟩ := getState_u.1 hu
    rcases complete_covered hc h0 hs hb hm h hf (hvs ▸ hx) with e | e
    · exact h2 e
    · exact h3 e
  obtain ⟨st1, h1, rfl⟩ := run_eq h'
  have key : st1.evals = [] ∧ st1.rules = st.rules ∧ st1.outFlag = some .complete := by
    refine (runLoop_ind' hc' (fun r s => 0 < r ∧ s.evals = [] ∧ s.rules = st.rules)
      (fun s => s.evals = [] ∧ s.rules = st.rules ∧ s.outFlag = some .complete)
      ?_ (fun _ _ h => absurd h.1 (lt_irrefl _)) (fun _ _ _ _ _ h _ _ => ⟨h.2.1, h.2.2, rfl⟩) ?_
      (runInv_init hs') ⟨h0', rfl, rfl⟩ h1).1
    · intro r s trunc bs x s' hv hI hd hu hgo hstep
      have hun := unknown_uncovered hc' hm2 hd hu
      rw [hI.2.2] at hun
      exact absurd hun (hno x (hu.inSpace hd.part.1))
    · intro r s trunc bs x flag hv hI hd hu hfl
      have hun := unknown_uncovered hc' hm2 hd hu
      rw [hI.2.2] at hun
      exact absurd hun (hno x (hu.inSpace hd.part.1))
  split <;> exact key

/-- With a large enough branch limit this second run returns, whatever the new probabilities, and
its last row gives the failure probability for the new probabilities exactly.  Missing for the full
claim: smaller branch limits, where `complete` does not mean exact (`C28_complete_not_exact`). -/
theorem C110_exact_partial {c c' : RunCfg K} (hc : CfgOK c Φ) (hc' : CfgOK c' Φ)
    (hvs : c'.vs = c.vs) (h0 : 0 < c.maxSf) (h0' : 0 < c'.maxSf)
    (hm : 2 * (c.vs.map Prod.snd).prod ≤ c.maxNb)
    (hm' : 2 * (c.vs.map Prod.snd).prod ≤ c'.maxNb) {rules : Rules K}
    {brs : Option (List (Branch K))} (hs : StartOK c Φ rules brs) (hb : ResumeOK c rules brs)
    {st : RunState K} (h : run c rules brs = .ok st) (hf : st.outFlag = some .complete) :
    ∃ st' row, run c' st.rules none = .ok st' ∧ st'.evals = [] ∧ st'.mon = [row] ∧
      st'.outFlag = some .complete ∧
      row.pfLow = pFail c'.vs c'.probs Φ ∧ row.pfUp = pFail c'.vs c'.probs Φ := by
  have hs' := start_rules hc hs h hvs
  have hm2 : 2 * (c'.vs.map Prod.snd).prod ≤ c'.maxNb := by rw [hvs]; exact hm'
  obtain ⟨st', h'⟩ := C27_returns_other hc' hm2 hs' (resume_none _ _)
  obtain ⟨k1, -, k3⟩ := C110_no_evaluation hc hc' hvs h0 h0' hm (.inr hm') hs hb h hf h'
  obtain ⟨bs, row, -, hrow, -, e1, e2⟩ :=
    C28_enough_branches_partial hc' hs' (resume_none _ _) hm2 h' k3
  have hlen : st'.mon.length = 1 := by
    rcases C60_flag h' with ⟨e, -⟩ | ⟨e, -⟩ | ⟨-, e, -⟩
    · rw [k3] at e; cases e
    · rw [k3] at e; cases e
    · rw [e, k1]; rfl
  obtain ⟨r, hr⟩ := List.length_eq_one_iff.1 hlen
  rw [hr] at hrow
  simp only [List.getLast?_singleton, Option.some.injEq] at hrow
  subst hrow
  exact ⟨st', r, h', k1, hr, k3, e1, e2⟩

/-- With re-decomposition (the default) branches handed in make no difference. -/
theorem C110_branches_ignored {c : RunCfg K} (ha : c.activeDecomp = true) (h0 : 0 < c.maxSf)
    (rules : Rules K) (brs : Option (List (Branch K))) : run c rules brs = run c rules none := by
  have key : runLoop c c.maxSf { brs := brs, rules := rules } =
      runLoop c c.maxSf { brs := none, rules := rules } := by
    obtain ⟨r, hr⟩ := Nat.exists_eq_succ_of_ne_zero h0.ne'
    rw [hr]
    unfold runLoop RunCfg.startBrs
    rw [if_pos ha, if_pos ha]
    rfl
  unfold run
  rw [key]

end

/-- A series system of two components, and the same with other probabilities, continued without
re-decomposing. -/
def Ex.reuse1 : RunCfg ℕ := { Ex.series with maxNb := 100 }

def Ex.reuse2 : RunCfg ℕ :=
  { Ex.reuse1 with probs := fun _ i => if i = 0 then 1 / 10 else 9 / 10, activeDecomp := false }

theorem Ex.reuse1_ok : CfgOK Ex.reuse1 Ex.seriesΦ := ⟨Ex.series_ok.vs, Ex.series_ok.coh,
  Ex.series_ok.probs, Ex.series_ok.sys⟩

theorem Ex.reuse2_ok : CfgOK Ex.reuse2 Ex.seriesΦ := ⟨Ex.series_ok.vs, Ex.series_ok.coh,
  ⟨by decide +kernel, by decide +kernel⟩, Ex.series_ok.sys⟩

/-- The first run is complete; handed its rules, the second reports 19/100 without an evaluation. -/
example : (run Ex.reuse1 { s := [], f := [] } none).toOption.map
      (fun st => (st.outFlag, st.evals.length)) = some (some .complete, 3) ∧
    ((run Ex.reuse1 { s := [], f := [] } none).bind
      fun st => run Ex.reuse2 st.rules none).toOption.map
      (fun st => (st.mon.map fun r => (r.pfLow, r.pfUp), st.evals.length, st.outFlag)) =
      some ([(19 / 100, 19 / 100)], 0, some .complete) := by
  refine ⟨by decide +kernel, by decide +kernel⟩

example : ∃ st st' row, run Ex.reuse1 { s := [], f := [] } none = .ok st ∧
    run Ex.reuse2 st.rules none = .ok st' ∧ st'.evals = [] ∧ st'.mon = [row] ∧
    row.pfLow = pFail Ex.reuse2.vs Ex.reuse2.probs Ex.seriesΦ := by
  have h : (run Ex.reuse1 { s := [], f := [] } none).toOption.map (fun st => st.outFlag) =
      some (some .complete) := by decide +kernel
  cases hd : run Ex.reuse1 { s := [], f := [] } none with
  | error e => rw [hd] at h; cases h
  | ok st =>
    rw [hd] at h
    simp only [Except.toOption, Option.map_some, Option.some.injEq] at h
    obtain ⟨st', row, e1, e2, e3, -, e5, -⟩ := C110_exact_partial Ex.reuse1_ok Ex.reuse2_ok rfl
      (by decide) (by decide) (by decide) (by decide) (Ex.start_empty _) (resume_none _ _) hd h
    exact ⟨st, st', row, rfl, e1, e2, e3, e5⟩

/-- The branches are another matter: they keep the probabilities they were made with.  Handed the
rules and branches of a complete run and other component probabilities, `run` without re-decomposition
reports the old failure probability as both bounds, and `complete`. -/
theorem C110_not_branches : ∃ (c c' : RunCfg ℕ) (Φ : (ℕ → ℕ) → Bool) (st st' : RunState ℕ),
    CfgOK c Φ ∧ CfgOK c' Φ ∧ c'.vs = c.vs ∧ 2 * (c.vs.map Prod.snd).prod ≤ c.maxNb ∧
    2 * (c.vs.map Prod.snd).prod ≤ c'.maxNb ∧
    run c { s := [], f := [] } none = .ok st ∧ run c' st.rules st.brs = .ok st' ∧
    st'.outFlag = some .complete ∧ pFail c'.vs c'.probs Φ = 19 / 100 ∧
    st'.mon.map (fun r => (r.pfLow, r.pfUp)) = [(3 / 4, 3 / 4)] := by
  have h : ((run Ex.reuse1 { s := [], f := [] } none).bind
      fun st => run Ex.reuse2 st.rules st.brs).toOption.map
      (fun st => (st.outFlag, st.mon.map fun r => (r.pfLow, r.pfUp))) =
      some (some .complete, [(3 / 4, 3 / 4)]) := by decide +kernel
  cases hd : run Ex.reuse1 { s := [], f := [] } none with
  | error e => rw [hd] at h; cases h
  | ok st =>
    rw [hd] at h
    change (run Ex.reuse2 st.rules st.brs).toOption.map
      (fun st => (st.outFlag, st.mon.map fun r => (r.pfLow, r.pfUp))) = _ at h
    cases hd' : run Ex.reuse2 st.rules st.brs with
    | error e => rw [hd'] at h; cases h
    | ok st' =>
      rw [hd'] at h
      simp only [Except.toOption, Option.map_some, Option.some.injEq, Prod.mk.injEq] at h
      exact ⟨Ex.reuse1, Ex.reuse2, Ex.seriesΦ, st, st', Ex.reuse1_ok, Ex.reuse2_ok, rfl, by decide,
        by decide, hd, hd', h.1, by decide +kernel, h.2⟩

section
variable {K : Type} [LinearOrder K] {Φ : (K → ℕ) → Bool} {A1 : Arith}

/-- The event matrix made from the branches of a run does not depend on the component probabilities:
with the CPMs of any other component distribution `q`, elimination in every order returns a
distribution of the system event in which the answers for failure and survival bound the failure
probability under `q`, and the answer for the unknown state is the gap. -/
theorem C110_inference {c : RunCfg K} (hc : SysCfgOK c Φ) (h0 : 0 < c.maxSf) {q : K → ℕ → ℚ}
    (hq : ProbOK c.vs q) {rules : Rules K}
    {brs : Option (List (Branch K))} (hs : StartOKR c Φ (fun _ => True) rules brs)
    {st : RunState K} (h : runR A1 c rules brs = .ok st) {U : K → Variable K} {sys : K}
    (hU : SysVars U c.vs sys 3) {varis : K → Option (Variable K)}
    (hv : ∀ kn ∈ c.vs, varis kn.1 = some (U kn.1)) {lbl : St → Option ℕ}
    (hf : lbl .f = some 0) (hsv : lbl .s = some 1) (hu : lbl .u = some 2) :
    ∃ bs C, st.brs = some bs ∧ getCsys (c.vs.map Prod.fst) bs varis lbl = .ok (C, varis) ∧
      ∀ (cpms : List (Cpm K)) (ve : List (Variable K)),
        cpms.Perm (c.vs.map (compCpm U q) ++ [sysCpm U c.vs sys C]) →
        ve.Perm (compVariables U c.vs) →
        ∃ P qf qs qu, variableElim cpms ve = .ok P ∧
          P.getProb [U sys] [0] true = .ok qf ∧ P.getProb [U sys] [1] true = .ok qs ∧
          P.getProb [U sys] [2] true = .ok qu ∧
          qf ≤ pFail c.vs q Φ ∧ pFail c.vs q Φ ≤ 1 - qs ∧ qf + qs + qu = 1 ∧
          (ResumeOK c rules brs → 2 * (c.vs.map Prod.snd).prod ≤ c.maxNb →
            st.outFlag = some .complete →
            qf = pFail c.vs q Φ ∧ qs = 1 - pFail c.vs q Φ ∧ qu = 0) := by
  obtain ⟨-, -, hrun, -⟩ := C102_structure hc hs h
  obtain ⟨bs, hb, hpart, hlab⟩ := hrun h0
  obtain ⟨C, e1, e2, e3⟩ := csys_events hU hpart hv
    (lbl := lbl) fun b _ => by cases b.label <;> simp [hf, hsv, hu]
  have hlbl : ∀ l : St, (lbl l = some 0 ↔ l = .f) ∧ (lbl l = some 1 ↔ l = .s) ∧
      (lbl l = some 2 ↔ l = .u) := by
    intro l
    cases l <;> simp [hf, hsv, hu]
  refine ⟨bs, C, hb, e1, fun cpms ve hp hve => ?_⟩
  obtain ⟨P, f1, f2, f3, f4, f5⟩ := sysNet_elim hU q e2 hp hve
  have hget := fun j hj => sysNet_getProb hU q f2 f3 f4 f5 (j := j) hj
  have hF : P.getProb [U sys] [0] true =
      .ok (probOf c.vs q fun x => ∃ b ∈ bs, b.label = .f ∧ InBox c.vs b x) := by
    rw [hget 0 (by omega)]
    congr 1
    exact probOf_congr hc.vs q _ _ fun x _ => by rw [e3 0 x]; simp only [(hlbl _).1]
  have hS : P.getProb [U sys] [1] true =
      .ok (probOf c.vs q fun x => ∃ b ∈ bs, b.label = .s ∧ InBox c.vs b x) := by
    rw [hget 1 (by omega)]
    congr 1
    exact probOf_congr hc.vs q _ _ fun x _ => by rw [e3 1 x]; simp only [(hlbl _).2.1]
  have hN : P.getProb [U sys] [2] true =
      .ok (probOf c.vs q fun x => ∃ b ∈ bs, b.label = .u ∧ InBox c.vs b x) := by
    rw [hget 2 (by omega)]
    congr 1
    exact probOf_congr hc.vs q _ _ fun x _ => by rw [e3 2 x]; simp only [(hlbl _).2.2]
  refine ⟨P, _, _, _, f1, hF, hS, hN, ?_, ?_, ?_, fun hb' hm hcp => ?_⟩
  · refine probOf_mono hc.vs hq _ _ fun x _ => ?_
    rintro ⟨b, hbm, hl', hin⟩
    exact (label_sound hc.coh (hlab b hbm) hin).1 hl'
  · have := probOf_mono hc.vs hq (fun x => ∃ b ∈ bs, b.label = .s ∧ InBox c.vs b x)
      (fun x => ¬ Φ x = false) fun x _ => by
        rintro ⟨b, hbm, hl', hin⟩
        rw [(label_sound hc.coh (hlab b hbm) hin).2 hl']
        simp
    rw [probOf_not hc.vs hq] at this
    linarith
  · refine probOf_three hc.vs hq _ _ _ fun x hx => ?_
    obtain ⟨b, hb', hin⟩ := hpart.exists hx
    have key : ∀ l, (∃ b ∈ bs, b.label = l ∧ InBox c.vs b x) ↔ b.label = l := by
      intro l
      constructor
      · rintro ⟨b', hb'', hj, hin'⟩
        rw [Partition.unique hpart hx hb' hb'' hin hin']
        exact hj
      · exact fun hj => ⟨b, hb', hj, hin⟩
    rw [key, key, key]
    cases b.label <;> simp
  · exact complete_events hc h0 hq hs hb' hm h hcp hb

end

/-- The branches of a run of the series system in double precision, with other component CPMs: the
failure probability is exactly 3/4. -/
example : ∃ st bs C P, runR (Arith.ofRound float64) Ex.floatSeries { s := [], f := [] } none = .ok st ∧
    st.brs = some bs ∧ getCsys [0, 1] bs (some ∘ Ex.fserU) Ex.lbl = .ok (C, some ∘ Ex.fserU) ∧
    variableElim (Ex.floatSeries.vs.map (compCpm Ex.fserU fun _ _ => 1 / 2) ++
      [sysCpm Ex.fserU Ex.floatSeries.vs 9 C]) (compVariables Ex.fserU Ex.floatSeries.vs) = .ok P ∧
    P.getProb [Ex.fserU 9] [0] true = .ok (3 / 4) := by
  have h1 : (runR (Arith.ofRound float64) Ex.floatSeries { s := [], f := [] } none).toOption.map
      (fun st => st.outFlag) = some (some .complete) := by decide +kernel
  cases h : runR (Arith.ofRound float64) Ex.floatSeries { s := [], f := [] } none with
  | error e => rw [h] at h1; cases h1
  | ok st =>
    rw [h] at h1
    simp only [Except.toOption, Option.map_some, Option.some.injEq] at h1
    obtain ⟨bs, C, e1, e2, e3⟩ := C110_inference (q := fun _ _ => 1 / 2) Ex.floatSeries_ok (by decide)
      ⟨by decide +kernel, by decide +kernel⟩ (Ex.startR_empty _ _) h Ex.fserU_ok
      (varis := some ∘ Ex.fserU) (fun _ _ => rfl) (lbl := Ex.lbl) rfl rfl rfl
    obtain ⟨P, qf, qs, qu, f1, f2, -, -, -, -, -, f8⟩ := e3 _ _ (List.Perm.refl _) (List.Perm.refl _)
    obtain ⟨g, -, -⟩ := f8 (resume_none _ _) (by decide) h1
    refine ⟨st, bs, C, P, rfl, e1, e2, f1, ?_⟩
    rw [f2, g]
    decide +kernel

end BNS
