import Verif.Proofs.SysNetRun

/-!
# Property C33: from component probabilities and branches to the system distribution
-/

namespace BNS

set_option linter.unusedSectionVars false

section
variable {K : Type} [LinearOrder K] {Φ : (K → ℕ) → Bool}

/-- The branches a run returns, turned into an event matrix and put as the system CPM next to one
CPM per component: the constructor accepts all CPMs, eliminating the components succeeds in whatever
order the CPMs are listed and the components are eliminated, and the probability the result gives to
system state `j` is the probability that the component vector lies in a returned branch whose label
is mapped to `j`. -/
theorem C33_run {c : RunCfg K} (hc : CfgOK c Φ) (h0 : 0 < c.maxSf) {rules : Rules K}
    {brs0 : Option (List (Branch K))} (hs : StartOK c Φ rules brs0) {st : RunState K}
    (h : run c rules brs0 = .ok st) {U : K → Variable K} {sys : K} {m : ℕ}
    (hU : SysVars U c.vs sys m) {varis : K → Option (Variable K)}
    (hv : ∀ kn ∈ c.vs, varis kn.1 = some (U kn.1)) {lbl : St → Option ℕ}
    (hl : ∀ l, ∃ j, lbl l = some j ∧ j < m) :
    ∃ bs C, st.brs = some bs ∧ getCsys (c.vs.map Prod.fst) bs varis lbl = .ok (C, varis) ∧
      Cpm.mk' (sysCpm U c.vs sys C) = .ok (sysCpm U c.vs sys C) ∧
      (∀ kn ∈ c.vs, Cpm.mk' (compCpm U c.probs kn) = .ok (compCpm U c.probs kn)) ∧
      ∀ (cpms : List (Cpm K)) (ve : List (Variable K)),
        cpms.Perm (c.vs.map (compCpm U c.probs) ++ [sysCpm U c.vs sys C]) →
        ve.Perm (compVariables U c.vs) →
        ∃ P, variableElim cpms ve = .ok P ∧ P.vars = [U sys] ∧ ∀ j < m,
          P.getProb [U sys] [j] true = .ok (probOf c.vs c.probs fun x =>
            ∃ b ∈ bs, lbl b.label = some j ∧ InBox c.vs b x) := by
  obtain ⟨-, -, -, hrun⟩ := C27_bounds hc hs h
  obtain ⟨bs, row, hb, hpart, -⟩ := hrun h0
  obtain ⟨C, e1, e2, e3⟩ := csys_events hU hpart hv fun b _ => hl b.label
  refine ⟨bs, C, hb, e1, ?_, fun kn hkn => ?_, fun cpms ve hp hve => ?_⟩
  · have hw := sysCpm_WF hU e2
    exact mk'_ok hw.rowLen hw.entry hw.child (.inr hw.pLen) rfl
  · have hw := compCpm_WF hU c.probs hkn
    exact mk'_ok hw.rowLen hw.entry hw.child (.inr hw.pLen) rfl
  · obtain ⟨P, f1, f2, f3, f4, f5⟩ := sysNet_elim hU c.probs e2 hp hve
    refine ⟨P, f1, f3, fun j hj => ?_⟩
    rw [sysNet_getProb hU c.probs f2 f3 f4 f5 hj]
    congr 1
    exact probOf_congr hc.vs c.probs _ _ fun x _ => e3 j x

/-- With failure, survival and unknown mapped to three system states, the computed system
probabilities are the last monitored bounds: the lower bound on the failure probability, one minus
the upper bound, and the gap. -/
theorem C33_bounds {c : RunCfg K} (hc : CfgOK c Φ) (h0 : 0 < c.maxSf) {rules : Rules K}
    {brs0 : Option (List (Branch K))} (hs : StartOK c Φ rules brs0)
    (hb : ResumeOK c rules brs0) {st : RunState K}
    (h : run c rules brs0 = .ok st) {U : K → Variable K} {sys : K}
    (hU : SysVars U c.vs sys 3) {varis : K → Option (Variable K)}
    (hv : ∀ kn ∈ c.vs, varis kn.1 = some (U kn.1)) {lbl : St → Option ℕ}
    (hf : lbl .f = some 0) (hsv : lbl .s = some 1) (hu : lbl .u = some 2) :
    ∃ bs C row, st.brs = some bs ∧ st.mon.getLast? = some row ∧
      getCsys (c.vs.map Prod.fst) bs varis lbl = .ok (C, varis) ∧
      ∀ (cpms : List (Cpm K)) (ve : List (Variable K)),
        cpms.Perm (c.vs.map (compCpm U c.probs) ++ [sysCpm U c.vs sys C]) →
        ve.Perm (compVariables U c.vs) →
        ∃ P, variableElim cpms ve = .ok P ∧
          P.getProb [U sys] [0] true = .ok row.pfLow ∧
          P.getProb [U sys] [1] true = .ok (1 - row.pfUp) ∧
          P.getProb [U sys] [2] true = .ok (row.pfUp - row.pfLow) ∧
          row.pfLow ≤ pFail c.vs c.probs Φ ∧ pFail c.vs c.probs Φ ≤ row.pfUp := by
  obtain ⟨bs, C, e1, e2, -, -, e5⟩ := C33_run hc h0 hs h hU hv (lbl := lbl)
    (fun l => by cases l <;> simp [hf, hsv, hu])
  obtain ⟨hbd, -, -, hrun⟩ := C27_bounds hc hs h
  obtain ⟨bs', row, hbs', hpart, -, hrow, hlow, hup⟩ := hrun h0
  rw [e1] at hbs'
  cases hbs'
  have hm := fun b hb' => (run_mono hc h0 hs hb h e1 b hb').2
  have hF : probOf c.vs c.probs (fun x => ∃ b ∈ bs, lbl b.label = some 0 ∧ InBox c.vs b x) =
      row.pfLow := by
    rw [hlow]
    refine probOf_congr hc.vs c.probs _ _ fun x _ => ?_
    refine exists_congr fun b => and_congr_right fun hb' => and_congr_left fun _ => ?_
    have := hm b hb'
    unfold MonoLab at this
    unfold Branch.label
    cases hd : b.downState <;> cases hu' : b.upState <;> simp_all
  have hS : probOf c.vs c.probs (fun x => ∃ b ∈ bs, lbl b.label = some 1 ∧ InBox c.vs b x) =
      1 - row.pfUp := by
    rw [hup, sub_sub_cancel]
    refine probOf_congr hc.vs c.probs _ _ fun x _ => ?_
    refine exists_congr fun b => and_congr_right fun hb' => and_congr_left fun _ => ?_
    have := hm b hb'
    unfold MonoLab at this
    unfold Branch.label
    cases hd : b.downState <;> cases hu' : b.upState <;> simp_all
  have hG : probOf c.vs c.probs (fun x => ∃ b ∈ bs, lbl b.label = some 2 ∧ InBox c.vs b x) =
      row.pfUp - row.pfLow := by
    have hone := probOf_three hc.vs hc.probs
      (fun x => ∃ b ∈ bs, lbl b.label = some 0 ∧ InBox c.vs b x)
      (fun x => ∃ b ∈ bs, lbl b.label = some 1 ∧ InBox c.vs b x)
      (fun x => ∃ b ∈ bs, lbl b.label = some 2 ∧ InBox c.vs b x) fun x hx => by
        obtain ⟨b, hb', hin⟩ := hpart.exists hx
        have key : ∀ j, (∃ b ∈ bs, lbl b.label = some j ∧ InBox c.vs b x) ↔ lbl b.label = some j := by
          intro j
          constructor
          · rintro ⟨b', hb'', hj, hin'⟩
            rw [Partition.unique hpart hx hb' hb'' hin hin']
            exact hj
          · exact fun hj => ⟨b, hb', hj, hin⟩
        rw [key, key, key]
        cases b.label <;> simp [hf, hsv, hu]
    rw [hF, hS] at hone
    linarith
  refine ⟨bs, C, row, e1, hrow, e2, fun cpms ve hp hve => ?_⟩
  obtain ⟨P, f1, -, f3⟩ := e5 cpms ve hp hve
  obtain ⟨g1, g2⟩ := hbd row (List.mem_of_getLast? hrow)
  refine ⟨P, f1, ?_, ?_, ?_, g1, g2⟩
  · rw [f3 0 (by omega), hF]
  · rw [f3 1 (by omega), hS]
  · rw [f3 2 (by omega), hG]

/-- After a `complete` run with a sufficient branch limit the computed system distribution is exact:
failure, survival and "unknown" get the failure probability, its complement, and 0.  Missing for the
full claim: runs that report `complete` after a truncated decomposition (`C28_complete_not_exact`). -/
theorem C33_exact_partial {c : RunCfg K} (hc : CfgOK c Φ) (h0 : 0 < c.maxSf) {rules : Rules K}
    {brs0 : Option (List (Branch K))} (hs : StartOK c Φ rules brs0)
    (hb : ResumeOK c rules brs0) (hm : 2 * (c.vs.map Prod.snd).prod ≤ c.maxNb)
    {st : RunState K} (h : run c rules brs0 = .ok st) (hcp : st.outFlag = some .complete)
    {U : K → Variable K} {sys : K}
    (hU : SysVars U c.vs sys 3) {varis : K → Option (Variable K)}
    (hv : ∀ kn ∈ c.vs, varis kn.1 = some (U kn.1)) {lbl : St → Option ℕ}
    (hf : lbl .f = some 0) (hsv : lbl .s = some 1) (hu : lbl .u = some 2) :
    ∃ bs C, st.brs = some bs ∧ getCsys (c.vs.map Prod.fst) bs varis lbl = .ok (C, varis) ∧
      ∀ (cpms : List (Cpm K)) (ve : List (Variable K)),
        cpms.Perm (c.vs.map (compCpm U c.probs) ++ [sysCpm U c.vs sys C]) →
        ve.Perm (compVariables U c.vs) →
        ∃ P, variableElim cpms ve = .ok P ∧
          P.getProb [U sys] [0] true = .ok (pFail c.vs c.probs Φ) ∧
          P.getProb [U sys] [1] true = .ok (1 - pFail c.vs c.probs Φ) ∧
          P.getProb [U sys] [2] true = .ok 0 := by
  obtain ⟨bs, C, row, e1, e2, e3, e4⟩ := C33_bounds hc h0 hs hb h hU hv hf hsv hu
  obtain ⟨bs', row', g1, g2, -, g3, g4⟩ := C28_enough_branches_partial hc hs hb hm h hcp
  rw [e2] at g2
  cases g2
  refine ⟨bs, C, e1, e3, fun cpms ve hp hve => ?_⟩
  obtain ⟨P, f1, f2, f3, f4, -⟩ := e4 cpms ve hp hve
  rw [g3] at f2
  rw [g4] at f3
  rw [g3, g4, sub_self] at f4
  exact ⟨P, f1, f2, f3, f4⟩

end

/-- An example: the network of the example run; system variable 9. -/
def Ex.netU (k : ℕ) : Variable ℕ :=
  Variable.mk' k (if k = 9 then [0, 1, 2] else List.range (if k = 1 then 3 else 2)) .dflt

theorem Ex.netU_ok : SysVars Ex.netU Ex.vs 9 3 :=
  ⟨Ex.vs_ok, by decide +kernel, by decide +kernel, by decide +kernel, by decide +kernel,
    by decide +kernel, by decide +kernel, by decide +kernel⟩

/-- The hypotheses of `C33_bounds` and `C33_exact_partial` are met by runs of the example system: one stopped
early, one complete. -/
example : CfgOK (Ex.cfg 3 100) Ex.Φ ∧ 0 < (Ex.cfg 3 100).maxSf ∧
    StartOK (Ex.cfg 3 100) Ex.Φ { s := [], f := [] } none ∧
    ResumeOK (Ex.cfg 3 100) { s := [], f := [] } none ∧ SysVars Ex.netU (Ex.cfg 3 100).vs 9 3 ∧
    (∀ kn ∈ (Ex.cfg 3 100).vs, (some ∘ Ex.netU) kn.1 = some (Ex.netU kn.1)) ∧
    Ex.lbl .f = some 0 ∧ Ex.lbl .s = some 1 ∧ Ex.lbl .u = some 2 ∧
    2 * ((Ex.cfg 20 100).vs.map Prod.snd).prod ≤ (Ex.cfg 20 100).maxNb ∧
    (run (Ex.cfg 3 100) { s := [], f := [] } none).toOption.map
      (fun st => (st.mon.getLast?.map fun r => (r.pfLow, r.pfUp), st.outFlag)) =
      some (some (0, 62 / 125), some .maxSf) ∧
    (run (Ex.cfg 20 100) { s := [], f := [] } none).toOption.map
      (fun st => (st.mon.getLast?.map fun r => (r.pfLow, r.pfUp), st.outFlag)) =
      some (some (77 / 500, 77 / 500), some .complete) :=
  ⟨Ex.cfg_ok 3 100, by decide, Ex.start_empty _, resume_none _ _, Ex.netU_ok, fun _ _ => rfl, rfl, rfl, rfl,
    by decide +kernel, by decide +kernel, by decide +kernel⟩

end BNS
