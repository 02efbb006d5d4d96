import Verif.Proofs.ObserveWide
import Verif.Props.Observe

/-!
# Property C105: the system CPM with columns for the observations
-/

namespace BNS

set_option linter.unusedSectionVars false

section
variable {K : Type} [LinearOrder K] {U : K → Variable K}

/-- The system CPM may have a column for every observation with the state "any" in all its rows
(tests/test_brc.py:690-702): the CPM can be constructed, conditioning and elimination succeed in every
order, and `get_prob` and the sum of the probabilities are those of `C105_system`. -/
theorem C105_layout {Φ : (K → ℕ) → Bool} {c : RunCfg K} (hc : CfgOK c Φ) (h0 : 0 < c.maxSf)
    {rules : Rules K} {brs0 : Option (List (Branch K))} (hs : StartOK c Φ rules brs0)
    {st : RunState K} (h : run c rules brs0 = .ok st) {sys : K}
    (hU : SysVars U c.vs sys 3) {varis : K → Option (Variable K)}
    (hv : ∀ kn ∈ c.vs, varis kn.1 = some (U kn.1)) {lbl : St → Option ℕ}
    (hf : lbl .f = some 0) (hsv : lbl .s = some 1) (hu : lbl .u = some 2)
    {obs : List (Obs K)} (ho : ObsVars U c.vs sys obs) (lik : K → ℕ → ℕ → ℚ) :
    ∃ bs C, st.brs = some bs ∧ getCsys (c.vs.map Prod.fst) bs varis lbl = .ok (C, varis) ∧
      Cpm.mk' (sysObsCpm U c.vs sys obs C) = .ok (sysObsCpm U c.vs sys obs C) ∧
      ∀ (cpms : List (Cpm K)) (ve : List (Variable K)),
        cpms.Perm (c.vs.map (compCpm U c.probs) ++ obs.map (obsCpm U lik) ++
          [sysObsCpm U c.vs sys obs C]) →
        ve.Perm ((obs.map fun o => U o.node) ++ compVariables U c.vs) →
        ∃ l P, conditionAllQ cpms (.names (obs.map Obs.node)) ((obs.map Obs.seen).map .idx) = .ok l ∧
          variableElim l ve = .ok P ∧ P.vars = [U sys] ∧
          P.getProb [U sys] [0] true = .ok (probWith c.vs c.probs lik obs fun x =>
            ∃ b ∈ bs, b.label = .f ∧ InBox c.vs b x) ∧
          P.getProb [U sys] [1] true = .ok (probWith c.vs c.probs lik obs fun x =>
            ∃ b ∈ bs, b.label = .s ∧ InBox c.vs b x) ∧
          P.getProb [U sys] [2] true = .ok (probWith c.vs c.probs lik obs fun x =>
            ∃ b ∈ bs, b.label = .u ∧ InBox c.vs b x) ∧
          P.p.sum = probWith c.vs c.probs lik obs fun _ => True := by
  obtain ⟨bs, C, hb, e1, -, e3⟩ := C105_system hc h0 hs h hU hv hf hsv hu ho lik
  obtain ⟨-, -, -, hrun⟩ := C27_bounds hc hs h
  obtain ⟨bs', row, hb', hpart, -⟩ := hrun h0
  rw [hb] at hb'
  cases hb'
  obtain ⟨C', e1', e2, -⟩ := csys_events hU hpart hv (lbl := lbl)
    fun b _ => by cases b.label <;> simp [hf, hsv, hu]
  rw [e1] at e1'
  cases e1'
  have hw := (sysObsCpm_wide hU e2 ho).wf
  refine ⟨bs, C, hb, e1, mk'_ok hw.rowLen hw.entry hw.child (.inr hw.pLen) rfl, fun cpms ve hp hve => ?_⟩
  obtain ⟨hok, hev, P, f1, f2, f3, f4, f5⟩ := obsWide_elim hU c.probs e2 ho (A := obs) (B := [])
    (by rw [List.append_nil]) lik (by simp) hp hve
  obtain ⟨l0, P0, g1, g2, -, g4, g5, g6, g7⟩ := e3 _ ve (List.Perm.refl _) hve
  obtain ⟨hok0, -⟩ := obsNet_elimOK hU c.probs e2 ho lik (List.Perm.refl _) hve
  have hev0 := obsEvidence ho (cpms := c.vs.map (compCpm U c.probs) ++ obs.map (obsCpm U lik) ++
      [sysCpm U c.vs sys C]) lik fun o hm => by
    rw [List.mem_append, List.mem_append]
    exact .inl (.inr (List.mem_map_of_mem hm))
  rw [conditionAllQ_names hev0 hok0.net.wf, conditionAllQ_vars hev0 hok0.net.wf] at g1
  cases g1
  obtain ⟨Q, q1, q2, q3, q4, q5⟩ := obsNet_elim hU c.probs e2 ho lik (List.Perm.refl _) hve
  rw [g2] at q1
  cases q1
  have key : ∀ j < 3, P.getProb [U sys] [j] true = P0.getProb [U sys] [j] true ∧ P.p.sum = P0.p.sum := by
    intro j hj
    obtain ⟨a1, a2⟩ := sysTable_getProb hU f2 f3 f4
      (f := fun j => probWith c.vs c.probs lik obs (SysState U c.vs C j)) f5 hj
    obtain ⟨b1, b2⟩ := sysTable_getProb hU q2 q3 q4
      (f := fun j => probWith c.vs c.probs lik obs (SysState U c.vs C j)) q5 hj
    exact ⟨a1.trans b1.symm, a2.trans b2.symm⟩
  refine ⟨_, P, ?_, f1, f3, ?_, ?_, ?_, ?_⟩
  · rw [conditionAllQ_names hev hok.net.wf]
    exact conditionAllQ_vars hev hok.net.wf
  · rw [(key 0 (by omega)).1, g4]
  · rw [(key 1 (by omega)).1, g5]
  · rw [(key 2 (by omega)).1, g6]
  · rw [(key 0 (by omega)).2, g7]

/-- Only some of the observations were made.  The network has a variable and a column of the system CPM
for every possible observation (`obs`); conditioning on those made (`A`) and eliminating all of them with
the components succeeds, and the answers are those for the observations made alone, provided the
probabilities of the others add up to one.  Without observations (`A = []`, tests/test_brc.py:887-898)
they are the probabilities of failure, survival and of the unknown part. -/
theorem C105_unseen {Φ : (K → ℕ) → Bool} {c : RunCfg K} (hc : CfgOK c Φ) (h0 : 0 < c.maxSf)
    {rules : Rules K} {brs0 : Option (List (Branch K))} (hs : StartOK c Φ rules brs0)
    {st : RunState K} (h : run c rules brs0 = .ok st) {sys : K}
    (hU : SysVars U c.vs sys 3) {varis : K → Option (Variable K)}
    (hv : ∀ kn ∈ c.vs, varis kn.1 = some (U kn.1)) {lbl : St → Option ℕ}
    (hf : lbl .f = some 0) (hsv : lbl .s = some 1) (hu : lbl .u = some 2)
    {obs : List (Obs K)} (ho : ObsVars U c.vs sys obs) {A B : List (Obs K)} (hAB : obs.Perm (A ++ B))
    (lik : K → ℕ → ℕ → ℚ) (hB : ∀ o ∈ B, ∀ i < (U o.comp).values.length,
      ∑ j ∈ Finset.range (U o.node).values.length, lik o.node j i = 1) :
    ∃ bs C, st.brs = some bs ∧ getCsys (c.vs.map Prod.fst) bs varis lbl = .ok (C, varis) ∧
      ∀ (cpms : List (Cpm K)) (ve : List (Variable K)),
        cpms.Perm (c.vs.map (compCpm U c.probs) ++ obs.map (obsCpm U lik) ++
          [sysObsCpm U c.vs sys obs C]) →
        ve.Perm ((obs.map fun o => U o.node) ++ compVariables U c.vs) →
        ∃ l P, conditionAllQ cpms (.names (A.map Obs.node)) ((A.map Obs.seen).map .idx) = .ok l ∧
          variableElim l ve = .ok P ∧ P.vars = [U sys] ∧
          P.getProb [U sys] [0] true = .ok (probWith c.vs c.probs lik A fun x =>
            ∃ b ∈ bs, b.label = .f ∧ InBox c.vs b x) ∧
          P.getProb [U sys] [1] true = .ok (probWith c.vs c.probs lik A fun x =>
            ∃ b ∈ bs, b.label = .s ∧ InBox c.vs b x) ∧
          P.getProb [U sys] [2] true = .ok (probWith c.vs c.probs lik A fun x =>
            ∃ b ∈ bs, b.label = .u ∧ InBox c.vs b x) ∧
          P.p.sum = probWith c.vs c.probs lik A fun _ => True := by
  have hsubA : ∀ o ∈ A, o ∈ obs := fun o hm => hAB.mem_iff.2 (List.mem_append_left _ hm)
  have hoA : ObsVars U c.vs sys A := ho.sub (by
    have := (hAB.map Obs.node).nodup_iff.1 ho.nodup
    rw [List.map_append] at this
    exact (List.nodup_append.1 this).1) hsubA
  obtain ⟨bs, C, hb, e1, -, e3⟩ := C105_system hc h0 hs h hU hv hf hsv hu hoA lik
  obtain ⟨-, -, -, hrun⟩ := C27_bounds hc hs h
  obtain ⟨bs', row, hb', hpart, -⟩ := hrun h0
  rw [hb] at hb'
  cases hb'
  obtain ⟨C', e1', e2, -⟩ := csys_events hU hpart hv (lbl := lbl)
    fun b _ => by cases b.label <;> simp [hf, hsv, hu]
  rw [e1] at e1'
  cases e1'
  refine ⟨bs, C, hb, e1, fun cpms ve hp hve => ?_⟩
  obtain ⟨hok, hev, P, f1, f2, f3, f4, f5⟩ := obsWide_elim hU c.probs e2 ho hAB lik hB hp hve
  obtain ⟨l0, P0, g1, g2, -, g4, g5, g6, g7⟩ := e3 _ _ (List.Perm.refl _) (List.Perm.refl _)
  obtain ⟨hok0, -⟩ := obsNet_elimOK hU c.probs e2 hoA lik (List.Perm.refl _)
    (List.Perm.refl ((A.map fun o => U o.node) ++ compVariables U c.vs))
  have hev0 := obsEvidence hoA (cpms := c.vs.map (compCpm U c.probs) ++ A.map (obsCpm U lik) ++
      [sysCpm U c.vs sys C]) lik fun o hm => by
    rw [List.mem_append, List.mem_append]
    exact .inl (.inr (List.mem_map_of_mem hm))
  rw [conditionAllQ_names hev0 hok0.net.wf, conditionAllQ_vars hev0 hok0.net.wf] at g1
  cases g1
  obtain ⟨Q, q1, q2, q3, q4, q5⟩ := obsNet_elim hU c.probs e2 hoA lik (List.Perm.refl _)
    (List.Perm.refl ((A.map fun o => U o.node) ++ compVariables U c.vs))
  rw [g2] at q1
  cases q1
  have key : ∀ j < 3, P.getProb [U sys] [j] true = P0.getProb [U sys] [j] true ∧ P.p.sum = P0.p.sum := by
    intro j hj
    obtain ⟨a1, a2⟩ := sysTable_getProb hU f2 f3 f4
      (f := fun j => probWith c.vs c.probs lik A (SysState U c.vs C j)) f5 hj
    obtain ⟨b1, b2⟩ := sysTable_getProb hU q2 q3 q4
      (f := fun j => probWith c.vs c.probs lik A (SysState U c.vs C j)) q5 hj
    exact ⟨a1.trans b1.symm, a2.trans b2.symm⟩
  refine ⟨_, P, ?_, f1, f3, ?_, ?_, ?_, ?_⟩
  · rw [conditionAllQ_names hev hok.net.wf]
    exact conditionAllQ_vars hev hok.net.wf
  · rw [(key 0 (by omega)).1, g4]
  · rw [(key 1 (by omega)).1, g5]
  · rw [(key 2 (by omega)).1, g6]
  · rw [(key 0 (by omega)).2, g7]

end

/-- The hypotheses of `C105_layout` are met by the example after `C105_bounds`; with the columns for the
two observations, whose state "any" is 2, the answer is the same. -/
example : CfgOK (Ex.cfg 20 100) Ex.Φ ∧ StartOK (Ex.cfg 20 100) Ex.Φ { s := [], f := [] } none ∧
    SysVars Ex.netU (Ex.cfg 20 100).vs 9 3 ∧ ObsVars Ex.netU (Ex.cfg 20 100).vs 9 Ex.obs ∧
    (((run (Ex.cfg 20 100) { s := [], f := [] } none).toOption.bind fun st => st.brs).bind fun bs =>
      (getCsys (Ex.vs.map Prod.fst) bs (some ∘ Ex.netU) Ex.lbl).toOption.bind fun C =>
        ((conditionAllQ (Ex.vs.map (compCpm Ex.netU Ex.probs) ++ Ex.obs.map (obsCpm Ex.netU Ex.lik) ++
          [sysObsCpm Ex.netU Ex.vs 9 Ex.obs C.1]) (.names [10, 12]) [.idx 1, .idx 0]).bind fun l =>
          variableElim l ([10, 12, 0, 1, 2].map Ex.netU)).toOption.map
            fun P : Cpm ℕ => (P.C, P.p)) =
      some ([[0], [1]], [1047 / 25000, 5103 / 25000]) :=
  ⟨Ex.cfg_ok 20 100, Ex.start_empty _, Ex.netU_ok,
    ⟨by decide, by decide +kernel, by decide +kernel, by decide +kernel, by decide +kernel,
      by decide +kernel⟩, by decide +kernel⟩

/-- The hypotheses of `C105_unseen` are met by the example when the second observation was not made, and
when none was made: the probabilities of failure are those with the first observation and without any. -/
example : Ex.obs.Perm ([⟨10, 0, 1⟩] ++ [⟨12, 1, 0⟩]) ∧ Ex.obs.Perm ([] ++ Ex.obs) ∧
    (∀ o ∈ Ex.obs, ∀ i < (Ex.netU o.comp).values.length,
      ∑ j ∈ Finset.range (Ex.netU o.node).values.length, Ex.lik o.node j i = 1) ∧
    probWith Ex.vs Ex.probs Ex.lik [⟨10, 0, 1⟩] (fun x => Ex.Φ x = false) = 293 / 5000 ∧
    probWith Ex.vs Ex.probs Ex.lik [] (fun x => Ex.Φ x = false) = 77 / 500 :=
  ⟨List.Perm.refl _, List.Perm.refl _, by decide +kernel, by decide +kernel, by decide +kernel⟩

example : (Ex.netU 10).values.length = 2 ∧ (Ex.netU 12).values.length = 2 := by decide +kernel

end BNS
