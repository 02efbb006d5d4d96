import Verif.Proofs.ObserveRound
import Verif.Props.Observe

/-!
# Property C106: updating with observations in floating-point arithmetic
-/

namespace BNS

set_option linter.unusedSectionVars false

open List

/-- Conditioning computes with no probability: whatever the tables' probabilities are, and however they
are related to those meant, `operation.condition` raises the same exceptions, keeps the same rows and
copies their probabilities. -/
theorem C106_condition {K : Type} [DecidableEq K] {R : ℚ → ℚ → Prop} {cpms' cpms : List (Cpm K)}
    (h : Forall₂ (SameTable R) cpms' cpms) (qv : QVars K) (qs : List QState) :
    Outcome (Forall₂ (SameTable R)) (conditionAllQ cpms' qv qs) (conditionAllQ cpms qv qs) :=
  conditionAllQ_rel h qv qs

section
variable {K : Type} [LinearOrder K] {U : K → Variable K}

/-- From the stored tables to the table that is left, with the number of roundings known beforehand. -/
theorem observe_round {cpms' cpms : List (Cpm K)}
    (h : Forall₂ (SameTable (NearP (fun _ => True) ((2 : ℚ) ^ (-53 : ℤ)) 1)) cpms' cpms)
    {qv : QVars K} {qs : List QState} {ns : List K} {ss : List ℕ}
    (hl : conditionAllQ cpms qv qs = .ok (condNet U cpms ns ss)) {ve : List (Variable K)} {P : Cpm K}
    (hP : variableElim (condNet U cpms ns ss) ve = .ok P) (hw : WF U P) {N : ℕ}
    (hN : 2 * cpms.length + (ve.length + 1) * (cpms.map fun M => max 1 M.C.length).prod ≤ N)
    (hN' : N ≤ 2 ^ 52) :
    ∃ l' P', conditionAllQ cpms' qv qs = .ok l' ∧
      variableElimR (Arith.ofRound float53) l' ve = .ok P' ∧
      |(Arith.ofRound float53).sum P'.p - P.p.sum| ≤ N * (2 : ℚ) ^ (-52 : ℤ) * P.p.sum ∧
      ∀ vs st flag q, P.getProb vs st flag = .ok q → ∃ q', 0 ≤ q ∧
        P'.getProbR (Arith.ofRound float53) vs st flag = .ok q' ∧
        |q' - q| ≤ N * (2 : ℚ) ^ (-52 : ℤ) * q := by
  obtain ⟨l', hl', hll⟩ := (C106_condition h qv qs).of_ok hl
  have hA := counted_near C103_float53.1
  obtain ⟨P', hP', hPP⟩ := (elim_rel hA hll ve).of_ok hP
  have hc := C103_count 1 (condNet U cpms ns ss) ve
  have hr := condNet_rows (U := U) cpms ns ss
  have hrow := elim_result_rows hP
  have e1 : ∀ l : List (Cpm K), (l.map fun M => max 1 M.C.length).prod = (l.map rows1).prod :=
    fun _ => rfl
  rw [e1] at hc hN
  have hlen : (condNet U cpms ns ss).length = cpms.length := by simp [condNet]
  rw [hlen] at hc
  have hk : elimRoundings 1 (condNet U cpms ns ss) ve + P.C.length ≤ N := by
    have := Nat.mul_le_mul_left ve.length hr
    rw [Nat.add_mul, Nat.one_mul] at hN
    omega
  refine ⟨l', P', hl', hP', ?_, fun vs st flag q hq => ?_⟩
  · exact C103_relative ((hA.sum _ _ _ _ hPP.p hw.pLen.le).mono C103_float53.1.eps hk) hN'
  · obtain ⟨q', hq', hqq⟩ := (getProb_rel hPP (fun _ _ hl hn => hA.sum _ _ _ _ hl hn) vs st flag).of_ok hq
    exact ⟨q', hqq.nonneg, hq', C103_relative (hqq.mono C103_float53.1.eps hk) hN'⟩

/-- **Bayes' rule in double precision**, without underflow, from tables stored with one rounding: for
observations with a positive probability, the answer of `get_prob` divided by the sum of the remaining
probabilities is the conditional probability given the observations, with a relative error of at most
`2⁻⁵²` times a number that can be read off the given tables. -/
theorem C106_posterior_partial {cpms' cpms : List (Cpm K)}
    (h' : Forall₂ (SameTable (NearP (fun _ => True) ((2 : ℚ) ^ (-53 : ℤ)) 1)) cpms' cpms)
    (ve : List (Variable K)) (ho : ElimOK U cpms ve)
    (hcl : ∀ M ∈ cpms, ∀ k ∈ M.getNames, ∃ N ∈ cpms, k ∈ childNames N)
    (W : List K) (hW : W.Nodup) (hWm : ∀ k, k ∈ W ↔ ∃ M ∈ cpms, k ∈ M.getNames)
    (ns : List K) (ss : List ℕ) (h : Observed U cpms ns ss)
    (hx : ∃ x, Agrees U ns ss x ∧ ∀ M ∈ cpms, Covers M x)
    {pe : ℚ} (hpe : pe = sumOver (W.map fun k => (k, (U k).values.length))
      (fun y => if Agrees U ns ss y then jointDens cpms y else 0) (fun _ => 0)) (hpos : 0 < pe)
    {N : ℕ} (hN : 2 * cpms.length + (ve.length + 1) * (cpms.map fun M => max 1 M.C.length).prod ≤ N)
    (hN' : N ≤ 2 ^ 48) :
    ∃ l P, conditionAllQ cpms' (.names ns) (ss.map .idx) = .ok l ∧
      variableElimR (Arith.ofRound float53) l ve = .ok P ∧ 0 < (Arith.ofRound float53).sum P.p ∧
      ∀ (qn : List K) (qs : List ℕ), qn ≠ [] → Observed U cpms qn qs →
        (∀ k ∈ qn, k ∉ ve.map Variable.name) →
        ∃ q, P.getProbR (Arith.ofRound float53) (qn.map U) qs true = .ok q ∧
          ∀ t, t = sumOver (W.map fun k => (k, (U k).values.length))
              (fun y => if Agrees U qn qs y ∧ Agrees U ns ss y then jointDens cpms y else 0)
              (fun _ => 0) / pe →
            |float53 (q / (Arith.ofRound float53).sum P.p) - t| ≤
              (3 * N + 1) * (2 : ℚ) ^ (-52 : ℤ) * t := by
  obtain ⟨l, P, e1, e2, e3, e4⟩ := C105_posterior cpms ve ho hcl W hW hWm ns ss h hx
  obtain ⟨l0, P0, d1, d2, d3, -⟩ := C105_elimination cpms ve ho ns ss h hx
  have e1' : conditionAllQ cpms (.names ns) (ss.map .idx) = .ok (condNet U cpms ns ss) := by
    rw [conditionAllQ_names h ho.net.wf]
    exact conditionAllQ_vars h ho.net.wf
  rw [e1] at d1 e1'
  cases d1
  cases e1'
  rw [e2] at d2
  cases d2
  have e1' : conditionAllQ cpms (.names ns) (ss.map .idx) = .ok (condNet U cpms ns ss) := e1
  obtain ⟨l', P', f1, f2, f3, f4⟩ := observe_round h' e1' e2 d3 hN (hN'.trans (by norm_num))
  rw [← hpe] at e3
  rw [e3] at f3
  refine ⟨l', P', f1, f2, ?_, fun qn qs hne hq hqv => ?_⟩
  · exact (quotient_near (q' := 0) (q := 0) (by simp) f3 le_rfl hpos hN').1
  · obtain ⟨q', g0, g1, g2⟩ := f4 _ _ _ _ (e4 qn qs hne hq hqv)
    refine ⟨q', g1, fun t ht => ?_⟩
    rw [ht]
    exact (quotient_near g2 f3 g0 hpos hN').2

/-- Bounds on the probability of failure given the observations, in double precision without underflow,
from the branches of any run and tables stored with one rounding: the computed quotients bound the
probability up to `2⁻⁵²` times a number that can be read off the tables. -/
theorem C106_bounds_partial {Φ : (K → ℕ) → Bool} {c : RunCfg K} (hc : CfgOK c Φ) (h0 : 0 < c.maxSf)
    {rules : Rules K} {brs0 : Option (List (Branch K))} (hs : StartOK c Φ rules brs0)
    {st : RunState K} (h : run c rules brs0 = .ok st) {sys : K}
    (hU : SysVars U c.vs sys 3) {varis : K → Option (Variable K)}
    (hv : ∀ kn ∈ c.vs, varis kn.1 = some (U kn.1)) {lbl : St → Option ℕ}
    (hf : lbl .f = some 0) (hsv : lbl .s = some 1) (hu : lbl .u = some 2)
    {obs : List (Obs K)} (ho : ObsVars U c.vs sys obs) (lik : K → ℕ → ℕ → ℚ)
    (hlik : ∀ o ∈ obs, ∀ i < (U o.comp).values.length, 0 ≤ lik o.node o.seen i)
    (hpos : 0 < probWith c.vs c.probs lik obs fun _ => True) :
    ∃ bs C, st.brs = some bs ∧ getCsys (c.vs.map Prod.fst) bs varis lbl = .ok (C, varis) ∧
      ∀ (cpms cpms' : List (Cpm K)) (ve : List (Variable K)) (N : ℕ),
        cpms.Perm (c.vs.map (compCpm U c.probs) ++ obs.map (obsCpm U lik) ++ [sysCpm U c.vs sys C]) →
        ve.Perm ((obs.map fun o => U o.node) ++ compVariables U c.vs) →
        Forall₂ (SameTable (NearP (fun _ => True) ((2 : ℚ) ^ (-53 : ℤ)) 1)) cpms' cpms →
        2 * cpms.length + (ve.length + 1) * (cpms.map fun M => max 1 M.C.length).prod ≤ N →
        N ≤ 2 ^ 48 →
        ∃ l P pf ps,
          conditionAllQ cpms' (.names (obs.map Obs.node)) ((obs.map Obs.seen).map .idx) = .ok l ∧
          variableElimR (Arith.ofRound float53) l ve = .ok P ∧
          P.getProbR (Arith.ofRound float53) [U sys] [0] true = .ok pf ∧
          P.getProbR (Arith.ofRound float53) [U sys] [1] true = .ok ps ∧
          0 < (Arith.ofRound float53).sum P.p ∧
          float53 (pf / (Arith.ofRound float53).sum P.p) - (3 * N + 1) * (2 : ℚ) ^ (-52 : ℤ) ≤
            (probWith c.vs c.probs lik obs fun x => Φ x = false) /
              (probWith c.vs c.probs lik obs fun _ => True) ∧
          (probWith c.vs c.probs lik obs fun x => Φ x = false) /
              (probWith c.vs c.probs lik obs fun _ => True) ≤
            float53 (1 - float53 (ps / (Arith.ofRound float53).sum P.p)) +
              (3 * N + 2) * (2 : ℚ) ^ (-52 : ℤ) := by
  obtain ⟨bs, C, e1, e2, e3⟩ := C105_bounds hc h0 hs h hU hv hf hsv hu ho lik hlik hpos
  obtain ⟨bs1, C1, g1, g2, -, g4⟩ := C105_system hc h0 hs h hU hv hf hsv hu ho lik
  rw [e1] at g1
  cases g1
  rw [e2] at g2
  cases g2
  obtain ⟨-, -, -, hrun⟩ := C27_bounds hc hs h
  obtain ⟨bs', row, hb, hpart, -⟩ := hrun h0
  rw [e1] at hb
  cases hb
  obtain ⟨C2, i1, i2, -⟩ := csys_events hU hpart hv (lbl := lbl)
    fun b _ => by cases b.label <;> simp [hf, hsv, hu]
  rw [e2] at i1
  cases i1
  refine ⟨bs, C, e1, e2, fun cpms cpms' ve N hp hve h' hN hN' => ?_⟩
  obtain ⟨l, P, pf, ps, f1, f2, f3, f4, f5, f6, -⟩ := e3 cpms ve hp hve
  obtain ⟨l1, P1, k1, k2, -, -, -, -, k7⟩ := g4 cpms ve hp hve
  rw [f1] at k1
  cases k1
  rw [f2] at k2
  cases k2
  obtain ⟨P2, j1, j2, -, -, -⟩ := obsNet_elim hU c.probs i2 ho lik hp hve
  obtain ⟨hok, -⟩ := obsNet_elimOK hU c.probs i2 ho lik hp hve
  have hev := obsEvidence ho (cpms := cpms) lik fun o hm => by
    rw [hp.mem_iff, List.mem_append, List.mem_append]
    exact .inl (.inr (List.mem_map_of_mem hm))
  have hcond : conditionAllQ cpms (.names (obs.map Obs.node)) ((obs.map Obs.seen).map .idx) =
      .ok (condNet U cpms (obs.map Obs.node) (obs.map Obs.seen)) := by
    rw [conditionAllQ_names hev hok.net.wf]
    exact conditionAllQ_vars hev hok.net.wf
  have hl : l = condNet U cpms (obs.map Obs.node) (obs.map Obs.seen) :=
    Except.ok.inj (f1.symm.trans hcond)
  rw [hl, j1] at f2
  cases f2
  obtain ⟨l', P', m1, m2, m3, m4⟩ := observe_round h' hcond j1 j2 hN (hN'.trans (by norm_num))
  rw [k7] at m3 f5 f6
  obtain ⟨pf', n0, n1, n2⟩ := m4 _ _ _ _ f3
  obtain ⟨ps', o0, o1, o2⟩ := m4 _ _ _ _ f4
  obtain ⟨hs', q1⟩ := quotient_near n2 m3 n0 hpos hN'
  obtain ⟨-, q2⟩ := quotient_near o2 m3 o0 hpos hN'
  refine ⟨l', P', pf', ps', m1, m2, n1, o1, hs', ?_⟩
  have hpf0 : 0 ≤ pf / probWith c.vs c.probs lik obs fun _ => True := div_nonneg n0 hpos.le
  have hps0 : 0 ≤ ps / probWith c.vs c.probs lik obs fun _ => True := div_nonneg o0 hpos.le
  generalize pf / probWith c.vs c.probs lik obs (fun _ => True) = a at q1 f5 hpf0
  generalize ps / probWith c.vs c.probs lik obs (fun _ => True) = b at q2 f6 hps0
  generalize (probWith c.vs c.probs lik obs fun x => Φ x = false) /
    probWith c.vs c.probs lik obs (fun _ => True) = t at f5 f6
  generalize float53 (pf' / (Arith.ofRound float53).sum P'.p) = a' at q1
  generalize float53 (ps' / (Arith.ofRound float53).sum P'.p) = b' at q2
  have ha1 : a ≤ 1 := by linarith
  have hb1 : b ≤ 1 := by linarith
  have fr := float53_rel (1 - b')
  set e := (2 : ℚ) ^ (-53 : ℤ) with he
  have ee : (2 : ℚ) ^ (-52 : ℤ) = 2 * e := by rw [he]; norm_num
  have epos : 0 < e := two_zpow_pos _
  have hE : (3 * (N : ℚ) + 1) * (2 * e) ≤ 1 := by
    have : (N : ℚ) ≤ 2 ^ 48 := by exact_mod_cast hN'
    have := mul_le_mul_of_nonneg_right (show 3 * (N : ℚ) + 1 ≤ 3 * 2 ^ 48 + 1 by linarith)
      (by linarith : 0 ≤ 2 * e)
    refine this.trans ?_
    rw [he]; norm_num
  rw [ee] at q1 q2 ⊢
  have e5 : (3 * (N : ℚ) + 2) * (2 * e) = (3 * (N : ℚ) + 1) * (2 * e) + 2 * e := by ring
  rw [e5]
  clear_value e
  have hE0 : 0 ≤ (3 * (N : ℚ) + 1) * (2 * e) := by positivity
  generalize (3 * (N : ℚ) + 1) * (2 * e) = E at q1 q2 hE hE0 ⊢
  have q1' := abs_le.1 (q1.trans (by nlinarith : E * a ≤ E))
  have q2' := abs_le.1 (q2.trans (by nlinarith : E * b ≤ E))
  have fb : |1 - b'| ≤ 2 := by rw [abs_le]; constructor <;> linarith [q2'.1, q2'.2]
  have fr' := abs_le.1 (fr.trans (by nlinarith : e * |1 - b'| ≤ 2 * e))
  exact ⟨by linarith [q1'.2], by linarith [q2'.2, fr'.1]⟩

end

namespace Ex

theorem elim12_ok : ElimOK U [A, B, D] [U 1, U 2] := by
  refine ⟨⟨by decide +kernel, by decide +kernel, by decide +kernel⟩, by simp, by decide +kernel,
    ⟨fun _ => 0, by decide +kernel⟩, by decide +kernel, by decide +kernel, by decide +kernel, ?_⟩
  intro v hv
  have : v = U 1 ∨ v = U 2 := by simpa using hv
  rcases this with rfl | rfl
  · exact ⟨0, by decide +kernel, .single ⟨D, by simp, by decide +kernel, by decide +kernel⟩⟩
  · exact ⟨0, by decide +kernel, .single ⟨B, by simp, by decide +kernel, by decide +kernel⟩⟩

/-- A fair variable and a report about it that is almost never made. -/
def fair : Cpm ℕ := { vars := [U 0], noChild := 1, C := [[0], [1]], p := [1 / 2, 1 / 2] }

def rare (k : ℕ) : Cpm ℕ :=
  { vars := [U k, U 0], noChild := 1, C := [[0, 0], [1, 0], [0, 1], [1, 1]]
    p := [2 ^ (-600 : ℤ), 1 - 2 ^ (-600 : ℤ), 2 ^ (-600 : ℤ), 1 - 2 ^ (-600 : ℤ)] }

end Ex

/-- Non-vacuity of `C106_posterior_partial`: the network of `Verif.Examples.Cpm` stored in double
precision, variable 1 observed in state 1; the probability of state 0 of variable 0 is 41/554. -/
example : ∃ l P q, conditionAllQ ([Ex.A, Ex.B, Ex.D].map Ex.stored) (.names [1]) [.idx 1] = .ok l ∧
    variableElimR (Arith.ofRound float53) l [Ex.U 1, Ex.U 2] = .ok P ∧
    P.getProbR (Arith.ofRound float53) [Ex.U 0] [0] true = .ok q ∧
    |float53 (q / (Arith.ofRound float53).sum P.p) - 41 / 554| ≤
      (3 * ((126 : ℕ) : ℚ) + 1) * (2 : ℚ) ^ (-52 : ℤ) * (41 / 554) := by
  obtain ⟨l, P, e1, e2, -, e3⟩ := C106_posterior_partial (N := 126) (pe := 277 / 300) Ex.stored_near
    [Ex.U 1, Ex.U 2] Ex.elim12_ok
    (by decide +kernel) [0, 1, 2] (by decide) (by
      intro k
      simp [Ex.A, Ex.B, Ex.D, Cpm.getNames, Ex.U, Variable.mk']
      omega) [1] [1]
    ⟨by decide, by decide, by decide +kernel, by decide +kernel⟩
    ⟨fun k => if k = 1 then 1 else 0, by decide +kernel, by decide +kernel⟩ (by decide +kernel)
    (by norm_num) (by decide +kernel) (by norm_num)
  obtain ⟨q, f1, f2⟩ := e3 [0] [0] (by simp)
    ⟨by decide, by decide, by decide +kernel, by decide +kernel⟩ (by decide +kernel)
  exact ⟨l, P, q, e1, e2, f1, f2 _ (by decide +kernel)⟩

/-- The other hypotheses of `C106_bounds_partial` are those of `C105_bounds`; the tables of the example
system there, stored in double precision, meet the one about rounding, whatever the event matrix. -/
example (C : List (List ℕ)) : Forall₂ (SameTable (NearP (fun _ => True) ((2 : ℚ) ^ (-53 : ℤ)) 1))
    ((Ex.vs.map (compCpm Ex.netU Ex.probs) ++ Ex.obs.map (obsCpm Ex.netU Ex.lik) ++
      [sysCpm Ex.netU Ex.vs 9 C]).map Ex.stored)
    (Ex.vs.map (compCpm Ex.netU Ex.probs) ++ Ex.obs.map (obsCpm Ex.netU Ex.lik) ++
      [sysCpm Ex.netU Ex.vs 9 C]) := by
  rw [forall₂_map_left_iff, forall₂_same]
  intro M hM
  have h1 : ∀ M ∈ Ex.vs.map (compCpm Ex.netU Ex.probs) ++ Ex.obs.map (obsCpm Ex.netU Ex.lik),
      (∀ x ∈ M.p, 0 ≤ x) ∧ M.Cs = [] := by decide +kernel
  rcases List.mem_append.1 hM with hM | hM
  · exact Ex.stored_table M (h1 M hM).1 (h1 M hM).2
  · rw [List.mem_singleton.1 hM]
    refine Ex.stored_table _ (fun x hx => ?_) rfl
    obtain ⟨_, -, rfl⟩ := List.mem_map.1 hx
    exact zero_le_one

/-- Why underflow is left out: two reports, each with the positive probability `2⁻⁶⁰⁰`.  In exact
arithmetic both states of the variable have the same conditional probability; in double precision all
the remaining probabilities are 0, and so is their sum, the denominator. -/
theorem C106_underflow :
    ((conditionAllQ [Ex.fair, Ex.rare 1, Ex.rare 3] (.names [1, 3]) [.idx 0, .idx 0]).bind fun l =>
      (variableElim l [Ex.U 1, Ex.U 3]).map fun P => (P.C, P.p.map fun x => x / P.p.sum)) =
      .ok ([[0], [1]], [1 / 2, 1 / 2]) ∧
    ((conditionAllQ [Ex.fair, Ex.rare 1, Ex.rare 3] (.names [1, 3]) [.idx 0, .idx 0]).bind fun l =>
      (variableElimR (Arith.ofRound float64) l [Ex.U 1, Ex.U 3]).map fun P =>
        (P.C, P.p, (Arith.ofRound float64).sum P.p)) = .ok ([[0], [1]], [0, 0], 0) := by
  constructor <;> decide +kernel

end BNS
