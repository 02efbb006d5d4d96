import Verif.Proofs.BrcSensitivity
import Verif.Props.BrcDominance

/-!
# Property C113: component probabilities that are not quite right
-/

namespace BNS

set_option linter.unusedSectionVars false

section
variable {K : Type} [DecidableEq K] {Φ : (K → ℕ) → Bool} {A : Arith} {F : ℚ → Prop} {ε η : ℚ}

/-- The bounds of a run with the component probabilities `c.probs`, widened by the distance to other
probabilities `q`, contain the failure probability under `q`. -/
theorem C113_bounds {c : RunCfg K} (hc : CfgOK c Φ) {q : K → ℕ → ℚ} (hq : ProbOK c.vs q)
    {rules : Rules K} {brs : Option (List (Branch K))} (hs : StartOK c Φ rules brs)
    {st : RunState K} (h : run c rules brs = .ok st) :
    ∀ row ∈ st.mon, row.pfLow - compDist c.vs c.probs q ≤ pFail c.vs q Φ ∧
      pFail c.vs q Φ ≤ row.pfUp + compDist c.vs c.probs q := by
  intro row hr
  obtain ⟨h1, h2⟩ := (C27_bounds hc hs h).1 row hr
  obtain ⟨h3, h4⟩ := abs_le.1 (probOf_near hc.vs hc.probs hq fun x => Φ x = false)
  constructor
  · show _ ≤ probOf c.vs q fun x => Φ x = false
    have : pFail c.vs c.probs Φ = probOf c.vs c.probs fun x => Φ x = false := rfl
    linarith
  · show (probOf c.vs q fun x => Φ x = false) ≤ _
    have : pFail c.vs c.probs Φ = probOf c.vs c.probs fun x => Φ x = false := rfl
    linarith

/-- After a complete run with enough branches the reported number is off by at most the distance.
Missing: branch limits that are reached (`C28_complete_not_exact`). -/
theorem C113_exact_partial {c : RunCfg K} (hc : CfgOK c Φ) {q : K → ℕ → ℚ} (hq : ProbOK c.vs q)
    {rules : Rules K} {brs : Option (List (Branch K))} (hs : StartOK c Φ rules brs)
    (hb : ResumeOK c rules brs) (hm : 2 * (c.vs.map Prod.snd).prod ≤ c.maxNb) {st : RunState K}
    (h : run c rules brs = .ok st) (hf : st.outFlag = some .complete) :
    ∃ row, st.mon.getLast? = some row ∧ row.pfLow = row.pfUp ∧
      |row.pfLow - pFail c.vs q Φ| ≤ compDist c.vs c.probs q := by
  obtain ⟨-, row, -, k1, -, k2, k3⟩ := C28_enough_branches_partial hc hs hb hm h hf
  refine ⟨row, k1, by rw [k2, k3], ?_⟩
  rw [k2]
  exact probOf_near hc.vs hc.probs hq fun x => Φ x = false

/-- The same for two analyses: their reported numbers differ by at most the distance. -/
theorem C113_two_runs_partial {c c' : RunCfg K} (hc : CfgOK c Φ) (hc' : CfgOK c' Φ)
    (hvs : c'.vs = c.vs) (hm : 2 * (c.vs.map Prod.snd).prod ≤ c.maxNb)
    (hm' : 2 * (c.vs.map Prod.snd).prod ≤ c'.maxNb) {r r' : Rules K}
    {b b' : Option (List (Branch K))} (hs : StartOK c Φ r b) (hs' : StartOK c' Φ r' b')
    (hb : ResumeOK c r b) (hb' : ResumeOK c' r' b') {st st' : RunState K} (h : run c r b = .ok st)
    (h' : run c' r' b' = .ok st') (hf : st.outFlag = some .complete)
    (hf' : st'.outFlag = some .complete) :
    ∃ row row', st.mon.getLast? = some row ∧ st'.mon.getLast? = some row' ∧
      |row.pfLow - row'.pfLow| ≤ compDist c.vs c.probs c'.probs ∧
      |row.pfUp - row'.pfUp| ≤ compDist c.vs c.probs c'.probs := by
  obtain ⟨-, row, -, k1, -, k2, k3⟩ := C28_enough_branches_partial hc hs hb hm h hf
  obtain ⟨-, row', -, l1, -, l2, l3⟩ :=
    C28_enough_branches_partial hc' hs' hb' (by rw [hvs]; exact hm') h' hf'
  have hp' := hc'.probs
  rw [hvs] at hp' l2 l3
  have key := probOf_near hc.vs hc.probs hp' fun x => Φ x = false
  refine ⟨row, row', k1, l1, ?_, ?_⟩
  · rw [k2, l2]; exact key
  · rw [k3, l3]; exact key

/-- In floating-point arithmetic the tolerance of C102 comes on top. -/
theorem C113_tolerance {c : RunCfg K} (hc : SysCfgOK c Φ) (hA : A.Within F ε η) {p q : K → ℕ → ℚ}
    (hp : ProbOK c.vs p) (hn : NearProbs F ε c.vs c.probs p) (hq : ProbOK c.vs q) {rules : Rules K}
    {brs : Option (List (Branch K))} (hs : StartOKR c Φ (PNear F ε η c.vs p) rules brs)
    {st : RunState K} (h : runR A c rules brs = .ok st) :
    ∀ row ∈ st.mon,
      row.pfLow - tolerance ε η c.vs row.noBr - compDist c.vs p q ≤ pFail c.vs q Φ ∧
      pFail c.vs q Φ ≤ row.pfUp + tolerance ε η c.vs row.noBr + compDist c.vs p q := by
  intro row hr
  obtain ⟨h1, h2, -⟩ := (C102_bounds_partial hc hA hp hn hs h).1 row hr
  obtain ⟨h3, h4⟩ := abs_le.1 (probOf_near hc.vs hp hq fun x => Φ x = false)
  change -compDist c.vs p q ≤ pFail c.vs p Φ - pFail c.vs q Φ at h3
  change pFail c.vs p Φ - pFail c.vs q Φ ≤ compDist c.vs p q at h4
  constructor <;> linarith

end

/-- The system of C112 with failure probabilities 1/2 and 1/10 of one component: the distance is 2/5, the
failure probabilities are 29/200 and 109/1000, and the bounds after three evaluations with 1/2 are
widened accordingly. -/
example : compDist (Ex.bridge (1 / 2) 3).vs (Ex.bridge (1 / 2) 3).probs (Ex.bridge (1 / 10) 3).probs =
      2 / 5 ∧
    pFail (Ex.bridge (1 / 2) 3).vs (Ex.bridge (1 / 2) 3).probs Ex.bridgeΦ = 29 / 200 ∧
    pFail (Ex.bridge (1 / 2) 3).vs (Ex.bridge (1 / 10) 3).probs Ex.bridgeΦ = 109 / 1000 :=
  ⟨by decide +kernel, by decide +kernel, by decide +kernel⟩

example : ∃ st, run (Ex.bridge (1 / 2) 3) { s := [], f := [] } none = .ok st ∧ st.mon ≠ [] ∧
    ∀ row ∈ st.mon, row.pfLow - compDist (Ex.bridge (1 / 2) 3).vs (Ex.bridge (1 / 2) 3).probs
      (Ex.bridge (1 / 10) 3).probs ≤
        pFail (Ex.bridge (1 / 2) 3).vs (Ex.bridge (1 / 10) 3).probs Ex.bridgeΦ := by
  have k : (run (Ex.bridge (1 / 2) 3) { s := [], f := [] } none).toOption.map
      (fun st => decide (st.mon.length = 0)) = some false := by decide +kernel
  cases h : run (Ex.bridge (1 / 2) 3) { s := [], f := [] } none with
  | error e => rw [h] at k; cases k
  | ok st =>
    rw [h] at k
    refine ⟨st, rfl, fun e => ?_, fun row hr => (C113_bounds (Ex.bridge_ok (1 / 2) 3
      ⟨by decide +kernel, by decide +kernel⟩) (q := (Ex.bridge (1 / 10) 3).probs)
      ⟨by decide +kernel, by decide +kernel⟩ (Ex.start_empty _) h row hr).1⟩
    simp [Except.toOption, e] at k

/-- The distance cannot be replaced by a smaller one: in a series system in which one component never
fails, the failure probabilities differ by the whole distance. -/
theorem C113_sharp : ∃ (c c' : RunCfg ℕ) (Φ : (ℕ → ℕ) → Bool) (st st' : RunState ℕ)
    (row row' : MonRow), CfgOK c Φ ∧ CfgOK c' Φ ∧ c'.vs = c.vs ∧
    run c { s := [], f := [] } none = .ok st ∧ run c' { s := [], f := [] } none = .ok st' ∧
    st.mon.getLast? = some row ∧ st'.mon.getLast? = some row' ∧
    0 < compDist c.vs c.probs c'.probs ∧
    |row.pfLow - row'.pfLow| = compDist c.vs c.probs c'.probs := by
  let mk : ℚ → RunCfg ℕ := fun q => { Ex.reuse1 with probs := fun k i =>
    if k = 0 then (if i = 0 then q else 1 - q) else if i = 0 then 0 else 1 }
  have ok : ∀ q, ProbOK Ex.reuse1.vs (mk q).probs → CfgOK (mk q) Ex.seriesΦ :=
    fun q hp => ⟨Ex.reuse1_ok.vs, Ex.reuse1_ok.coh, hp, Ex.reuse1_ok.sys⟩
  have k : (run (mk (1 / 2)) { s := [], f := [] } none).toOption.map
      (fun st => st.mon.getLast?.map fun r => r.pfLow) = some (some (1 / 2)) := by decide +kernel
  have k' : (run (mk (1 / 10)) { s := [], f := [] } none).toOption.map
      (fun st => st.mon.getLast?.map fun r => r.pfLow) = some (some (1 / 10)) := by decide +kernel
  have e : compDist Ex.reuse1.vs (mk (1 / 2)).probs (mk (1 / 10)).probs = 2 / 5 := by decide +kernel
  cases h : run (mk (1 / 2)) { s := [], f := [] } none with
  | error e => rw [h] at k; cases k
  | ok st =>
    cases h' : run (mk (1 / 10)) { s := [], f := [] } none with
    | error e => rw [h'] at k'; cases k'
    | ok st' =>
      rw [h] at k
      rw [h'] at k'
      simp only [Except.toOption, Option.map_some, Option.some.injEq, Option.map_eq_some_iff] at k k'
      obtain ⟨row, k1, k2⟩ := k
      obtain ⟨row', l1, l2⟩ := k'
      refine ⟨mk (1 / 2), mk (1 / 10), Ex.seriesΦ, st, st', row, row',
        ok _ ⟨by decide +kernel, by decide +kernel⟩, ok _ ⟨by decide +kernel, by decide +kernel⟩, rfl, h,
        h', k1, l1, ?_, ?_⟩
      · show 0 < compDist Ex.reuse1.vs (mk (1 / 2)).probs (mk (1 / 10)).probs
        rw [e]; norm_num
      · show _ = compDist Ex.reuse1.vs (mk (1 / 2)).probs (mk (1 / 10)).probs
        rw [e, k2, l2]; norm_num [abs_of_pos]

end BNS
