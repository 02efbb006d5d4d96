import Verif.Props.BrcRun

/-!
# Property C61: continuing a BRC run
-/

namespace BNS

set_option linter.unusedSectionVars false

variable {K : Type} [DecidableEq K] {Φ : (K → ℕ) → Bool}

/-- Labels handed from one iteration to the next, and those of the branches at the end, are
confirmed by the rules and agree with the order. -/
def MonoInv (c : RunCfg K) (st : RunState K) : Prop :=
  c.activeDecomp = false ∨ st.started = true → ∀ bs, st.brs = some bs → ∀ b ∈ bs,
    LabelsCov st.rules b ∧ MonoLab b

theorem MonoInv.start {c : RunCfg K} {st : RunState K} (h : MonoInv c st) :
    ∀ b ∈ c.startBrs st, LabelsCov st.rules b ∧ MonoLab b := by
  unfold RunCfg.startBrs
  split
  · simp
  · rename_i ha
    cases hb : st.brs with
    | none => simp
    | some bs => exact h (.inl (by simpa using ha)) bs hb

theorem MonoInv.out {c : RunCfg K} {st : RunState K} (h : MonoInv c st) {trunc}
    {brs : List (Branch K)}
    (hd : DecompOut c.vs Φ c.probs st.rules c.maxNb (c.startBrs st) brs trunc) :
    ∀ b ∈ brs, LabelsCov st.rules b ∧ MonoLab b :=
  fun b hb => ⟨hd.cov (fun b hb => (h.start b hb).1) b hb, hd.mono h.start b hb⟩

/-- The labels of the branches a run returns agree with the order. -/
theorem run_mono {c : RunCfg K} (hc : CfgOK c Φ) (h0 : 0 < c.maxSf) {rules : Rules K}
    {brs : Option (List (Branch K))} (hs : StartOK c Φ rules brs)
    (hb : ResumeOK c rules brs) {st : RunState K} (h : run c rules brs = .ok st)
    {bs : List (Branch K)} (hbs : st.brs = some bs) :
    ∀ b ∈ bs, LabelsCov st.rules b ∧ MonoLab b := by
  obtain ⟨st1, h1, rfl⟩ := run_eq h
  have hi := (run_inv hc hs h1).2 h0
  have hm : MonoInv c st1 := by
    refine (runLoop_ind' hc (fun _ st => MonoInv c st) (fun st => MonoInv c st) ?_ ?_ ?_ ?_
      (runInv_init hs) ?_ h1).1
    · intro r st trunc brs x st' hv hI hd hu hgo hstep _ bs hbs b hb
      rw [hstep.brs] at hbs
      injection hbs with hbs
      subst hbs
      obtain ⟨e1, e2⟩ := hI.out hd b hb
      exact ⟨hstep.grows.cov e1, e2⟩
    · exact fun st _ h => h
    · intro r st trunc brs hv hI hd _ _ bs hbs b hb
      injection hbs with hbs
      subst hbs
      exact hI.out hd b hb
    · intro r st trunc brs x flag hv hI hd _ _ _ bs hbs b hb
      injection hbs with hbs
      subst hbs
      exact hI.out hd b hb
    · rintro (ha | ha) bs hbs
      · exact hb ha bs hbs
      · cases ha
  rw [if_pos hi] at hbs ⊢
  exact hm (.inr hi) bs hbs

/-- What a run returns may be handed to a further run, with any other limits and options. -/
theorem C61_resumable {c : RunCfg K} (hc : CfgOK c Φ) (h0 : 0 < c.maxSf) {rules : Rules K}
    {brs : Option (List (Branch K))} (hs : StartOK c Φ rules brs) (hb : ResumeOK c rules brs)
    {st : RunState K} (h : run c rules brs = .ok st) {c' : RunCfg K} (hvs : c'.vs = c.vs)
    (hpr : c'.probs = c.probs) : StartOK c' Φ st.rules st.brs ∧ ResumeOK c' st.rules st.brs := by
  refine ⟨?_, fun _ bs hbs => run_mono hc h0 hs hb h hbs⟩
  obtain ⟨st1, h1, rfl⟩ := run_eq h
  obtain ⟨hi, -⟩ := run_inv hc hs h1
  have : StartOK c Φ st1.rules st1.brs := hi.start
  obtain ⟨e1, e2, e3⟩ := this
  rw [← hvs] at e1 e2 e3
  rw [← hpr] at e3
  split <;> exact ⟨e1, e2, e3⟩

/-- What the rules say is bounded by the row. -/
def AboveRules (c : RunCfg K) (rules : Rules K) (row : MonRow) : Prop :=
  probOf c.vs c.probs (CoveredF rules) ≤ row.pfLow ∧
  row.pfUp ≤ 1 - probOf c.vs c.probs (CoveredS rules)

theorem grows_prob {c : RunCfg K} (hc : CfgOK c Φ) {r r' : Rules K} (h : Grows r r') :
    probOf c.vs c.probs (CoveredF r) ≤ probOf c.vs c.probs (CoveredF r') ∧
      probOf c.vs c.probs (CoveredS r) ≤ probOf c.vs c.probs (CoveredS r') :=
  ⟨probOf_mono hc.vs hc.probs _ _ fun y _ => h.2 y, probOf_mono hc.vs hc.probs _ _ fun y _ => h.1 y⟩

/-- All rows of an untruncated run lie between what the rules said at the start and at the end. -/
theorem run_rows {c : RunCfg K} (hc : CfgOK c Φ) (hm : 2 * spaceSize c.vs ≤ c.maxNb)
    {rules : Rules K} {brs : Option (List (Branch K))} (hs : StartOK c Φ rules brs)
    (hb : ResumeOK c rules brs) {st : RunState K} (h : run c rules brs = .ok st) :
    ∀ row ∈ st.mon, AboveRules c rules row ∧ BelowRules c st.rules row := by
  obtain ⟨st1, h1, rfl⟩ := run_eq h
  have key := (runLoop_ind' hc (fun _ st => CovInv c st ∧ Grows rules st.rules ∧
      (∀ row ∈ st.mon, AboveRules c rules row ∧ BelowRules c st.rules row) ∧
      (st.started = true → AboveRules c rules (monRow (st.brs.getD []) st.rules) ∧
        BelowRules c st.rules (monRow (st.brs.getD []) st.rules)))
    (fun st => (∀ row ∈ st.mon, AboveRules c rules row ∧ BelowRules c st.rules row) ∧
      (st.started = true → AboveRules c rules (monRow (st.brs.getD []) st.rules) ∧
        BelowRules c st.rules (monRow (st.brs.getD []) st.rules)))
    ?_ (fun _ _ h => h.2.2) ?_ ?_ (runInv_init hs)
    ⟨fun ha bs hbs b hm => (hb ha bs hbs b hm).1, ⟨fun _ h => h, fun _ h => h⟩, by simp, by simp⟩
    h1).1
  · split
    · rename_i hst
      intro row hrow
      rcases List.mem_append.1 hrow with hrow | hrow
      · exact key.1 row hrow
      · rw [List.mem_singleton] at hrow
        subst hrow
        exact key.2 hst
    · exact key.1
  · intro r st trunc brs x st' hv ⟨hC, hG, hR, _⟩ hd hu hgo hstep
    have ht := trunc_false hc hm hd
    subst ht
    have hrow := monRow_rules hc hv hC hd st'.rules
    have g1 := grows_prob hc hG
    have g2 := grows_prob hc hstep.grows
    have hnew : AboveRules c rules (monRow brs st'.rules) ∧
        BelowRules c st'.rules (monRow brs st'.rules) := by
      unfold AboveRules BelowRules
      rw [hrow.1, hrow.2]
      exact ⟨⟨g1.1, by linarith [g1.2]⟩, g2.1, by linarith [g2.2]⟩
    refine ⟨hC.step hd hstep, ⟨fun y hy => hstep.grows.1 y (hG.1 y hy),
      fun y hy => hstep.grows.2 y (hG.2 y hy)⟩, ?_, fun _ => ?_⟩
    · rw [hstep.mon]
      intro row hrm
      rcases List.mem_append.1 hrm with hrm | hrm
      · obtain ⟨e1, e2⟩ := hR row hrm
        exact ⟨e1, e2.1.trans g2.1, by linarith [e2.2, g2.2]⟩
      · rw [List.mem_singleton] at hrm
        subst hrm
        exact hnew
    · rw [hstep.brs]
      exact hnew
  · intro r st trunc brs hv ⟨hC, hG, hR, _⟩ hd hno
    have ht := trunc_false hc hm hd
    subst ht
    have hrow := monRow_rules hc hv hC hd st.rules
    have g1 := grows_prob hc hG
    refine ⟨hR, fun _ => ?_⟩
    unfold AboveRules BelowRules
    simp only [Option.getD_some]
    rw [hrow.1, hrow.2]
    exact ⟨⟨g1.1, by linarith [g1.2]⟩, le_rfl, le_rfl⟩
  · intro r st trunc brs x flag hv ⟨hC, hG, hR, _⟩ hd hu hfl
    have ht := trunc_false hc hm hd
    subst ht
    have hrow := monRow_rules hc hv hC hd st.rules
    have g1 := grows_prob hc hG
    refine ⟨hR, fun _ => ?_⟩
    unfold AboveRules BelowRules
    simp only [Option.getD_some]
    rw [hrow.1, hrow.2]
    exact ⟨⟨g1.1, by linarith [g1.2]⟩, le_rfl, le_rfl⟩

/-- Continuing loses nothing: with large enough branch limits, every bound monitored by the second
run is at least as good as every bound monitored by the first. -/
theorem C61_bounds_kept {c c' : RunCfg K} (hc : CfgOK c Φ) (hc' : CfgOK c' Φ) (h0 : 0 < c.maxSf)
    (hvs : c'.vs = c.vs) (hpr : c'.probs = c.probs)
    (hm : 2 * (c.vs.map Prod.snd).prod ≤ c.maxNb) (hm' : 2 * (c.vs.map Prod.snd).prod ≤ c'.maxNb)
    {rules : Rules K} {brs : Option (List (Branch K))} (hs : StartOK c Φ rules brs)
    (hb : ResumeOK c rules brs) {st st' : RunState K} (h : run c rules brs = .ok st)
    (h' : run c' st.rules st.brs = .ok st') :
    ∀ a ∈ st.mon, ∀ b ∈ st'.mon, a.pfLow ≤ b.pfLow ∧ b.pfUp ≤ a.pfUp := by
  intro a ha b hb'
  obtain ⟨hs', hr'⟩ := C61_resumable hc h0 hs hb h hvs hpr
  have h1 := (run_rows hc hm hs hb h a ha).2
  have h2 := (run_rows hc' (by unfold spaceSize; rw [hvs]; exact hm') hs' hr' h' b hb').1
  unfold BelowRules at h1
  unfold AboveRules at h2
  rw [hvs, hpr] at h2
  exact ⟨h1.1.trans h2.1, h2.2.trans h1.2⟩

/-- What a run evaluates is not decided by the rules handed in. -/
theorem run_uncovered {c : RunCfg K} (hc : CfgOK c Φ)
    (hm : c.activeDecomp = true ∨ 2 * spaceSize c.vs ≤ c.maxNb) {rules : Rules K}
    {brs : Option (List (Branch K))} (hs : StartOK c Φ rules brs) {st : RunState K}
    (h : run c rules brs = .ok st) : ∀ x ∈ st.evals, getState x rules = .u := by
  obtain ⟨st1, h1, rfl⟩ := run_eq h
  have key : ∀ x ∈ st1.evals, getState x rules = .u := by
    refine (runLoop_ind' hc (fun _ st => Grows rules st.rules ∧ ∀ x ∈ st.evals, getState x rules = .u)
      (fun st => ∀ x ∈ st.evals, getState x rules = .u) ?_ (fun _ _ h => h.2)
      (fun _ _ _ _ _ h _ _ => h.2) (fun _ _ _ _ _ _ _ h _ _ _ => h.2) (runInv_init hs)
      ⟨⟨fun _ h => h, fun _ h => h⟩, by simp⟩ h1).1
    intro r st trunc brs x st' hv ⟨hG, hI⟩ hd hu hgo hstep
    refine ⟨⟨fun y hy => hstep.grows.1 y (hG.1 y hy), fun y hy => hstep.grows.2 y (hG.2 y hy)⟩, ?_⟩
    rw [hstep.evals]
    intro y hy
    rcases List.mem_append.1 hy with hy | hy
    · exact hI y hy
    · rw [List.mem_singleton] at hy
      subst hy
      obtain ⟨h2, h3⟩ := getState_u.1 (unknown_uncovered hc hm hd hu)
      exact getState_u.2 ⟨fun h => h2 (hG.1 _ h), fun h => h3 (hG.2 _ h)⟩
  split <;> exact key

/-- Continuing from the rules of an earlier run evaluates nothing again: with re-decomposition (the
default), or with large enough branch limits, the vectors evaluated by the two runs are all different, and
not more than there are. -/
theorem C61_no_reevaluation {c c' : RunCfg K} (hc : CfgOK c Φ) (hc' : CfgOK c' Φ) (hvs : c'.vs = c.vs)
    (hm : c.activeDecomp = true ∨ 2 * (c.vs.map Prod.snd).prod ≤ c.maxNb)
    (hm' : c'.activeDecomp = true ∨ 2 * (c.vs.map Prod.snd).prod ≤ c'.maxNb) {rules : Rules K}
    {brs brs' : Option (List (Branch K))} (hs : StartOK c Φ rules brs) {st st' : RunState K}
    (h : run c rules brs = .ok st) (hs' : StartOK c' Φ st.rules brs')
    (h' : run c' st.rules brs' = .ok st') :
    (st.evals ++ st'.evals).Pairwise (fun x y => ∃ kn ∈ c.vs, x kn.1 ≠ y kn.1) ∧
      st.evals.length + st'.evals.length ≤ (c.vs.map Prod.snd).prod := by
  have hm2 : c'.activeDecomp = true ∨ 2 * spaceSize c'.vs ≤ c'.maxNb := by
    unfold spaceSize
    rw [hvs]
    exact hm'
  have hun := run_uncovered hc' hm2 hs' h'
  have p1 := (C29_no_repeat_partial hc hm hs h).1
  have p2 := (C29_no_repeat_partial hc' (by rw [hvs]; exact hm') hs' h').1
  rw [hvs] at p2
  have q1 := (C27_bounds hc hs h).2.1
  have q2 := (C27_bounds hc' hs' h').2.1
  have hcov : ∀ x ∈ st.evals, CoveredS st.rules x ∨ CoveredF st.rules x := by
    obtain ⟨st1, h1, rfl⟩ := run_eq h
    obtain ⟨hi, -⟩ := run_inv hc hs h1
    split <;> exact fun x hx => (hi.evals x hx).2
  have hp : (st.evals ++ st'.evals).Pairwise (fun x y => ∃ kn ∈ c.vs, x kn.1 ≠ y kn.1) := by
    rw [List.pairwise_append]
    refine ⟨p1, p2, fun x hx y hy => ?_⟩
    by_contra hn
    push Not at hn
    have hk : RulesDict c.vs st.rules := hvs ▸ hs'.dict
    have hcg := getState_congr hk hn
    obtain ⟨h2, h3⟩ := getState_u.1 (hun y hy)
    rcases hcov x hx with e | e
    · exact h2 (hcg.1.1 e)
    · exact h3 (hcg.2.1 e)
  refine ⟨hp, ?_⟩
  rw [← List.length_append]
  refine length_le_space hc.vs _ (fun x hx => ?_) hp
  rcases List.mem_append.1 hx with hx | hx
  · exact q1 x hx
  · exact hvs ▸ q2 x hx

/-- An example: a run stopped after three evaluations, continued without re-decomposing. -/
def Ex.cfg2 : RunCfg ℕ := { Ex.cfg 20 100 with activeDecomp := false }

example : CfgOK (Ex.cfg 3 100) Ex.Φ ∧ CfgOK Ex.cfg2 Ex.Φ ∧
    StartOK (Ex.cfg 3 100) Ex.Φ { s := [], f := [] } none ∧
    ResumeOK (Ex.cfg 3 100) { s := [], f := [] } none ∧
    2 * ((Ex.cfg 3 100).vs.map Prod.snd).prod ≤ (Ex.cfg 3 100).maxNb ∧
    (run (Ex.cfg 3 100) { s := [], f := [] } none).toOption.map
      (fun st => (st.mon.map fun r => (r.pfLow, r.pfUp), st.outFlag)) =
      some ([(0, 1), (0, 137 / 200), (0, 62 / 125), (0, 62 / 125)], some .maxSf) ∧
    ((run (Ex.cfg 3 100) { s := [], f := [] } none).bind
      fun st => run Ex.cfg2 st.rules st.brs).toOption.map
      (fun st => (st.mon.map fun r => (r.pfLow, r.pfUp), st.outFlag)) =
      some ([(0, 361 / 1000), (0, 47 / 200), (1 / 10, 47 / 200), (1 / 10, 77 / 500),
        (77 / 500, 77 / 500)], some .complete) :=
  ⟨Ex.cfg_ok 3 100, ⟨Ex.vs_ok, Ex.coherent, Ex.probs_ok, Ex.sysFun_ok⟩, Ex.start_empty _,
    resume_none _ _, by decide +kernel, by decide +kernel, by decide +kernel⟩

end BNS
