import Verif.Proofs.BrcRoundNum
import Verif.Proofs.Float64
import Verif.Props.BrcRun

/-!
# Property C102: `run` with rounded arithmetic
-/

namespace BNS

set_option linter.unusedSectionVars false

variable {K : Type} [DecidableEq K] {A : Arith} {F : ℚ → Prop} {ε η : ℚ} {Φ : (K → ℕ) → Bool}

/-! ## Without rounding -/

theorem prod_exact (l : List ℚ) : Arith.exact.prod l = l.prod := by
  unfold Arith.prod
  rw [List.prod_eq_foldl]
  rfl

theorem approxProbR_exact (vs : List (K × ℕ)) (probs : K → ℕ → ℚ) (down up : K → ℕ) :
    approxProbR Arith.exact vs probs down up = approxProb vs probs down up :=
  prod_exact _

theorem jointProbR_exact (b : Branch K) (probs : K → ℕ → ℚ) (st : St) (r : Rule K) :
    b.jointProbR Arith.exact probs st r = b.jointProb probs st r := by
  cases st
  · exact prod_exact _
  · exact prod_exact _
  · rfl

theorem decompCompR_exact (b : Branch K) (cr : Rules K) (probs : K → ℕ → ℚ) :
    b.decompCompR Arith.exact cr probs = b.decompComp cr probs := by
  unfold Branch.decompCompR Branch.decompComp
  simp only [jointProbR_exact]

theorem newBranchR_exact (vs : List (K × ℕ)) (b : Branch K) (rules : Rules K) (probs : K → ℕ → ℚ)
    (xd : K) (st : ℕ) (flag : Bool) :
    b.newBranchR Arith.exact vs rules probs xd st flag = b.newBranch vs rules probs xd st flag := by
  unfold Branch.newBranchR Branch.newBranch
  simp only [approxProbR_exact]

theorem decompPassR_exact (vs : List (K × ℕ)) (rules : Rules K) (probs : K → ℕ → ℚ)
    (maxNb total : ℕ) (l acc : List (Branch K × Rules K)) :
    decompPassR Arith.exact vs rules probs maxNb total l acc =
      decompPass vs rules probs maxNb total l acc := by
  induction l generalizing acc with
  | nil => rfl
  | cons bc l ih =>
    obtain ⟨b, cr⟩ := bc
    unfold decompPassR decompPass
    simp only [ih, decompCompR_exact, newBranchR_exact]
    rfl

theorem decompLoopR_exact (vs : List (K × ℕ)) (rules : Rules K) (probs : K → ℕ → ℚ) (maxNb n : ℕ)
    (l : List (Branch K × Rules K)) :
    decompLoopR Arith.exact vs rules probs maxNb n l = decompLoop vs rules probs maxNb n l := by
  induction n generalizing l with
  | zero => rfl
  | succ n ih =>
    unfold decompLoopR decompLoop
    simp only [ih, decompPassR_exact]

theorem decompR_exact (vs : List (K × ℕ)) (rules : Rules K) (probs : K → ℕ → ℚ) (maxNb : ℕ)
    (brs : List (Branch K)) :
    decompR Arith.exact vs rules probs maxNb brs = decomp vs rules probs maxNb brs := by
  unfold decompR decomp
  simp only [decompLoopR_exact]

theorem compStLoopR_exact (vs : List (K × ℕ)) (probs : K → ℕ → ℚ) (l : List (Branch K))
    (o : Option ((K → ℕ) × ℚ)) (acc : List ((K → ℕ) × ℚ)) :
    compStLoopR Arith.exact vs probs l o acc = compStLoop vs probs l o acc := by
  induction l generalizing o acc with
  | nil => rfl
  | cons b l ih =>
    unfold compStLoopR compStLoop
    simp only [ih, approxProbR_exact]
    rfl

theorem getCompStR_exact (vs : List (K × ℕ)) (probs : K → ℕ → ℚ) (sf : Bool)
    (brs : List (Branch K)) :
    getCompStR Arith.exact vs probs sf brs = getCompSt vs probs sf brs := by
  unfold getCompStR getCompSt
  simp only [compStLoopR_exact]
  rfl

theorem runLoopR_exact (c : RunCfg K) (r : ℕ) (st : RunState K) :
    runLoopR Arith.exact c r st = runLoop c r st := by
  induction r generalizing st with
  | zero => rfl
  | succ r ih =>
    unfold runLoopR runLoop
    simp only [ih, decompR_exact, getCompStR_exact]
    rfl

/-- Without rounding the model of this file is the model of all other theorems about `run`. -/
theorem C102_refines (c : RunCfg K) (rules : Rules K) (brs : Option (List (Branch K))) :
    runR Arith.exact c rules brs = run c rules brs := by
  unfold runR run
  rw [runLoopR_exact]
  rfl

/-! ## Whatever the arithmetic -/

theorem runR_inv {N : Branch K → Prop} {c : RunCfg K} (hc : SysCfgOK c Φ)
    (hN : KeptR A c.vs c.probs N) {rules : Rules K} {brs : Option (List (Branch K))}
    (hs : StartOKR c Φ N rules brs) {st1 : RunState K}
    (h1 : runLoopR A c c.maxSf { brs := brs, rules := rules } = .ok st1) :
    RunInvR A c Φ N st1 ∧ (0 < c.maxSf → st1.started = true) := by
  obtain ⟨hst, hi⟩ := runLoopR_ind hc hN (fun r st => r < c.maxSf → st.started = true)
    (fun st => 0 < c.maxSf → st.started = true)
    (fun r st trunc brs x st' hv hI hd hu hstep _ => hstep.started)
    (fun st _ h => h) (fun _ _ _ _ _ _ _ _ _ => rfl) (fun _ _ _ _ _ _ _ _ _ _ _ _ => rfl)
    (runInvR_init hs) (fun h => absurd h (lt_irrefl _)) h1
  exact ⟨hi, hst⟩

theorem completeR {N : Branch K → Prop} {c : RunCfg K} (hc : SysCfgOK c Φ)
    (hN : KeptR A c.vs c.probs N) {rules : Rules K} {brs : Option (List (Branch K))}
    (hs : StartOKR c Φ N rules brs) (hcov : CovInv c { brs := brs, rules := rules })
    {st1 : RunState K} (h1 : runLoopR A c c.maxSf { brs := brs, rules := rules } = .ok st1)
    (hf : st1.outFlag = some .complete) :
    st1.started = true ∧ ∃ bs, st1.brs = some bs ∧ NoUnknown bs ∧
      (2 * spaceSize c.vs ≤ c.maxNb → ∀ b ∈ bs, b.downState = b.upState) := by
  refine (runLoopR_ind hc hN (fun _ st => st.outFlag ≠ some .complete ∧ CovInv c st)
    (fun st => st.outFlag = some .complete → st.started = true ∧ ∃ bs, st.brs = some bs ∧
      NoUnknown bs ∧ (2 * spaceSize c.vs ≤ c.maxNb → ∀ b ∈ bs, b.downState = b.upState))
    ?_ ?_ ?_ ?_ (runInvR_init hs) ⟨by simp, hcov⟩ h1).1 hf
  · intro r st trunc brs x st' hv hI hd hu hstep
    refine ⟨?_, ?_⟩
    · rw [hstep.flag]
      split <;> simp
    · intro _ bs hbs b hb
      rw [hstep.brs] at hbs
      injection hbs with hbs
      subst hbs
      exact hstep.grows.cov (hd.cov hI.2.start b hb)
  · intro st _ hI hf
    exact absurd hf hI.1
  · intro r st trunc brs hv hI hd hno _
    refine ⟨rfl, brs, rfl, hno, fun hm b hb => ?_⟩
    have ht : trunc = false := by
      cases trunc with
      | false => rfl
      | true =>
        have := hd.limit rfl
        have := partition_length hc.vs hd.part
        omega
    subst ht
    have hbox := hd.part.1 b hb
    exact (uniform_of_exact hbox hv.start.dict hv.start.valid
      (exact_of_cov_new hv.start.valid hbox (hd.cov hI.2.start b hb) (hd.new rfl b hb))
      (hd.done rfl b hb) hbox.down).2
  · intro r st trunc brs x flag hv hI hd hu hfl hf
    simp only [Option.some.injEq] at hf
    subst hf
    simp at hfl

/-- Whatever the arithmetic does, even if it is completely wrong: evaluated vectors are component
vectors, the returned rules are valid, the returned branches partition the space and have right
labels, and a run that ends `complete` has no branch with an unknown label.  Only the
probabilities depend on the arithmetic. -/
theorem C102_structure {c : RunCfg K} (hc : SysCfgOK c Φ) {rules : Rules K}
    {brs : Option (List (Branch K))} (hs : StartOKR c Φ (fun _ => True) rules brs)
    {st : RunState K} (h : runR A c rules brs = .ok st) :
    (∀ x ∈ st.evals, InSpace c.vs x) ∧ RulesValid c.vs Φ st.rules ∧
    (0 < c.maxSf → ∃ bs, st.brs = some bs ∧ Partition c.vs bs ∧ ∀ b ∈ bs, LabelsOK Φ b) ∧
    (st.outFlag = some .complete → ∃ bs, st.brs = some bs ∧
      ∀ b ∈ bs, b.downState ≠ .u ∧ b.upState ≠ .u) := by
  obtain ⟨st1, h1, rfl⟩ := runR_eq h
  have hN := kept_true A c.vs c.probs
  obtain ⟨hi, hst⟩ := runR_inv hc hN hs h1
  have key : (∀ x ∈ st1.evals, InSpace c.vs x) ∧ RulesValid c.vs Φ st1.rules ∧
      (0 < c.maxSf → ∃ bs, st1.brs = some bs ∧ Partition c.vs bs ∧ ∀ b ∈ bs, LabelsOK Φ b) ∧
      (st1.outFlag = some .complete → ∃ bs, st1.brs = some bs ∧
        ∀ b ∈ bs, b.downState ≠ .u ∧ b.upState ≠ .u) := by
    refine ⟨fun x hx => (hi.evals x hx).1, hi.start.valid, fun hpos => ?_, fun hf => ?_⟩
    · obtain ⟨bs, hbs, hpart⟩ := hi.started (hst hpos)
      exact ⟨bs, hbs, hpart, hi.start.labels bs hbs⟩
    · refine (runLoopR_ind hc hN (fun _ st => st.outFlag ≠ some .complete)
        (fun st => st.outFlag = some .complete → ∃ bs, st.brs = some bs ∧
          ∀ b ∈ bs, b.downState ≠ .u ∧ b.upState ≠ .u) ?_ ?_ ?_ ?_
          (runInvR_init hs) (by simp) h1).1 hf
      · intro r st trunc brs x st' hv hI hd hu hstep
        rw [hstep.flag]
        split <;> simp
      · intro st _ hI hf
        exact absurd hf hI
      · intro r st trunc brs hv hI hd hno _
        exact ⟨brs, rfl, hno⟩
      · intro r st trunc brs x flag hv hI hd hu hfl hf
        simp only [Option.some.injEq] at hf
        subst hf
        simp at hfl
  split <;> exact key

/-- Whatever the arithmetic, with re-decomposition (the default) or enough branches no vector is
evaluated twice. -/
theorem C102_no_repeat {c : RunCfg K} (hc : SysCfgOK c Φ)
    (hm : c.activeDecomp = true ∨ 2 * (c.vs.map Prod.snd).prod ≤ c.maxNb) {rules : Rules K}
    {brs : Option (List (Branch K))} (hs : StartOKR c Φ (fun _ => True) rules brs)
    {st : RunState K} (h : runR A c rules brs = .ok st) :
    st.evals.Pairwise (fun x y => ∃ kn ∈ c.vs, x kn.1 ≠ y kn.1) ∧
    st.evals.length ≤ (c.vs.map Prod.snd).prod := by
  obtain ⟨st1, h1, rfl⟩ := runR_eq h
  have hN := kept_true A c.vs c.probs
  obtain ⟨hi, -⟩ := runR_inv hc hN hs h1
  have hp : st1.evals.Pairwise (Differ c.vs) := by
    refine (runLoopR_ind hc hN (fun _ st => st.evals.Pairwise (Differ c.vs))
      (fun st => st.evals.Pairwise (Differ c.vs)) ?_ (fun _ _ h => h) (fun _ _ _ _ _ h _ _ => h)
      (fun _ _ _ _ _ _ _ h _ _ _ => h) (runInvR_init hs) List.Pairwise.nil h1).1
    intro r st trunc brs x st' hv hI hd hu hstep
    rw [hstep.evals, List.pairwise_append]
    refine ⟨hI, List.pairwise_singleton _ _, fun y hy z hz => ?_⟩
    rw [List.mem_singleton] at hz
    subst hz
    by_contra hn
    have hsame : ∀ kn ∈ c.vs, y kn.1 = z kn.1 := by
      intro kn hkn
      by_contra hne
      exact hn ⟨kn, hkn, hne⟩
    have hunk : getState z st.rules = .u := by
      obtain ⟨b, hb, h⟩ := hu
      rcases hm with ha | hm
      · have he := hd.exact (by unfold RunCfg.startBrs; rw [if_pos ha]) b hb
        rcases h with ⟨rfl, h⟩ | ⟨rfl, h⟩
        · rw [← he.2, h]
        · rw [← he.1, h]
      · have ht : trunc = false := by
          cases trunc with
          | false => rfl
          | true =>
            have := hd.limit rfl
            have := partition_length hc.vs hd.part
            unfold spaceSize at this
            omega
        have hnew := hd.new ht b hb
        rcases h with ⟨rfl, h⟩ | ⟨rfl, h⟩
        · exact hnew.2 h
        · exact hnew.1 h
    have hcg := getState_congr hv.start.dict hsame
    obtain ⟨h2, h3⟩ := getState_u.1 hunk
    rcases (hv.evals y hy).2 with h | h
    · exact h2 (hcg.1.1 h)
    · exact h3 (hcg.2.1 h)
  have hl := length_le_space hc.vs st1.evals (fun x hx => (hi.evals x hx).1) hp
  split <;> exact ⟨hp, hl⟩

/-- Whatever the arithmetic, with `surv_first` (the default) the run returns. -/
theorem C102_returns {c : RunCfg K} (hc : SysCfgOK c Φ) (hsf : c.survFirst = true)
    {rules : Rules K} {brs : Option (List (Branch K))}
    (hs : StartOKR c Φ (fun _ => True) rules brs) : ∃ st, runR A c rules brs = .ok st := by
  obtain ⟨st1, h1⟩ := runLoopR_total hc (kept_true A c.vs c.probs) hsf c.maxSf _ (runInvR_init hs)
  unfold runR
  rw [h1, ok_bind]
  split
  · exact ⟨_, rfl⟩
  · exact ⟨_, rfl⟩

/-- Without `surv_first` it returns when the branch limit is not reached. -/
theorem C102_returns_other {c : RunCfg K} (hc : SysCfgOK c Φ)
    (hm : 2 * (c.vs.map Prod.snd).prod ≤ c.maxNb) {rules : Rules K}
    {brs : Option (List (Branch K))} (hs : StartOKR c Φ (fun _ => True) rules brs)
    (hb : ResumeOK c rules brs) : ∃ st, runR A c rules brs = .ok st := by
  obtain ⟨st1, h1⟩ := runLoopR_total_other hc (kept_true A c.vs c.probs) hm c.maxSf _
    (runInvR_init hs) (fun ha bs hbs b hmem => (hb ha bs hbs b hmem).1)
  unfold runR
  rw [h1, ok_bind]
  split
  · exact ⟨_, rfl⟩
  · exact ⟨_, rfl⟩

/-! ## With accurate arithmetic -/

theorem pFail_between {c : RunCfg K} (hc : SysCfgOK c Φ) {pr : K → ℕ → ℚ} (hp : ProbOK c.vs pr)
    {bs : List (Branch K)} (hl : ∀ b ∈ bs, LabelsOK Φ b) :
    probOf c.vs pr (fun x => ∃ b ∈ bs, b.upState = .f ∧ InBox c.vs b x) ≤ pFail c.vs pr Φ ∧
    pFail c.vs pr Φ ≤
      1 - probOf c.vs pr (fun x => ∃ b ∈ bs, b.downState = .s ∧ InBox c.vs b x) := by
  constructor
  · refine probOf_mono hc.vs hp _ _ fun x _ => ?_
    rintro ⟨b, hb, hu, hx⟩
    by_contra hne
    have := hc.coh x b.up (fun kn hkn => (hx kn hkn).2) (by simpa using hne)
    rw [(hl b hb).2.2 hu] at this
    cases this
  · have h1 : probOf c.vs pr (fun x => ∃ b ∈ bs, b.downState = .s ∧ InBox c.vs b x) ≤
        probOf c.vs pr (fun x => ¬ Φ x = false) := by
      refine probOf_mono hc.vs hp _ _ fun x _ => ?_
      rintro ⟨b, hb, hd, hx⟩
      have := hc.coh b.down x (fun kn hkn => (hx kn hkn).1) ((hl b hb).1.1 hd)
      simp [this]
    rw [probOf_not hc.vs hp] at h1
    linarith

theorem row_near {c : RunCfg K} (hc : SysCfgOK c Φ) (hA : A.Within F ε η) {pr : K → ℕ → ℚ}
    (hp : ProbOK c.vs pr) {row : MonRow} (h : RowFrom A c Φ (PNear F ε η c.vs pr) row) :
    ∃ L S, RowNear ε η c.vs L S row ∧ L ≤ pFail c.vs pr Φ ∧ pFail c.vs pr Φ ≤ 1 - S := by
  obtain ⟨bs, rules, rfl, hpart, hl, hn⟩ := h
  obtain ⟨h1, h2⟩ := pFail_between hc hp hl
  exact ⟨_, _, monRowR_near hc.vs hA hp hc.coh hpart hl hn rules, h1, h2⟩

theorem runR_rows {c : RunCfg K} (hc : SysCfgOK c Φ) {N : Branch K → Prop}
    (hN : KeptR A c.vs c.probs N) {rules : Rules K} {brs : Option (List (Branch K))}
    (hs : StartOKR c Φ N rules brs) {st : RunState K} (h : runR A c rules brs = .ok st) :
    (∀ row ∈ st.mon, RowFrom A c Φ N row) ∧
    (0 < c.maxSf → ∃ bs, st.brs = some bs ∧ Partition c.vs bs ∧ (∀ b ∈ bs, LabelsOK Φ b) ∧
      (∀ b ∈ bs, N b) ∧ st.mon.getLast? = some (monRowR A bs st.rules)) := by
  obtain ⟨st1, h1, rfl⟩ := runR_eq h
  obtain ⟨hi, hst⟩ := runR_inv hc hN hs h1
  by_cases hstart : st1.started = true
  · rw [if_pos hstart]
    obtain ⟨bs, hbs, hpart⟩ := hi.started hstart
    have hl := hi.start.labels bs hbs
    have hn := hi.start.near bs hbs
    refine ⟨fun row hm => ?_, fun _ => ⟨bs, hbs, hpart, hl, hn, by simp [hbs]⟩⟩
    rcases List.mem_append.1 hm with hm | hm
    · exact hi.mon row hm
    · rw [List.mem_singleton, hbs] at hm
      exact ⟨bs, st1.rules, hm, hpart, hl, hn⟩
  · rw [if_neg hstart]
    exact ⟨hi.mon, fun hpos => absurd (hst hpos) hstart⟩

/-- With accurate arithmetic, and component probabilities right up to rounding, every monitored pair
of bounds contains the failure probability up to the tolerance, which grows with the number of
branches; a lower bound for a small failure probability is right relative to it.  The returned
branches have the probabilities of their boxes up to rounding.  Missing for the full claim: that
the bounds contain the failure probability, or are at least in the right order
(`C102_not_enclosed`). -/
theorem C102_bounds_partial {c : RunCfg K} (hc : SysCfgOK c Φ) (hA : A.Within F ε η)
    {pr : K → ℕ → ℚ} (hp : ProbOK c.vs pr) (hn : NearProbs F ε c.vs c.probs pr) {rules : Rules K}
    {brs : Option (List (Branch K))} (hs : StartOKR c Φ (PNear F ε η c.vs pr) rules brs)
    {st : RunState K} (h : runR A c rules brs = .ok st) :
    (∀ row ∈ st.mon, row.pfLow - tolerance ε η c.vs row.noBr ≤ pFail c.vs pr Φ ∧
      pFail c.vs pr Φ ≤ row.pfUp + tolerance ε η c.vs row.noBr ∧
      row.pfLow ≤ (1 + ε) ^ (row.noBr + roundings c.vs) *
        (pFail c.vs pr Φ + row.noBr * (c.vs.length * η))) ∧
    (0 < c.maxSf → ∃ bs row, st.brs = some bs ∧ Partition c.vs bs ∧
      (∀ b ∈ bs, PNear F ε η c.vs pr b) ∧ st.mon.getLast? = some row ∧ row.noBr = bs.length ∧
      |row.pfLow - probOf c.vs pr (fun x => ∃ b ∈ bs, b.upState = .f ∧ InBox c.vs b x)| ≤
        tolerance ε η c.vs bs.length ∧
      |row.pfUp - (1 - probOf c.vs pr (fun x => ∃ b ∈ bs, b.downState = .s ∧ InBox c.vs b x))| ≤
        tolerance ε η c.vs bs.length) := by
  obtain ⟨hrows, hlast⟩ := runR_rows hc (kept_near hc.vs hA hp hn) hs h
  have he := hA.eps
  refine ⟨fun row hm => ?_, fun hpos => ?_⟩
  · obtain ⟨L, S, hr, h1, h2⟩ := row_near hc hA hp (hrows row hm)
    have a1 := abs_le.1 hr.low
    have a2 := abs_le.1 hr.up
    refine ⟨by linarith [a1.2], by linarith [a2.1], hr.rel.trans ?_⟩
    refine mul_le_mul_of_nonneg_left (by linarith) ?_
    linarith [up_ge_one he (row.noBr + roundings c.vs)]
  · obtain ⟨bs, hbs, hpart, hl, hnb, hg⟩ := hlast hpos
    have hr := monRowR_near hc.vs hA hp hc.coh hpart hl hnb st.rules
    exact ⟨bs, _, hbs, hpart, hnb, hg, rfl, hr.low, hr.up⟩

/-- A complete run with enough branches: both bounds are the failure probability up to the
tolerance. -/
theorem C102_exact {c : RunCfg K} (hc : SysCfgOK c Φ) (hA : A.Within F ε η)
    {pr : K → ℕ → ℚ} (hp : ProbOK c.vs pr) (hn : NearProbs F ε c.vs c.probs pr) {rules : Rules K}
    {brs : Option (List (Branch K))} (hs : StartOKR c Φ (PNear F ε η c.vs pr) rules brs)
    (hb : ResumeOK c rules brs) (hm : 2 * (c.vs.map Prod.snd).prod ≤ c.maxNb)
    {st : RunState K} (h : runR A c rules brs = .ok st) (hf : st.outFlag = some .complete) :
    ∃ row, st.mon.getLast? = some row ∧
      |row.pfLow - pFail c.vs pr Φ| ≤ tolerance ε η c.vs row.noBr ∧
      |row.pfUp - pFail c.vs pr Φ| ≤ tolerance ε η c.vs row.noBr := by
  have hN := kept_near hc.vs hA hp hn
  obtain ⟨st1, h1, rfl⟩ := runR_eq h
  obtain ⟨hi, -⟩ := runR_inv hc hN hs h1
  have hf1 : st1.outFlag = some .complete := by
    split at hf <;> exact hf
  obtain ⟨hst, bs, hbs, hno, heq⟩ := completeR hc hN hs
    (fun ha bs hbs b hm => (hb ha bs hbs b hm).1) h1 hf1
  obtain ⟨bs', hbs', hpart⟩ := hi.started hst
  rw [hbs] at hbs'
  cases hbs'
  have hl := hi.start.labels bs hbs
  have hr := monRowR_near hc.vs hA hp hc.coh hpart hl (hi.start.near bs hbs) st1.rules
  obtain ⟨b1, b2⟩ := pFail_between hc hp hl
  have hle : 1 - probOf c.vs pr (fun x => ∃ b ∈ bs, b.downState = .s ∧ InBox c.vs b x) ≤
      probOf c.vs pr (fun x => ∃ b ∈ bs, b.upState = .f ∧ InBox c.vs b x) := by
    rw [← probOf_not hc.vs hp]
    refine probOf_mono hc.vs hp _ _ fun x hx hnot => ?_
    obtain ⟨b, hbm, hin⟩ := hpart.exists hx
    refine ⟨b, hbm, ?_, hin⟩
    have e := heq hm b hbm
    cases hd : b.downState with
    | s => exact absurd ⟨b, hbm, hd, hin⟩ hnot
    | f => exact e ▸ hd
    | u => exact absurd hd (hno b hbm).1
  rw [if_pos hst]
  refine ⟨monRowR A bs st1.rules, by simp [hbs], ?_, ?_⟩
  · have := hr.low
    rwa [le_antisymm b1 (b2.trans hle)] at this
  · have := hr.up
    rwa [← le_antisymm b2 (hle.trans b1)] at this

/-- A run that stops because the bounds are close (`'pf_bnd'`): some monitored bounds were indeed
that close, up to four times the tolerance. -/
theorem C102_pf_bnd {c : RunCfg K} (hc : SysCfgOK c Φ) (hA : A.Within F ε η) (h0 : F 0)
    (hη : η ≤ 1) (hw : F c.pfBndWr ∧ 0 ≤ c.pfBndWr)
    {pr : K → ℕ → ℚ} (hp : ProbOK c.vs pr) (hn : NearProbs F ε c.vs c.probs pr) {rules : Rules K}
    {brs : Option (List (Branch K))} (hs : StartOKR c Φ (PNear F ε η c.vs pr) rules brs)
    {st : RunState K} (h : runR A c rules brs = .ok st) (hf : st.outFlag = some .pfBnd) :
    ∃ row ∈ st.mon, row.prBu < A.mul row.pfLow c.pfBndWr ∧
      row.pfUp - row.pfLow < A.mul row.pfLow c.pfBndWr + 4 * tolerance ε η c.vs row.noBr := by
  have hN := kept_near hc.vs hA hp hn
  obtain ⟨st1, h1, rfl⟩ := runR_eq h
  have hf1 : st1.outFlag = some .pfBnd := by
    split at hf <;> exact hf
  have key : ∃ row ∈ st1.mon, row.prBu < A.mul row.pfLow c.pfBndWr := by
    refine (runLoopR_ind hc hN (fun _ st => st.outFlag ≠ some .pfBnd)
      (fun st => st.outFlag = some .pfBnd → ∃ row ∈ st.mon,
        row.prBu < A.mul row.pfLow c.pfBndWr) ?_ ?_ ?_ ?_
        (runInvR_init hs) (by simp) h1).1 hf1
    · intro r st trunc brs x st' hv hI hd hu hstep
      rw [hstep.flag]
      split <;> simp
    · intro st _ hI hf
      exact absurd hf hI
    · intro r st trunc brs hv hI hd hno hf
      simp at hf
    · intro r st trunc brs x flag hv hI hd hu hfl hf
      simp only [Option.some.injEq] at hf
      subst hf
      rcases hfl with ⟨h, -⟩ | ⟨-, hlt⟩ | ⟨h, -⟩
      · cases h
      · by_cases he : st.evals = []
        · obtain ⟨e1, e2⟩ := hv.first he
          rw [e1, e2] at hlt
          have := (hA.mul 0 c.pfBndWr h0 hw.1 le_rfl hw.2).2.2.2
          rw [zero_mul, mul_zero] at this
          linarith
        · obtain ⟨row, hg, e1, e2⟩ := hv.last he
          exact ⟨row, List.mem_of_getLast? hg, by rw [e1, e2]; exact hlt⟩
      · cases h
  obtain ⟨row, hm, hlt⟩ := key
  obtain ⟨hi, -⟩ := runR_inv hc hN hs h1
  obtain ⟨L, S, hr, -, -⟩ := row_near hc hA hp (hi.mon row hm)
  refine ⟨row, ?_, hlt, ?_⟩
  · split
    · exact List.mem_append_left _ hm
    · exact hm
  · have a1 := abs_le.1 hr.low
    have a2 := abs_le.1 hr.up
    have a3 := abs_le.1 hr.bu
    linarith [a1.1, a2.2, a3.1]

/-! ## Double precision -/

/-- `float64` gives a double, none is nearer, of two equally near ones it takes the one whose last
digit is even, and doubles stay as they are. -/
theorem C102_nearest (x : ℚ) : IsDouble (float64 x) ∧
    (∀ y, IsDouble y → |float64 x - x| ≤ |y - x| ∧
      (y ≠ float64 x → |float64 x - x| = |y - x| →
        ∃ m : ℤ, float64 x = (2 * m : ℤ) * (2 : ℚ) ^ ulpExp x)) ∧
    (IsDouble x → float64 x = x) := by
  refine ⟨float64_double x, fun y hy => ⟨float64_nearest hy, float64_tie hy⟩, fun hx => ?_⟩
  have h := float64_nearest (x := x) hx
  rw [sub_self, abs_zero] at h
  exact sub_eq_zero.1 (abs_eq_zero.1 (le_antisymm h (abs_nonneg _)))

/-- 0.1 and a tie. -/
example : float64 (1 / 10) = 3602879701896397 / 36028797018963968 ∧
    float64 (2 ^ 53 + 1) = 2 ^ 53 ∧ float64 (2 ^ 53 + 3) = 2 ^ 53 + 4 := by decide +kernel

/-- Double precision, with sums formed from left to right, is accurate arithmetic. -/
theorem C102_float64 :
    (Arith.ofRound float64).Within (fun x => ∃ z : ℤ, x = z * (2 : ℚ) ^ (-1074 : ℤ))
      ((2 : ℚ) ^ (-53 : ℤ)) ((2 : ℚ) ^ (-1075 : ℤ)) :=
  ofRound_within (F := Grid) ⟨(two_zpow_pos _).le, by norm_num⟩ (two_zpow_pos _).le Grid.zero
    Grid.one float64_grid (fun _ => float64_nonneg) (fun _ _ ha hb => float64_rel (ha.add hb))
    (fun _ _ ha hb => float64_rel (ha.sub hb)) float64_err

theorem up_le_linear (he : 0 ≤ ε ∧ ε < 1) {k : ℕ} (hk : k * ε ≤ 1 / 2) :
    (1 + ε) ^ k ≤ 1 + 2 * k * ε := by
  have h1 := one_add_mul_le_pow (a := -ε) (by linarith [he.2]) k
  rw [← sub_eq_add_neg] at h1
  have h2 : (1 + ε) ^ k * (1 - ε) ^ k ≤ 1 := by
    rw [← mul_pow]
    refine pow_le_one₀ ?_ ?_ <;> nlinarith [he.1, he.2]
  have h3 := up_ge_one he k
  have hk0 : 0 ≤ k * ε := mul_nonneg (Nat.cast_nonneg _) he.1
  have h4 : (1 + ε) ^ k * (1 - k * ε) ≤ 1 := by
    refine le_trans (mul_le_mul_of_nonneg_left ?_ (by linarith)) h2
    linarith
  by_contra hlt
  push Not at hlt
  have : 1 < (1 + ε) ^ k * (1 - k * ε) := by
    by_cases hz : k * ε = 0
    · rw [hz]; rw [mul_assoc, hz] at hlt; linarith
    · have hpos : 0 < k * ε := lt_of_le_of_ne hk0 (Ne.symm hz)
      nlinarith
  linarith

/-- In double precision the tolerance of a row with `n` branches is at most `(n + R + 3)·2⁻⁵²`, `R`
the number of roundings per branch, as long as this is not astronomical. -/
theorem C102_tolerance (vs : List (K × ℕ)) (n : ℕ) (h1 : n + roundings vs + 2 ≤ 2 ^ 52)
    (h2 : n * vs.length ≤ 2 ^ 1022) :
    tolerance ((2 : ℚ) ^ (-53 : ℤ)) ((2 : ℚ) ^ (-1075 : ℤ)) vs n ≤
      (n + roundings vs + 3 : ℕ) * (2 : ℚ) ^ (-52 : ℤ) := by
  have he : 0 ≤ (2 : ℚ) ^ (-53 : ℤ) ∧ (2 : ℚ) ^ (-53 : ℤ) < 1 :=
    ⟨(two_zpow_pos _).le, by norm_num⟩
  have hk : ((n + roundings vs + 2 : ℕ) : ℚ) * (2 : ℚ) ^ (-53 : ℤ) ≤ 1 / 2 := by
    have : ((n + roundings vs + 2 : ℕ) : ℚ) ≤ 2 ^ 52 := by exact_mod_cast h1
    refine (mul_le_mul_of_nonneg_right this he.1).trans ?_
    norm_num
  have ht : (n : ℚ) * (vs.length * (2 : ℚ) ^ (-1075 : ℤ)) ≤ (2 : ℚ) ^ (-53 : ℤ) := by
    have : ((n * vs.length : ℕ) : ℚ) ≤ 2 ^ 1022 := by exact_mod_cast h2
    rw [← mul_assoc, ← Nat.cast_mul]
    refine (mul_le_mul_of_nonneg_right this (two_zpow_pos _).le).trans ?_
    rw [← zpow_natCast, ← zpow_add₀ (by norm_num)]
    norm_num
  have ht0 : 0 ≤ (n : ℚ) * (vs.length * (2 : ℚ) ^ (-1075 : ℤ)) :=
    mul_nonneg (Nat.cast_nonneg _) (mul_nonneg (Nat.cast_nonneg _) (two_zpow_pos _).le)
  have hu := up_le_linear he hk
  have e52 : (2 : ℚ) ^ (-52 : ℤ) = 2 * (2 : ℚ) ^ (-53 : ℤ) := by norm_num
  rw [e52]
  unfold tolerance
  generalize (n : ℚ) * (vs.length * (2 : ℚ) ^ (-1075 : ℤ)) = t at *
  generalize (2 : ℚ) ^ (-53 : ℤ) = e at *
  have h3 : (1 + e) ^ (n + roundings vs + 2) * (1 + t) ≤
      (1 + 2 * (n + roundings vs + 2 : ℕ) * e) * (1 + t) :=
    mul_le_mul_of_nonneg_right hu (by linarith)
  have h4 : 2 * ((n + roundings vs + 2 : ℕ) : ℚ) * e * t ≤ 1 * t :=
    mul_le_mul_of_nonneg_right (by linarith) ht0
  have h5 : ((n + roundings vs + 3 : ℕ) : ℚ) = (n + roundings vs + 2 : ℕ) + 1 := by
    push_cast; ring
  rw [h5]
  linarith

/-! ## Examples -/

/-- Two components in series, failing with probability 0.1 and 0.2, as Python stores them. -/
def Ex.floatSeries : RunCfg ℕ :=
  { Ex.series with
    probs := fun k i =>
      let q := float64 (if k = 0 then 1 / 10 else 1 / 5)
      if i = 0 then q else float64 (1 - q)
    maxNb := 100 }

/-- The probabilities meant. -/
def Ex.tenths (k i : ℕ) : ℚ :=
  let q : ℚ := if k = 0 then 1 / 10 else 1 / 5
  if i = 0 then q else 1 - q

theorem Ex.floatSeries_ok : SysCfgOK Ex.floatSeries Ex.seriesΦ :=
  ⟨Ex.series_ok.vs, Ex.series_ok.coh, Ex.series_ok.sys⟩

theorem Ex.tenths_ok : ProbOK Ex.floatSeries.vs Ex.tenths :=
  ⟨by decide +kernel, by decide +kernel⟩

theorem Ex.tenths_near : NearProbs Grid ((2 : ℚ) ^ (-53 : ℤ)) Ex.floatSeries.vs
    Ex.floatSeries.probs Ex.tenths := by
  have key : ∀ kn ∈ Ex.floatSeries.vs, ∀ i < kn.2,
      (1 - (2 : ℚ) ^ (-53 : ℤ)) * Ex.tenths kn.1 i ≤ Ex.floatSeries.probs kn.1 i ∧
        Ex.floatSeries.probs kn.1 i ≤ (1 + (2 : ℚ) ^ (-53 : ℤ)) * Ex.tenths kn.1 i := by
    decide +kernel
  intro kn hkn i hi
  refine ⟨?_, key kn hkn i hi⟩
  show Grid (if i = 0 then float64 _ else float64 _)
  split <;> exact float64_grid _

theorem Ex.startR_empty (c : RunCfg K) (N : Branch K → Prop) :
    StartOKR c Φ N { s := [], f := [] } none :=
  ⟨fun r hr => by simp at hr, ⟨fun r hr => by simp at hr, fun r hr => by simp at hr⟩, by simp,
    by simp, by simp⟩

/-- The full claim is false already for this run: it ends `complete` with all branches decided, and
the lower bound exceeds the upper bound, by `2⁻⁵³`; the failure probability 7/25 is above the upper
bound. -/
theorem C102_not_enclosed : ∃ (c : RunCfg ℕ) (Φ : (ℕ → ℕ) → Bool) (pr : ℕ → ℕ → ℚ),
    SysCfgOK c Φ ∧ ProbOK c.vs pr ∧ NearProbs Grid ((2 : ℚ) ^ (-53 : ℤ)) c.vs c.probs pr ∧
    pFail c.vs pr Φ = 7 / 25 ∧
    ∃ st row, runR (Arith.ofRound float64) c { s := [], f := [] } none = .ok st ∧
      st.outFlag = some .complete ∧ st.mon.getLast? = some row ∧ row.noBu = 0 ∧
      row.pfUp + (2 : ℚ) ^ (-53 : ℤ) = row.pfLow ∧ row.pfUp < 7 / 25 ∧ row.prBu < 0 := by
  refine ⟨Ex.floatSeries, Ex.seriesΦ, Ex.tenths, Ex.floatSeries_ok, Ex.tenths_ok, Ex.tenths_near,
    by decide +kernel, ?_⟩
  have h : (runR (Arith.ofRound float64) Ex.floatSeries { s := [], f := [] } none).toOption.map
      (fun st => (st.outFlag, st.mon.getLast?.map fun r : MonRow => (decide (r.noBu = 0 ∧
        r.pfUp + (2 : ℚ) ^ (-53 : ℤ) = r.pfLow ∧ r.pfUp < 7 / 25 ∧ r.prBu < 0)))) =
      some (some .complete, some true) := by decide +kernel
  cases hd : runR (Arith.ofRound float64) Ex.floatSeries { s := [], f := [] } none with
  | error e => rw [hd] at h; cases h
  | ok st =>
    rw [hd] at h
    simp only [Except.toOption, Option.map_some, Option.some.injEq, Prod.mk.injEq,
      Option.map_eq_some_iff, decide_eq_true_eq] at h
    obtain ⟨h1, row, h2, h3, h4, h5, h6⟩ := h
    exact ⟨st, row, rfl, h1, h2, h3, h4, h5, h6⟩

/-- The same run meets the hypotheses of `C102_bounds_partial` and `C102_exact`: bounds within
`14·2⁻⁵²` of the failure probability 7/25. -/
example : ∃ st row, runR (Arith.ofRound float64) Ex.floatSeries { s := [], f := [] } none = .ok st ∧
    st.mon.getLast? = some row ∧
    |row.pfLow - pFail Ex.floatSeries.vs Ex.tenths Ex.seriesΦ| ≤
      tolerance ((2 : ℚ) ^ (-53 : ℤ)) ((2 : ℚ) ^ (-1075 : ℤ)) Ex.floatSeries.vs row.noBr := by
  obtain ⟨st, h⟩ := C102_returns (A := Arith.ofRound float64) Ex.floatSeries_ok rfl
    (Ex.startR_empty _ _)
  have hf : (runR (Arith.ofRound float64) Ex.floatSeries { s := [], f := [] } none).toOption.map
      (fun st => st.outFlag) = some (some .complete) := by decide +kernel
  rw [h] at hf
  simp only [Except.toOption, Option.map_some, Option.some.injEq] at hf
  obtain ⟨row, h1, h2, -⟩ := C102_exact Ex.floatSeries_ok C102_float64 Ex.tenths_ok Ex.tenths_near
    (Ex.startR_empty _ _) (resume_none _ _) (by decide) h hf
  exact ⟨st, row, h, h1, h2⟩

example : 3 + roundings Ex.floatSeries.vs + 3 = 14 := by decide

/-- Three components of which the second hardly ever fails; the system needs the third, or the first
two. -/
def Ex.floatRare : RunCfg ℕ :=
  { vs := [(0, 2), (1, 2), (2, 2)]
    probs := fun k i =>
      let q := float64 (if k = 0 then 1 / 2 else if k = 1 then 1 / 10 ^ 20 else 1 / 10)
      if i = 0 then q else float64 (1 - q)
    sysFun := fun x =>
      { val := 0, st := if 1 ≤ x 0 ∧ 1 ≤ x 1 ∨ 1 ≤ x 2 then .s else .f, min := [] }
    maxSf := 50
    maxNb := 100 }

def Ex.rareΦ (x : ℕ → ℕ) : Bool := decide (1 ≤ x 0 ∧ 1 ≤ x 1 ∨ 1 ≤ x 2)

theorem Ex.floatRare_ok : SysCfgOK Ex.floatRare Ex.rareΦ := by
  refine ⟨⟨by decide, by decide⟩, ?_, ?_⟩
  · intro x y h hx
    have h0 := h (0, 2) (by decide)
    have h1 := h (1, 2) (by decide)
    have h2 := h (2, 2) (by decide)
    simp only [Ex.rareΦ, decide_eq_true_eq] at hx ⊢
    simp only at h0 h1 h2
    omega
  · refine ⟨fun x _ => ?_, fun _ _ h => absurd rfl h, fun _ _ h => absurd rfl h,
      fun _ _ h => absurd rfl h⟩
    simp [Ex.floatRare, Ex.rareΦ]

/-- `C29_completes` does not carry over: with limits that are never reached and the default
`pf_bnd_wr = 0` the run stops with `'pf_bnd'` while a branch is undecided, because rounding has made
the probability of the undecided branches negative. -/
theorem C102_stops_early : ∃ (c : RunCfg ℕ) (Φ : (ℕ → ℕ) → Bool), SysCfgOK c Φ ∧
    c.survFirst = true ∧ (c.vs.map Prod.snd).prod < c.maxSf ∧
    2 * (c.vs.map Prod.snd).prod ≤ c.maxNb ∧ c.pfBndWr = 0 ∧ c.maxRules = none ∧
    ∃ st row, runR (Arith.ofRound float64) c { s := [], f := [] } none = .ok st ∧
      st.outFlag = some .pfBnd ∧ row ∈ st.mon ∧ row.prBu < 0 ∧
      ∃ bs, st.brs = some bs ∧ ∃ b ∈ bs, b.downState = .u ∨ b.upState = .u := by
  refine ⟨Ex.floatRare, Ex.rareΦ, Ex.floatRare_ok, rfl, by decide, by decide, rfl, rfl, ?_⟩
  have h : (runR (Arith.ofRound float64) Ex.floatRare { s := [], f := [] } none).toOption.map
      (fun st => (st.outFlag, st.mon.any (fun r : MonRow => decide (r.prBu < 0)),
        st.brs.map fun bs : List (Branch ℕ) =>
          bs.any fun b => decide (b.downState = .u ∨ b.upState = .u))) =
      some (some .pfBnd, true, some true) := by decide +kernel
  cases hd : runR (Arith.ofRound float64) Ex.floatRare { s := [], f := [] } none with
  | error e => rw [hd] at h; cases h
  | ok st =>
    rw [hd] at h
    simp only [Except.toOption, Option.map_some, Option.some.injEq, Prod.mk.injEq,
      Option.map_eq_some_iff, List.any_eq_true, decide_eq_true_eq] at h
    obtain ⟨h1, ⟨row, h2, h3⟩, bs, h4, b, h5, h6⟩ := h
    exact ⟨st, row, rfl, h1, h2, h3, bs, h4, b, h5, h6⟩

end BNS
