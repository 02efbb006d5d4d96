import Verif.Proofs.BrcRunInv

/-!
# Properties C27–C31: the BRC algorithm
-/

namespace BNS

set_option linter.unusedSectionVars false

variable {K : Type} [DecidableEq K] {Φ : (K → ℕ) → Bool}

/-! ## C27 -/

theorem run_inv {c : RunCfg K} (hc : CfgOK c Φ) {rules : Rules K}
    {brs : Option (List (Branch K))} (hs : StartOK c Φ rules brs) {st1 : RunState K}
    (h1 : runLoop c c.maxSf { brs := brs, rules := rules } = .ok st1) :
    RunInv c Φ st1 ∧ (0 < c.maxSf → st1.started = true) := by
  obtain ⟨hst, hi⟩ := runLoop_ind' hc (fun r st => r < c.maxSf → st.started = true)
    (fun st => 0 < c.maxSf → st.started = true)
    (fun r st trunc brs x st' hv hI hd hu hgo hstep _ => hstep.started)
    (fun st _ h => h) (fun _ _ _ _ _ _ _ _ _ => rfl) (fun _ _ _ _ _ _ _ _ _ _ _ _ => rfl)
    (runInv_init hs) (fun h => absurd h (lt_irrefl _)) h1
  exact ⟨hi, hst⟩

/-- At every monitored iteration and at the end, whatever made the run stop, the bounds contain the
failure probability; every evaluated vector is a component vector; the returned rules are valid.
If any iteration is allowed, the returned branches partition the space, have exact probabilities
and right labels, and the last monitored bounds are the total probabilities of the returned branches
labelled failure throughout, and 1 minus that of those labelled survival throughout. -/
theorem C27_bounds {c : RunCfg K} (hc : CfgOK c Φ) {rules : Rules K}
    {brs : Option (List (Branch K))} (hs : StartOK c Φ rules brs) {st : RunState K}
    (h : run c rules brs = .ok st) :
    (∀ row ∈ st.mon, row.pfLow ≤ pFail c.vs c.probs Φ ∧ pFail c.vs c.probs Φ ≤ row.pfUp) ∧
    (∀ x ∈ st.evals, InSpace c.vs x) ∧ RulesValid c.vs Φ st.rules ∧
    (0 < c.maxSf → ∃ bs row, st.brs = some bs ∧ Partition c.vs bs ∧
      (∀ b ∈ bs, b.p = probOf c.vs c.probs (InBox c.vs b) ∧ LabelsOK Φ b) ∧
      st.mon.getLast? = some row ∧
      row.pfLow = probOf c.vs c.probs (fun x => ∃ b ∈ bs, b.upState = .f ∧ InBox c.vs b x) ∧
      row.pfUp = 1 - probOf c.vs c.probs (fun x => ∃ b ∈ bs, b.downState = .s ∧ InBox c.vs b x)) :=
  by
  obtain ⟨st1, h1, rfl⟩ := run_eq h
  obtain ⟨hi, hst⟩ := run_inv hc hs h1
  by_cases hstart : st1.started = true
  · rw [if_pos hstart]
    obtain ⟨bs, hbs, hpart⟩ := hi.started hstart
    have hg := hi.start.good bs hbs
    have hrow := rowOK hc hpart hg.p hg.labels st1.rules
    refine ⟨?_, fun x hx => (hi.evals x hx).1, hi.start.valid, fun _ => ?_⟩
    · intro row hm
      simp only [hbs, Option.getD_some] at hm
      rcases List.mem_append.1 hm with hm | hm
      · exact ⟨(hi.mon row hm).low, (hi.mon row hm).up⟩
      · rw [List.mem_singleton] at hm
        subst hm
        exact ⟨hrow.low, hrow.up⟩
    · refine ⟨bs, monRow bs st1.rules, hbs, hpart, fun b hb => ⟨hg.p b hb, hg.labels b hb⟩, ?_,
        monRow_low hc.vs hpart hg.p _, monRow_up hc.vs hpart hg.p _⟩
      simp [hbs]
  · rw [if_neg hstart]
    exact ⟨fun row hm => ⟨(hi.mon row hm).low, (hi.mon row hm).up⟩,
      fun x hx => (hi.evals x hx).1, hi.start.valid, fun h => absurd (hst h) hstart⟩

/-- With `surv_first` (the default) the run always returns. -/
theorem C27_returns {c : RunCfg K} (hc : CfgOK c Φ) (hsf : c.survFirst = true) {rules : Rules K}
    {brs : Option (List (Branch K))} (hs : StartOK c Φ rules brs) :
    ∃ st, run c rules brs = .ok st := by
  obtain ⟨st1, h1⟩ := runLoop_total hc hsf c.maxSf _ (runInv_init hs)
  unfold run
  rw [h1, ok_bind]
  split
  · exact ⟨_, rfl⟩
  · exact ⟨_, rfl⟩

/-- For both settings of `surv_first` the run returns when the branch limit is never reached, unless it
is handed branches with labels that no rule confirms. -/
theorem C27_returns_other {c : RunCfg K} (hc : CfgOK c Φ)
    (hm : 2 * (c.vs.map Prod.snd).prod ≤ c.maxNb) {rules : Rules K}
    {brs : Option (List (Branch K))} (hs : StartOK c Φ rules brs) (hb : ResumeOK c rules brs) :
    ∃ st, run c rules brs = .ok st := by
  obtain ⟨st1, h1⟩ := runLoop_total_other hc hm c.maxSf _ (runInv_init hs)
    (fun ha bs hbs b hmem => (hb ha bs hbs b hmem).1)
  unfold run
  rw [h1, ok_bind]
  split
  · exact ⟨_, rfl⟩
  · exact ⟨_, rfl⟩

/-- An example run: the hypotheses are met. -/
def Ex.cfg (maxSf maxNb : ℕ) : RunCfg ℕ :=
  { vs := Ex.vs, probs := Ex.probs, sysFun := Ex.sysFun, maxSf := maxSf, maxNb := maxNb }

theorem Ex.cfg_ok (maxSf maxNb : ℕ) : CfgOK (Ex.cfg maxSf maxNb) Ex.Φ :=
  ⟨Ex.vs_ok, Ex.coherent, Ex.probs_ok, Ex.sysFun_ok⟩

theorem Ex.start_ok (maxSf maxNb : ℕ) : StartOK (Ex.cfg maxSf maxNb) Ex.Φ Ex.rules none :=
  ⟨Ex.rules_dict, Ex.rules_valid, by simp⟩

theorem resume_none (c : RunCfg K) (rules : Rules K) : ResumeOK c rules none :=
  fun _ _ h => by cases h

theorem resume_active {c : RunCfg K} (h : c.activeDecomp = true) (rules : Rules K)
    (brs : Option (List (Branch K))) : ResumeOK c rules brs :=
  fun ha => by rw [h] at ha; cases ha

theorem Ex.start_empty (c : RunCfg K) : StartOK c Φ { s := [], f := [] } none :=
  ⟨fun r hr => by simp at hr, ⟨fun r hr => by simp at hr, fun r hr => by simp at hr⟩, by simp⟩

example : CfgOK (Ex.cfg 3 100) Ex.Φ ∧ StartOK (Ex.cfg 3 100) Ex.Φ { s := [], f := [] } none ∧
    (run (Ex.cfg 3 100) { s := [], f := [] } none).toOption.map
      (fun st => (st.mon.map fun r => (r.pfLow, r.pfUp), st.outFlag)) =
      some ([(0, 1), (0, 137 / 200), (0, 62 / 125), (0, 62 / 125)], some .maxSf) :=
  ⟨Ex.cfg_ok 3 100, Ex.start_empty _, by decide +kernel⟩

/-! ## C28 -/

/-- What `complete` says about the returned branches. -/
theorem complete_spec {c : RunCfg K} (hc : CfgOK c Φ) {rules : Rules K}
    {brs : Option (List (Branch K))} (hs : StartOK c Φ rules brs)
    (hcov : CovInv c { brs := brs, rules := rules }) {st1 : RunState K}
    (h1 : runLoop c c.maxSf { brs := brs, rules := rules } = .ok st1)
    (hf : st1.outFlag = some .complete) :
    st1.started = true ∧ ∃ bs, st1.brs = some bs ∧ NoUnknown bs ∧
      (2 * spaceSize c.vs ≤ c.maxNb → ∀ b ∈ bs, b.downState = b.upState) := by
  refine (runLoop_ind' hc (fun _ st => st.outFlag ≠ some .complete ∧ CovInv c st)
    (fun st => st.outFlag = some .complete → st.started = true ∧ ∃ bs, st.brs = some bs ∧
      NoUnknown bs ∧ (2 * spaceSize c.vs ≤ c.maxNb → ∀ b ∈ bs, b.downState = b.upState))
    ?_ ?_ ?_ ?_ (runInv_init hs) ⟨by simp, hcov⟩ h1).1 hf
  · intro r st trunc brs x st' hv hI hd hu hgo hstep
    refine ⟨?_, hI.2.step hd hstep⟩
    rw [hstep.flag]
    split <;> simp
  · intro st _ hI hf
    exact absurd hf hI.1
  · intro r st trunc brs hv hI hd hno _
    refine ⟨rfl, brs, rfl, hno, fun hm b hb => ?_⟩
    have ht := trunc_false hc hm hd
    subst ht
    exact (uniform_run hv hI.2 hd hb (hd.part.1 b hb).down).2
  · intro r st trunc brs x flag hv hI hd hu hfl hf
    simp only [Option.some.injEq] at hf
    subst hf
    simp at hfl

/-- A loop that ends `complete` has decomposed, and no branch carries an unknown label. -/
theorem complete_noUnknown {c : RunCfg K} (hc : CfgOK c Φ) {rules : Rules K}
    {brs : Option (List (Branch K))} (hs : StartOK c Φ rules brs) {st1 : RunState K}
    (h1 : runLoop c c.maxSf { brs := brs, rules := rules } = .ok st1)
    (hf1 : st1.outFlag = some .complete) :
    st1.started = true ∧ ∃ bs, st1.brs = some bs ∧ NoUnknown bs := by
  refine (runLoop_ind' hc (fun _ st => st.outFlag ≠ some .complete)
    (fun st => st.outFlag = some .complete → st.started = true ∧ ∃ bs, st.brs = some bs ∧
      NoUnknown bs) ?_ ?_ ?_ ?_ (runInv_init hs) (by simp) h1).1 hf1
  · intro r st trunc brs x st' hv hI hd hu hgo hstep
    rw [hstep.flag]
    split <;> simp
  · intro st _ hI hf
    exact absurd hf hI
  · intro r st trunc brs hv hI hd hno _
    exact ⟨rfl, brs, rfl, hno⟩
  · intro r st trunc brs x flag hv hI hd hu hfl hf
    simp only [Option.some.injEq] at hf
    subst hf
    simp at hfl

/-- A run that ends `complete`: no returned branch carries an unknown label; if moreover no branch is
labelled failing at the bottom and surviving at the top, both bounds are the failure probability.
Missing for the full claim: that last condition, which `complete` does not imply (see
`C28_complete_not_exact`). -/
theorem C28_exact_partial {c : RunCfg K} (hc : CfgOK c Φ) {rules : Rules K}
    {brs : Option (List (Branch K))} (hs : StartOK c Φ rules brs) {st : RunState K}
    (h : run c rules brs = .ok st) (hf : st.outFlag = some .complete) :
    ∃ bs row, st.brs = some bs ∧ st.mon.getLast? = some row ∧
      (∀ b ∈ bs, b.downState ≠ .u ∧ b.upState ≠ .u) ∧
      ((∀ b ∈ bs, ¬ (b.downState = .f ∧ b.upState = .s)) →
        row.pfLow = pFail c.vs c.probs Φ ∧ row.pfUp = pFail c.vs c.probs Φ) := by
  obtain ⟨st1, h1, rfl⟩ := run_eq h
  obtain ⟨hi, -⟩ := run_inv hc hs h1
  have hf1 : st1.outFlag = some .complete := by
    split at hf <;> exact hf
  obtain ⟨hst, bs, hbs, hno⟩ := complete_noUnknown hc hs h1 hf1
  obtain ⟨bs', hbs', hpart⟩ := hi.started hst
  rw [hbs] at hbs'
  cases hbs'
  have hg := hi.start.good bs hbs
  rw [if_pos hst]
  refine ⟨bs, monRow bs st1.rules, hbs, by simp [hbs], hno, fun hfs => ?_⟩
  refine monRow_exact hc.vs hc.coh hc.probs hpart hg.p hg.labels (fun b hb => ⟨?_, (hno b hb).1⟩) _
  have hbox := hpart.1 b hb
  have h2 := hno b hb
  have hl := hg.labels b hb
  cases hd : b.downState with
  | u => exact absurd hd h2.1
  | s =>
    cases hu : b.upState with
    | u => exact absurd hu h2.2
    | s => rfl
    | f =>
      have := hc.coh b.down b.up (fun kn hkn => (hbox kn hkn).1) (hl.1.1 hd)
      rw [hl.2.2 hu] at this
      cases this
  | f =>
    cases hu : b.upState with
    | u => exact absurd hu h2.2
    | f => rfl
    | s => exact absurd ⟨hd, hu⟩ (hfs b hb)

/-- Sums over branches labelled (s, s), (f, f) or (f, s). -/
theorem sum_three_labels {bs : List (Branch K)}
    (h : ∀ b ∈ bs, b.downState ≠ .u ∧ b.upState ≠ .u ∧ ¬ (b.downState = .s ∧ b.upState = .f)) :
    (bs.map fun b => b.p).sum = ((bs.filter fun b => b.upState = .f).map fun b => b.p).sum +
      ((bs.filter fun b => b.downState = .s).map fun b => b.p).sum +
      ((bs.filter fun b => b.downState = .f ∧ b.upState = .s).map fun b => b.p).sum := by
  induction bs with
  | nil => simp
  | cons b bs ih =>
    have ih := ih fun b' hb' => h b' (List.mem_cons_of_mem _ hb')
    obtain ⟨h1, h2, h3⟩ := h b List.mem_cons_self
    rw [List.map_cons, List.sum_cons, ih, List.filter_cons, List.filter_cons, List.filter_cons]
    cases hd : b.downState <;> cases hu : b.upState <;> simp_all <;> ring

/-- What `complete` means, for any branch limit: no returned branch carries an unknown label, the two bounds
differ exactly by the probability of the branches labelled failing at the bottom and surviving at the top, and
they are the failure probability if and only if all these branches have probability zero. -/
theorem C28_exact_iff {c : RunCfg K} (hc : CfgOK c Φ) {rules : Rules K}
    {brs : Option (List (Branch K))} (hs : StartOK c Φ rules brs) {st : RunState K}
    (h : run c rules brs = .ok st) (hf : st.outFlag = some .complete) :
    ∃ bs row, st.brs = some bs ∧ st.mon.getLast? = some row ∧
      (∀ b ∈ bs, b.downState ≠ .u ∧ b.upState ≠ .u) ∧
      row.pfUp = row.pfLow + ((bs.filter fun b => b.downState = .f ∧ b.upState = .s).map fun b => b.p).sum ∧
      (row.pfLow = pFail c.vs c.probs Φ ∧ row.pfUp = pFail c.vs c.probs Φ ↔
        ∀ b ∈ bs, b.downState = .f → b.upState = .s → b.p = 0) := by
  obtain ⟨bs, row, h1, h2, hno, -⟩ := C28_exact_partial hc hs h hf
  obtain ⟨st1, h3, rfl⟩ := run_eq h
  obtain ⟨hi, -⟩ := run_inv hc hs h3
  have hf1 : st1.outFlag = some .complete := by
    split at hf <;> exact hf
  have hst := (complete_noUnknown hc hs h3 hf1).1
  rw [if_pos hst] at h1 h2
  obtain ⟨bs', hbs', hpart⟩ := hi.started hst
  have hbs : bs' = bs := by
    rw [hbs'] at h1
    exact Option.some.inj h1
  subst hbs
  have hrow : row = monRow bs' st1.rules := by
    simpa [hbs'] using h2.symm
  subst hrow
  have hg := hi.start.good bs' hbs'
  have htot : (bs'.map fun b => b.p).sum = 1 := by
    have := partition_prob hc.vs c.probs hpart hg.p (fun _ => true)
    rw [List.filter_true] at this
    rw [this, ← probOf_true hc.vs hc.probs]
    refine probOf_congr hc.vs _ _ _ fun x hx => ?_
    obtain ⟨b, hb, hin⟩ := hpart.exists hx
    exact ⟨fun _ => trivial, fun _ => ⟨b, hb, rfl, hin⟩⟩
  have hsum := sum_three_labels (bs := bs') fun b hb => ⟨(hno b hb).1, (hno b hb).2, fun ⟨hd, hu⟩ => by
    have hl := hg.labels b hb
    have := hc.coh b.down b.up (fun kn hkn => (hpart.1 b hb kn hkn).1) (hl.1.1 hd)
    rw [hl.2.2 hu] at this
    cases this⟩
  have hgap : (monRow bs' st1.rules).pfUp = (monRow bs' st1.rules).pfLow +
      ((bs'.filter fun b => b.downState = .f ∧ b.upState = .s).map fun b => b.p).sum := by
    show 1 - _ = _ + _
    rw [← htot, hsum]
    simp only [monRow]
    ring
  have hbd := monRow_bounds hc.vs hc.coh hc.probs hpart hg.p hg.labels st1.rules
  have hnn : ∀ b ∈ bs', 0 ≤ b.p := fun b hb => by
    rw [hg.p b hb]
    exact probOf_nonneg hc.vs hc.probs _
  refine ⟨bs', _, by rw [if_pos hst]; exact hbs', by rw [if_pos hst]; exact h2, hno, hgap, ?_⟩
  have hz : ((bs'.filter fun b => b.downState = .f ∧ b.upState = .s).map fun b => b.p).sum = 0 ↔
      ∀ b ∈ bs', b.downState = .f → b.upState = .s → b.p = 0 := by
    clear hgap hsum htot hno hg hbs' h1 h2 hpart hbd
    induction bs' with
    | nil => simp
    | cons b bs ih =>
      have hnn' : ∀ b' ∈ bs, 0 ≤ b'.p := fun b' hb' => hnn b' (List.mem_cons_of_mem _ hb')
      have h0 := hnn b List.mem_cons_self
      rw [List.forall_mem_cons, ← ih hnn', List.filter_cons]
      have hrest : 0 ≤ ((bs.filter fun b => b.downState = .f ∧ b.upState = .s).map fun b => b.p).sum := by
        refine List.sum_nonneg fun x hx => ?_
        obtain ⟨b', hb', rfl⟩ := List.mem_map.1 hx
        exact hnn' b' (List.mem_filter.1 hb').1
      by_cases hl : b.downState = .f ∧ b.upState = .s
      · rw [if_pos (by simpa using hl), List.map_cons, List.sum_cons]
        constructor
        · intro e
          exact ⟨fun _ _ => by linarith, by linarith⟩
        · rintro ⟨e1, e2⟩
          rw [e1 hl.1 hl.2, e2, add_zero]
      · rw [if_neg (by simpa using hl)]
        exact ⟨fun e => ⟨fun a1 a2 => absurd ⟨a1, a2⟩ hl, e⟩, fun e => e.2⟩
  rw [← hz]
  constructor
  · rintro ⟨e1, e2⟩
    linarith
  · intro e
    constructor <;> linarith [hbd.1, hbd.2]

/-- With a branch limit of at least twice the number of component vectors `complete` does mean
exact, when the run starts without branches, re-decomposes from scratch (the default) or continues
from what an earlier run returned (`C61_resumable`). -/
theorem C28_enough_branches_partial {c : RunCfg K} (hc : CfgOK c Φ) {rules : Rules K}
    {brs : Option (List (Branch K))} (hs : StartOK c Φ rules brs)
    (hb : ResumeOK c rules brs) (hm : 2 * (c.vs.map Prod.snd).prod ≤ c.maxNb)
    {st : RunState K} (h : run c rules brs = .ok st) (hf : st.outFlag = some .complete) :
    ∃ bs row, st.brs = some bs ∧ st.mon.getLast? = some row ∧
      (∀ b ∈ bs, b.downState = b.upState ∧ b.downState ≠ .u) ∧
      row.pfLow = pFail c.vs c.probs Φ ∧ row.pfUp = pFail c.vs c.probs Φ := by
  obtain ⟨st1, h1, rfl⟩ := run_eq h
  obtain ⟨hi, -⟩ := run_inv hc hs h1
  have hf1 : st1.outFlag = some .complete := by
    split at hf <;> exact hf
  obtain ⟨hst, bs, hbs, hno, heq⟩ := complete_spec hc hs (fun ha bs hbs b hm => (hb ha bs hbs b hm).1) h1 hf1
  obtain ⟨bs', hbs', hpart⟩ := hi.started hst
  rw [hbs] at hbs'
  cases hbs'
  have hg := hi.start.good bs hbs
  rw [if_pos hst]
  have hall : ∀ b ∈ bs, b.downState = b.upState ∧ b.downState ≠ .u :=
    fun b hb => ⟨heq hm b hb, (hno b hb).1⟩
  exact ⟨bs, monRow bs st1.rules, hbs, by simp [hbs], hall,
    monRow_exact hc.vs hc.coh hc.probs hpart hg.p hg.labels hall _⟩

/-- A two-component series system, and its complete rules. -/
def Ex.series : RunCfg ℕ :=
  { vs := [(0, 2), (1, 2)]
    probs := fun _ _ => 1 / 2
    sysFun := fun x => { val := 0, st := if 1 ≤ x 0 ∧ 1 ≤ x 1 then .s else .f, min := [] }
    maxSf := 10
    maxNb := 1 }

def Ex.seriesΦ (x : ℕ → ℕ) : Bool := decide (1 ≤ x 0 ∧ 1 ≤ x 1)

def Ex.seriesRules : Rules ℕ := { s := [[(0, 1), (1, 1)]], f := [[(0, 0)], [(1, 0)]] }

theorem Ex.series_ok : CfgOK Ex.series Ex.seriesΦ := by
  refine ⟨⟨by decide, by decide⟩, ?_, ⟨by decide +kernel, by decide +kernel⟩, ?_⟩
  · intro x y h hx
    have h0 := h (0, 2) (by decide)
    have h1 := h (1, 2) (by decide)
    simp only [Ex.seriesΦ, decide_eq_true_eq] at hx ⊢
    simp only at h0 h1
    omega
  · refine ⟨fun x _ => ?_, fun _ _ h => absurd rfl h, fun _ _ h => absurd rfl h,
      fun _ _ h => absurd rfl h⟩
    simp [Ex.series, Ex.seriesΦ]

theorem Ex.series_start : StartOK Ex.series Ex.seriesΦ Ex.seriesRules none := by
  refine ⟨?_, ⟨?_, ?_⟩, by simp⟩
  · intro r hr
    simp only [Ex.seriesRules, List.cons_append, List.nil_append, List.mem_cons,
      List.not_mem_nil, or_false] at hr
    rcases hr with rfl | rfl | rfl <;> exact ⟨by decide, by decide⟩
  · intro r hr x _ ha
    simp only [Ex.seriesRules, List.mem_singleton] at hr
    subst hr
    have h0 := ha (0, 1) (by decide)
    have h1 := ha (1, 1) (by decide)
    simp only at h0 h1
    simp only [Ex.seriesΦ, decide_eq_true_eq]
    omega
  · intro r hr x _ ha
    simp only [Ex.seriesRules, List.mem_cons, List.not_mem_nil, or_false] at hr
    simp only [Ex.seriesΦ, decide_eq_false_iff_not]
    rcases hr with rfl | rfl
    · have := ha (0, 0) (by decide)
      simp only at this
      omega
    · have := ha (1, 0) (by decide)
      simp only at this
      omega

/-- The full claim is false: with a small branch limit a run ends `complete` although the bounds
differ from the failure probability 3/4. -/
theorem C28_complete_not_exact : ∃ (c : RunCfg ℕ) (Φ : (ℕ → ℕ) → Bool) (rules : Rules ℕ),
    CfgOK c Φ ∧ StartOK c Φ rules none ∧ pFail c.vs c.probs Φ = 3 / 4 ∧
    ∃ st, run c rules none = .ok st ∧ st.outFlag = some .complete ∧
      st.mon.map (fun row => (row.pfLow, row.pfUp)) = [(1 / 2, 1)] := by
  refine ⟨Ex.series, Ex.seriesΦ, Ex.seriesRules, Ex.series_ok, Ex.series_start, by decide +kernel,
    ?_⟩
  have h : (run Ex.series Ex.seriesRules none).toOption.map
      (fun st => (st.outFlag, st.mon.map (fun row => (row.pfLow, row.pfUp)))) =
      some (some .complete, [(1 / 2, 1)]) := by decide +kernel
  cases hd : run Ex.series Ex.seriesRules none with
  | error e => rw [hd] at h; cases h
  | ok st =>
    rw [hd] at h
    simp only [Except.toOption, Option.map_some, Option.some.injEq, Prod.mk.injEq] at h
    exact ⟨st, rfl, h.1, h.2⟩

example : (run (Ex.cfg 20 100) { s := [], f := [] } none).toOption.map
      (fun st => (st.mon.getLast?.map fun r => (r.pfLow, r.pfUp), st.outFlag)) =
      some (some (77 / 500, 77 / 500), some .complete) := by decide +kernel

/-! ## C29 -/

/-- The labels of the branches an iteration chooses from are right about the rules. -/
theorem unknown_uncovered {c : RunCfg K} (hc : CfgOK c Φ)
    (hm : c.activeDecomp = true ∨ 2 * spaceSize c.vs ≤ c.maxNb) {st : RunState K}
    {trunc} {brs : List (Branch K)}
    (hd : DecompOut c.vs Φ c.probs st.rules c.maxNb (c.startBrs st) brs trunc) {x : K → ℕ}
    (hu : UnknownEnd brs x) : getState x st.rules = .u := by
  obtain ⟨b, hb, h⟩ := hu
  rcases hm with ha | hm
  · have he := hd.exact (by unfold RunCfg.startBrs; rw [if_pos ha]) b hb
    rcases h with ⟨rfl, h⟩ | ⟨rfl, h⟩
    · rw [← he.2, h]
    · rw [← he.1, h]
  · have ht := trunc_false hc hm hd
    have hn := hd.new ht b hb
    rcases h with ⟨rfl, h⟩ | ⟨rfl, h⟩
    · exact hn.2 h
    · exact hn.1 h

theorem no_repeat_loop {c : RunCfg K} (hc : CfgOK c Φ)
    (hm : c.activeDecomp = true ∨ 2 * spaceSize c.vs ≤ c.maxNb) {rules : Rules K}
    {brs : Option (List (Branch K))} (hs : StartOK c Φ rules brs) {st1 : RunState K}
    (h1 : runLoop c c.maxSf { brs := brs, rules := rules } = .ok st1) :
    st1.evals.Pairwise (Differ c.vs) := by
  refine (runLoop_ind' hc (fun _ st => st.evals.Pairwise (Differ c.vs))
    (fun st => st.evals.Pairwise (Differ c.vs)) ?_ (fun _ _ h => h) (fun _ _ _ _ _ h _ _ => h)
    (fun _ _ _ _ _ _ _ h _ _ _ => h) (runInv_init hs) List.Pairwise.nil h1).1
  intro r st trunc brs x st' hv hI hd hu hgo hstep
  rw [hstep.evals, List.pairwise_append]
  refine ⟨hI, List.pairwise_singleton _ _, fun y hy z hz => ?_⟩
  rw [List.mem_singleton] at hz
  subst hz
  by_contra hn
  have hsame : ∀ kn ∈ c.vs, y kn.1 = z kn.1 := by
    intro kn hkn
    by_contra hne
    exact hn ⟨kn, hkn, hne⟩
  have hcg := getState_congr hv.start.dict hsame
  obtain ⟨h2, h3⟩ := getState_u.1 (unknown_uncovered hc hm hd hu)
  rcases (hv.evals y hy).2 with h | h
  · exact h2 (hcg.1.1 h)
  · exact h3 (hcg.2.1 h)

/-- With re-decomposition (the default), or with a large enough branch limit, no component vector is
evaluated twice.  Missing for the full claim: `active_decomp=False` with a small branch limit, for
which it is false (see `C29_repeats`). -/
theorem C29_no_repeat_partial {c : RunCfg K} (hc : CfgOK c Φ)
    (hm : c.activeDecomp = true ∨ 2 * (c.vs.map Prod.snd).prod ≤ c.maxNb) {rules : Rules K}
    {brs : Option (List (Branch K))} (hs : StartOK c Φ rules brs) {st : RunState K}
    (h : run c rules brs = .ok st) :
    st.evals.Pairwise (fun x y => ∃ kn ∈ c.vs, x kn.1 ≠ y kn.1) ∧
    st.evals.length ≤ (c.vs.map Prod.snd).prod := by
  obtain ⟨st1, h1, rfl⟩ := run_eq h
  have hp := no_repeat_loop hc hm hs h1
  obtain ⟨hi, -⟩ := run_inv hc hs h1
  have hl := length_le_space hc.vs st1.evals (fun x hx => (hi.evals x hx).1) hp
  split <;> exact ⟨hp, hl⟩

/-- With limits large enough the run ends because it is complete or because the bounds are close. -/
theorem stops_flag {c : RunCfg K} (hc : CfgOK c Φ)
    (hmax : (c.vs.map Prod.snd).prod < c.maxSf) (hnb : 2 * (c.vs.map Prod.snd).prod ≤ c.maxNb)
    (hr : c.maxRules = none) {rules : Rules K}
    {brs : Option (List (Branch K))} (hs : StartOK c Φ rules brs) {st : RunState K}
    (h : run c rules brs = .ok st) :
    st.outFlag = some .complete ∨ st.outFlag = some .pfBnd ∧ c.pfBndWr ≠ 0 := by
  obtain ⟨st1, h1, rfl⟩ := run_eq h
  have hflag : st1.outFlag = some .complete ∨ st1.outFlag = some .pfBnd ∧ c.pfBndWr ≠ 0 := by
    refine (runLoop_ind' hc (fun r st => st.evals.length + r = c.maxSf ∧
        st.evals.Pairwise (Differ c.vs))
      (fun st => st.outFlag = some .complete ∨ st.outFlag = some .pfBnd ∧ c.pfBndWr ≠ 0) ?_ ?_
      (fun _ _ _ _ _ _ _ _ => .inl rfl) ?_
      (runInv_init hs) ⟨by simp, List.Pairwise.nil⟩ h1).1
    · intro r st trunc brs x st' hv hI hd hu hgo hstep
      refine ⟨by rw [hstep.evals, List.length_append, List.length_singleton]; omega, ?_⟩
      rw [hstep.evals, List.pairwise_append]
      refine ⟨hI.2, List.pairwise_singleton _ _, fun y hy z hz => ?_⟩
      rw [List.mem_singleton] at hz
      subst hz
      by_contra hn
      have hsame : ∀ kn ∈ c.vs, y kn.1 = z kn.1 := by
        intro kn hkn
        by_contra hne
        exact hn ⟨kn, hkn, hne⟩
      have hcg := getState_congr hv.start.dict hsame
      obtain ⟨h2, h3⟩ := getState_u.1 (unknown_uncovered hc (.inr hnb) hd hu)
      rcases (hv.evals y hy).2 with h | h
      · exact h2 (hcg.1.1 h)
      · exact h3 (hcg.2.1 h)
    · intro st hv hI
      have := length_le_space hc.vs st.evals (fun x hx => (hv.evals x hx).1) hI.2
      unfold spaceSize at this
      omega
    · intro r st trunc brs x flag hv hI hd hu hfl
      rcases hfl with ⟨-, hle⟩ | ⟨rfl, hlt⟩ | ⟨-, hne⟩
      · exfalso
        have := partition_length hc.vs hd.part
        have hpos : 0 < spaceSize c.vs := by
          unfold spaceSize
          refine List.prod_pos ?_
          intro q hq
          obtain ⟨kn, hkn, rfl⟩ := List.mem_map.1 hq
          exact hc.vs.pos kn hkn
        unfold spaceSize at this hpos
        omega
      · refine .inr ⟨rfl, fun hw => ?_⟩
        rw [hw, mul_zero] at hlt
        exact absurd hlt (not_lt.2 hv.prBu)
      · exact absurd hr hne
  split <;> exact hflag

/-- With limits large enough the run ends because it is complete or because the bounds are close. -/
theorem C29_stops {c : RunCfg K} (hc : CfgOK c Φ) (hsf : c.survFirst = true)
    (hmax : (c.vs.map Prod.snd).prod < c.maxSf) (hnb : 2 * (c.vs.map Prod.snd).prod ≤ c.maxNb)
    (hr : c.maxRules = none) {rules : Rules K}
    {brs : Option (List (Branch K))} (hs : StartOK c Φ rules brs) :
    ∃ st, run c rules brs = .ok st ∧
      (st.outFlag = some .complete ∨ st.outFlag = some .pfBnd ∧ c.pfBndWr ≠ 0) := by
  obtain ⟨st, h⟩ := C27_returns hc hsf hs
  exact ⟨st, h, stops_flag hc hmax hnb hr hs h⟩

/-- With limits large enough the run ends `complete`. -/
theorem C29_completes {c : RunCfg K} (hc : CfgOK c Φ) (hsf : c.survFirst = true)
    (hmax : (c.vs.map Prod.snd).prod < c.maxSf) (hnb : 2 * (c.vs.map Prod.snd).prod ≤ c.maxNb)
    (hw : c.pfBndWr = 0) (hr : c.maxRules = none) {rules : Rules K}
    {brs : Option (List (Branch K))} (hs : StartOK c Φ rules brs) :
    ∃ st, run c rules brs = .ok st ∧ st.outFlag = some .complete := by
  obtain ⟨st, h1, h2⟩ := C29_stops hc hsf hmax hnb hr hs
  exact ⟨st, h1, h2.resolve_right fun h => h.2 hw⟩

/-- The same for both settings of `surv_first`, unless the run is handed branches with labels that no
rule confirms. -/
theorem C29_completes_other {c : RunCfg K} (hc : CfgOK c Φ)
    (hmax : (c.vs.map Prod.snd).prod < c.maxSf) (hnb : 2 * (c.vs.map Prod.snd).prod ≤ c.maxNb)
    (hw : c.pfBndWr = 0) (hr : c.maxRules = none) {rules : Rules K}
    {brs : Option (List (Branch K))} (hs : StartOK c Φ rules brs) (hb : ResumeOK c rules brs) :
    ∃ st, run c rules brs = .ok st ∧ st.outFlag = some .complete := by
  obtain ⟨st, h⟩ := C27_returns_other hc hnb hs hb
  exact ⟨st, h, (stops_flag hc hmax hnb hr hs h).resolve_right fun h => h.2 hw⟩

example : CfgOK { Ex.cfg 100 100 with survFirst := false } Ex.Φ ∧
    ((Ex.cfg 100 100).vs.map Prod.snd).prod < 100 ∧
    2 * ((Ex.cfg 100 100).vs.map Prod.snd).prod ≤ 100 ∧
    (run { Ex.cfg 100 100 with survFirst := false } { s := [], f := [] } none).toOption.map
      (fun st => (st.outFlag, st.evals.map fun x => (x 0, x 1, x 2))) = some (some .complete,
        [(1, 2, 1), (1, 1, 1), (1, 0, 1), (1, 2, 0), (1, 1, 0), (1, 0, 0), (0, 0, 1), (0, 2, 1)]) :=
  ⟨⟨Ex.vs_ok, Ex.coherent, Ex.probs_ok, Ex.sysFun_ok⟩, by decide, by decide, by decide +kernel⟩

/-- A four-component system that depends on component 2 only. -/
def Ex.single : RunCfg ℕ :=
  { vs := [(0, 2), (1, 2), (2, 2), (3, 2)]
    probs := fun k i =>
      let q : ℚ := match k with | 0 => 3 / 5 | 1 => 2 / 5 | 2 => 1 / 5 | _ => 3 / 10
      if i = 0 then q else 1 - q
    sysFun := fun x => { val := 0, st := if 1 ≤ x 2 then .s else .f, min := [] }
    maxSf := 20
    maxNb := 12
    activeDecomp := false }

theorem Ex.single_ok : CfgOK Ex.single (fun x => decide (1 ≤ x 2)) := by
  refine ⟨⟨by decide, by decide⟩, ?_, ⟨by decide +kernel, by decide +kernel⟩, ?_⟩
  · intro x y h hx
    have h2 := h (2, 2) (by decide)
    simp only [decide_eq_true_eq] at hx ⊢
    simp only at h2
    omega
  · refine ⟨fun x _ => ?_, fun _ _ h => absurd rfl h, fun _ _ h => absurd rfl h,
      fun _ _ h => absurd rfl h⟩
    simp [Ex.single]

/-- The full claim is false: with `active_decomp=False` and a small branch limit the same vector is
evaluated twice in a row. -/
theorem C29_repeats : ∃ (c : RunCfg ℕ) (Φ : (ℕ → ℕ) → Bool), CfgOK c Φ ∧
    StartOK c Φ { s := [], f := [] } none ∧
    ∃ st, run c { s := [], f := [] } none = .ok st ∧
      st.evals.map (fun x => c.vs.map fun kn => x kn.1) =
        [[1, 1, 1, 1], [0, 1, 1, 1], [0, 0, 1, 1], [0, 1, 1, 0], [0, 1, 1, 0]] := by
  refine ⟨Ex.single, _, Ex.single_ok, Ex.start_empty _, ?_⟩
  have h : (run Ex.single { s := [], f := [] } none).toOption.map
      (fun st => st.evals.map (fun x => Ex.single.vs.map fun kn => x kn.1)) =
      some [[1, 1, 1, 1], [0, 1, 1, 1], [0, 0, 1, 1], [0, 1, 1, 0], [0, 1, 1, 0]] := by
    decide +kernel
  cases hd : run Ex.single { s := [], f := [] } none with
  | error e => rw [hd] at h; cases h
  | ok st =>
    rw [hd] at h
    simp only [Except.toOption, Option.map_some, Option.some.injEq] at h
    exact ⟨st, rfl, h⟩

/-! ## C30 -/

/-- One row is at least as good as an earlier one. -/
def Tighter (a b : MonRow) : Prop := a.pfLow ≤ b.pfLow ∧ b.pfUp ≤ a.pfUp

/-- What the rules say bounds every row so far. -/
def BelowRules (c : RunCfg K) (rules : Rules K) (row : MonRow) : Prop :=
  row.pfLow ≤ probOf c.vs c.probs (CoveredF rules) ∧
  1 - probOf c.vs c.probs (CoveredS rules) ≤ row.pfUp

theorem tighter_loop {c : RunCfg K} (hc : CfgOK c Φ) (hm : 2 * spaceSize c.vs ≤ c.maxNb)
    {rules : Rules K} {brs : Option (List (Branch K))} (hs : StartOK c Φ rules brs)
    (hcov : CovInv c { brs := brs, rules := rules }) {st1 : RunState K}
    (h1 : runLoop c c.maxSf { brs := brs, rules := rules } = .ok st1) :
    st1.mon.Pairwise Tighter ∧ (st1.started = true → ∀ row ∈ st1.mon,
      Tighter row (monRow (st1.brs.getD []) st1.rules)) := by
  refine (runLoop_ind' hc (fun _ st => CovInv c st ∧ st.mon.Pairwise Tighter ∧
      (∀ row ∈ st.mon, BelowRules c st.rules row) ∧
      (st.started = true → ∀ row ∈ st.mon, Tighter row (monRow (st.brs.getD []) st.rules)))
    (fun st => st.mon.Pairwise Tighter ∧ (st.started = true → ∀ row ∈ st.mon,
      Tighter row (monRow (st.brs.getD []) st.rules)))
    ?_ (fun _ _ h => ⟨h.2.1, h.2.2.2⟩) ?_ ?_
    (runInv_init hs) ⟨hcov, List.Pairwise.nil, by simp, by simp⟩ h1).1
  · intro r st trunc brs x st' hv ⟨hC, hP, hB, _⟩ hd hu hgo hstep
    have ht := trunc_false hc hm hd
    subst ht
    have hrow := monRow_rules hc hv hC hd st'.rules
    have hlt : ∀ row ∈ st.mon, Tighter row (monRow brs st'.rules) := by
      intro row hrm
      unfold Tighter
      rw [hrow.1, hrow.2]
      exact hB row hrm
    have hlast : ∀ row ∈ st'.mon, Tighter row (monRow brs st'.rules) := by
      rw [hstep.mon]
      intro row hrm
      rcases List.mem_append.1 hrm with hrm | hrm
      · exact hlt row hrm
      · rw [List.mem_singleton] at hrm
        subst hrm
        exact ⟨le_rfl, le_rfl⟩
    have hgrow : probOf c.vs c.probs (CoveredF st.rules) ≤
          probOf c.vs c.probs (CoveredF st'.rules) ∧
        probOf c.vs c.probs (CoveredS st.rules) ≤ probOf c.vs c.probs (CoveredS st'.rules) :=
      ⟨probOf_mono hc.vs hc.probs _ _ fun y _ => hstep.grows.2 y,
        probOf_mono hc.vs hc.probs _ _ fun y _ => hstep.grows.1 y⟩
    refine ⟨hC.step hd hstep, ?_, ?_, fun _ => ?_⟩
    · rw [hstep.mon, List.pairwise_append]
      refine ⟨hP, List.pairwise_singleton _ _, fun a ha b hb => ?_⟩
      rw [List.mem_singleton] at hb
      subst hb
      exact hlt a ha
    · intro row hrm
      have := hlast row hrm
      unfold Tighter at this
      rw [hrow.1, hrow.2] at this
      exact ⟨this.1.trans hgrow.1, by linarith [this.2, hgrow.2]⟩
    · rw [hstep.brs]
      exact hlast
  · intro r st trunc brs hv ⟨hC, hP, hB, _⟩ hd hno
    have ht := trunc_false hc hm hd
    subst ht
    refine ⟨hP, fun _ row hrm => ?_⟩
    have hrow := monRow_rules hc hv hC hd st.rules
    unfold Tighter
    simp only [Option.getD_some]
    rw [hrow.1, hrow.2]
    exact hB row hrm
  · intro r st trunc brs x flag hv ⟨hC, hP, hB, _⟩ hd hu hfl
    have ht := trunc_false hc hm hd
    subst ht
    refine ⟨hP, fun _ row hrm => ?_⟩
    have hrow := monRow_rules hc hv hC hd st.rules
    unfold Tighter
    simp only [Option.getD_some]
    rw [hrow.1, hrow.2]
    exact hB row hrm

/-- Without truncation (a large enough branch limit) the lower bound never decreases and the upper
bound never increases along the monitor, whether or not branches are re-decomposed. -/
theorem C30_monotone {c : RunCfg K} (hc : CfgOK c Φ) (hm : 2 * (c.vs.map Prod.snd).prod ≤ c.maxNb)
    {rules : Rules K} {brs : Option (List (Branch K))} (hs : StartOK c Φ rules brs)
    (hb : ResumeOK c rules brs) {st : RunState K} (h : run c rules brs = .ok st) :
    st.mon.Pairwise fun a b => a.pfLow ≤ b.pfLow ∧ b.pfUp ≤ a.pfUp := by
  obtain ⟨st1, h1, rfl⟩ := run_eq h
  obtain ⟨hp, hl⟩ := tighter_loop hc hm hs (fun ha bs hbs b hm => (hb ha bs hbs b hm).1) h1
  split
  · rename_i hst
    rw [List.pairwise_append]
    refine ⟨hp, List.pairwise_singleton _ _, fun a ha b hb => ?_⟩
    rw [List.mem_singleton] at hb
    subst hb
    exact hl hst a ha
  · exact hp

/-- At every row (any limits): the monitored unknown probability is the width of the bounds and is
not negative, and the branch and rule counts add up. -/
theorem C30_counts {c : RunCfg K} (hc : CfgOK c Φ) {rules : Rules K}
    {brs : Option (List (Branch K))} (hs : StartOK c Φ rules brs) {st : RunState K}
    (h : run c rules brs = .ok st) : ∀ row ∈ st.mon,
      row.prBu = row.pfUp - row.pfLow ∧ 0 ≤ row.prBu ∧
      (row.noBr : ℤ) = row.noBf + row.noBs + row.noBu ∧ 0 ≤ row.noBu ∧
      row.noRa = row.noRs + row.noRf := by
  obtain ⟨st1, h1, rfl⟩ := run_eq h
  obtain ⟨hi, hst⟩ := run_inv hc hs h1
  have key : ∀ row, RowOK c Φ row → row.prBu = row.pfUp - row.pfLow ∧ 0 ≤ row.prBu ∧
      (row.noBr : ℤ) = row.noBf + row.noBs + row.noBu ∧ 0 ≤ row.noBu ∧
      row.noRa = row.noRs + row.noRf := fun row hr =>
    ⟨hr.prBu, by rw [hr.prBu]; linarith [hr.low, hr.up], hr.counts, hr.noBu, hr.rules⟩
  split
  · rename_i hstart
    obtain ⟨bs, hbs, hpart⟩ := hi.started hstart
    have hg := hi.start.good bs hbs
    intro row hm
    simp only [hbs, Option.getD_some] at hm
    rcases List.mem_append.1 hm with hm | hm
    · exact key row (hi.mon row hm)
    · rw [List.mem_singleton] at hm
      subst hm
      exact key _ (rowOK hc hpart hg.p hg.labels st1.rules)
  · exact fun row hm => key row (hi.mon row hm)

/-! ## C31 -/

/-- With `surv_first`: the upper end point of a most probable branch among those whose upper label is
unknown; if there is none, the lower end point of a most probable branch among those whose lower
label is unknown; `None` exactly when no label is unknown.  It never fails. -/
theorem C31_survival_first (vs : List (K × ℕ)) (probs : K → ℕ → ℚ) (brs : List (Branch K)) :
    (∃ b ∈ brs, b.upState = .u ∧ (∀ b' ∈ brs, b'.upState = .u → b'.p ≤ b.p) ∧
        getCompSt vs probs true brs = .ok (some b.up)) ∨
    ((∀ b ∈ brs, b.upState ≠ .u) ∧ ∃ b ∈ brs, b.downState = .u ∧
        (∀ b' ∈ brs, b'.downState = .u → b'.p ≤ b.p) ∧
        getCompSt vs probs true brs = .ok (some b.down)) ∨
    ((∀ b ∈ brs, b.downState ≠ .u ∧ b.upState ≠ .u) ∧ getCompSt vs probs true brs = .ok none) :=
  getCompSt_true probs brs

/-- For `surv_first=False`: `None` exactly when no label is unknown; a vector returned is the upper
end point of a branch whose upper label is unknown.  Missing for the full claim: it may raise
instead of answering, and it never returns a lower end point (see `C31_raises`). -/
theorem C31_other_partial (vs : List (K × ℕ)) (probs : K → ℕ → ℚ) (brs : List (Branch K)) :
    (getCompSt vs probs false brs = .ok none ↔ ∀ b ∈ brs, b.downState ≠ .u ∧ b.upState ≠ .u) ∧
    ∀ x, getCompSt vs probs false brs = .ok (some x) →
      ∃ b ∈ brs, x = b.up ∧ b.upState = .u :=
  ⟨getCompSt_false_none, fun _ h => getCompSt_false_some h⟩

/-- For `surv_first=False` it does answer when no branch has an unknown lower label under a known
upper one; that is so after every decomposition that was not cut short. -/
theorem C31_other_answers (vs : List (K × ℕ)) (probs : K → ℕ → ℚ) (brs : List (Branch K))
    (h : ∀ b ∈ brs, b.downState = .u → b.upState = .u) :
    ∃ o, getCompSt vs probs false brs = .ok o :=
  getCompSt_false_total probs brs h

/-- For `surv_first=False` the vector returned is, among the unknown upper end points, one that is most
likely to be reached or exceeded; the lower end points play no part. -/
theorem C31_other_most_likely {vs : List (K × ℕ)} (hv : VarisOK vs) (probs : K → ℕ → ℚ)
    {brs : List (Branch K)} (hbox : ∀ b ∈ brs, BoxOK vs b) {x : K → ℕ}
    (h : getCompSt vs probs false brs = .ok (some x)) :
    (∃ b ∈ brs, x = b.up ∧ b.upState = .u) ∧ ∀ b ∈ brs, b.upState = .u →
      probOf vs probs (fun y => ∀ kn ∈ vs, b.up kn.1 ≤ y kn.1) ≤
        probOf vs probs (fun y => ∀ kn ∈ vs, x kn.1 ≤ y kn.1) := by
  have key : ∀ b ∈ brs, approxProb vs probs b.up (topState vs) =
      probOf vs probs (fun y => ∀ kn ∈ vs, b.up kn.1 ≤ y kn.1) := by
    intro b hb
    have hb' : BoxOK vs { b with down := b.up, up := topState vs } := by
      intro kn hkn
      have h1 := (hbox b hb kn hkn).2
      have h2 := topState_eq hv hkn
      have h3 := hv.pos kn hkn
      show b.up kn.1 ≤ topState vs kn.1 ∧ topState vs kn.1 < kn.2
      omega
    refine (approxProb_eq hv probs hb').trans (probOf_congr hv probs _ _ fun y hy => ?_)
    refine forall₂_congr fun kn hkn => ⟨fun h => h.1, fun h => ⟨h, ?_⟩⟩
    have h2 := topState_eq hv hkn
    have h3 := hy kn hkn
    show y kn.1 ≤ topState vs kn.1
    omega
  obtain ⟨b0, hb0, rfl, hu0⟩ := getCompSt_false_some h
  refine ⟨⟨b0, hb0, rfl, hu0⟩, fun b hb hu => ?_⟩
  have := getCompSt_false_max h hb hu
  rwa [key b hb, key b0 hb0] at this

/-- With `surv_first=False`, when the first branch with an unknown label has a known upper label, the
call raises `UnboundLocalError`. -/
theorem C31_raises (vs : List (K × ℕ)) (probs : K → ℕ → ℚ) (l : List (Branch K)) (b : Branch K)
    (r : List (Branch K)) (hl : ∀ b ∈ l, b.downState ≠ .u ∧ b.upState ≠ .u)
    (h1 : b.downState = .u) (h2 : b.upState ≠ .u) :
    getCompSt vs probs false (l ++ b :: r) = .error .unbound := by
  have hc : compStLoop vs probs (l ++ b :: r) none [] = .error .unbound := by
    induction l with
    | nil =>
      rw [List.nil_append]
      unfold compStLoop
      simp only [h1, h2, if_false, if_true]
    | cons a l ih =>
      obtain ⟨hd, hu⟩ := hl a (by simp)
      rw [List.cons_append]
      unfold compStLoop
      simp only [hd, hu, if_false]
      exact ih fun b hb => hl b (by simp [hb])
  unfold getCompSt
  simp only [Bool.false_eq_true, if_false]
  rw [hc]
  rfl

/-- It happens in a run: the series system with two known rules and a small branch limit. -/
theorem C31_run_raises : ∃ (c : RunCfg ℕ) (Φ : (ℕ → ℕ) → Bool) (rules : Rules ℕ),
    CfgOK c Φ ∧ StartOK c Φ rules none ∧ c.survFirst = false ∧
    run c rules none = .error .unbound := by
  refine ⟨{ Ex.series with survFirst := false }, Ex.seriesΦ,
    { s := [[(0, 1), (1, 1)]], f := [[(0, 0)]] }, ?_, ?_, rfl, ?_⟩
  · exact ⟨Ex.series_ok.vs, Ex.series_ok.coh, Ex.series_ok.probs, Ex.series_ok.sys⟩
  · refine ⟨fun r hr => Ex.series_start.dict r ?_, ⟨Ex.series_start.valid.s, fun r hr =>
      Ex.series_start.valid.f r ?_⟩, by simp⟩
    · simp only [List.cons_append, List.nil_append, List.mem_cons, List.not_mem_nil, or_false] at hr
      rcases hr with rfl | rfl <;> decide
    · rw [List.mem_singleton] at hr
      subst hr
      decide
  · have h : (match run { Ex.series with survFirst := false }
        { s := [[(0, 1), (1, 1)]], f := [[(0, 0)]] } none with
        | .error e => some e | .ok _ => none) = some .unbound := by decide +kernel
    split at h
    · rename_i e he
      rw [he]
      injection h with h
      rw [h]
    · cases h

example : VarisOK Ex.vs ∧ (∀ b ∈ initBranch Ex.vs { s := [], f := [] }, BoxOK Ex.vs b) ∧
    (getCompSt Ex.vs Ex.probs false (initBranch Ex.vs { s := [], f := [] })).toOption.map
      (Option.map fun x => Ex.vs.map fun kn => x kn.1) = some (some [1, 2, 1]) :=
  ⟨Ex.vs_ok, by decide, by decide +kernel⟩

example : getCompSt Ex.vs Ex.probs true (initBranch Ex.vs { s := [], f := [] }) =
    .ok (some (topState Ex.vs)) := rfl

end BNS
