import Verif.Proofs.BrcRun
import Verif.Props.BrcRules
import Verif.Props.BrcDecomp
import Mathlib.Data.Fintype.BigOperators
import Mathlib.Algebra.BigOperators.Fin

/-! Helper lemmas: the invariants of `run`. -/

namespace BNS

set_option linter.unusedSectionVars false

variable {K : Type} [DecidableEq K] {vs : List (K × ℕ)} {Φ : (K → ℕ) → Bool}

/-! ## One evaluation -/

/-- More is known. -/
def Grows (rules rules' : Rules K) : Prop :=
  (∀ y, CoveredS rules y → CoveredS rules' y) ∧ (∀ y, CoveredF rules y → CoveredF rules' y)

theorem Grows.cov {rules rules' : Rules K} (h : Grows rules rules') {b : Branch K}
    (hb : LabelsCov rules b) : LabelsCov rules' b :=
  ⟨⟨fun e => h.1 _ (hb.1.1 e), fun e => h.2 _ (hb.1.2 e)⟩,
    fun e => h.1 _ (hb.2.1 e), fun e => h.2 _ (hb.2.2 e)⟩

theorem update_sys {c : RunCfg K} (hc : CfgOK c Φ) {rules : Rules K} (hk : RulesDict c.vs rules)
    (hr : RulesValid c.vs Φ rules) {x : K → ℕ} (hx : InSpace c.vs x) :
    ∃ rules', updateRuleSet rules (runSysFn c.vs c.sysFun x).1 (runSysFn c.vs c.sysFun x).2 =
        .ok rules' ∧ RulesDict c.vs rules' ∧ RulesValid c.vs Φ rules' ∧ Grows rules rules' ∧
      (CoveredS rules' x ∨ CoveredF rules' x) := by
  obtain ⟨hd, hS, hF⟩ := C21_run_sys_fn hc.vs hc.coh hc.sys hx
  cases hΦ : Φ x with
  | true =>
    obtain ⟨hst, hval, happ⟩ := hS hΦ
    obtain ⟨rules', he, hf, hmem, hcov⟩ := C19_survival hk (runSysFn c.vs c.sysFun x).1
    refine ⟨rules', by rw [hst]; exact he, ?_, ⟨?_, ?_⟩, ⟨?_, ?_⟩, .inl ((hcov x).2 (.inr happ))⟩
    · intro r hrm
      rcases List.mem_append.1 hrm with h | h
      · rcases hmem r h with h | rfl
        · exact hk r (by simp [h])
        · exact hd
      · rw [hf] at h
        exact hk r (by simp [h])
    · intro r hrm
      rcases hmem r hrm with h | rfl
      · exact hr.s r h
      · exact hval
    · intro r hrm
      exact hr.f r (hf ▸ hrm)
    · intro y hy
      exact (hcov y).2 (.inl hy)
    · rintro y ⟨r, h1, h2⟩
      exact ⟨r, hf ▸ h1, h2⟩
  | false =>
    obtain ⟨hst, hval, happ⟩ := hF hΦ
    obtain ⟨rules', he, hf, hmem, hcov⟩ := C19_failure hk (runSysFn c.vs c.sysFun x).1
    refine ⟨rules', by rw [hst]; exact he, ?_, ⟨?_, ?_⟩, ⟨?_, ?_⟩, .inr ((hcov x).2 (.inr happ))⟩
    · intro r hrm
      rcases List.mem_append.1 hrm with h | h
      · rw [hf] at h
        exact hk r (by simp [h])
      · rcases hmem r h with h | rfl
        · exact hk r (by simp [h])
        · exact hd
    · intro r hrm
      exact hr.s r (hf ▸ hrm)
    · intro r hrm
      rcases hmem r hrm with h | rfl
      · exact hr.f r h
      · exact hval
    · rintro y ⟨r, h1, h2⟩
      exact ⟨r, hf ▸ h1, h2⟩
    · intro y hy
      exact (hcov y).2 (.inl hy)

/-- Everything about an evaluating step. -/
structure StepOut (c : RunCfg K) (Φ : (K → ℕ) → Bool) (st : RunState K) (bs : List (Branch K))
    (x : K → ℕ) (last : Bool) (st' : RunState K) : Prop where
  started : st'.started = true
  brs : st'.brs = some bs
  evals : st'.evals = st.evals ++ [x]
  mon : st'.mon = st.mon ++ [monRow bs st'.rules]
  prBu : st'.prBu = (monRow bs st'.rules).prBu
  flag : st'.outFlag = if last then some .maxSf else none
  dict : RulesDict c.vs st'.rules
  valid : RulesValid c.vs Φ st'.rules
  grows : Grows st.rules st'.rules
  covers : CoveredS st'.rules x ∨ CoveredF st'.rules x

theorem runStep_spec {c : RunCfg K} (hc : CfgOK c Φ) {st : RunState K}
    (hk : RulesDict c.vs st.rules) (hr : RulesValid c.vs Φ st.rules) (brs : List (Branch K))
    {x : K → ℕ} (hx : InSpace c.vs x) (last : Bool) :
    ∃ st', runStep c st brs x last = .ok st' ∧ StepOut c Φ st brs x last st' := by
  obtain ⟨rules', he, h1, h2, h3, h4⟩ := update_sys hc hk hr hx
  refine ⟨{ brs := some brs
            rules := rules'
            evals := st.evals ++ [x]
            mon := st.mon ++ [monRow brs rules']
            prBu := (monRow brs rules').prBu
            pfLow := (monRow brs rules').pfLow
            outFlag := if last then some .maxSf else none
            started := true }, ?_, ?_⟩
  · unfold runStep
    simp only [he, ok_bind]
    rfl
  · exact ⟨rfl, rfl, rfl, rfl, rfl, rfl, h1, h2, h3, h4⟩

/-! ## The basic invariant -/

/-- What every monitor row satisfies. -/
structure RowOK (c : RunCfg K) (Φ : (K → ℕ) → Bool) (row : MonRow) : Prop where
  low : row.pfLow ≤ pFail c.vs c.probs Φ
  up : pFail c.vs c.probs Φ ≤ row.pfUp
  prBu : row.prBu = row.pfUp - row.pfLow
  counts : (row.noBr : ℤ) = row.noBf + row.noBs + row.noBu
  noBu : 0 ≤ row.noBu
  rules : row.noRa = row.noRs + row.noRf

theorem countP_disjoint {α : Type} (l : List α) (p q : α → Bool)
    (h : ∀ a ∈ l, ¬ (p a = true ∧ q a = true)) : l.countP p + l.countP q ≤ l.length := by
  induction l with
  | nil => simp
  | cons a l ih =>
    have := ih fun a ha => h a (by simp [ha])
    have ha := h a (by simp)
    rw [List.countP_cons, List.countP_cons, List.length_cons]
    by_cases hp : p a = true
    · have hq : q a = false := by simpa [hp] using ha
      simp only [hp, hq, if_true, Bool.false_eq_true, if_false]
      omega
    · simp only [hp, Bool.false_eq_true, if_false]
      split <;> omega

theorem rowOK {c : RunCfg K} (hc : CfgOK c Φ) {brs : List (Branch K)}
    (hpart : Partition c.vs brs) (hp : ∀ b ∈ brs, b.p = probOf c.vs c.probs (InBox c.vs b))
    (hl : ∀ b ∈ brs, LabelsOK Φ b) (rules : Rules K) : RowOK c Φ (monRow brs rules) := by
  have hb := monRow_bounds hc.vs hc.coh hc.probs hpart hp hl rules
  have hcount : brs.countP (fun b => decide (b.upState = .f)) +
      brs.countP (fun b => decide (b.downState = .s)) ≤ brs.length := by
    refine countP_disjoint brs _ _ fun b hbm ⟨h1, h2⟩ => ?_
    have h1 : b.upState = .f := by simpa using h1
    have h2 : b.downState = .s := by simpa using h2
    have hbox := hpart.1 b hbm
    have := hc.coh b.down b.up (fun kn hkn => (hbox kn hkn).1) ((hl b hbm).1.1 h2)
    rw [(hl b hbm).2.2 h1] at this
    cases this
  refine ⟨hb.1, hb.2, ?_, ?_, ?_, rfl⟩
  · simp only [monRow]; ring
  · simp only [monRow]; ring
  · simp only [monRow]
    omega

/-- The basic invariant of the loop. -/
structure RunInv (c : RunCfg K) (Φ : (K → ℕ) → Bool) (st : RunState K) : Prop where
  start : StartOK c Φ st.rules st.brs
  mon : ∀ row ∈ st.mon, RowOK c Φ row
  started : st.started = true → ∃ bs, st.brs = some bs ∧ Partition c.vs bs
  evals : ∀ x ∈ st.evals, InSpace c.vs x ∧ (CoveredS st.rules x ∨ CoveredF st.rules x)
  prBu : 0 ≤ st.prBu

theorem startBrs_good {c : RunCfg K} {st : RunState K} (h : StartOK c Φ st.rules st.brs) :
    GoodBrs c.vs Φ c.probs (c.startBrs st) := by
  unfold RunCfg.startBrs
  split
  · exact ⟨.inl rfl, by simp, by simp⟩
  · cases hb : st.brs with
    | none => exact ⟨.inl rfl, by simp, by simp⟩
    | some bs => exact h.good bs hb

/-- One decomposition of the loop. -/
theorem RunInv.decomp {c : RunCfg K} (hc : CfgOK c Φ) {st : RunState K} (h : RunInv c Φ st) :
    ∃ trunc bcs, decomp c.vs st.rules c.probs c.maxNb (c.startBrs st) = .ok (trunc, bcs) ∧
      DecompOut c.vs Φ c.probs st.rules c.maxNb (c.startBrs st) (bcs.map Prod.fst) trunc :=
  decomp_run hc.vs h.start.dict h.start.valid hc.probs c.maxNb (startBrs_good h.start)

theorem RunInv.decomp' {c : RunCfg K} (hc : CfgOK c Φ) {st : RunState K} (h : RunInv c Φ st)
    {trunc bcs} (hd : BNS.decomp c.vs st.rules c.probs c.maxNb (c.startBrs st) =
      .ok (trunc, bcs)) :
    DecompOut c.vs Φ c.probs st.rules c.maxNb (c.startBrs st) (bcs.map Prod.fst) trunc := by
  obtain ⟨t', b', h1, h2⟩ := h.decomp hc
  rw [hd] at h1
  cases h1
  exact h2

theorem RunInv.stop {c : RunCfg K} {st : RunState K} (h : RunInv c Φ st)
    {trunc} {brs : List (Branch K)}
    (hd : DecompOut c.vs Φ c.probs st.rules c.maxNb (c.startBrs st) brs trunc)
    (flag : Option OutFlag) :
    RunInv c Φ { st with brs := some brs, outFlag := flag, started := true } :=
  ⟨⟨h.start.dict, h.start.valid, fun bs hbs => by
      injection hbs with hbs
      subst hbs
      exact ⟨.inr hd.part, hd.p, hd.labels⟩⟩, h.mon, fun _ => ⟨_, rfl, hd.part⟩, h.evals, h.prBu⟩

theorem RunInv.step {c : RunCfg K} (hc : CfgOK c Φ) {st : RunState K} (h : RunInv c Φ st)
    {trunc} {brs : List (Branch K)}
    (hd : DecompOut c.vs Φ c.probs st.rules c.maxNb (c.startBrs st) brs trunc)
    {x : K → ℕ} {last : Bool} {st' : RunState K} (hx : InSpace c.vs x)
    (hs : StepOut c Φ st brs x last st') : RunInv c Φ st' := by
  have hrow := rowOK hc hd.part hd.p hd.labels st'.rules
  refine ⟨⟨hs.dict, hs.valid, fun bs hbs => ?_⟩, ?_, ?_, ?_, ?_⟩
  · rw [hs.brs] at hbs
    injection hbs with hbs
    subst hbs
    exact ⟨.inr hd.part, hd.p, hd.labels⟩
  · rw [hs.mon]
    intro row hm
    rcases List.mem_append.1 hm with hm | hm
    · exact h.mon row hm
    · rw [List.mem_singleton] at hm
      subst hm
      exact hrow
  · exact fun _ => ⟨brs, hs.brs, hd.part⟩
  · rw [hs.evals]
    intro y hy
    rcases List.mem_append.1 hy with hy | hy
    · obtain ⟨h1, h2⟩ := h.evals y hy
      exact ⟨h1, h2.imp (hs.grows.1 y) (hs.grows.2 y)⟩
    · rw [List.mem_singleton] at hy
      subst hy
      exact ⟨hx, hs.covers⟩
  · rw [hs.prBu, hrow.prBu]
    linarith [hrow.low, hrow.up]

theorem runInv_init {c : RunCfg K} {rules : Rules K} {brs : Option (List (Branch K))}
    (h : StartOK c Φ rules brs) : RunInv c Φ { brs := brs, rules := rules } :=
  ⟨h, by simp, by simp, by simp, by norm_num⟩

theorem stepOut_of {c : RunCfg K} (hc : CfgOK c Φ) {st : RunState K} (h : RunInv c Φ st)
    {brs : List (Branch K)} {x : K → ℕ} (hx : InSpace c.vs x) {last : Bool} {st' : RunState K}
    (hs : runStep c st brs x last = .ok st') : StepOut c Φ st brs x last st' := by
  obtain ⟨st1, h1, h2⟩ := runStep_spec hc h.start.dict h.start.valid brs hx last
  rw [h1] at hs
  cases hs
  exact h2

/-- Induction over `run` with the basic invariant built in. -/
theorem runLoop_ind' {c : RunCfg K} (hc : CfgOK c Φ) (I : ℕ → RunState K → Prop)
    (F : RunState K → Prop)
    (hstep : ∀ r st trunc brs x st', RunInv c Φ st → I (r + 1) st →
      DecompOut c.vs Φ c.probs st.rules c.maxNb (c.startBrs st) brs trunc →
      UnknownEnd brs x → GoesOn c st brs → StepOut c Φ st brs x (r = 0) st' → I r st')
    (hdone : ∀ st, RunInv c Φ st → I 0 st → F st)
    (hcomplete : ∀ r st trunc brs, RunInv c Φ st → I (r + 1) st →
      DecompOut c.vs Φ c.probs st.rules c.maxNb (c.startBrs st) brs trunc → NoUnknown brs →
      F { st with brs := some brs, outFlag := some .complete, started := true })
    (hstop : ∀ r st trunc brs x flag, RunInv c Φ st → I (r + 1) st →
      DecompOut c.vs Φ c.probs st.rules c.maxNb (c.startBrs st) brs trunc → UnknownEnd brs x →
      (flag = .maxNb ∧ c.maxNb ≤ brs.length ∨ flag = .pfBnd ∧ st.prBu < st.pfLow * c.pfBndWr ∨
        flag = .maxRules ∧ c.maxRules ≠ none) →
      F { st with brs := some brs, outFlag := some flag, started := true })
    {r : ℕ} {st st' : RunState K} (hinv : RunInv c Φ st) (hI : I r st)
    (h : runLoop c r st = .ok st') : F st' ∧ RunInv c Φ st' := by
  refine runLoop_ind c (fun r st => I r st ∧ RunInv c Φ st) (fun st => F st ∧ RunInv c Φ st)
    ?_ ?_ ?_ ?_ r st st' ⟨hI, hinv⟩ h
  · intro r st trunc bcs x st' ⟨hI, hv⟩ hd hg hgo hs
    have ho := hv.decomp' hc hd
    have hu := getCompSt_some hg
    have hx := hu.inSpace ho.part.1
    have hs' := stepOut_of hc hv hx hs
    exact ⟨hstep r st trunc _ x st' hv hI ho hu hgo hs', hv.step hc ho hx hs'⟩
  · exact fun st ⟨hI, hv⟩ => ⟨hdone st hv hI, hv⟩
  · intro r st trunc bcs ⟨hI, hv⟩ hd hg
    have ho := hv.decomp' hc hd
    exact ⟨hcomplete r st trunc _ hv hI ho (getCompSt_none.1 hg), hv.stop ho _⟩
  · intro r st trunc bcs x flag ⟨hI, hv⟩ hd hg hf
    have ho := hv.decomp' hc hd
    refine ⟨hstop r st trunc _ x flag hv hI ho (getCompSt_some hg) ?_, hv.stop ho _⟩
    rw [List.length_map]
    refine hf.imp id (Or.imp id fun ⟨h1, h2⟩ => ⟨h1, fun hn => ?_⟩)
    unfold RunCfg.rulesFull at h2
    rw [hn] at h2
    cases h2

/-- `run` in terms of its loop. -/
theorem run_eq {c : RunCfg K} {rules : Rules K} {brs : Option (List (Branch K))}
    {st : RunState K} (h : run c rules brs = .ok st) :
    ∃ st1, runLoop c c.maxSf { brs := brs, rules := rules } = .ok st1 ∧
      st = if st1.started then { st1 with mon := st1.mon ++ [monRow (st1.brs.getD []) st1.rules] }
        else st1 := by
  unfold run at h
  cases hl : runLoop c c.maxSf { brs := brs, rules := rules } with
  | error e => rw [hl] at h; cases h
  | ok st1 =>
    rw [hl, ok_bind] at h
    refine ⟨st1, rfl, ?_⟩
    split at h
    · rename_i hs
      rw [if_pos hs]
      injection h with h
      exact h.symm
    · rename_i hs
      rw [if_neg hs]
      injection h with h
      exact h.symm

/-- With `surv_first` the loop never fails. -/
theorem runLoop_total {c : RunCfg K} (hc : CfgOK c Φ) (hsf : c.survFirst = true) (r : ℕ)
    (st : RunState K) (h : RunInv c Φ st) : ∃ st', runLoop c r st = .ok st' := by
  induction r generalizing st with
  | zero => exact ⟨st, rfl⟩
  | succ r ih =>
    obtain ⟨trunc, bcs, hd, ho⟩ := h.decomp hc
    unfold runLoop
    rw [hd, ok_bind]
    simp only
    rw [hsf]
    rcases getCompSt_true (vs := c.vs) c.probs (bcs.map Prod.fst) with
      ⟨b, hb, hu, -, he⟩ | ⟨-, b, hb, hu, -, he⟩ | ⟨-, he⟩
    · rw [he, ok_bind]
      simp only
      have hx : InSpace c.vs b.up := (ho.part.1 b hb).inSpace (ho.part.1 b hb).up
      obtain ⟨st1, h1, h2⟩ := runStep_spec hc h.start.dict h.start.valid (bcs.map Prod.fst) hx
        (decide (r = 0))
      split
      · exact ⟨_, rfl⟩
      · split
        · exact ⟨_, rfl⟩
        · split
          · exact ⟨_, rfl⟩
          · rw [h1, ok_bind]
            exact ih st1 (h.step hc ho hx h2)
    · rw [he, ok_bind]
      simp only
      have hx : InSpace c.vs b.down := (ho.part.1 b hb).inSpace (ho.part.1 b hb).down
      obtain ⟨st1, h1, h2⟩ := runStep_spec hc h.start.dict h.start.valid (bcs.map Prod.fst) hx
        (decide (r = 0))
      split
      · exact ⟨_, rfl⟩
      · split
        · exact ⟨_, rfl⟩
        · split
          · exact ⟨_, rfl⟩
          · rw [h1, ok_bind]
            exact ih st1 (h.step hc ho hx h2)
    · rw [he, ok_bind]
      exact ⟨_, rfl⟩

/-! ## Labels and rules -/

theorem trunc_false {c : RunCfg K} (hc : CfgOK c Φ) {rules : Rules K}
    (hm : 2 * spaceSize c.vs ≤ c.maxNb) {start brs : List (Branch K)} {trunc : Bool}
    (hd : DecompOut c.vs Φ c.probs rules c.maxNb start brs trunc) : trunc = false := by
  cases trunc with
  | false => rfl
  | true =>
    have := hd.limit rfl
    have := partition_length hc.vs hd.part
    omega

theorem exact_of_cov_new {rules : Rules K} (hr : RulesValid vs Φ rules) {b : Branch K}
    (hb : BoxOK vs b) (h1 : LabelsCov rules b) (h2 : LabelsNew rules b) : LabelsExact rules b := by
  constructor
  · cases hs : b.downState with
    | s => exact ((hr.getState_s_iff (hb.inSpace hb.down)).2 (h1.1.1 hs)).symm
    | f => exact ((hr.getState_f_iff (hb.inSpace hb.down)).2 (h1.1.2 hs)).symm
    | u => exact (h2.1 hs).symm
  · cases hs : b.upState with
    | s => exact ((hr.getState_s_iff (hb.inSpace hb.up)).2 (h1.2.1 hs)).symm
    | f => exact ((hr.getState_f_iff (hb.inSpace hb.up)).2 (h1.2.2 hs)).symm
    | u => exact (h2.2 hs).symm

/-- Labels handed from one iteration to the next are confirmed by the rules. -/
def CovInv (c : RunCfg K) (st : RunState K) : Prop :=
  c.activeDecomp = false → ∀ bs, st.brs = some bs → ∀ b ∈ bs, LabelsCov st.rules b

theorem CovInv.start {c : RunCfg K} {st : RunState K} (h : CovInv c st) :
    ∀ b ∈ c.startBrs st, LabelsCov st.rules b := by
  unfold RunCfg.startBrs
  split
  · simp
  · rename_i ha
    cases hb : st.brs with
    | none => simp
    | some bs => exact h (by simpa using ha) bs hb

theorem CovInv.step {c : RunCfg K} {st st' : RunState K} (h : CovInv c st) {trunc}
    {brs : List (Branch K)} {x last}
    (hd : DecompOut c.vs Φ c.probs st.rules c.maxNb (c.startBrs st) brs trunc)
    (hs : StepOut c Φ st brs x last st') : CovInv c st' := by
  intro _ bs hbs b hb
  rw [hs.brs] at hbs
  injection hbs with hbs
  subst hbs
  exact hs.grows.cov (hd.cov h.start b hb)

/-- An untruncated decomposition: exact labels, equal on both ends, right about the whole box. -/
theorem uniform_run {c : RunCfg K} {st : RunState K} (hi : RunInv c Φ st)
    (h : CovInv c st) {brs : List (Branch K)}
    (hd : DecompOut c.vs Φ c.probs st.rules c.maxNb (c.startBrs st) brs false) {b : Branch K}
    (hb : b ∈ brs) {x : K → ℕ} (hx : InBox c.vs b x) :
    getState x st.rules = b.downState ∧ b.downState = b.upState := by
  have hbox := hd.part.1 b hb
  exact uniform_of_exact hbox hi.start.dict hi.start.valid
    (exact_of_cov_new hi.start.valid hbox (hd.cov h.start b hb) (hd.new rfl b hb))
    (hd.done rfl b hb) hx

/-- Without truncation the loop never fails, for both settings of `surv_first`. -/
theorem runLoop_total_other {c : RunCfg K} (hc : CfgOK c Φ) (hm : 2 * spaceSize c.vs ≤ c.maxNb) (r : ℕ)
    (st : RunState K) (h : RunInv c Φ st) (hcov : CovInv c st) : ∃ st', runLoop c r st = .ok st' := by
  induction r generalizing st with
  | zero => exact ⟨st, rfl⟩
  | succ r ih =>
    obtain ⟨trunc, bcs, hd, ho⟩ := h.decomp hc
    obtain rfl := trunc_false hc hm ho
    have hg : ∃ o, getCompSt c.vs c.probs c.survFirst (bcs.map Prod.fst) = .ok o := by
      cases hsf : c.survFirst with
      | true =>
        rcases getCompSt_true (vs := c.vs) c.probs (bcs.map Prod.fst) with
          ⟨b, -, -, -, he⟩ | ⟨-, b, -, -, -, he⟩ | ⟨-, he⟩
        · exact ⟨_, he⟩
        · exact ⟨_, he⟩
        · exact ⟨_, he⟩
      | false =>
        refine getCompSt_false_total c.probs _ fun b hb hu => ?_
        rw [← (uniform_run h hcov ho hb (ho.part.1 b hb).down).2, hu]
    obtain ⟨o, hg⟩ := hg
    unfold runLoop
    rw [hd, ok_bind]
    simp only
    rw [hg, ok_bind]
    cases o with
    | none => exact ⟨_, rfl⟩
    | some x =>
      simp only
      have hx := (getCompSt_some hg).inSpace ho.part.1
      obtain ⟨st1, h1, h2⟩ := runStep_spec hc h.start.dict h.start.valid (bcs.map Prod.fst) hx
        (decide (r = 0))
      split
      · exact ⟨_, rfl⟩
      · split
        · exact ⟨_, rfl⟩
        · split
          · exact ⟨_, rfl⟩
          · rw [h1, ok_bind]
            exact ih st1 (h.step hc ho hx h2) (hcov.step ho h2)

theorem monRow_rules {c : RunCfg K} (hc : CfgOK c Φ) {st : RunState K} (hi : RunInv c Φ st)
    (h : CovInv c st) {brs : List (Branch K)}
    (hd : DecompOut c.vs Φ c.probs st.rules c.maxNb (c.startBrs st) brs false) (rules : Rules K) :
    (monRow brs rules).pfLow = probOf c.vs c.probs (CoveredF st.rules) ∧
    (monRow brs rules).pfUp = 1 - probOf c.vs c.probs (CoveredS st.rules) := by
  rw [monRow_low hc.vs hd.part hd.p, monRow_up hc.vs hd.part hd.p]
  constructor
  · refine probOf_congr hc.vs c.probs _ _ fun x hx => ?_
    rw [← hi.start.valid.getState_f_iff hx]
    constructor
    · rintro ⟨b, hb, hu, hin⟩
      obtain ⟨h1, h2⟩ := uniform_run hi h hd hb hin
      rw [h1, h2, hu]
    · intro hs
      obtain ⟨b, hb, hin⟩ := hd.part.exists hx
      obtain ⟨h1, h2⟩ := uniform_run hi h hd hb hin
      exact ⟨b, hb, by rw [← h2, ← h1, hs], hin⟩
  · congr 1
    refine probOf_congr hc.vs c.probs _ _ fun x hx => ?_
    rw [← hi.start.valid.getState_s_iff hx]
    constructor
    · rintro ⟨b, hb, hu, hin⟩
      obtain ⟨h1, h2⟩ := uniform_run hi h hd hb hin
      rw [h1, hu]
    · intro hs
      obtain ⟨b, hb, hin⟩ := hd.part.exists hx
      obtain ⟨h1, h2⟩ := uniform_run hi h hd hb hin
      exact ⟨b, hb, by rw [← h1, hs], hin⟩

/-! ## Counting vectors -/

theorem length_le_space (hv : VarisOK vs) (l : List (K → ℕ)) (h1 : ∀ x ∈ l, InSpace vs x)
    (h2 : l.Pairwise (Differ vs)) : l.length ≤ spaceSize vs := by
  let F : (K → ℕ) → (i : Fin vs.length) → Fin (vs[i].2) := fun x i =>
    if h : x vs[i].1 < vs[i].2 then ⟨x vs[i].1, h⟩ else ⟨0, hv.pos _ (List.getElem_mem _)⟩
  have hn : (l.map F).Nodup := by
    rw [List.nodup_iff_pairwise_ne, List.pairwise_map]
    refine h2.imp_of_mem ?_
    rintro x y hx hy ⟨kn, hkn, hne⟩ he
    obtain ⟨i, hi, rfl⟩ := List.getElem_of_mem hkn
    have := congrFun he ⟨i, hi⟩
    simp only [F] at this
    have e1 : x vs[i].1 < vs[i].2 := h1 x hx _ hkn
    have e2 : y vs[i].1 < vs[i].2 := h1 y hy _ hkn
    simp only [Fin.getElem_fin, e1, e2, dif_pos, Fin.mk.injEq] at this
    exact hne this
  have := List.Nodup.length_le_card hn
  rw [List.length_map, Fintype.card_pi] at this
  simp only [Fintype.card_fin] at this
  refine this.trans (le_of_eq ?_)
  unfold spaceSize
  rw [← List.prod_ofFn]
  congr 1
  exact List.ofFn_getElem_eq_map vs Prod.snd

theorem getState_congr {rules : Rules K} (hk : RulesDict vs rules) {x y : K → ℕ}
    (h : ∀ kn ∈ vs, x kn.1 = y kn.1) : (CoveredS rules x ↔ CoveredS rules y) ∧
      (CoveredF rules x ↔ CoveredF rules y) := by
  have he : ∀ r ∈ rules.s ++ rules.f, ∀ kv ∈ r, x kv.1 = y kv.1 := by
    intro r hr kv hkv
    obtain ⟨kn, hkn, e⟩ := List.mem_map.1 ((hk r hr).known kv hkv)
    rw [← e]
    exact h kn hkn
  constructor
  · refine exists_congr fun r => and_congr_right fun hr => ?_
    refine forall₂_congr fun kv hkv => ?_
    rw [he r (by simp [hr]) kv hkv]
  · refine exists_congr fun r => and_congr_right fun hr => ?_
    refine forall₂_congr fun kv hkv => ?_
    rw [he r (by simp [hr]) kv hkv]

end BNS
