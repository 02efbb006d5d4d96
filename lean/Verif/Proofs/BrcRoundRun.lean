import Verif.Proofs.BrcRound
import Verif.Proofs.Monad
import Verif.Proofs.BrcRunInv
import Verif.Spec.Round

/-! Helper lemmas: the invariants of `run` with rounded arithmetic. -/

namespace BNS

set_option linter.unusedSectionVars false

variable {K : Type} [DecidableEq K] {A : Arith} {vs : List (K × ℕ)} {Φ : (K → ℕ) → Bool}
  {N : Branch K → Prop}

/-- A property of the stored probabilities that the decomposition keeps, whatever the rules. -/
structure KeptR (A : Arith) (vs : List (K × ℕ)) (probs : K → ℕ → ℚ) (N : Branch K → Prop) :
    Prop where
  init : ∀ rules, ∀ b ∈ initBranch vs rules, N b
  stable : ∀ rules, StableR A vs rules probs (fun b => BoxOK vs b ∧ N b)

/-- What one decomposition delivers. -/
structure DecompOutR (vs : List (K × ℕ)) (Φ : (K → ℕ) → Bool) (N : Branch K → Prop)
    (rules : Rules K) (maxNb : ℕ) (start brs : List (Branch K)) (trunc : Bool) : Prop where
  part : Partition vs brs
  near : ∀ b ∈ brs, N b
  labels : ∀ b ∈ brs, LabelsOK Φ b
  done : trunc = false → ∀ b ∈ brs, b.specified = true ∨
        (b.compatRules rules).s = [] ∧ (b.compatRules rules).f = []
  limit : trunc = true → maxNb < 2 * brs.length
  new : trunc = false → ∀ b ∈ brs, LabelsNew rules b
  cov : (∀ b ∈ start, LabelsCov rules b) → ∀ b ∈ brs, LabelsCov rules b
  exact : start = [] → ∀ b ∈ brs, LabelsExact rules b

theorem decompR_run (hv : VarisOK vs) {rules : Rules K} (hk : RulesDict vs rules)
    (hr : RulesValid vs Φ rules) {probs : K → ℕ → ℚ} (hN : KeptR A vs probs N) (maxNb : ℕ)
    {start : List (Branch K)} (hpart : start = [] ∨ Partition vs start)
    (hlab : ∀ b ∈ start, LabelsOK Φ b) (hnear : ∀ b ∈ start, N b) :
    ∃ trunc out, decompR A vs rules probs maxNb start = .ok (trunc, out) ∧
      DecompOutR vs Φ N rules maxNb start (out.map Prod.fst) trunc := by
  have hs := start_partition hv rules hpart
  obtain ⟨trunc, out, h0, h1, h2, h3, h4, h5⟩ := decomp_specR (A := A) hv hk probs maxNb start
    (fun b => ((BoxOK vs b ∧ N b) ∧ (BoxOK vs b ∧ LabelsOK Φ b)) ∧
      ((∀ b ∈ start, LabelsCov rules b) → LabelsCov rules b) ∧
      (start = [] → BoxOK vs b ∧ LabelsExact rules b))
    (((hN.stable rules).and ((stable_labels hr probs).round fun _ _ h => h)).and
      ((((stable_cov vs rules probs).round fun _ _ h => h).imp _).and
        (((stable_exact vs rules probs).round fun _ _ h => h).imp _)))
    (fun _ h => h.1.1.1) _ ((fresh_new vs rules probs _).round fun _ _ h => h)
    (fun b hb => by
      have hbox := hs.1 b hb
      refine ⟨⟨⟨hbox, ?_⟩, hbox, ?_⟩, fun hc => ?_, fun he => ⟨hbox, ?_⟩⟩
      · exact start_mem (P := N) (hN.init rules) hnear b hb
      · refine start_mem (P := LabelsOK Φ) (fun b hb => ?_) hlab b hb
        have hbox := (initBranch_part hv rules).1 b hb
        have he := initBranch_exact vs rules b hb
        refine ⟨?_, ?_⟩
        · rw [he.1]; exact hr.label (hbox.inSpace hbox.down)
        · rw [he.2]; exact hr.label (hbox.inSpace hbox.up)
      · refine start_mem (P := LabelsCov rules) (fun b hb => ?_) hc b hb
        have he := initBranch_exact vs rules b hb
        unfold LabelsCov
        rw [he.1, he.2]
        exact ⟨⟨getState_s, getState_f⟩, getState_s, getState_f⟩
      · subst he
        exact initBranch_exact vs rules b hb)
  have hmem : ∀ b ∈ out.map Prod.fst, ∃ bc ∈ out, bc.1 = b := fun b hb => List.mem_map.1 hb
  refine ⟨trunc, out, h0, ⟨⟨?_, ?_⟩, ?_, ?_, ?_, ?_, ?_, ?_, ?_⟩⟩
  · intro b hb
    obtain ⟨bc, hbc, rfl⟩ := hmem b hb
    exact (h1 bc hbc).1.1.1
  · intro x hx
    have := hits_brsOf vs x out
    unfold brsOf at this
    rw [this, h2 x]
    exact hs.2 x hx
  · intro b hb
    obtain ⟨bc, hbc, rfl⟩ := hmem b hb
    exact (h1 bc hbc).1.1.2
  · intro b hb
    obtain ⟨bc, hbc, rfl⟩ := hmem b hb
    exact (h1 bc hbc).1.2.2
  · intro ht b hb
    obtain ⟨bc, hbc, rfl⟩ := hmem b hb
    exact h3 ht bc hbc
  · intro ht
    rw [List.length_map]
    exact h4 ht
  · intro ht b hb
    obtain ⟨bc, hbc, rfl⟩ := hmem b hb
    exact h5 ht bc hbc
  · intro hc b hb
    obtain ⟨bc, hbc, rfl⟩ := hmem b hb
    exact (h1 bc hbc).2.1 hc
  · intro he b hb
    obtain ⟨bc, hbc, rfl⟩ := hmem b hb
    exact ((h1 bc hbc).2.2 he).2

/-! ## Steps -/

/-- Some probability distribution, needed only to use lemmas about exact runs. -/
def pointMass (_ : K) (i : ℕ) : ℚ := if i = 0 then 1 else 0

theorem pointMass_ok (hv : VarisOK vs) : ProbOK vs (pointMass : K → ℕ → ℚ) := by
  refine ⟨fun _ _ i _ => by unfold pointMass; split <;> norm_num, fun kn hkn => ?_⟩
  unfold pointMass
  rw [Finset.sum_ite_eq' (Finset.range kn.2) 0 (fun _ => (1 : ℚ)), if_pos]
  simpa using hv.pos kn hkn

theorem SysCfgOK.cfg {c : RunCfg K} (h : SysCfgOK c Φ) :
    CfgOK { c with probs := pointMass } Φ :=
  ⟨h.vs, h.coh, pointMass_ok h.vs, h.sys⟩

/-- Everything about an evaluating step. -/
structure StepOutR (A : Arith) (c : RunCfg K) (Φ : (K → ℕ) → Bool) (st : RunState K)
    (bs : List (Branch K)) (x : K → ℕ) (last : Bool) (st' : RunState K) : Prop where
  started : st'.started = true
  brs : st'.brs = some bs
  evals : st'.evals = st.evals ++ [x]
  mon : st'.mon = st.mon ++ [monRowR A bs st'.rules]
  prBu : st'.prBu = (monRowR A bs st'.rules).prBu
  pfLow : st'.pfLow = (monRowR A bs st'.rules).pfLow
  flag : st'.outFlag = if last then some .maxSf else none
  dict : RulesDict c.vs st'.rules
  valid : RulesValid c.vs Φ st'.rules
  grows : Grows st.rules st'.rules
  covers : CoveredS st'.rules x ∨ CoveredF st'.rules x

theorem runStepR_spec {c : RunCfg K} (hc : SysCfgOK c Φ) {st : RunState K}
    (hk : RulesDict c.vs st.rules) (hr : RulesValid c.vs Φ st.rules) (brs : List (Branch K))
    {x : K → ℕ} (hx : InSpace c.vs x) (last : Bool) :
    ∃ st', runStepR A c st brs x last = .ok st' ∧ StepOutR A c Φ st brs x last st' := by
  obtain ⟨rules', he, h1, h2, h3, h4⟩ := update_sys hc.cfg hk hr hx
  refine ⟨{ brs := some brs
            rules := rules'
            evals := st.evals ++ [x]
            mon := st.mon ++ [monRowR A brs rules']
            prBu := (monRowR A brs rules').prBu
            pfLow := (monRowR A brs rules').pfLow
            outFlag := if last then some .maxSf else none
            started := true }, ?_, ?_⟩
  · have he : updateRuleSet st.rules (runSysFn c.vs c.sysFun x).1
        (runSysFn c.vs c.sysFun x).2 = .ok rules' := he
    unfold runStepR
    simp only [he, ok_bind]
    rfl
  · exact ⟨rfl, rfl, rfl, rfl, rfl, rfl, rfl, h1, h2, h3, h4⟩

/-! ## The basic invariant -/

/-- A row was made from a partition with right labels. -/
def RowFrom (A : Arith) (c : RunCfg K) (Φ : (K → ℕ) → Bool) (N : Branch K → Prop)
    (row : MonRow) : Prop :=
  ∃ bs rules, row = monRowR A bs rules ∧ Partition c.vs bs ∧ (∀ b ∈ bs, LabelsOK Φ b) ∧
    ∀ b ∈ bs, N b

/-- The basic invariant of the loop. -/
structure RunInvR (A : Arith) (c : RunCfg K) (Φ : (K → ℕ) → Bool) (N : Branch K → Prop)
    (st : RunState K) : Prop where
  start : StartOKR c Φ N st.rules st.brs
  mon : ∀ row ∈ st.mon, RowFrom A c Φ N row
  last : st.evals ≠ [] → ∃ row, st.mon.getLast? = some row ∧ row.prBu = st.prBu ∧
    row.pfLow = st.pfLow
  first : st.evals = [] → st.prBu = 1 ∧ st.pfLow = 0
  started : st.started = true → ∃ bs, st.brs = some bs ∧ Partition c.vs bs
  evals : ∀ x ∈ st.evals, InSpace c.vs x ∧ (CoveredS st.rules x ∨ CoveredF st.rules x)

theorem runInvR_init {c : RunCfg K} {rules : Rules K} {brs : Option (List (Branch K))}
    (h : StartOKR c Φ N rules brs) : RunInvR A c Φ N { brs := brs, rules := rules } :=
  ⟨h, by simp, by simp, fun _ => ⟨rfl, rfl⟩, by simp, by simp⟩

theorem RunInvR.decomp {c : RunCfg K} (hc : SysCfgOK c Φ) (hN : KeptR A c.vs c.probs N)
    {st : RunState K} (h : RunInvR A c Φ N st) :
    ∃ trunc bcs, decompR A c.vs st.rules c.probs c.maxNb (c.startBrs st) = .ok (trunc, bcs) ∧
      DecompOutR c.vs Φ N st.rules c.maxNb (c.startBrs st) (bcs.map Prod.fst) trunc := by
  refine decompR_run hc.vs h.start.dict h.start.valid hN c.maxNb ?_ ?_ ?_
  all_goals
    unfold RunCfg.startBrs
    split
    · simp
    · cases hb : st.brs with
      | none => simp
      | some bs =>
        first
          | exact h.start.part bs hb
          | exact h.start.labels bs hb
          | exact h.start.near bs hb

theorem RunInvR.decomp' {c : RunCfg K} (hc : SysCfgOK c Φ) (hN : KeptR A c.vs c.probs N)
    {st : RunState K} (h : RunInvR A c Φ N st)
    {trunc bcs} (hd : decompR A c.vs st.rules c.probs c.maxNb (c.startBrs st) =
      .ok (trunc, bcs)) :
    DecompOutR c.vs Φ N st.rules c.maxNb (c.startBrs st) (bcs.map Prod.fst) trunc := by
  obtain ⟨t', b', h1, h2⟩ := h.decomp hc hN
  rw [hd] at h1
  cases h1
  exact h2

theorem RunInvR.stop {c : RunCfg K} {st : RunState K} (h : RunInvR A c Φ N st)
    {trunc} {brs : List (Branch K)}
    (hd : DecompOutR c.vs Φ N st.rules c.maxNb (c.startBrs st) brs trunc)
    (flag : Option OutFlag) :
    RunInvR A c Φ N { st with brs := some brs, outFlag := flag, started := true } := by
  refine ⟨⟨h.start.dict, h.start.valid, ?_, ?_, ?_⟩, h.mon, h.last, h.first,
    fun _ => ⟨_, rfl, hd.part⟩, h.evals⟩
  · intro bs hbs; injection hbs with hbs; subst hbs; exact .inr hd.part
  · intro bs hbs; injection hbs with hbs; subst hbs; exact hd.labels
  · intro bs hbs; injection hbs with hbs; subst hbs; exact hd.near

theorem RunInvR.step {c : RunCfg K} {st : RunState K} (h : RunInvR A c Φ N st)
    {trunc} {brs : List (Branch K)}
    (hd : DecompOutR c.vs Φ N st.rules c.maxNb (c.startBrs st) brs trunc)
    {x : K → ℕ} {last : Bool} {st' : RunState K} (hx : InSpace c.vs x)
    (hs : StepOutR A c Φ st brs x last st') : RunInvR A c Φ N st' := by
  refine ⟨⟨hs.dict, hs.valid, ?_, ?_, ?_⟩, ?_, ?_, ?_, ?_, ?_⟩
  · intro bs hbs; rw [hs.brs] at hbs; injection hbs with hbs; subst hbs; exact .inr hd.part
  · intro bs hbs; rw [hs.brs] at hbs; injection hbs with hbs; subst hbs; exact hd.labels
  · intro bs hbs; rw [hs.brs] at hbs; injection hbs with hbs; subst hbs; exact hd.near
  · rw [hs.mon]
    intro row hm
    rcases List.mem_append.1 hm with hm | hm
    · exact h.mon row hm
    · rw [List.mem_singleton] at hm
      exact ⟨brs, st'.rules, hm, hd.part, hd.labels, hd.near⟩
  · intro _
    refine ⟨monRowR A brs st'.rules, ?_, hs.prBu.symm, hs.pfLow.symm⟩
    rw [hs.mon]
    simp
  · intro he
    rw [hs.evals] at he
    simp at he
  · exact fun _ => ⟨brs, hs.brs, hd.part⟩
  · rw [hs.evals]
    intro y hy
    rcases List.mem_append.1 hy with hy | hy
    · obtain ⟨h1, h2⟩ := h.evals y hy
      exact ⟨h1, h2.imp (hs.grows.1 y) (hs.grows.2 y)⟩
    · rw [List.mem_singleton] at hy
      subst hy
      exact ⟨hx, hs.covers⟩

theorem stepOutR_of {c : RunCfg K} (hc : SysCfgOK c Φ) {st : RunState K}
    (h : RunInvR A c Φ N st)
    {brs : List (Branch K)} {x : K → ℕ} (hx : InSpace c.vs x) {last : Bool} {st' : RunState K}
    (hs : runStepR A c st brs x last = .ok st') : StepOutR A c Φ st brs x last st' := by
  obtain ⟨st1, h1, h2⟩ := runStepR_spec (A := A) hc h.start.dict h.start.valid brs hx last
  rw [h1] at hs
  cases hs
  exact h2

/-- Induction over `run` with the basic invariant built in. -/
theorem runLoopR_ind {c : RunCfg K} (hc : SysCfgOK c Φ) (hN : KeptR A c.vs c.probs N)
    (I : ℕ → RunState K → Prop) (F : RunState K → Prop)
    (hstep : ∀ r st trunc brs x st', RunInvR A c Φ N st → I (r + 1) st →
      DecompOutR c.vs Φ N st.rules c.maxNb (c.startBrs st) brs trunc →
      UnknownEnd brs x → StepOutR A c Φ st brs x (r = 0) st' → I r st')
    (hdone : ∀ st, RunInvR A c Φ N st → I 0 st → F st)
    (hcomplete : ∀ r st trunc brs, RunInvR A c Φ N st → I (r + 1) st →
      DecompOutR c.vs Φ N st.rules c.maxNb (c.startBrs st) brs trunc → NoUnknown brs →
      F { st with brs := some brs, outFlag := some .complete, started := true })
    (hstop : ∀ r st trunc brs x flag, RunInvR A c Φ N st → I (r + 1) st →
      DecompOutR c.vs Φ N st.rules c.maxNb (c.startBrs st) brs trunc → UnknownEnd brs x →
      (flag = .maxNb ∧ c.maxNb ≤ brs.length ∨
        flag = .pfBnd ∧ st.prBu < A.mul st.pfLow c.pfBndWr ∨
        flag = .maxRules ∧ c.rulesFull st.rules = true) →
      F { st with brs := some brs, outFlag := some flag, started := true })
    {r : ℕ} {st st' : RunState K} (hinv : RunInvR A c Φ N st) (hI : I r st)
    (h : runLoopR A c r st = .ok st') : F st' ∧ RunInvR A c Φ N st' := by
  induction r generalizing st with
  | zero =>
    injection h with h
    exact h ▸ ⟨hdone st hinv hI, hinv⟩
  | succ r ih =>
    unfold runLoopR at h
    obtain ⟨trunc, bcs, hd, ho⟩ := hinv.decomp hc hN
    rw [hd, ok_bind] at h
    simp only at h
    cases hg : getCompStR A c.vs c.probs c.survFirst (bcs.map Prod.fst) with
    | error e => rw [hg] at h; cases h
    | ok o =>
      rw [hg, ok_bind] at h
      cases o with
      | none =>
        cases h
        exact ⟨hcomplete r st trunc _ hinv hI ho (getCompSt_noneR.1 hg), hinv.stop ho _⟩
      | some x =>
        have hu := getCompSt_someR hg
        have hx := hu.inSpace ho.part.1
        simp only at h
        split at h
        · rename_i h1
          cases h
          exact ⟨hstop r st trunc _ x _ hinv hI ho hu (.inl ⟨rfl, h1⟩), hinv.stop ho _⟩
        · split at h
          · rename_i h2
            cases h
            exact ⟨hstop r st trunc _ x _ hinv hI ho hu (.inr (.inl ⟨rfl, h2⟩)), hinv.stop ho _⟩
          · split at h
            · rename_i h3
              cases h
              exact ⟨hstop r st trunc _ x _ hinv hI ho hu (.inr (.inr ⟨rfl, h3⟩)),
                hinv.stop ho _⟩
            · obtain ⟨st1, hs, h⟩ := bind_ok.1 h
              have hs' := stepOutR_of hc hinv hx hs
              exact ih (hinv.step ho hx hs') (hstep r st trunc _ x st1 hinv hI ho hu hs') h

/-- `run` in terms of its loop. -/
theorem runR_eq {c : RunCfg K} {rules : Rules K} {brs : Option (List (Branch K))}
    {st : RunState K} (h : runR A c rules brs = .ok st) :
    ∃ st1, runLoopR A c c.maxSf { brs := brs, rules := rules } = .ok st1 ∧
      st = if st1.started then
          { st1 with mon := st1.mon ++ [monRowR A (st1.brs.getD []) st1.rules] }
        else st1 := by
  unfold runR at h
  obtain ⟨st1, hl, h⟩ := bind_ok.1 h
  refine ⟨st1, hl, ?_⟩
  split at h
  · rename_i hs
    rw [if_pos hs]
    injection h with h
    exact h.symm
  · rename_i hs
    rw [if_neg hs]
    injection h with h
    exact h.symm

/-- With `surv_first` the loop never fails. -/
theorem runLoopR_total {c : RunCfg K} (hc : SysCfgOK c Φ) (hN : KeptR A c.vs c.probs N)
    (hsf : c.survFirst = true) (r : ℕ)
    (st : RunState K) (h : RunInvR A c Φ N st) : ∃ st', runLoopR A c r st = .ok st' := by
  induction r generalizing st with
  | zero => exact ⟨st, rfl⟩
  | succ r ih =>
    obtain ⟨trunc, bcs, hd, ho⟩ := h.decomp hc hN
    unfold runLoopR
    rw [hd, ok_bind]
    simp only
    rw [hsf]
    have key : ∀ x, UnknownEnd (bcs.map Prod.fst) x →
        getCompStR A c.vs c.probs true (bcs.map Prod.fst) = .ok (some x) →
        ∃ st1, runStepR A c st (bcs.map Prod.fst) x (decide (r = 0)) = .ok st1 ∧
          ∃ st', runLoopR A c r st1 = .ok st' := by
      intro x hu _
      have hx := hu.inSpace ho.part.1
      obtain ⟨st1, h1, h2⟩ := runStepR_spec (A := A) hc h.start.dict h.start.valid
        (bcs.map Prod.fst) hx (decide (r = 0))
      exact ⟨st1, h1, ih st1 (h.step ho hx h2)⟩
    cases hg : getCompStR A c.vs c.probs true (bcs.map Prod.fst) with
    | error e =>
      rcases getCompSt_trueR (A := A) (vs := c.vs) c.probs (bcs.map Prod.fst) with
        ⟨b, _, _, _, he⟩ | ⟨_, b, _, _, _, he⟩ | ⟨_, he⟩ <;> rw [he] at hg <;> cases hg
    | ok o =>
      rw [ok_bind]
      cases o with
      | none => exact ⟨_, rfl⟩
      | some x =>
        obtain ⟨st1, e1, st', e2⟩ := key x (getCompSt_someR hg) hg
        simp only
        split
        · exact ⟨_, rfl⟩
        · split
          · exact ⟨_, rfl⟩
          · split
            · exact ⟨_, rfl⟩
            · rw [e1, ok_bind]
              exact ⟨st', e2⟩

/-- Without truncation the loop never fails, for both settings of `surv_first`. -/
theorem runLoopR_total_other {c : RunCfg K} (hc : SysCfgOK c Φ) (hN : KeptR A c.vs c.probs N)
    (hm : 2 * spaceSize c.vs ≤ c.maxNb) (r : ℕ)
    (st : RunState K) (h : RunInvR A c Φ N st) (hcov : CovInv c st) :
    ∃ st', runLoopR A c r st = .ok st' := by
  induction r generalizing st with
  | zero => exact ⟨st, rfl⟩
  | succ r ih =>
    obtain ⟨trunc, bcs, hd, ho⟩ := h.decomp hc hN
    have ht : trunc = false := by
      cases trunc with
      | false => rfl
      | true =>
        have := ho.limit rfl
        have := partition_length hc.vs ho.part
        omega
    subst ht
    have hg : ∃ o, getCompStR A c.vs c.probs c.survFirst (bcs.map Prod.fst) = .ok o := by
      cases hsf : c.survFirst with
      | true =>
        rcases getCompSt_trueR (A := A) (vs := c.vs) c.probs (bcs.map Prod.fst) with
          ⟨b, -, -, -, he⟩ | ⟨-, b, -, -, -, he⟩ | ⟨-, he⟩
        · exact ⟨_, he⟩
        · exact ⟨_, he⟩
        · exact ⟨_, he⟩
      | false =>
        refine getCompSt_false_totalR c.probs _ fun b hb hu => ?_
        have hbox := ho.part.1 b hb
        rw [← (uniform_of_exact hbox h.start.dict h.start.valid
          (exact_of_cov_new h.start.valid hbox (ho.cov hcov.start b hb) (ho.new rfl b hb))
          (ho.done rfl b hb) hbox.down).2, hu]
    obtain ⟨o, hg⟩ := hg
    unfold runLoopR
    rw [hd, ok_bind]
    simp only
    rw [hg, ok_bind]
    cases o with
    | none => exact ⟨_, rfl⟩
    | some x =>
      simp only
      have hx := (getCompSt_someR hg).inSpace ho.part.1
      obtain ⟨st1, h1, h2⟩ := runStepR_spec (A := A) hc h.start.dict h.start.valid
        (bcs.map Prod.fst) hx (decide (r = 0))
      split
      · exact ⟨_, rfl⟩
      · split
        · exact ⟨_, rfl⟩
        · split
          · exact ⟨_, rfl⟩
          · rw [h1, ok_bind]
            refine ih st1 (h.step ho hx h2) ?_
            intro _ bs hbs b hb
            rw [h2.brs] at hbs
            injection hbs with hbs
            subst hbs
            exact h2.grows.cov (ho.cov hcov.start b hb)

end BNS
