import Verif.Proofs.BrcObs
import Verif.Props.BrcRun
import Verif.Proofs.Monad

/-!
# Property C82: the tables of `run`, and what a call does to its arguments
-/

namespace BNS

set_option linter.unusedSectionVars false

variable {K : Type} [DecidableEq K] {Φ : (K → ℕ) → Bool}

private theorem obs_start (c : RunCfg K) (rules : Rules K) (brs : Option (List (Branch K))) :
    Sim c { brs := brs, rules := rules } (obsInit rules brs) :=
  ⟨rfl, rfl, rfl, fun row h => (by cases h), ⟨rfl, rfl, rfl, rfl, rfl, rfl, rfl, rfl, rfl, rfl, rfl, rfl, rfl⟩, rfl, rfl,
    rfl, rfl, rfl, rfl⟩

private theorem obs_finish {c : RunCfg K} {st1 : RunState K} {o1 : ObsState K} (hs : Sim c st1 o1) :
    ∃ o, obsFinish o1 = .ok o ∧
      Sim c (if st1.started then { st1 with mon := st1.mon ++ [monRow (st1.brs.getD []) st1.rules] }
        else st1) { o with ctrl := o1.ctrl } ∧
      (st1.started = true → o.mon.minLenRf.getLast? = some (rfLengths st1.rules.f).1 ∧
        o.mon.avgLenRf.getLast? = some (rfLengths st1.rules.f).2) := by
  unfold obsFinish
  rw [hs.started]
  by_cases h : st1.started = true
  · simp only [h, if_true]
    have hn : o1.mon.noSf = List.range st1.evals.length ++ [st1.evals.length] := by
      rw [hs.noSf, List.range_succ]
    rw [updateMonitor_eq hn, ok_bind]
    simp only [displayMsg_push hn, ok_bind]
    refine ⟨_, rfl, ?_, fun _ => ⟨?_, ?_⟩⟩
    · rw [hs.brs, hs.rules]
      have hc := hs.cols.push (monRow (st1.brs.getD []) st1.rules) (rfLengths st1.rules.f)
      exact ⟨rfl, rfl, hs.evals, hs.res, hc, hs.noSf, hs.flag, hs.cNoSf, hs.cPrBu, hs.cPfLow,
        rfl⟩
    · rw [hs.rules]
      simp [Monitor.push]
    · rw [hs.rules]
      simp [Monitor.push]
  · simp only [h]
    exact ⟨o1, rfl, hs, fun h' => absurd h' (by simp)⟩

/-- The columns of `monitor` besides `no_sf` and the rule lengths. -/
def Monitor.columns (m : Monitor) :
    (List ℚ × List ℚ × List ℚ) × (List ℕ × List ℕ × List ℕ × List ℤ) × (List ℕ × List ℕ × List ℕ) :=
  ((m.pfUp, m.pfLow, m.prBu), (m.noBr, m.noBs, m.noBf, m.noBu), (m.noRs, m.noRf, m.noRa))

/-- With a system function that does not raise, the detailed model raises what `run` of
`Model/Brc.lean` raises and returns what that returns: the same branches, rules and flag, `sys_res`
has the evaluated vectors in order with the values and minimal states of the system function, and the
lists of `monitor` are the columns of the monitored rows.  So everything proved about `run` holds of
this model. -/
theorem C82_follows_run {c : RunCfg K} {f : (K → ℕ) → Except Err (SysRes K)}
    (hf : ∀ x, f x = .ok (c.sysFun x)) {freq : ℕ} (hq : 0 < freq) (rules : Option (Rules K))
    (brs : Option (List (Branch K))) :
    (∀ e, run c (rules.getD { s := [], f := [] }) brs = .error e →
      (obsRun c f freq rules brs).res = .error e) ∧
    ∀ st, run c (rules.getD { s := [], f := [] }) brs = .ok st →
      ∃ o, (obsRun c f freq rules brs).res = .ok o ∧ o.brs = st.brs ∧ o.rules = st.rules ∧
        o.mon.outFlag = st.outFlag ∧ (o.started = true ↔ st.started = true) ∧
        o.sysRes = st.evals.map (fun x => ⟨(c.sysFun x).val, x, (c.sysFun x).min⟩) ∧
        o.mon.columns =
          ((st.mon.map (·.pfUp), st.mon.map (·.pfLow), st.mon.map (·.prBu)),
           (st.mon.map (·.noBr), st.mon.map (·.noBs), st.mon.map (·.noBf), st.mon.map (·.noBu)),
           (st.mon.map (·.noRs), st.mon.map (·.noRf), st.mon.map (·.noRa))) ∧
        o.mon.noSf = List.range (st.evals.length + 1) ∧
        o.mon.minLenRf.length = st.mon.length ∧ o.mon.avgLenRf.length = st.mon.length ∧
        (st.started = true → o.mon.minLenRf.getLast? = some (rfLengths st.rules.f).1 ∧
          o.mon.avgLenRf.getLast? = some (rfLengths st.rules.f).2) ∧
        o.mon.maxBu = 0 := by
  obtain ⟨h1, h2⟩ := obsLoop_sim hf hq c.maxSf (c.maxSf + 1) _ _ (Nat.lt_succ_self _)
    (obs_start c (rules.getD { s := [], f := [] }) brs) (.inr rfl) (by simp)
  refine ⟨fun e he => ?_, fun st hst => ?_⟩
  · unfold run at he
    cases hl : runLoop c c.maxSf { brs := brs, rules := rules.getD { s := [], f := [] } } with
    | ok st1 =>
      rw [hl, ok_bind] at he
      split at he <;> cases he
    | error e' =>
      rw [hl] at he
      cases he
      unfold obsRun
      simp only [h1 _ hl]
      rfl
  · obtain ⟨st1, hl, rfl⟩ := run_eq hst
    obtain ⟨o1, ho, hs⟩ := h2 st1 hl
    obtain ⟨o, hfin, hso, hlen⟩ := obs_finish hs
    have hst1 : (if st1.started = true then
        { st1 with mon := st1.mon ++ [monRow (st1.brs.getD []) st1.rules] } else st1).started =
        st1.started := by split <;> rfl
    have hru : (if st1.started = true then
        { st1 with mon := st1.mon ++ [monRow (st1.brs.getD []) st1.rules] } else st1).rules =
        st1.rules := by split <;> rfl
    refine ⟨o, ?_, hso.brs, hso.rules, hso.flag, ?_, ?_, ?_, hso.noSf, hso.cols.minLen,
      hso.cols.avgLen, ?_, hso.cols.maxBu⟩
    · unfold obsRun
      simp only [ho, ok_bind]
      exact hfin
    · rw [← hso.started]
    · rw [← hso.evals, List.map_map]
      conv_lhs => rw [← List.map_id o.sysRes]
      refine List.map_congr_left fun row hrow => ?_
      obtain ⟨e1, e2⟩ := hso.res row hrow
      simp [← e1, ← e2]
    · unfold Monitor.columns
      have hc := hso.cols
      dsimp only at hc
      rw [hc.pfUp, hc.pfLow, hc.prBu, hc.noBr, hc.noBs, hc.noBf, hc.noBu, hc.noRs, hc.noRf, hc.noRa]
    · rw [hst1, hru]
      exact hlen

private theorem rfLengths_spec (rf : List (Rule K)) :
    (rf = [] → rfLengths rf = (0, 0)) ∧
    (rf ≠ [] → (∃ r ∈ rf, r.length = (rfLengths rf).1) ∧ (∀ r ∈ rf, (rfLengths rf).1 ≤ r.length) ∧
      (rfLengths rf).2 * rf.length = ((rf.map List.length).sum : ℕ)) := by
  refine ⟨fun h => by subst h; rfl, fun h => ?_⟩
  unfold rfLengths
  cases hm : (rf.map List.length).min? with
  | none => simp [List.min?_eq_none_iff] at hm; exact absurd hm h
  | some m =>
    obtain ⟨h1, h2⟩ := List.min?_eq_some_iff.1 hm
    obtain ⟨r, hr, hl⟩ := List.mem_map.1 h1
    refine ⟨⟨r, hr, hl⟩, fun r' hr' => h2 _ (List.mem_map_of_mem hr'), ?_⟩
    have : (rf.length : ℚ) ≠ 0 := by
      simpa using h
    dsimp only
    rw [div_mul_cancel₀ _ this]

/-- The tables of a run on a coherent system, with at least one evaluation allowed: `sys_res` has one
row per evaluation with what the system function said about a component vector; all lists of
`monitor` are one longer, so entry `i` of each belongs to entry `i` of `no_sf`, which is `i`; at every
entry the bounds hold, their distance is the unknown probability and the counts add up; the last
entries of the rule columns are those of the returned failure rules; and the plots can be made. -/
theorem C82_tables {c : RunCfg K} (hc : CfgOK c Φ) (h0 : 0 < c.maxSf)
    {f : (K → ℕ) → Except Err (SysRes K)} (hf : ∀ x, f x = .ok (c.sysFun x)) {freq : ℕ} (hq : 0 < freq)
    {rules : Option (Rules K)} {brs : Option (List (Branch K))}
    (hs : StartOK c Φ (rules.getD { s := [], f := [] }) brs) {o : ObsState K}
    (h : (obsRun c f freq rules brs).res = .ok o) :
    (∀ row ∈ o.sysRes, InSpace c.vs row.comp ∧ row.val = (c.sysFun row.comp).val ∧
      row.min = (c.sysFun row.comp).min) ∧
    o.mon.noSf = List.range (o.sysRes.length + 1) ∧
    (∀ i < o.sysRes.length + 1, ∃ up low pr, o.mon.pfUp[i]? = some up ∧ o.mon.pfLow[i]? = some low ∧
      o.mon.prBu[i]? = some pr ∧ low ≤ pFail c.vs c.probs Φ ∧ pFail c.vs c.probs Φ ≤ up ∧
      pr = up - low) ∧
    (∀ i < o.sysRes.length + 1, ∃ (nb ns nf : ℕ) (nu : ℤ), o.mon.noBr[i]? = some nb ∧
      o.mon.noBs[i]? = some ns ∧ o.mon.noBf[i]? = some nf ∧ o.mon.noBu[i]? = some nu ∧
      (nb : ℤ) = ns + nf + nu ∧ 0 ≤ nu) ∧
    (∀ i < o.sysRes.length + 1, ∃ rs rf ra : ℕ, o.mon.noRs[i]? = some rs ∧ o.mon.noRf[i]? = some rf ∧
      o.mon.noRa[i]? = some ra ∧ ra = rs + rf) ∧
    (o.mon.noRs.getLast? = some o.rules.s.length ∧ o.mon.noRf.getLast? = some o.rules.f.length ∧
      ∃ m a, o.mon.minLenRf.getLast? = some m ∧ o.mon.avgLenRf.getLast? = some a ∧
        (o.rules.f = [] → m = 0 ∧ a = 0) ∧
        (o.rules.f ≠ [] → (∃ r ∈ o.rules.f, r.length = m) ∧ (∀ r ∈ o.rules.f, m ≤ r.length) ∧
          a * o.rules.f.length = ((o.rules.f.map List.length).sum : ℕ))) ∧
    plotMonitoring o.mon = .ok () := by
  obtain ⟨hE, hO⟩ := C82_follows_run (c := c) hf hq rules brs
  cases hrun : run c (rules.getD { s := [], f := [] }) brs with
  | error e => rw [hE e hrun] at h; cases h
  | ok st =>
    obtain ⟨o', e1, -, e2, -, -, e3, e4, e5, -, -, e7, -⟩ := hO st hrun
    rw [h] at e1
    cases e1
    obtain ⟨st1, hl, hst⟩ := run_eq hrun
    obtain ⟨hi, hst1⟩ := run_inv hc hs hl
    have hs1 := hst1 h0
    rw [if_pos hs1] at hst
    obtain ⟨bs, hbs, hpart⟩ := hi.started hs1
    have hg := hi.start.good bs hbs
    have hmon : ∀ row ∈ st.mon, RowOK c Φ row := by
      intro row hm
      rw [hst] at hm
      simp only [hbs, Option.getD_some] at hm
      rcases List.mem_append.1 hm with hm | hm
      · exact hi.mon row hm
      · rw [List.mem_singleton.1 hm]
        exact rowOK hc hpart hg.p hg.labels st1.rules
    have hlen : st.mon.length = st.evals.length + 1 := by
      have hml : st1.mon.length = st1.evals.length := by
        refine runLoop_ind c (fun _ st => st.mon.length = st.evals.length)
          (fun st => st.mon.length = st.evals.length) ?_ ?_ ?_ ?_ _ _ _ rfl hl
        · intro r s trunc bcs x s' hI _ _ _ hstep
          unfold runStep at hstep
          simp only at hstep
          obtain ⟨ru, -, hr⟩ := bind_ok.1 hstep
          cases hr
          simp [hI]
        · exact fun _ h => h
        · exact fun _ _ _ _ h _ _ => h
        · exact fun _ _ _ _ _ _ h _ _ _ => h
      rw [hst]
      simp [hml]
    have hsr : o.sysRes.length = st.evals.length := by rw [e3]; simp
    simp only [Monitor.columns, Prod.mk.injEq] at e4
    obtain ⟨⟨c1, c2, c3⟩, ⟨c4, c5, c6, c7⟩, c8, c9, c10⟩ := e4
    have hrow : ∀ i < o.sysRes.length + 1, ∃ row, st.mon[i]? = some row ∧ RowOK c Φ row := by
      intro i hi'
      have hi'' : i < st.mon.length := by omega
      exact ⟨st.mon[i], List.getElem?_eq_getElem hi'', hmon _ (List.getElem_mem hi'')⟩
    have hlast : st.mon.getLast? = some (monRow bs st.rules) := by
      rw [hst]
      simp [hbs]
    refine ⟨?_, by rw [e5, hsr], ?_, ?_, ?_, ⟨?_, ?_, ?_⟩, ?_⟩
    · intro row hr
      rw [e3] at hr
      obtain ⟨x, hx, rfl⟩ := List.mem_map.1 hr
      refine ⟨(hi.evals x ?_).1, rfl, rfl⟩
      rw [hst] at hx
      exact hx
    · intro i hi'
      obtain ⟨row, hr, hok⟩ := hrow i hi'
      refine ⟨row.pfUp, row.pfLow, row.prBu, ?_, ?_, ?_, hok.low, hok.up, hok.prBu⟩
      · rw [c1]; simp [hr]
      · rw [c2]; simp [hr]
      · rw [c3]; simp [hr]
    · intro i hi'
      obtain ⟨row, hr, hok⟩ := hrow i hi'
      refine ⟨row.noBr, row.noBs, row.noBf, row.noBu, ?_, ?_, ?_, ?_, ?_, hok.noBu⟩
      · rw [c4]; simp [hr]
      · rw [c5]; simp [hr]
      · rw [c6]; simp [hr]
      · rw [c7]; simp [hr]
      · have := hok.counts
        omega
    · intro i hi'
      obtain ⟨row, hr, hok⟩ := hrow i hi'
      refine ⟨row.noRs, row.noRf, row.noRa, ?_, ?_, ?_, hok.rules⟩
      · rw [c8]; simp [hr]
      · rw [c9]; simp [hr]
      · rw [c10]; simp [hr]
    · rw [c8, List.getLast?_map, hlast, e2]
      rfl
    · rw [c9, List.getLast?_map, hlast, e2]
      rfl
    · obtain ⟨l1, l2⟩ := e7 (by rw [hst]; exact hs1)
      obtain ⟨r1, r2⟩ := rfLengths_spec o.rules.f
      rw [← e2] at l1 l2
      refine ⟨_, _, l1, l2, fun he => ?_, r2⟩
      rw [r1 he]
      exact ⟨rfl, rfl⟩
    · unfold plotMonitoring
      rw [if_pos]
      rw [c1, c2, c4, c10, e5]
      simp [hlen]

/-- Without any evaluation allowed there is nothing but the first entry of `no_sf`; the plots, which
put the bounds over `no_sf`, cannot be made. -/
theorem C82_no_evaluation {c : RunCfg K} (h0 : c.maxSf = 0) (f : (K → ℕ) → Except Err (SysRes K))
    (freq : ℕ) (rules : Option (Rules K)) (brs : Option (List (Branch K))) :
    ∃ o, (obsRun c f freq rules brs).res = .ok o ∧ o.brs = brs ∧
      o.rules = rules.getD { s := [], f := [] } ∧ o.sysRes = [] ∧ o.mon.outFlag = none ∧
      o.mon.noSf = [0] ∧ o.mon.pfLow = [] ∧ plotMonitoring o.mon = .error .value ∧
      (obsRun c f freq rules brs).rules = rules ∧ (obsRun c f freq rules brs).brs = brs := by
  have hl : obsLoop c f freq (c.maxSf + 1) (obsInit (rules.getD { s := [], f := [] }) brs) =
      (rules.getD { s := [], f := [] }, .ok (obsInit (rules.getD { s := [], f := [] }) brs)) := by
    unfold obsLoop
    rw [if_neg (by omega)]
    rfl
  refine ⟨obsInit (rules.getD { s := [], f := [] }) brs, ?_, rfl, rfl, rfl, rfl, rfl, rfl, ?_, ?_, ?_⟩
  · unfold obsRun
    simp only [hl, ok_bind]
    unfold obsFinish
    rfl
  · simp [plotMonitoring, obsInit, initMonitor]
  · unfold obsRun
    simp only [hl]
    cases rules <;> rfl
  · unfold obsRun
    simp [h0]

/-- The rules of the caller.  Whatever the system function does — it may raise at any evaluation, and
where it returns it is right — and whatever the outcome of the call, the dictionary of rules handed in
is afterwards again a set of valid rules that decides every vector it decided before, in the same way;
so the work of the evaluations is not lost and the call can be repeated with it.  If the call returns,
it returns this dictionary. -/
theorem C82_rules_survive {c : RunCfg K} (hc : CfgOK c Φ) {f : (K → ℕ) → Except Err (SysRes K)}
    (hf : ∀ x r, f x = .ok r → r = c.sysFun x) (freq : ℕ) {rules : Rules K}
    {brs : Option (List (Branch K))} (hs : StartOK c Φ rules brs) :
    ∃ rules', (obsRun c f freq (some rules) brs).rules = some rules' ∧
      RulesValid c.vs Φ rules' ∧ StartOK c Φ rules' none ∧
      (∀ x, CoveredS rules x → CoveredS rules' x) ∧ (∀ x, CoveredF rules x → CoveredF rules' x) ∧
      (∀ o, (obsRun c f freq (some rules) brs).res = .ok o → o.rules = rules') ∧
      (c.survFirst = true → ∃ st, run c rules' none = .ok st) := by
  obtain ⟨⟨h1, h2, h3⟩, h4⟩ := obsLoop_safe hc hf freq (c.maxSf + 1) rules
    (obsInit rules brs) hs ⟨fun _ h => h, fun _ h => h⟩
  have hst : StartOK c Φ _ none := ⟨h1, h2, fun bs h => by cases h⟩
  refine ⟨_, rfl, h2, hst, h3.1, h3.2, fun o ho => ?_, fun hsf => C27_returns hc hsf hst⟩
  unfold obsRun at ho
  simp only at ho
  obtain ⟨o1, e1, e2⟩ := bind_ok.1 ho
  have := h4 o1 e1
  rw [show (some rules).getD { s := [], f := [] } = rules from rfl, ← this]
  unfold obsFinish at e2
  split at e2
  · obtain ⟨mc, -, e3⟩ := bind_ok.1 e2
    obtain ⟨u, -, e4⟩ := bind_ok.1 e3
    cases e4
    rfl
  · cases e2
    rfl

/-- The branches of the caller: with `active_decomp` they are not touched.  Otherwise the list keeps
its branches, with their boxes and probabilities; known labels stay, and branches that could be
continued from still can: the labels set are right. -/
theorem C82_branches {c : RunCfg K} (f : (K → ℕ) → Except Err (SysRes K)) (freq : ℕ)
    (rules : Option (Rules K)) (bs : List (Branch K)) :
    ∃ bs', (obsRun c f freq rules (some bs)).brs = some bs' ∧
      (c.activeDecomp = true → bs' = bs) ∧
      List.Forall₂ (fun b b' => b'.down = b.down ∧ b'.up = b.up ∧ b'.p = b.p ∧
        (b.downState ≠ .u → b'.downState = b.downState) ∧ (b.upState ≠ .u → b'.upState = b.upState))
        bs bs' ∧
      (RulesValid c.vs Φ (rules.getD { s := [], f := [] }) → GoodBrs c.vs Φ c.probs bs →
        GoodBrs c.vs Φ c.probs bs') := by
  have hpt : ∃ bs', (obsRun c f freq rules (some bs)).brs = some bs' ∧
      (c.activeDecomp = true → bs' = bs) ∧
      List.Forall₂ (fun b b' => b' = b ∨ b' = b.evalState (rules.getD { s := [], f := [] })) bs bs' := by
    by_cases h : c.maxSf = 0 ∨ c.activeDecomp = true
    · exact ⟨bs, by simp [obsRun, h], fun _ => rfl, List.forall₂_same.2 fun b _ => .inl rfl⟩
    · refine ⟨labelledBrs c (rules.getD { s := [], f := [] }) bs, by simp [obsRun, h],
        fun ha => absurd (.inr ha) h, ?_⟩
      unfold labelledBrs
      cases checkKeys c.vs (rules.getD { s := [], f := [] }) with
      | error e => exact List.forall₂_same.2 fun b _ => .inl rfl
      | ok u =>
        dsimp only
        rw [List.forall₂_iff_get]
        refine ⟨by simp, fun i h1 h2 => ?_⟩
        simp only [List.get_eq_getElem, List.getElem_map, List.getElem_zipIdx]
        split
        · exact .inr rfl
        · exact .inl rfl
  obtain ⟨bs', e1, e2, e3⟩ := hpt
  refine ⟨bs', e1, e2, e3.imp ?_, fun hv hg => ?_⟩
  · rintro b b' (rfl | rfl)
    · exact ⟨rfl, rfl, rfl, fun _ => rfl, fun _ => rfl⟩
    · refine ⟨rfl, rfl, rfl, fun h => ?_, fun h => ?_⟩
      · rw [evalState_downState, if_pos h]
      · rw [evalState_upState, if_pos h]
  · have hb : ∀ b' ∈ bs', ∃ b ∈ bs, b' = b ∨ b' = b.evalState (rules.getD { s := [], f := [] }) := by
      intro b' hb'
      obtain ⟨i, hi, rfl⟩ := List.getElem_of_mem hb'
      have hi' : i < bs.length := by rw [e3.length_eq]; exact hi
      exact ⟨bs[i], List.getElem_mem hi', (List.forall₂_iff_get.1 e3).2 i hi' hi⟩
    rcases hg.part with he | hpart
    · subst he
      cases e3
      exact ⟨.inl rfl, by simp, by simp⟩
    · refine ⟨.inr ⟨?_, ?_⟩, ?_, ?_⟩
      · intro b' hb'
        obtain ⟨b, hbm, rfl | rfl⟩ := hb b' hb'
        · exact hpart.1 _ hbm
        · exact hpart.1 b hbm
      · intro x hx
        rw [← hpart.2 x hx]
        have hcount : ∀ {l l' : List (Branch K)}, List.Forall₂ (fun b b' => b' = b ∨
            b' = b.evalState (rules.getD { s := [], f := [] })) l l' →
            l'.countP (fun b => decide (InBox c.vs b x)) = l.countP (fun b => decide (InBox c.vs b x)) := by
          intro l l' hll
          induction hll with
          | nil => rfl
          | cons h _ ih =>
            rw [List.countP_cons, List.countP_cons, ih]
            rcases h with rfl | rfl <;> rfl
        exact hcount e3
      · intro b' hb'
        obtain ⟨b, hbm, rfl | rfl⟩ := hb b' hb'
        · exact hg.p _ hbm
        · exact hg.p b hbm
      · intro b' hb'
        obtain ⟨b, hbm, rfl | rfl⟩ := hb b' hb'
        · exact hg.labels _ hbm
        · exact ((stable_labels hv c.probs).eval b ⟨hpart.1 b hbm, hg.labels b hbm⟩).2

/-- Not without effect: a call with `rules` edits the dictionary it gets, and with
`active_decomp=False` sets labels of the branches it gets. -/
theorem C82_changes_arguments :
    (obsRun (Ex.cfg 1 100) (fun x => .ok (Ex.sysFun x)) 200 (some { s := [], f := [] }) none).rules.map
      (fun r => (r.s, r.f)) ≠ some ([], []) ∧
    (obsRun { Ex.cfg 1 100 with activeDecomp := false } (fun x => .ok (Ex.sysFun x)) 200 (some Ex.rules)
      (some ((initBranch Ex.vs { s := [], f := [] })))).brs.map
        (fun bs => bs.map fun b => (b.downState, b.upState)) ≠
      some ((initBranch Ex.vs { s := [], f := [] }).map fun b => (b.downState, b.upState)) := by
  refine ⟨by decide +kernel, by decide +kernel⟩

private theorem pass_visited {vs : List (K × ℕ)} {rules : Rules K} {probs : K → ℕ → ℚ} {maxNb total : ℕ}
    {l acc new : List (Branch K × Rules K)} {go : Bool}
    (h : decompPass vs rules probs maxNb total l acc = .ok (go, new)) :
    (go = true → passVisited rules probs maxNb total l acc.length = l.length) ∧
    (go = false → ∃ n done done', passVisited rules probs maxNb total l acc.length = n + 1 ∧
      n < l.length ∧ decompPass vs rules probs maxNb total (l.take n) acc = .ok (true, done) ∧
      decompPass vs rules probs maxNb total (l.take (n + 1)) acc = .ok (false, done') ∧
      new = done' ++ l.drop (n + 1)) := by
  induction l generalizing acc with
  | nil =>
    cases h
    exact ⟨fun _ => rfl, fun h => (by cases h)⟩
  | cons bc l ih =>
    obtain ⟨b, cr⟩ := bc
    unfold decompPass at h
    unfold passVisited
    dsimp only at h
    split at h
    · rename_i hc
      rw [if_pos hc]
      have := ih h
      rw [List.length_append, List.length_singleton] at this
      refine ⟨fun hg => by rw [this.1 hg, List.length_cons, Nat.add_comm], fun hg => ?_⟩
      obtain ⟨n, done, done', e1, e2, e3, e4, e5⟩ := this.2 hg
      refine ⟨n + 1, done, done', by rw [e1, Nat.add_comm], by simpa using e2, ?_, ?_, e5⟩
      · rw [List.take_succ_cons, decompPass]
        dsimp only
        rw [if_pos hc]
        exact e3
      · rw [List.take_succ_cons, decompPass]
        dsimp only
        rw [if_pos hc]
        exact e4
    · rename_i hc
      rw [if_neg hc]
      split at h
      · cases h
      · rename_i xd st hd
        rw [hd]
        dsimp only
        simp only [List.length_append, List.length_cons, List.length_nil, Nat.zero_add] at h
        by_cases hm : maxNb < acc.length + 2 + total
        · rw [if_pos hm] at h
          rw [if_pos hm]
          cases h
          refine ⟨fun h => (by cases h), fun _ => ⟨0, acc, _, rfl, by simp, rfl, ?_, rfl⟩⟩
          rw [List.take_succ_cons, List.take_zero, decompPass]
          dsimp only
          rw [if_neg hc, hd]
          dsimp only
          rw [if_pos (by simpa using hm), List.append_nil]
        · rw [if_neg hm] at h
          rw [if_neg hm]
          have := ih h
          simp only [List.length_append, List.length_cons, List.length_nil, Nat.zero_add] at this
          refine ⟨fun hg => by rw [this.1 hg, List.length_cons, Nat.add_comm], fun hg => ?_⟩
          obtain ⟨n, done, done', e1, e2, e3, e4, e5⟩ := this.2 hg
          refine ⟨n + 1, done, done', by rw [e1, Nat.add_comm], by simpa using e2, ?_, ?_, e5⟩
          · rw [List.take_succ_cons, decompPass]
            dsimp only
            rw [if_neg hc, hd]
            dsimp only
            rw [if_neg (by simpa using hm)]
            exact e3
          · rw [List.take_succ_cons, decompPass]
            dsimp only
            rw [if_neg hc, hd]
            dsimp only
            rw [if_neg (by simpa using hm)]
            exact e4

/-- Which branches of the caller get labels: those the first pass over them, in order of decreasing
probability, comes to.  If the limit on the number of branches does not cut the pass short, all of them;
if it does, those up to the one at which it is exceeded, while the others go on as they are. -/
theorem C82_labelled {c : RunCfg K} {f : (K → ℕ) → Except Err (SysRes K)} {freq : ℕ} {rules : Rules K}
    {bs : List (Branch K)} {go : Bool} {new : List (Branch K × Rules K)}
    (hsf : c.maxSf ≠ 0) (had : c.activeDecomp = false) (hk : checkKeys c.vs rules = .ok ()) :
    let sorted := (bs.zipIdx.map fun bi => ((bi.1, bi.1.compatRules rules), bi.2)).insertionSort
      fun a b => b.1.1.p ≤ a.1.1.p
    decompPass c.vs rules c.probs c.maxNb bs.length (sorted.map Prod.fst) [] = .ok (go, new) →
    (go = true → (obsRun c f freq (some rules) (some bs)).brs = some (bs.map (·.evalState rules))) ∧
    (go = false → ∃ n done done', n < bs.length ∧
      (∀ i b, bs[i]? = some b → ∃ bs', (obsRun c f freq (some rules) (some bs)).brs = some bs' ∧
        bs'[i]? = some (if i ∈ (sorted.take (n + 1)).map Prod.snd then b.evalState rules else b)) ∧
      decompPass c.vs rules c.probs c.maxNb bs.length ((sorted.map Prod.fst).take n) [] =
        .ok (true, done) ∧
      decompPass c.vs rules c.probs c.maxNb bs.length ((sorted.map Prod.fst).take (n + 1)) [] =
        .ok (false, done') ∧
      new = done' ++ (sorted.map Prod.fst).drop (n + 1)) := by
  intro sorted hpass
  have hlen : sorted.length = bs.length := by simp [sorted, List.length_insertionSort]
  have hobs : (obsRun c f freq (some rules) (some bs)).brs = some (labelledBrs c rules bs) := by
    simp [obsRun, hsf, had]
  have hlab : labelledBrs c rules bs = bs.zipIdx.map fun (bi : Branch K × ℕ) =>
      if bi.2 ∈ (sorted.take (passVisited rules c.probs c.maxNb bs.length (sorted.map Prod.fst) 0)).map
        Prod.snd then bi.1.evalState rules else bi.1 := by
    unfold labelledBrs
    rw [hk]
  obtain ⟨h1, h2⟩ := pass_visited hpass
  rw [hobs, hlab]
  refine ⟨fun hg => ?_, fun hg => ?_⟩
  · have h1 := h1 hg
    rw [List.length_map, List.length_nil] at h1
    rw [h1, List.take_length]
    congr 1
    have hmem : ∀ bi ∈ bs.zipIdx, bi.2 ∈ sorted.map Prod.snd := by
      intro bi hbi
      refine List.mem_map.2 ⟨((bi.1, bi.1.compatRules rules), bi.2), ?_, rfl⟩
      exact (List.perm_insertionSort _ _).mem_iff.2 (List.mem_map.2 ⟨bi, hbi, rfl⟩)
    rw [List.map_congr_left fun bi hbi => if_pos (hmem bi hbi)]
    conv_rhs => rw [← List.zipIdx_map_fst 0 bs, List.map_map]
    rfl
  · obtain ⟨n, done, done', e1, e2, e3, e4, e5⟩ := h2 hg
    rw [List.length_nil] at e1
    rw [List.length_map, hlen] at e2
    refine ⟨n, done, done', e2, fun i b hb => ⟨_, rfl, ?_⟩, e3, e4, e5⟩
    rw [e1, List.getElem?_map, List.getElem?_zipIdx, hb]
    simp

/-- `monitor['max_bu']`, announced as the largest number of unknown branches, is 0 after every run,
also when there were unknown branches. -/
theorem C82_max_bu :
    (∀ {c : RunCfg K} {f : (K → ℕ) → Except Err (SysRes K)}, (∀ x, f x = .ok (c.sysFun x)) →
      ∀ {freq : ℕ}, 0 < freq → ∀ {rules : Option (Rules K)} {brs : Option (List (Branch K))}
      {o : ObsState K}, (obsRun c f freq rules brs).res = .ok o → o.mon.maxBu = 0) ∧
    (obsRun (Ex.cfg 3 100) (fun x => .ok (Ex.sysFun x)) 200 none none).res.toOption.map
      (fun o => (o.mon.maxBu, o.mon.noBu)) = some (0, [1, 3, 3, 3]) := by
  refine ⟨fun {c f} hf {freq} hq {rules brs o} h => ?_, by decide +kernel⟩
  obtain ⟨hE, hO⟩ := C82_follows_run (c := c) hf hq rules brs
  cases hrun : run c (rules.getD { s := [], f := [] }) brs with
  | error e => rw [hE e hrun] at h; cases h
  | ok st =>
    obtain ⟨o', e1, e2⟩ := hO st hrun
    rw [h] at e1
    cases e1
    exact e2.2.2.2.2.2.2.2.2.2.2

/-- Non-vacuity of `C82_tables`: a run of three evaluations. -/
example : CfgOK (Ex.cfg 3 100) Ex.Φ ∧ StartOK (Ex.cfg 3 100) Ex.Φ { s := [], f := [] } none ∧
    (obsRun (Ex.cfg 3 100) (fun x => .ok (Ex.sysFun x)) 2 none none).res.toOption.map
      (fun o => (o.mon.noSf, o.mon.pfUp, o.mon.minLenRf, o.sysRes.length)) =
      some ([0, 1, 2, 3], [1, 137 / 200, 62 / 125, 62 / 125], [0, 0, 0, 0], 3) :=
  ⟨Ex.cfg_ok 3 100, Ex.start_empty _, by decide +kernel⟩

/-- Non-vacuity of `C82_rules_survive`: the system function raises at the fourth evaluation; the rules
of the first three are kept. -/
example : ∃ f : (ℕ → ℕ) → Except Err (SysRes ℕ), (∀ x r, f x = .ok r → r = Ex.sysFun x) ∧
    (obsRun (Ex.cfg 10 100) f 200 (some { s := [], f := [] }) none).res.toOption.isNone = true ∧
    (obsRun (Ex.cfg 10 100) f 200 (some { s := [], f := [] }) none).rules.map
      (fun r => r.s.length + r.f.length) = some 2 := by
  refine ⟨fun x => if x 0 = 1 ∧ x 1 = 0 ∧ x 2 = 1 then .error .value else .ok (Ex.sysFun x),
    fun x r h => ?_, by decide +kernel, by decide +kernel⟩
  dsimp only at h
  split at h
  · cases h
  · cases h
    rfl

/-- Non-vacuity of `C82_labelled`: with room for many branches the pass over the two branches of the
caller is not cut short; with room for three it stops at the first. -/
example : ∀ big, ∃ (c : RunCfg ℕ) (rules : Rules ℕ) (bs : List (Branch ℕ)),
    c.maxSf ≠ 0 ∧ c.activeDecomp = false ∧ checkKeys c.vs rules = .ok () ∧ bs.length = 2 ∧
    (decompPass c.vs rules c.probs c.maxNb bs.length
      (((bs.zipIdx.map fun bi => ((bi.1, bi.1.compatRules rules), bi.2)).insertionSort
        fun a b => b.1.1.p ≤ a.1.1.p).map Prod.fst) []).toOption.map Prod.fst = some big := by
  intro big
  refine ⟨{ Ex.cfg 3 (if big then 100 else 3) with activeDecomp := false }, { s := [[(2, 1)]], f := [] },
    [{ down := fun _ => 0, up := fun k => if k = 0 then 0 else if k = 1 then 2 else 1,
       downState := .u, upState := .u, p := 3 / 10 },
     { down := fun k => if k = 0 then 1 else 0, up := fun k => if k = 1 then 2 else 1,
       downState := .u, upState := .u, p := 7 / 10 }], ?_, ?_, ?_, rfl, ?_⟩
  · cases big <;> decide
  · cases big <;> rfl
  · cases big <;> decide +kernel
  · cases big <;> decide +kernel

/-- `display_msg` prints a monitor only if every list has an entry, else it raises `IndexError`: the
monitor of `init_monitor` cannot be displayed before a first `update_monitor`. -/
theorem C82_display (m : Monitor) :
    displayMsg m = if m.pfUp ≠ [] ∧ m.pfLow ≠ [] ∧ m.prBu ≠ [] ∧ m.noBr ≠ [] ∧ m.noBs ≠ [] ∧
      m.noBf ≠ [] ∧ m.noBu ≠ [] ∧ m.noRs ≠ [] ∧ m.noRf ≠ [] ∧ m.noRa ≠ [] ∧ m.noSf ≠ [] ∧
      m.minLenRf ≠ [] ∧ m.avgLenRf ≠ [] then .ok () else .error .index := by
  have hl : ∀ {A : Type} (l : List A), (l = [] ∧ lastOf l = .error .index) ∨
      (l ≠ [] ∧ ∃ a, lastOf l = .ok a) := by
    intro A l
    unfold lastOf
    rcases List.eq_nil_or_concat l with rfl | ⟨l', a, rfl⟩
    · exact .inl ⟨rfl, rfl⟩
    · exact .inr ⟨by simp, a, by simp⟩
  have key : ∀ {A : Type} (l : List A) (P : Prop) [Decidable P] (k : Except Err Unit),
      k = (if P then .ok () else .error .index) →
      (lastOf l >>= fun _ => k) = if l ≠ [] ∧ P then .ok () else .error .index := by
    intro A l P _ k hk
    rcases hl l with ⟨h1, h2⟩ | ⟨h1, a, h2⟩
    · rw [h2, if_neg (fun h => h.1 h1)]
      rfl
    · rw [h2, ok_bind, hk]
      by_cases hP : P <;> simp [hP, h1]
  unfold displayMsg
  refine key _ _ _ (key _ _ _ (key _ _ _ (key _ _ _ (key _ _ _ (key _ _ _ (key _ _ _ (key _ _ _
    (key _ _ _ (key _ _ _ (key _ _ _ (key _ _ _ ?_)))))))))))
  rcases hl m.avgLenRf with ⟨h1, h2⟩ | ⟨h1, a, h2⟩
  · rw [h2, if_neg (fun h => h h1)]
    rfl
  · rw [h2, if_pos h1]
    rfl

/-- The monitor before and after its first update. -/
example : displayMsg initMonitor.1 = .error .index ∧
    (updateMonitor initMonitor.1 (initBranch Ex.vs { s := [], f := [] }) { s := [], f := [] }).bind
      (fun mc => displayMsg mc.1) = .ok () :=
  ⟨rfl, by decide +kernel⟩

end BNS
