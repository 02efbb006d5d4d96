import Verif.Model.BrcObs
import Verif.Proofs.BrcRunInv

/-! Helper lemmas: the detailed model of `run` follows the model of `Model/Brc.lean`. -/

namespace BNS

set_option linter.unusedSectionVars false

variable {K : Type} [DecidableEq K] {Φ : (K → ℕ) → Bool}

/-- A row at the end of every list but `no_sf`. -/
def Monitor.push (m : Monitor) (row : MonRow) (len : ℕ × ℚ) : Monitor where
  pfUp := m.pfUp ++ [row.pfUp]
  pfLow := m.pfLow ++ [row.pfLow]
  prBu := m.prBu ++ [row.prBu]
  noBr := m.noBr ++ [row.noBr]
  noBs := m.noBs ++ [row.noBs]
  noBf := m.noBf ++ [row.noBf]
  noBu := m.noBu ++ [row.noBu]
  noRs := m.noRs ++ [row.noRs]
  noRf := m.noRf ++ [row.noRf]
  noRa := m.noRa ++ [row.noRa]
  noSf := m.noSf
  minLenRf := m.minLenRf ++ [len.1]
  avgLenRf := m.avgLenRf ++ [len.2]
  outFlag := m.outFlag
  maxBu := m.maxBu

theorem lastOf_concat {A : Type} (l : List A) (a : A) : lastOf (l ++ [a]) = .ok a := by
  unfold lastOf
  simp

theorem updateMonitor_eq {m : Monitor} {l : List ℕ} {n : ℕ} (h : m.noSf = l ++ [n])
    (brs : List (Branch K)) (rules : Rules K) :
    updateMonitor m brs rules = .ok (m.push (monRow brs rules) (rfLengths rules.f),
      { noSf := n, prBu := (monRow brs rules).prBu, pfLow := (monRow brs rules).pfLow,
        noBu := (monRow brs rules).noBu }) := by
  unfold updateMonitor
  simp only [h, lastOf_concat, ok_bind]
  simp only [pure, Except.pure, Monitor.push, h]

theorem displayMsg_push {m : Monitor} {l : List ℕ} {n : ℕ} (h : m.noSf = l ++ [n]) (row : MonRow)
    (len : ℕ × ℚ) : displayMsg (m.push row len) = .ok () := by
  unfold displayMsg
  simp only [Monitor.push, h, lastOf_concat, ok_bind]
  rfl

/-- The lists of `monitor` hold the columns of the rows. -/
structure ColsOK (m : Monitor) (rows : List MonRow) : Prop where
  pfUp : m.pfUp = rows.map MonRow.pfUp
  pfLow : m.pfLow = rows.map MonRow.pfLow
  prBu : m.prBu = rows.map MonRow.prBu
  noBr : m.noBr = rows.map MonRow.noBr
  noBs : m.noBs = rows.map MonRow.noBs
  noBf : m.noBf = rows.map MonRow.noBf
  noBu : m.noBu = rows.map MonRow.noBu
  noRs : m.noRs = rows.map MonRow.noRs
  noRf : m.noRf = rows.map MonRow.noRf
  noRa : m.noRa = rows.map MonRow.noRa
  minLen : m.minLenRf.length = rows.length
  avgLen : m.avgLenRf.length = rows.length
  maxBu : m.maxBu = 0

theorem ColsOK.push {m : Monitor} {rows : List MonRow} (h : ColsOK m rows) (row : MonRow)
    (len : ℕ × ℚ) : ColsOK (m.push row len) (rows ++ [row]) := by
  constructor <;> simp [Monitor.push, h.pfUp, h.pfLow, h.prBu, h.noBr, h.noBs, h.noBf, h.noBu, h.noRs,
    h.noRf, h.noRa, h.minLen, h.avgLen, h.maxBu]

theorem ColsOK.same {m m' : Monitor} {rows : List MonRow} (h : ColsOK m rows)
    (he : { m' with noSf := [], outFlag := none } = { m with noSf := [], outFlag := none }) :
    ColsOK m' rows := by
  obtain ⟨⟩ := m
  obtain ⟨⟩ := m'
  simp only [Monitor.mk.injEq] at he
  obtain ⟨rfl, rfl, rfl, rfl, rfl, rfl, rfl, rfl, rfl, rfl, -, rfl, rfl, -, rfl⟩ := he
  exact ⟨h.pfUp, h.pfLow, h.prBu, h.noBr, h.noBs, h.noBf, h.noBu, h.noRs, h.noRf, h.noRa, h.minLen,
    h.avgLen, h.maxBu⟩

/-- The detailed state `o` stands for the state `st`. -/
structure Sim (c : RunCfg K) (st : RunState K) (o : ObsState K) : Prop where
  brs : o.brs = st.brs
  rules : o.rules = st.rules
  evals : o.sysRes.map SysRow.comp = st.evals
  res : ∀ row ∈ o.sysRes, row.val = (c.sysFun row.comp).val ∧ row.min = (c.sysFun row.comp).min
  cols : ColsOK o.mon st.mon
  noSf : o.mon.noSf = List.range (st.evals.length + 1)
  flag : o.mon.outFlag = st.outFlag
  cNoSf : o.ctrl.noSf = st.evals.length
  cPrBu : o.ctrl.prBu = st.prBu
  cPfLow : o.ctrl.pfLow = st.pfLow
  started : o.started = st.started

theorem Sim.stop {c : RunCfg K} {st : RunState K} {o : ObsState K} (h : Sim c st o)
    (brs : List (Branch K)) (flag : OutFlag) :
    Sim c { st with brs := some brs, outFlag := some flag, started := true } (o.stop brs flag) :=
  ⟨rfl, h.rules, h.evals, h.res, h.cols.same rfl, h.noSf, rfl, h.cNoSf, h.cPrBu, h.cPfLow, rfl⟩

/-- An evaluation whose rule can be added. -/
theorem obsEval_ok {c : RunCfg K} {freq : ℕ} (hf : 0 < freq) {o : ObsState K} {brs : List (Branch K)}
    {x : K → ℕ} {r : SysRes K} {rules : Rules K}
    (hu : updateRuleSet o.rules (runSysFn c.vs (fun _ => r) x).1 (runSysFn c.vs (fun _ => r) x).2 =
      .ok rules) :
    obsEval c freq o brs x r = (rules, .ok
      { brs := some brs
        rules := rules
        sysRes := o.sysRes ++ [{ val := r.val, comp := x, min := r.min }]
        mon := if o.ctrl.noSf + 1 = c.maxSf then
            ((o.mon.addSf (o.ctrl.noSf + 1)).push (monRow brs rules) (rfLengths rules.f)).setFlag .maxSf
          else (o.mon.addSf (o.ctrl.noSf + 1)).push (monRow brs rules) (rfLengths rules.f)
        ctrl := { noSf := o.ctrl.noSf + 1, prBu := (monRow brs rules).prBu,
                  pfLow := (monRow brs rules).pfLow, noBu := (monRow brs rules).noBu }
        started := true }) := by
  have hm := updateMonitor_eq (m := o.mon.addSf (o.ctrl.noSf + 1)) rfl brs rules
  have hd := displayMsg_push (m := o.mon.addSf (o.ctrl.noSf + 1)) rfl (monRow brs rules)
    (rfLengths rules.f)
  have hsw : displayEvery freq (o.ctrl.noSf + 1) ((o.mon.addSf (o.ctrl.noSf + 1)).push
      (monRow brs rules) (rfLengths rules.f)) = .ok () := by
    unfold displayEvery
    rw [if_neg (by omega)]
    split
    · exact hd
    · rfl
  unfold obsEval
  simp only [hu, hm, ok_bind, hsw]
  rfl

theorem obsLoop_sim {c : RunCfg K} {f : (K → ℕ) → Except Err (SysRes K)}
    (hf : ∀ x, f x = .ok (c.sysFun x)) {freq : ℕ} (hq : 0 < freq) (r : ℕ) :
    ∀ (n : ℕ) (st : RunState K) (o : ObsState K), r < n → Sim c st o →
      (r = 0 ∨ st.outFlag = none) → st.evals.length + r = c.maxSf →
      (∀ e, runLoop c r st = .error e → (obsLoop c f freq n o).2 = .error e) ∧
      ∀ st', runLoop c r st = .ok st' →
        ∃ o', obsLoop c f freq n o = (st'.rules, .ok o') ∧ Sim c st' o' := by
  induction r with
  | zero =>
    intro n st o hn hs _ hl
    obtain ⟨n, rfl⟩ : ∃ k, n = k + 1 := ⟨n - 1, by omega⟩
    unfold runLoop
    refine ⟨fun e h => (by cases h), fun st' h => ?_⟩
    cases h
    refine ⟨o, ?_, hs⟩
    unfold obsLoop
    rw [if_neg (by rw [hs.cNoSf]; omega), hs.rules]
  | succ r ih =>
    intro n st o hn hs hfl hl
    have hfl : st.outFlag = none := by simpa using hfl
    obtain ⟨n, rfl⟩ : ∃ k, n = k + 1 := ⟨n - 1, by omega⟩
    have hlt : o.ctrl.noSf < c.maxSf := by rw [hs.cNoSf]; omega
    unfold runLoop obsLoop
    rw [if_pos hlt]
    unfold obsIter
    have hstart : (if c.activeDecomp = true then [] else o.brs.getD []) = c.startBrs st := by
      unfold RunCfg.startBrs
      rw [hs.brs]
    rw [hs.rules, hstart]
    cases hd : decomp c.vs st.rules c.probs c.maxNb (c.startBrs st) with
    | error e =>
      refine ⟨fun e' h => ?_, fun st' h => (by cases h)⟩
      cases h
      rfl
    | ok tb =>
      obtain ⟨trunc, bcs⟩ := tb
      simp only [ok_bind]
      cases hg : getCompSt c.vs c.probs c.survFirst (bcs.map Prod.fst) with
      | error e =>
        refine ⟨fun e' h => ?_, fun st' h => (by cases h)⟩
        cases h
        rfl
      | ok ox =>
        simp only [ok_bind]
        cases ox with
        | none =>
          refine ⟨fun e' h => (by cases h), fun st' h => ?_⟩
          cases h
          exact ⟨_, rfl, hs.stop _ _⟩
        | some x =>
          simp only [hs.cPrBu, hs.cPfLow]
          split
          · refine ⟨fun e' h => (by cases h), fun st' h => ?_⟩
            cases h
            exact ⟨_, rfl, hs.stop _ _⟩
          · split
            · refine ⟨fun e' h => (by cases h), fun st' h => ?_⟩
              cases h
              exact ⟨_, rfl, hs.stop _ _⟩
            · split
              · refine ⟨fun e' h => (by cases h), fun st' h => ?_⟩
                cases h
                exact ⟨_, rfl, hs.stop _ _⟩
              · rw [hf x]
                simp only
                have hrs : runSysFn c.vs (fun _ => c.sysFun x) x = runSysFn c.vs c.sysFun x := rfl
                unfold runStep
                simp only
                cases hu : updateRuleSet st.rules (runSysFn c.vs c.sysFun x).1
                    (runSysFn c.vs c.sysFun x).2 with
                | error e =>
                  refine ⟨fun e' h => ?_, fun st' h => (by cases h)⟩
                  cases h
                  have : obsEval c freq o (bcs.map Prod.fst) x (c.sysFun x) = (o.rules, .error e) := by
                    unfold obsEval
                    simp only [hrs, hs.rules, hu]
                  rw [this]
                  rfl
                | ok rules =>
                  have hev := obsEval_ok (c := c) hq (o := o) (brs := bcs.map Prod.fst) (x := x)
                    (r := c.sysFun x) (rules := rules) (by rw [hs.rules]; exact hu)
                  rw [hev]
                  simp only [ok_bind, pure, Except.pure, Except.map]
                  refine ih n _ _ (by omega) ?_ ?_ ?_
                  · refine ⟨rfl, rfl, ?_, ?_, ?_, ?_, ?_, ?_, rfl, rfl, rfl⟩
                    · simp [hs.evals]
                    · intro row hrow
                      rcases List.mem_append.1 hrow with h | h
                      · exact hs.res row h
                      · rw [List.mem_singleton.1 h]
                        exact ⟨rfl, rfl⟩
                    · have := hs.cols.push (monRow (bcs.map Prod.fst) rules) (rfLengths rules.f)
                      simp only
                      split
                      · exact this.same rfl
                      · exact this.same rfl
                    · simp only [List.length_append, List.length_singleton]
                      rw [List.range_succ (n := st.evals.length + 1), ← hs.noSf, ← hs.cNoSf]
                      split <;> rfl
                    · simp only [hs.cNoSf]
                      by_cases h0 : r = 0
                      · subst h0
                        rw [if_pos (by omega)]
                        rfl
                      · rw [if_neg (by omega)]
                        simp [h0, Monitor.push, Monitor.addSf, hs.flag, hfl]
                    · simp [hs.cNoSf]
                  · by_cases h0 : r = 0
                    · exact .inl h0
                    · right
                      simp [h0]
                  · simp only [List.length_append, List.length_singleton]
                    omega

/-- What holds of the rules whatever the system function does. -/
theorem obsLoop_safe {c : RunCfg K} (hc : CfgOK c Φ) {f : (K → ℕ) → Except Err (SysRes K)}
    (hf : ∀ x r, f x = .ok r → r = c.sysFun x) (freq n : ℕ) (r0 : Rules K) :
    ∀ o : ObsState K, StartOK c Φ o.rules o.brs → Grows r0 o.rules →
      (RulesDict c.vs (obsLoop c f freq n o).1 ∧ RulesValid c.vs Φ (obsLoop c f freq n o).1 ∧
        Grows r0 (obsLoop c f freq n o).1) ∧
      ∀ o', (obsLoop c f freq n o).2 = .ok o' → o'.rules = (obsLoop c f freq n o).1 := by
  induction n with
  | zero =>
    intro o hs hg
    exact ⟨⟨hs.dict, hs.valid, hg⟩, fun o' h => (by cases h)⟩
  | succ n ih =>
    intro o hs hgr
    have hgood : GoodBrs c.vs Φ c.probs (if c.activeDecomp = true then [] else o.brs.getD []) := by
      split
      · exact ⟨.inl rfl, by simp, by simp⟩
      · cases hb : o.brs with
        | none => exact ⟨.inl rfl, by simp, by simp⟩
        | some bs => exact hs.good bs hb
    obtain ⟨trunc, bcs, hd, hout⟩ := decomp_run hc.vs hs.dict hs.valid hc.probs c.maxNb hgood
    unfold obsLoop
    split
    · unfold obsIter
      rw [hd]
      simp only
      have base : ∀ flag, (RulesDict c.vs o.rules ∧ RulesValid c.vs Φ o.rules ∧ Grows r0 o.rules) ∧
          ∀ o', (Except.ok (o.stop (bcs.map Prod.fst) flag) : Except Err (ObsState K)) = .ok o' →
            o'.rules = o.rules := by
        intro flag
        refine ⟨⟨hs.dict, hs.valid, hgr⟩, fun o' h => ?_⟩
        cases h
        rfl
      cases hg : getCompSt c.vs c.probs c.survFirst (bcs.map Prod.fst) with
      | error e => exact ⟨⟨hs.dict, hs.valid, hgr⟩, fun o' h => (by cases h)⟩
      | ok ox =>
        cases ox with
        | none => exact base _
        | some x =>
          simp only
          by_cases ha : c.maxNb ≤ (bcs.map Prod.fst).length
          · rw [if_pos ha]
            exact base _
          · rw [if_neg ha]
            by_cases hb : o.ctrl.prBu < o.ctrl.pfLow * c.pfBndWr
            · rw [if_pos hb]
              exact base _
            · rw [if_neg hb]
              by_cases hr : c.rulesFull o.rules = true
              · rw [if_pos hr]
                exact base _
              · rw [if_neg hr]
                cases hfx : f x with
                | error e => exact ⟨⟨hs.dict, hs.valid, hgr⟩, fun o' h => (by cases h)⟩
                | ok r =>
                  have hr := hf x r hfx
                  subst hr
                  simp only
                  have hx : InSpace c.vs x := (getCompSt_some hg).inSpace hout.part.1
                  obtain ⟨rules', he, h1, h2, h3, -⟩ := update_sys hc hs.dict hs.valid hx
                  have hg' : Grows r0 rules' := ⟨fun y h => h3.1 y (hgr.1 y h), fun y h => h3.2 y (hgr.2 y h)⟩
                  by_cases hq : 0 < freq
                  · rw [obsEval_ok hq he]
                    simp only [Except.map]
                    refine ih _ ⟨h1, h2, fun bs hbs => ?_⟩ hg'
                    cases hbs
                    exact ⟨.inr hout.part, hout.p, hout.labels⟩
                  · have hq : freq = 0 := by omega
                    have hm := updateMonitor_eq
                      (m := o.mon.addSf (o.ctrl.noSf + 1)) rfl
                      (bcs.map Prod.fst) rules'
                    have : obsEval c freq o (bcs.map Prod.fst) x (c.sysFun x) =
                        (rules', .error .value) := by
                      have hrs : runSysFn c.vs (fun _ => c.sysFun x) x = runSysFn c.vs c.sysFun x := rfl
                      unfold obsEval
                      simp only [hrs, he, hm, ok_bind, hq, displayEvery, if_true]
                      rfl
                    rw [this]
                    exact ⟨⟨h1, h2, hg'⟩, fun o' h => (by cases h)⟩
    · refine ⟨⟨hs.dict, hs.valid, hgr⟩, fun o' h => ?_⟩
      cases h
      rfl

end BNS
