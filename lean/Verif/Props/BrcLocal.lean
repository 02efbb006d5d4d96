import Verif.Props.BrcOrder

/-!
# Property C115: a run knows the system only through the vectors it evaluates
-/

namespace BNS

set_option linter.unusedSectionVars false

section
variable {K : Type} [DecidableEq K] {Φ : (K → ℕ) → Bool} {A : Arith} {F : ℚ → Prop} {ε η : ℚ}

/-- The configuration with another system function. -/
def RunCfg.withSys (c : RunCfg K) (f : (K → ℕ) → SysRes K) : RunCfg K := { c with sysFun := f }

theorem runSysFn_congr {vs : List (K × ℕ)} {f g : (K → ℕ) → SysRes K} {x : K → ℕ}
    (h : (f x).st = (g x).st ∧ (f x).min = (g x).min) : runSysFn vs f x = runSysFn vs g x := by
  unfold runSysFn
  simp only [h.1, h.2]

theorem runLoopR_local {c : RunCfg K} {f : (K → ℕ) → SysRes K} :
    ∀ {r : ℕ} {st st' : RunState K}, runLoopR A c r st = .ok st' →
      (∀ x ∈ st.evals, x ∈ st'.evals) ∧
      ((∀ x ∈ st'.evals, (f x).st = (c.sysFun x).st ∧ (f x).min = (c.sysFun x).min) →
        runLoopR A (c.withSys f) r st = .ok st')
  | 0, st, st', h => by
    simp only [runLoopR, Except.ok.injEq] at h
    subst h
    exact ⟨fun _ h => h, fun _ => rfl⟩
  | r + 1, st, st', h => by
    have e1 : (c.withSys f).startBrs st = c.startBrs st := rfl
    have e2 : (c.withSys f).rulesFull st.rules = c.rulesFull st.rules := rfl
    have e3 : (c.withSys f).vs = c.vs := rfl
    have e4 : (c.withSys f).probs = c.probs := rfl
    have e5 : (c.withSys f).maxNb = c.maxNb := rfl
    have e6 : (c.withSys f).survFirst = c.survFirst := rfl
    have e7 : (c.withSys f).pfBndWr = c.pfBndWr := rfl
    unfold runLoopR at h ⊢
    rw [e1, e2, e3, e4, e5, e6, e7]
    cases hd : decompR A c.vs st.rules c.probs c.maxNb (c.startBrs st) with
    | error e => rw [hd] at h; cases h
    | ok tb =>
      rw [hd] at h
      simp only [ok_bind] at h ⊢
      cases hx : getCompStR A c.vs c.probs c.survFirst (tb.2.map Prod.fst) with
      | error e => rw [hx] at h; cases h
      | ok xs =>
        rw [hx] at h
        simp only [ok_bind] at h ⊢
        cases xs with
        | none =>
          simp only [pure, Except.pure, Except.ok.injEq] at h ⊢
          subst h
          exact ⟨fun _ h => h, fun _ => rfl⟩
        | some x =>
          simp only at h ⊢
          split at h
          · rename_i hq
            rw [if_pos hq]
            simp only [pure, Except.pure, Except.ok.injEq] at h ⊢
            subst h
            exact ⟨fun _ h => h, fun _ => rfl⟩
          rename_i hq
          rw [if_neg hq]
          split at h
          · rename_i hq
            rw [if_pos hq]
            simp only [pure, Except.pure, Except.ok.injEq] at h ⊢
            subst h
            exact ⟨fun _ h => h, fun _ => rfl⟩
          rename_i hq
          rw [if_neg hq]
          split at h
          · rename_i hq
            rw [if_pos hq]
            simp only [pure, Except.pure, Except.ok.injEq] at h ⊢
            subst h
            exact ⟨fun _ h => h, fun _ => rfl⟩
          rename_i hq
          rw [if_neg hq]
          cases hs : runStepR A c st (tb.2.map Prod.fst) x (r = 0) with
          | error e => rw [hs] at h; cases h
          | ok s1 =>
            rw [hs] at h
            simp only [ok_bind] at h
            obtain ⟨i1, i2⟩ := runLoopR_local (f := f) h
            have hev : s1.evals = st.evals ++ [x] := by
              unfold runStepR at hs
              dsimp only at hs
              cases hu : updateRuleSet st.rules (runSysFn c.vs c.sysFun x).1
                  (runSysFn c.vs c.sysFun x).2 with
              | error e => rw [hu] at hs; cases hs
              | ok rl =>
                rw [hu] at hs
                simp only [ok_bind, pure, Except.pure, Except.ok.injEq] at hs
                rw [← hs]
            refine ⟨fun y hy => i1 y (by rw [hev]; exact List.mem_append_left _ hy), fun hf => ?_⟩
            have hx' := hf x (i1 x (by rw [hev]; simp))
            have hs' : runStepR A (c.withSys f) st (tb.2.map Prod.fst) x (r = 0) = .ok s1 := by
              rw [← hs]
              unfold runStepR
              rw [e3]
              change (do
                let rules ← updateRuleSet st.rules (runSysFn c.vs f x).1 (runSysFn c.vs f x).2
                _) = _
              rw [runSysFn_congr hx']
            rw [hs', ok_bind]
            exact i2 hf

/-- A run would have been the same with any system function that gives the same states and minimum
rules at the vectors it evaluated.  The values the system function returns beside them do not
matter.  Nothing is assumed of either function, and the arithmetic is arbitrary. -/
theorem C115_local {c : RunCfg K} {f : (K → ℕ) → SysRes K} {rules : Rules K}
    {brs : Option (List (Branch K))} {st : RunState K} (h : runR A c rules brs = .ok st)
    (hf : ∀ x ∈ st.evals, (f x).st = (c.sysFun x).st ∧ (f x).min = (c.sysFun x).min) :
    runR A (c.withSys f) rules brs = .ok st := by
  obtain ⟨st1, h1, rfl⟩ := runR_eq h
  have hev : ∀ x ∈ st1.evals, (f x).st = (c.sysFun x).st ∧ (f x).min = (c.sysFun x).min := by
    intro x hx
    apply hf
    split <;> exact hx
  have h2 := (runLoopR_local (f := f) h1).2 hev
  unfold runR
  change (runLoopR A (c.withSys f) c.maxSf _ >>= _) = _
  rw [h2, ok_bind]
  split <;> rfl

/-- The same for exact arithmetic. -/
theorem C115_local_exact {c : RunCfg K} {f : (K → ℕ) → SysRes K} {rules : Rules K}
    {brs : Option (List (Branch K))} {st : RunState K} (h : run c rules brs = .ok st)
    (hf : ∀ x ∈ st.evals, (f x).st = (c.sysFun x).st ∧ (f x).min = (c.sysFun x).min) :
    run (c.withSys f) rules brs = .ok st := by
  rw [← C102_refines] at h ⊢
  exact C115_local h hf

open Classical in
theorem sysOK_patch {vs : List (K × ℕ)} {g : (K → ℕ) → SysRes K} {ev : List (K → ℕ)}
    (hst : ∀ x ∈ ev, (g x).st = if Φ x then .s else .f)
    (hmin : ∀ x ∈ ev, (g x).min ≠ [] → RuleOK vs (g x).min ∧
      (Φ x = true → ValidS vs Φ (g x).min ∧ AppliesS (g x).min x) ∧
      (Φ x = false → ValidF vs Φ (g x).min ∧ AppliesF (g x).min x)) :
    SysOK vs Φ (fun x => if x ∈ ev then g x else ⟨0, if Φ x then .s else .f, []⟩) := by
  have e1 : ∀ x ∈ ev, (if x ∈ ev then g x else ⟨0, if Φ x then .s else .f, []⟩ : SysRes K) = g x :=
    fun x hm => if_pos hm
  have e2 : ∀ x, x ∉ ev → (if x ∈ ev then g x else ⟨0, if Φ x then .s else .f, []⟩ : SysRes K) =
      ⟨0, if Φ x then .s else .f, []⟩ := fun x hm => if_neg hm
  refine ⟨fun x _ => ?_, fun x _ h => ?_, fun x _ h hx => ?_, fun x _ h hx => ?_⟩ <;> beta_reduce at *
  · by_cases hm : x ∈ ev
    · rw [e1 x hm]; exact hst x hm
    · rw [e2 x hm]
  all_goals
    by_cases hm : x ∈ ev
    swap
    · rw [e2 x hm] at h; exact absurd rfl h
    rw [e1 x hm] at h ⊢
  · exact (hmin x hm h).1
  · exact (hmin x hm h).2.1 hx
  · exact (hmin x hm h).2.2 hx

open Classical in
/-- The bounds of a run hold for every coherent system that agrees with the answers the run has seen,
whatever the system function says, or would say, about other vectors. -/
theorem C115_bounds {c : RunCfg K} (hv : VarisOK c.vs) (hp : ProbOK c.vs c.probs)
    {rules : Rules K} {brs : Option (List (Branch K))} {st : RunState K}
    (h : run c rules brs = .ok st) (hcoh : Coherent c.vs Φ) (hs : StartOK c Φ rules brs)
    (hst : ∀ x ∈ st.evals, (c.sysFun x).st = if Φ x then .s else .f)
    (hmin : ∀ x ∈ st.evals, (c.sysFun x).min ≠ [] → RuleOK c.vs (c.sysFun x).min ∧
      (Φ x = true → ValidS c.vs Φ (c.sysFun x).min ∧ AppliesS (c.sysFun x).min x) ∧
      (Φ x = false → ValidF c.vs Φ (c.sysFun x).min ∧ AppliesF (c.sysFun x).min x)) :
    ∀ row ∈ st.mon, row.pfLow ≤ pFail c.vs c.probs Φ ∧ pFail c.vs c.probs Φ ≤ row.pfUp := by
  have h2 := C115_local_exact (f := fun x => if x ∈ st.evals then c.sysFun x
    else ⟨0, if Φ x then .s else .f, []⟩) h (fun x hx => by simp [hx])
  exact (C27_bounds (c := c.withSys fun x => if x ∈ st.evals then c.sysFun x
    else ⟨0, if Φ x then .s else .f, []⟩) ⟨hv, hcoh, hp, sysOK_patch hst hmin⟩
    ⟨hs.dict, hs.valid, hs.good⟩ h2).1

end

/-- Two components; the system survives when both work or both fail, which is not coherent. -/
def Ex.equal : RunCfg ℕ :=
  { Ex.bridge (1 / 2) 20 with
    vs := [(0, 2), (1, 2)]
    sysFun := fun x => { val := 0, st := if x 0 = x 1 then .s else .f, min := [] } }

def Ex.equalΦ (x : ℕ → ℕ) : Bool := decide (x 0 = x 1)

theorem Ex.equal_run : (run Ex.equal { s := [], f := [] } none).toOption.map
    (fun st => (st.mon.getLast?.map (fun r => (r.pfLow, r.pfUp)),
      decide (st.outFlag = some .complete),
      st.evals.all fun x => decide ((x 0 = x 1) ↔ (1 ≤ x 0 ∧ 1 ≤ x 1)))) =
    some (some (19 / 100, 19 / 100), true, true) := by decide +kernel

/-- Without coherence the claim about the bounds is false, and nothing in the result shows it: the run
ends `complete`, both bounds are 19/100, and the system fails with probability 18/100. -/
theorem C115_not_coherent : ∃ (c : RunCfg ℕ) (Φ : (ℕ → ℕ) → Bool) (st : RunState ℕ) (row : MonRow),
    VarisOK c.vs ∧ ProbOK c.vs c.probs ∧ SysOK c.vs Φ c.sysFun ∧
    run c { s := [], f := [] } none = .ok st ∧ st.outFlag = some .complete ∧
    st.mon.getLast? = some row ∧ row.pfUp = row.pfLow ∧ pFail c.vs c.probs Φ < row.pfLow := by
  have k := Ex.equal_run
  cases h : run Ex.equal { s := [], f := [] } none with
  | error e => rw [h] at k; cases k
  | ok st =>
    rw [h] at k
    simp only [Except.toOption, Option.map_some, Option.some.injEq, Prod.mk.injEq,
      Option.map_eq_some_iff, decide_eq_true_eq] at k
    obtain ⟨⟨row, k1, k2, k3⟩, k4, -⟩ := k
    refine ⟨Ex.equal, Ex.equalΦ, st, row, ⟨by simp [Ex.equal], by simp [Ex.equal]⟩,
      ⟨by decide +kernel, by decide +kernel⟩, ?_, h, k4, k1, by rw [k2, k3], ?_⟩
    · refine ⟨fun x _ => ?_, fun x _ h => absurd rfl h, fun x _ h => absurd rfl h,
        fun x _ h => absurd rfl h⟩
      by_cases h : x 0 = x 1 <;> simp [Ex.equal, Ex.equalΦ, h]
    · rw [k2]
      decide +kernel

/-- The hypotheses of `C115_bounds` are met by that run and the system in series, with which it agrees
at every vector it evaluated. -/
example : ∃ st, run Ex.equal { s := [], f := [] } none = .ok st ∧
    ∀ row ∈ st.mon, row.pfLow ≤ pFail Ex.equal.vs Ex.equal.probs (fun x => decide (1 ≤ x 0 ∧ 1 ≤ x 1)) ∧
      pFail Ex.equal.vs Ex.equal.probs (fun x => decide (1 ≤ x 0 ∧ 1 ≤ x 1)) ≤ row.pfUp := by
  have k := Ex.equal_run
  cases h : run Ex.equal { s := [], f := [] } none with
  | error e => rw [h] at k; cases k
  | ok st =>
    rw [h] at k
    simp only [Except.toOption, Option.map_some, Option.some.injEq, Prod.mk.injEq,
      decide_eq_true_eq, List.all_eq_true] at k
    refine ⟨st, rfl, C115_bounds ⟨by simp [Ex.equal], by simp [Ex.equal]⟩
      ⟨by decide +kernel, by decide +kernel⟩ h ?_ ?_ (fun x hx => ?_)
      (fun x _ hm => absurd rfl hm)⟩
    · intro x y hxy hx
      have h0 := hxy (0, 2) (by simp [Ex.equal])
      have h1 := hxy (1, 2) (by simp [Ex.equal])
      simp only [decide_eq_true_eq] at hx ⊢
      simp only at h0 h1
      omega
    · exact ⟨by simp [RulesDict], ⟨by simp, by simp⟩, fun bs hb => by cases hb⟩
    · have := k.2.2 x hx
      by_cases hq : x 0 = x 1
      · simp [Ex.equal, hq, this.mp hq]
      · have hn : ¬(1 ≤ x 0 ∧ 1 ≤ x 1) := fun hc => hq (this.mpr hc)
        rw [decide_eq_false hn]
        simp [Ex.equal, hq]

#print axioms C115_local
#print axioms C115_local_exact
#print axioms C115_bounds
#print axioms C115_not_coherent

end BNS
