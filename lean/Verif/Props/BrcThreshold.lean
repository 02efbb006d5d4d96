import Verif.Props.BrcReuse
import Verif.Props.Trans

/-!
# Property C111: using the rules of a run for another threshold
-/

namespace BNS

set_option linter.unusedSectionVars false

section
variable {K : Type} [DecidableEq K] {Φ Φ₁ Φ₂ : (K → ℕ) → Bool}

/-- The vectors a run evaluated are decided by its rules as the system function decided them. -/
theorem evals_covered {c : RunCfg K} (hc : CfgOK c Φ) {rules : Rules K}
    {brs : Option (List (Branch K))} (hs : StartOK c Φ rules brs) {st : RunState K}
    (h : run c rules brs = .ok st) : ∀ x ∈ st.evals, InSpace c.vs x ∧
      (Φ x = true → CoveredS st.rules x) ∧ (Φ x = false → CoveredF st.rules x) := by
  have hv := (C27_bounds hc hs h).2.2.1
  have hin := (C27_bounds hc hs h).2.1
  have hcov : ∀ x ∈ st.evals, CoveredS st.rules x ∨ CoveredF st.rules x := by
    obtain ⟨st1, h1, rfl⟩ := run_eq h
    obtain ⟨hi, -⟩ := run_inv hc hs h1
    split <;> exact fun x hx => (hi.evals x hx).2
  intro x hx
  refine ⟨hin x hx, fun ht => ?_, fun ht => ?_⟩
  · rcases hcov x hx with e | ⟨r, hr, ha⟩
    · exact e
    · rw [hv.f r hr x (hin x hx) ha] at ht
      cases ht
  · rcases hcov x hx with ⟨r, hr, ha⟩ | e
    · rw [hv.s r hr x (hin x hx) ha] at ht
      cases ht
    · exact e

/-- Survival rules of a stricter system and failure rules of a looser one. -/
theorem start_between {vs : List (K × ℕ)} {R₁ R₂ : Rules K} (d₁ : RulesDict vs R₁)
    (d₂ : RulesDict vs R₂) (v₁ : RulesValid vs Φ₁ R₁) (v₂ : RulesValid vs Φ₂ R₂)
    (h₁ : ∀ x, InSpace vs x → Φ₁ x = true → Φ x = true)
    (h₂ : ∀ x, InSpace vs x → Φ x = true → Φ₂ x = true) {c : RunCfg K} (hvs : c.vs = vs) :
    StartOK c Φ { s := R₁.s, f := R₂.f } none := by
  subst hvs
  refine ⟨fun r hr => ?_, ⟨fun r hr x hx ha => h₁ x hx (v₁.s r hr x hx ha), fun r hr x hx ha => ?_⟩,
    by simp⟩
  · rcases List.mem_append.1 hr with hr | hr
    · exact d₁ r (List.mem_append_left _ hr)
    · exact d₂ r (List.mem_append_right _ hr)
  · by_contra hn
    rw [Bool.not_eq_false] at hn
    have := v₂.f r hr x hx ha
    rw [h₂ x hx hn] at this
    cases this

/-- The survival rules of a run for a stricter requirement and the failure rules of a run for a looser
one, handed to a run for a requirement in between: every bound the latter monitors is valid for its own
requirement, and it evaluates no vector that the first has found to survive or the second to fail. -/
theorem C111_between {c₁ c₂ c : RunCfg K} (hc₁ : CfgOK c₁ Φ₁) (hc₂ : CfgOK c₂ Φ₂) (hc : CfgOK c Φ)
    (e₁ : c₁.vs = c.vs) (e₂ : c₂.vs = c.vs)
    (h₁ : ∀ x, InSpace c.vs x → Φ₁ x = true → Φ x = true)
    (h₂ : ∀ x, InSpace c.vs x → Φ x = true → Φ₂ x = true)
    (hm : c.activeDecomp = true ∨ 2 * (c.vs.map Prod.snd).prod ≤ c.maxNb)
    {r₁ r₂ : Rules K} {b₁ b₂ : Option (List (Branch K))} (hs₁ : StartOK c₁ Φ₁ r₁ b₁)
    (hs₂ : StartOK c₂ Φ₂ r₂ b₂) {st₁ st₂ st : RunState K} (hr₁ : run c₁ r₁ b₁ = .ok st₁)
    (hr₂ : run c₂ r₂ b₂ = .ok st₂)
    (h : run c { s := st₁.rules.s, f := st₂.rules.f } none = .ok st) :
    (∀ row ∈ st.mon, row.pfLow ≤ pFail c.vs c.probs Φ ∧ pFail c.vs c.probs Φ ≤ row.pfUp) ∧
    RulesValid c.vs Φ st.rules ∧
    (∀ x ∈ st₁.evals, Φ₁ x = true → ∀ y ∈ st.evals, ∃ kn ∈ c.vs, x kn.1 ≠ y kn.1) ∧
    (∀ x ∈ st₂.evals, Φ₂ x = false → ∀ y ∈ st.evals, ∃ kn ∈ c.vs, x kn.1 ≠ y kn.1) := by
  have s₁ := start_rules hc₁ hs₁ hr₁ (c' := c) e₁.symm
  have s₂ := start_rules hc₂ hs₂ hr₂ (c' := c) e₂.symm
  have hs : StartOK c Φ { s := st₁.rules.s, f := st₂.rules.f } none :=
    start_between s₁.dict s₂.dict s₁.valid s₂.valid h₁ h₂ rfl
  have hun := run_uncovered hc hm hs h
  refine ⟨(C27_bounds hc hs h).1, (C27_bounds hc hs h).2.2.1, fun x hx ht y hy => ?_,
    fun x hx ht y hy => ?_⟩
  · by_contra hn
    push Not at hn
    refine (getState_u.1 (hun y hy)).1 ((getState_congr hs.dict hn).1.1 ?_)
    exact (evals_covered hc₁ hs₁ hr₁ x hx).2.1 ht
  · by_contra hn
    push Not at hn
    refine (getState_u.1 (hun y hy)).2 ((getState_congr hs.dict hn).2.1 ?_)
    exact (evals_covered hc₂ hs₂ hr₂ x hx).2.2 ht

/-- For a looser requirement the survival rules can be kept. -/
theorem C111_looser {c₁ c : RunCfg K} (hc₁ : CfgOK c₁ Φ₁) (hc : CfgOK c Φ) (e₁ : c₁.vs = c.vs)
    (h₁ : ∀ x, InSpace c.vs x → Φ₁ x = true → Φ x = true)
    (hm : c.activeDecomp = true ∨ 2 * (c.vs.map Prod.snd).prod ≤ c.maxNb)
    {r₁ : Rules K} {b₁ : Option (List (Branch K))} (hs₁ : StartOK c₁ Φ₁ r₁ b₁)
    {st₁ st : RunState K} (hr₁ : run c₁ r₁ b₁ = .ok st₁)
    (h : run c { s := st₁.rules.s, f := [] } none = .ok st) :
    (∀ row ∈ st.mon, row.pfLow ≤ pFail c.vs c.probs Φ ∧ pFail c.vs c.probs Φ ≤ row.pfUp) ∧
    (∀ x ∈ st₁.evals, Φ₁ x = true → ∀ y ∈ st.evals, ∃ kn ∈ c.vs, x kn.1 ≠ y kn.1) := by
  have s₁ := start_rules hc₁ hs₁ hr₁ (c' := c) e₁.symm
  have hs : StartOK c Φ { s := st₁.rules.s, f := [] } none :=
    start_between (R₂ := { s := [], f := [] }) (Φ₂ := Φ) s₁.dict (fun r hr => by simp at hr) s₁.valid
      ⟨fun r hr => by simp at hr, fun r hr => by simp at hr⟩ h₁ (fun _ _ h => h) rfl
  have hun := run_uncovered hc hm hs h
  refine ⟨(C27_bounds hc hs h).1, fun x hx ht y hy => ?_⟩
  by_contra hn
  push Not at hn
  refine (getState_u.1 (hun y hy)).1 ((getState_congr hs.dict hn).1.1 ?_)
  exact (evals_covered hc₁ hs₁ hr₁ x hx).2.1 ht

/-- For a stricter requirement the failure rules can be kept. -/
theorem C111_stricter {c₂ c : RunCfg K} (hc₂ : CfgOK c₂ Φ₂) (hc : CfgOK c Φ) (e₂ : c₂.vs = c.vs)
    (h₂ : ∀ x, InSpace c.vs x → Φ x = true → Φ₂ x = true)
    (hm : c.activeDecomp = true ∨ 2 * (c.vs.map Prod.snd).prod ≤ c.maxNb)
    {r₂ : Rules K} {b₂ : Option (List (Branch K))} (hs₂ : StartOK c₂ Φ₂ r₂ b₂)
    {st₂ st : RunState K} (hr₂ : run c₂ r₂ b₂ = .ok st₂)
    (h : run c { s := [], f := st₂.rules.f } none = .ok st) :
    (∀ row ∈ st.mon, row.pfLow ≤ pFail c.vs c.probs Φ ∧ pFail c.vs c.probs Φ ≤ row.pfUp) ∧
    (∀ x ∈ st₂.evals, Φ₂ x = false → ∀ y ∈ st.evals, ∃ kn ∈ c.vs, x kn.1 ≠ y kn.1) := by
  have s₂ := start_rules hc₂ hs₂ hr₂ (c' := c) e₂.symm
  have hs : StartOK c Φ { s := [], f := st₂.rules.f } none :=
    start_between (R₁ := { s := [], f := [] }) (Φ₁ := Φ) (fun r hr => by simp at hr) s₂.dict
      ⟨fun r hr => by simp at hr, fun r hr => by simp at hr⟩ s₂.valid (fun _ _ h => h) h₂ rfl
  have hun := run_uncovered hc hm hs h
  refine ⟨(C27_bounds hc hs h).1, fun x hx ht y hy => ?_⟩
  by_contra hn
  push Not at hn
  refine (getState_u.1 (hun y hy)).2 ((getState_congr hs.dict hn).2.1 ?_)
  exact (evals_covered hc₂ hs₂ hr₂ x hx).2.2 ht

/-- For the travel-time system function: the survival rules of a run with threshold `th₁` and the
failure rules of a run with threshold `th₂` can be used with every threshold in between, and the bounds
are valid for that threshold.  Missing: multigraphs and thresholds that are zero, as for C48. -/
theorem C111_travel_time_partial {G : NGraph K} {varis : List (K × Variable K)} {lib : PathLib K}
    (hlib : PathLibOK lib) (hG : GraphOK G) (hmu : G.multi = false) (ht : TimesOK G varis)
    (hv : varis ≠ []) {o d : K} (hr : ∃ es ns, Route G o es ns d) {th₁ th th₂ : ℚ} (z₁ : th₁ ≠ 0)
    (z : th ≠ 0) (z₂ : th₂ ≠ 0) (l₁ : th₁ ≤ th) (l₂ : th ≤ th₂)
    [DecidablePred (InTime G varis o d th)] {c₁ c c₂ : RunCfg K}
    (e₁ : c₁.vs = statesOf varis) (e : c.vs = statesOf varis) (e₂ : c₂.vs = statesOf varis)
    (p₁ : ProbOK c₁.vs c₁.probs) (p : ProbOK c.vs c.probs) (p₂ : ProbOK c₂.vs c₂.probs)
    (f₁ : c₁.sysFun = sysFunWrap lib G (.pair o d) varis (some th₁) c₁.vs)
    (f : c.sysFun = sysFunWrap lib G (.pair o d) varis (some th) c.vs)
    (f₂ : c₂.sysFun = sysFunWrap lib G (.pair o d) varis (some th₂) c₂.vs)
    (hm : c.activeDecomp = true ∨ 2 * (c.vs.map Prod.snd).prod ≤ c.maxNb)
    {st₁ st₂ st : RunState K} (hr₁ : run c₁ { s := [], f := [] } none = .ok st₁)
    (hr₂ : run c₂ { s := [], f := [] } none = .ok st₂)
    (h : run c { s := st₁.rules.s, f := st₂.rules.f } none = .ok st) :
    ∀ row ∈ st.mon, row.pfLow ≤ probOf c.vs c.probs (fun x => ¬ InTime G varis o d th x) ∧
      probOf c.vs c.probs (fun x => ¬ InTime G varis o d th x) ≤ row.pfUp := by
  classical
  have mk : ∀ {c : RunCfg K} {t : ℚ} [DecidablePred (InTime G varis o d t)], t ≠ 0 →
      c.vs = statesOf varis → ProbOK c.vs c.probs →
      c.sysFun = sysFunWrap lib G (.pair o d) varis (some t) c.vs →
      CfgOK c fun x => decide (InTime G varis o d t x) := by
    intro c t _ ht0 hvs hp hsf
    have hs := sysFun_time hlib hG hmu ht hv hr ht0 (Φ := fun x => decide (InTime G varis o d t x))
      (by simp)
    rw [← hvs, ← hsf] at hs
    exact ⟨by rw [hvs]; exact timesOK_varis ht, hs.2, hp, hs.1⟩
  have looser : ∀ {a b : ℚ}, a ≤ b → ∀ x, InTime G varis o d a x → InTime G varis o d b x := by
    rintro a b hab x ⟨es, ns, h1, h2⟩
    exact ⟨es, ns, h1, h2.trans hab⟩
  have := (C111_between (mk z₁ e₁ p₁ f₁) (mk z₂ e₂ p₂ f₂) (mk z e p f) (e₁.trans e.symm)
    (e₂.trans e.symm) (fun x _ hx => by simpa using looser l₁ x (by simpa using hx))
    (fun x _ hx => by simpa using looser l₂ x (by simpa using hx)) hm (Ex.start_empty _)
    (Ex.start_empty _) hr₁ hr₂ h).1
  rw [pFail_decide] at this
  exact this

end

/-- Two components of which one suffices. -/
def Ex.either : RunCfg ℕ :=
  { Ex.reuse1 with
    sysFun := fun x => { val := 0, st := if 1 ≤ x 0 ∨ 1 ≤ x 1 then .s else .f, min := [] } }

def Ex.eitherΦ (x : ℕ → ℕ) : Bool := decide (1 ≤ x 0 ∨ 1 ≤ x 1)

theorem Ex.either_ok : CfgOK Ex.either Ex.eitherΦ := by
  refine ⟨Ex.series_ok.vs, ?_, Ex.series_ok.probs, ?_⟩
  · intro x y h hx
    have h0 := h (0, 2) (by decide)
    have h1 := h (1, 2) (by decide)
    simp only [Ex.eitherΦ, decide_eq_true_eq] at hx ⊢
    simp only at h0 h1
    omega
  · refine ⟨fun x _ => ?_, fun x _ h => absurd rfl h, fun x _ h => absurd rfl h,
      fun x _ h => absurd rfl h⟩
    by_cases h : 1 ≤ x 0 ∨ 1 ≤ x 1 <;> simp [Ex.either, Ex.eitherΦ, h]

theorem Ex.looser : ∀ x, InSpace Ex.either.vs x → Ex.seriesΦ x = true → Ex.eitherΦ x = true := by
  intro x _ h
  simp only [Ex.seriesΦ, Ex.eitherΦ, decide_eq_true_eq] at h ⊢
  exact .inl h.1

/-- The survival rules of the series system handed to the system of which one component suffices: the
vector with both components working is not evaluated again, and the bounds reach 1/4. -/
example : CfgOK Ex.reuse1 Ex.seriesΦ ∧ CfgOK Ex.either Ex.eitherΦ ∧
    Ex.reuse1.vs = Ex.either.vs ∧ Ex.either.activeDecomp = true ∧
    ((run Ex.reuse1 { s := [], f := [] } none).bind
      fun st => run Ex.either { s := st.rules.s, f := [] } none).toOption.map
      (fun st => (st.mon.map (fun r => (r.pfLow, r.pfUp)), st.evals.map fun x => (x 0, x 1))) =
      some ([(0, 3 / 4), (0, 1 / 2), (0, 1 / 4), (1 / 4, 1 / 4)], [(0, 1), (1, 0), (0, 0)]) :=
  ⟨Ex.reuse1_ok, Ex.either_ok, rfl, rfl, by decide +kernel⟩

/-- Handing over all rules is wrong: with the rules of a complete run for a stricter requirement `run`
reports the stricter failure probability for the looser requirement, without an evaluation. -/
theorem C111_not_all : ∃ (c₁ c : RunCfg ℕ) (Φ₁ Φ : (ℕ → ℕ) → Bool) (st₁ st : RunState ℕ),
    CfgOK c₁ Φ₁ ∧ CfgOK c Φ ∧ c₁.vs = c.vs ∧
    (∀ x, InSpace c.vs x → Φ₁ x = true → Φ x = true) ∧
    run c₁ { s := [], f := [] } none = .ok st₁ ∧ run c st₁.rules none = .ok st ∧
    st.outFlag = some .complete ∧ st.evals.length = 0 ∧
    st.mon.map (fun r => (r.pfLow, r.pfUp)) = [(3 / 4, 3 / 4)] ∧ pFail c.vs c.probs Φ = 1 / 4 := by
  have h : ((run Ex.reuse1 { s := [], f := [] } none).bind
      fun st => run Ex.either st.rules none).toOption.map
      (fun st => (st.outFlag, st.evals.length, st.mon.map fun r => (r.pfLow, r.pfUp))) =
      some (some .complete, 0, [(3 / 4, 3 / 4)]) := by decide +kernel
  cases hd : run Ex.reuse1 { s := [], f := [] } none with
  | error e => rw [hd] at h; cases h
  | ok st =>
    rw [hd] at h
    change (run Ex.either st.rules none).toOption.map
      (fun st => (st.outFlag, st.evals.length, st.mon.map fun r => (r.pfLow, r.pfUp))) = _ at h
    cases hd' : run Ex.either st.rules none with
    | error e => rw [hd'] at h; cases h
    | ok st' =>
      rw [hd'] at h
      simp only [Except.toOption, Option.map_some, Option.some.injEq, Prod.mk.injEq] at h
      exact ⟨Ex.reuse1, Ex.either, Ex.seriesΦ, Ex.eitherΦ, st, st', Ex.reuse1_ok, Ex.either_ok, rfl,
        Ex.looser, hd, hd', h.1, h.2.1, h.2.2, by decide +kernel⟩

/-- The triangle with uniform component states and a threshold. -/
def Ex.triTime (th : ℚ) : RunCfg ℕ :=
  { vs := statesOf Ex.triVaris
    probs := fun k _ => if k = 10 then 1 / 3 else 1 / 2
    sysFun := sysFunWrap enumLib Ex.tri (.pair 0 2) Ex.triVaris (some th) (statesOf Ex.triVaris)
    maxSf := 100
    maxNb := 100 }

theorem Ex.triTime_probs (th : ℚ) : ProbOK (Ex.triTime th).vs (Ex.triTime th).probs := by
  have h : ProbOK (Ex.triTime 0).vs (Ex.triTime 0).probs := ⟨by decide +kernel, by decide +kernel⟩
  exact h

open Classical in
/-- Non-vacuity of `C111_travel_time_partial`: thresholds 2, 3 and 6 on the triangle. -/
example {st₁ st₂ st : RunState ℕ} (h₁ : run (Ex.triTime 2) { s := [], f := [] } none = .ok st₁)
    (h₂ : run (Ex.triTime 6) { s := [], f := [] } none = .ok st₂)
    (h : run (Ex.triTime 3) { s := st₁.rules.s, f := st₂.rules.f } none = .ok st) :
    ∀ row ∈ st.mon,
      row.pfLow ≤ probOf (Ex.triTime 3).vs (Ex.triTime 3).probs
        (fun x => ¬ InTime Ex.tri Ex.triVaris 0 2 3 x) ∧
      probOf (Ex.triTime 3).vs (Ex.triTime 3).probs
        (fun x => ¬ InTime Ex.tri Ex.triVaris 0 2 3 x) ≤ row.pfUp :=
  C111_travel_time_partial enumLib_ok Ex.tri_ok rfl Ex.tri_times (by decide) Ex.tri_route
    (th₁ := 2) (th₂ := 6) (by decide +kernel) (by decide +kernel) (by decide +kernel)
    (by decide +kernel) (by decide +kernel) rfl rfl rfl (Ex.triTime_probs 2) (Ex.triTime_probs 3)
    (Ex.triTime_probs 6) rfl rfl rfl (.inl rfl) h₁ h₂ h

/-- These runs return; the third starts with one survival and one failure rule and evaluates four
vectors instead of five. -/
example : (run (Ex.triTime 2) { s := [], f := [] } none).toOption.map (fun st => st.rules.s) =
      some [[(10, 2), (11, 1)]] ∧
    (run (Ex.triTime 6) { s := [], f := [] } none).toOption.map (fun st => st.rules.f) =
      some [[(10, 0), (11, 0), (12, 0)]] ∧
    (run (Ex.triTime 3) { s := [[(10, 2), (11, 1)]], f := [[(10, 0), (11, 0), (12, 0)]] }
      none).toOption.map
      (fun st => (st.mon.map fun r => (r.pfLow, r.pfUp), st.evals.length, st.outFlag)) =
      some ([(1 / 12, 5 / 6), (1 / 12, 2 / 3), (1 / 12, 1 / 3), (1 / 4, 1 / 3), (1 / 3, 1 / 3)], 4,
        some .complete) ∧
    (run (Ex.triTime 3) { s := [], f := [] } none).toOption.map (fun st => st.evals.length) =
      some 5 :=
  ⟨by decide +kernel, by decide +kernel, by decide +kernel, by decide +kernel⟩

end BNS
