import Verif.Props.BrcThreshold
import Verif.Props.Flow
import Verif.Props.Pipes

/-!
# Property C111 for demands: flow networks and pipe systems
-/

namespace BNS

set_option linter.unusedSectionVars false

section
variable {K N : Type} [DecidableEq K] [DecidableEq N] {edges : List (K × N × N)} {ends : K → N × N}
  {varis : List (K × Variable K)} {o d newT : N}

/-- The survival rules of a run for a larger demand and the failure rules of a run for a smaller one,
handed to a run for a demand in between: the bounds are valid for that demand, and no vector that
already sends the larger demand, or fails to send the smaller one, is evaluated again.  Missing:
parallel components, as for C47. -/
theorem C111_flow_partial {lib : FlowLib N} (hlib : FlowLibOK lib) {c₁ c c₂ : RunCfg K}
    (hN : FlowNetOK c.vs edges ends varis o d newT) {t₁ t t₂ : ℚ} (h0 : 0 ≤ t₂) (l₂ : t₂ ≤ t)
    (l₁ : t ≤ t₁) [DecidablePred (CanSend c.vs ends varis o d t)] (hvs : VarisOK c.vs)
    (e₁ : c₁.vs = c.vs) (e₂ : c₂.vs = c.vs) (p₁ : ProbOK c₁.vs c₁.probs) (p : ProbOK c.vs c.probs)
    (p₂ : ProbOK c₂.vs c₂.probs) (f₁ : c₁.sysFun = flowSysFun lib newT t₁ o d edges varis c.vs)
    (f : c.sysFun = flowSysFun lib newT t o d edges varis c.vs)
    (f₂ : c₂.sysFun = flowSysFun lib newT t₂ o d edges varis c.vs)
    (hm : c.activeDecomp = true ∨ 2 * (c.vs.map Prod.snd).prod ≤ c.maxNb)
    {st₁ st₂ st : RunState K} (hr₁ : run c₁ { s := [], f := [] } none = .ok st₁)
    (hr₂ : run c₂ { s := [], f := [] } none = .ok st₂)
    (h : run c { s := st₁.rules.s, f := st₂.rules.f } none = .ok st) :
    (∀ row ∈ st.mon,
      row.pfLow ≤ probOf c.vs c.probs (fun x => ¬ CanSend c.vs ends varis o d t x) ∧
      probOf c.vs c.probs (fun x => ¬ CanSend c.vs ends varis o d t x) ≤ row.pfUp) ∧
    (∀ x ∈ st₁.evals, CanSend c.vs ends varis o d t₁ x → ∀ y ∈ st.evals,
      ∃ kn ∈ c.vs, x kn.1 ≠ y kn.1) ∧
    (∀ x ∈ st₂.evals, ¬ CanSend c.vs ends varis o d t₂ x → ∀ y ∈ st.evals,
      ∃ kn ∈ c.vs, x kn.1 ≠ y kn.1) := by
  classical
  have mk : ∀ {c' : RunCfg K} {s : ℚ} [DecidablePred (CanSend c.vs ends varis o d s)], 0 ≤ s →
      c'.vs = c.vs → ProbOK c'.vs c'.probs →
      c'.sysFun = flowSysFun lib newT s o d edges varis c.vs →
      CfgOK c' fun x => decide (CanSend c.vs ends varis o d s x) := by
    intro c' s _ hs0 hv hp hsf
    have hs := sysFun_flow hlib hN hs0 (Φ := fun x => decide (CanSend c.vs ends varis o d s x))
      (by simp)
    exact ⟨by rw [hv]; exact hvs, by rw [hv]; exact hs.2, hp, by rw [hv, hsf]; exact hs.1⟩
  have less : ∀ {a b : ℚ}, a ≤ b → ∀ x, CanSend c.vs ends varis o d b x →
      CanSend c.vs ends varis o d a x := by
    rintro a b hab x ⟨φ, h1, h2, h3⟩
    exact ⟨φ, h1, h2, hab.trans h3⟩
  have := C111_between (mk (h0.trans (l₂.trans l₁)) e₁ p₁ f₁) (mk h0 e₂ p₂ f₂)
    (mk (h0.trans l₂) rfl p f) e₁ e₂ (fun x _ hx => by simpa using less l₁ x (by simpa using hx))
    (fun x _ hx => by simpa using less l₂ x (by simpa using hx)) hm (Ex.start_empty _)
    (Ex.start_empty _) hr₁ hr₂ h
  refine ⟨?_, fun x hx hs => this.2.2.1 x hx (by simpa using hs),
    fun x hx hs => this.2.2.2 x hx (by simpa using hs)⟩
  have hb := this.1
  rw [pFail_decide] at hb
  exact hb

end

section
variable {E K : Type} [DecidableEq E] [DecidableEq K] {S : PipeSys E K} {compOf : E → K}

/-- The same for the demand of a pipe system. -/
theorem C111_pipes {lib : List ℚ → List LinRow → MilpRes} (hlib : MilpLibOK lib)
    {c₁ c c₂ : RunCfg K} (hP : PipesOK S compOf c.vs) {t₁ t t₂ : ℚ} (l₂ : t₂ ≤ t) (l₁ : t ≤ t₁)
    [DecidablePred (Delivers S compOf t)] (hvs : VarisOK c.vs) (e₁ : c₁.vs = c.vs)
    (e₂ : c₂.vs = c.vs) (p₁ : ProbOK c₁.vs c₁.probs) (p : ProbOK c.vs c.probs)
    (p₂ : ProbOK c₂.vs c₂.probs) (f₁ : c₁.sysFun = pipesSysFun lib t₁ S (enumIdx S) c.vs)
    (f : c.sysFun = pipesSysFun lib t S (enumIdx S) c.vs)
    (f₂ : c₂.sysFun = pipesSysFun lib t₂ S (enumIdx S) c.vs)
    (hm : c.activeDecomp = true ∨ 2 * (c.vs.map Prod.snd).prod ≤ c.maxNb)
    {st₁ st₂ st : RunState K} (hr₁ : run c₁ { s := [], f := [] } none = .ok st₁)
    (hr₂ : run c₂ { s := [], f := [] } none = .ok st₂)
    (h : run c { s := st₁.rules.s, f := st₂.rules.f } none = .ok st) :
    (∀ row ∈ st.mon, row.pfLow ≤ probOf c.vs c.probs (fun x => ¬ Delivers S compOf t x) ∧
      probOf c.vs c.probs (fun x => ¬ Delivers S compOf t x) ≤ row.pfUp) ∧
    (∀ x ∈ st₁.evals, Delivers S compOf t₁ x → ∀ y ∈ st.evals, ∃ kn ∈ c.vs, x kn.1 ≠ y kn.1) ∧
    (∀ x ∈ st₂.evals, ¬ Delivers S compOf t₂ x → ∀ y ∈ st.evals, ∃ kn ∈ c.vs, x kn.1 ≠ y kn.1) := by
  classical
  have mk : ∀ {c' : RunCfg K} {s : ℚ} [DecidablePred (Delivers S compOf s)],
      c'.vs = c.vs → ProbOK c'.vs c'.probs → c'.sysFun = pipesSysFun lib s S (enumIdx S) c.vs →
      CfgOK c' fun x => decide (Delivers S compOf s x) := by
    intro c' s _ hv hp hsf
    have hs := sysFun_pipes hlib hP s (Φ := fun x => decide (Delivers S compOf s x)) (by simp)
    exact ⟨by rw [hv]; exact hvs, by rw [hv]; exact hs.2, hp, by rw [hv, hsf]; exact hs.1⟩
  have less : ∀ {a b : ℚ}, a ≤ b → ∀ x, Delivers S compOf b x → Delivers S compOf a x := by
    rintro a b hab x ⟨g, u, h1, h2⟩
    exact ⟨g, u, h1, hab.trans h2⟩
  have := C111_between (mk e₁ p₁ f₁) (mk e₂ p₂ f₂) (mk rfl p f) e₁ e₂
    (fun x _ hx => by simpa using less l₁ x (by simpa using hx))
    (fun x _ hx => by simpa using less l₂ x (by simpa using hx)) hm (Ex.start_empty _)
    (Ex.start_empty _) hr₁ hr₂ h
  refine ⟨?_, fun x hx hs => this.2.2.1 x hx (by simpa using hs),
    fun x hx hs => this.2.2.2 x hx (by simpa using hs)⟩
  have hb := this.1
  rw [pFail_decide] at hb
  exact hb

end

/-- The network of the documentation of `max_flow` with a demand. -/
noncomputable def Ex.flowDemand (t : ℚ) : RunCfg ℕ :=
  { vs := Ex.flowVs, probs := fun _ _ => 1 / 3
    sysFun := flowSysFun bestFlowLib 0 t 1 4 Ex.flowEdges Ex.flowVaris Ex.flowVs
    maxSf := 300, maxNb := 600 }

theorem Ex.flowDemand_ok {t : ℚ} (h : 0 ≤ t) {Φ : (ℕ → ℕ) → Bool}
    (hΦ : ∀ x, Φ x = true ↔ CanSend Ex.flowVs Ex.flowEnds Ex.flowVaris 1 4 t x) :
    CfgOK (Ex.flowDemand t) Φ := by
  have hs := sysFun_flow bestFlowLib_ok Ex.flowNet h hΦ
  have hp : ProbOK Ex.flowVs fun _ _ => 1 / 3 := ⟨by decide +kernel, by decide +kernel⟩
  have hv : VarisOK Ex.flowVs := ⟨by decide, by decide⟩
  exact ⟨hv, hs.2, hp, hs.1⟩

open Classical in
/-- Non-vacuity of `C111_flow_partial`: the demands 3, 2 and 1, all three runs returning. -/
example : ∃ st₁ st₂ st : RunState ℕ, run (Ex.flowDemand 3) { s := [], f := [] } none = .ok st₁ ∧
    run (Ex.flowDemand 1) { s := [], f := [] } none = .ok st₂ ∧
    run (Ex.flowDemand 2) { s := st₁.rules.s, f := st₂.rules.f } none = .ok st ∧
    ∀ row ∈ st.mon, row.pfLow ≤ probOf Ex.flowVs (fun _ _ => 1 / 3)
      (fun x => ¬ CanSend Ex.flowVs Ex.flowEnds Ex.flowVaris 1 4 2 x) := by
  have ok : ∀ t : ℚ, 0 ≤ t → CfgOK (Ex.flowDemand t)
      fun x => decide (CanSend Ex.flowVs Ex.flowEnds Ex.flowVaris 1 4 t x) :=
    fun t h => Ex.flowDemand_ok h (by simp)
  have z1 : (0 : ℚ) ≤ 1 := by norm_num
  have z2 : (0 : ℚ) ≤ 2 := by norm_num
  have z3 : (0 : ℚ) ≤ 3 := by norm_num
  have big : ∀ t, 2 * ((Ex.flowDemand t).vs.map Prod.snd).prod ≤ (Ex.flowDemand t).maxNb := by
    intro t
    show 2 * (Ex.flowVs.map Prod.snd).prod ≤ 600
    decide
  obtain ⟨st₁, h₁⟩ := C27_returns_other (ok 3 z3) (big 3) (Ex.start_empty _) (resume_none _ _)
  obtain ⟨st₂, h₂⟩ := C27_returns_other (ok 1 z1) (big 1) (Ex.start_empty _) (resume_none _ _)
  have s₁ := start_rules (ok 3 z3) (Ex.start_empty _) h₁ (c' := Ex.flowDemand 2) rfl
  have s₂ := start_rules (ok 1 z1) (Ex.start_empty _) h₂ (c' := Ex.flowDemand 2) rfl
  have less : ∀ {a b : ℚ}, a ≤ b → ∀ x, CanSend Ex.flowVs Ex.flowEnds Ex.flowVaris 1 4 b x →
      CanSend Ex.flowVs Ex.flowEnds Ex.flowVaris 1 4 a x := by
    rintro a b hab x ⟨φ, k1, k2, k3⟩
    exact ⟨φ, k1, k2, hab.trans k3⟩
  have hs : StartOK (Ex.flowDemand 2)
      (fun x => decide (CanSend Ex.flowVs Ex.flowEnds Ex.flowVaris 1 4 2 x))
      { s := st₁.rules.s, f := st₂.rules.f } none :=
    start_between s₁.dict s₂.dict s₁.valid s₂.valid
      (fun x _ hx => by
        simpa using less (by norm_num : (2 : ℚ) ≤ 3) x (by simpa using hx))
      (fun x _ hx => by
        simpa using less (by norm_num : (1 : ℚ) ≤ 2) x (by simpa using hx)) rfl
  obtain ⟨st, h⟩ := C27_returns_other (ok 2 z2) (big 2) hs (resume_none _ _)
  refine ⟨st₁, st₂, st, h₁, h₂, h, fun row hr => ?_⟩
  exact ((C111_flow_partial (c₁ := Ex.flowDemand 3) (c := Ex.flowDemand 2)
    (c₂ := Ex.flowDemand 1) bestFlowLib_ok Ex.flowNet (t₁ := 3) (t := 2)
    (t₂ := 1) z1 (by norm_num) (by norm_num) (ok 2 z2).vs rfl rfl (ok 3 z3).probs (ok 2 z2).probs
    (ok 1 z1).probs rfl rfl rfl (.inl rfl) h₁ h₂ h).1 row hr).1

/-- The pipe system of the repository with a demand. -/
noncomputable def Ex.pipesDemand (t : ℚ) : RunCfg ℕ :=
  { Ex.pipesCfg with sysFun := pipesSysFun bestMilpLib t Ex.pipes (enumIdx Ex.pipes) Ex.pipesVs }

open Classical in
/-- Non-vacuity of `C111_pipes`: the demands 3, 2 and 1, all three runs returning. -/
example : ∃ st₁ st₂ st : RunState ℕ, run (Ex.pipesDemand 3) { s := [], f := [] } none = .ok st₁ ∧
    run (Ex.pipesDemand 1) { s := [], f := [] } none = .ok st₂ ∧
    run (Ex.pipesDemand 2) { s := st₁.rules.s, f := st₂.rules.f } none = .ok st ∧
    ∀ row ∈ st.mon, row.pfLow ≤ probOf Ex.pipesVs Ex.pipesCfg.probs
      (fun x => ¬ Delivers Ex.pipes Ex.pipesComp 2 x) := by
  have hv : VarisOK Ex.pipesVs := ⟨by decide, by decide⟩
  have hp : ProbOK Ex.pipesVs Ex.pipesCfg.probs := ⟨by decide +kernel, by decide +kernel⟩
  have hn : 2 * (Ex.pipesVs.map Prod.snd).prod ≤ 241864704 := by decide +kernel
  have ok : ∀ t : ℚ, CfgOK (Ex.pipesDemand t) fun x => decide (Delivers Ex.pipes Ex.pipesComp t x) := by
    intro t
    have hs := sysFun_pipes bestMilpLib_ok Ex.pipesOK t
      (Φ := fun x => decide (Delivers Ex.pipes Ex.pipesComp t x)) (by simp)
    exact ⟨hv, hs.2, hp, hs.1⟩
  obtain ⟨st₁, h₁⟩ := C27_returns_other (ok 3) hn (Ex.start_empty _) (resume_none _ _)
  obtain ⟨st₂, h₂⟩ := C27_returns_other (ok 1) hn (Ex.start_empty _) (resume_none _ _)
  have s₁ := start_rules (ok 3) (Ex.start_empty _) h₁ (c' := Ex.pipesDemand 2) rfl
  have s₂ := start_rules (ok 1) (Ex.start_empty _) h₂ (c' := Ex.pipesDemand 2) rfl
  have less : ∀ {a b : ℚ}, a ≤ b → ∀ x, Delivers Ex.pipes Ex.pipesComp b x →
      Delivers Ex.pipes Ex.pipesComp a x := by
    rintro a b hab x ⟨g, u, k1, k2⟩
    exact ⟨g, u, k1, hab.trans k2⟩
  have hs : StartOK (Ex.pipesDemand 2) (fun x => decide (Delivers Ex.pipes Ex.pipesComp 2 x))
      { s := st₁.rules.s, f := st₂.rules.f } none :=
    start_between s₁.dict s₂.dict s₁.valid s₂.valid
      (fun x _ hx => by simpa using less (by norm_num : (2 : ℚ) ≤ 3) x (by simpa using hx))
      (fun x _ hx => by simpa using less (by norm_num : (1 : ℚ) ≤ 2) x (by simpa using hx)) rfl
  obtain ⟨st, h⟩ := C27_returns_other (ok 2) hn hs (resume_none _ _)
  refine ⟨st₁, st₂, st, h₁, h₂, h, fun row hr => ?_⟩
  exact ((C111_pipes (c₁ := Ex.pipesDemand 3) (c := Ex.pipesDemand 2) (c₂ := Ex.pipesDemand 1)
    bestMilpLib_ok Ex.pipesOK (t₁ := 3) (t := 2) (t₂ := 1) (by norm_num) (by norm_num) hv rfl rfl hp hp
    hp rfl rfl rfl (.inl rfl) h₁ h₂ h).1 row hr).1

end BNS
