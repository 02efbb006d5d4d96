import Verif.Proofs.MsysSamples
import Verif.Props.Msys

/-!
# Property C88: samples through the product of a system CPM and component CPMs
-/

namespace BNS

set_option linter.unusedSectionVars false

section
variable {K : Type} [LinearOrder K] {U : K → Variable K} {cv : List (Variable K)} {cs : List ℕ}
  {S : Cpm K} {comps : List (Cpm K)} {E : K → Cpm K} {σ : ℕ → K → ℕ}

/-- When the system and all components carry samples of the same realisations, the result has the
event matrix it has without samples, and one sample per realisation: it gives every variable of the
result the state of the realisation, its sampling probability and its weight are those of the system
times those of the components among the parents of the system.  Missing for the full claim: a parent
that is neither a component nor a conditioning variable makes the call fail
(`C88_missing_component_raises`), and the samples are dropped when one component has none
(`C88_dropped`). -/
theorem C88_samples_partial (h : MsysSamplesOK U cv cs S comps E σ) :
    ∃ P Q, prodMsysMcomps S comps = .ok P ∧ prodMsysMcompsS S comps = .ok Q ∧ noSamples Q = P ∧
      SamplesOK Q ∧ SampledBy σ Q ∧ Q.sampleIdx.Nodup ∧
      (∀ n, n ∈ Q.sampleIdx ↔ n ∈ S.sampleIdx) ∧ ∀ n ∈ S.sampleIdx,
        numProb Q n = numProb S n * ((compPars S comps).map fun v => numProb (E v.name) n).prod ∧
        numWeight Q n =
          numWeight S n * ((compPars S comps).map fun v => numWeight (E v.name) n).prod := by
  obtain ⟨x0, hx0⟩ := h.tables.compsOK.exists_cond
  have hP := prodMsys_ok h.tables hx0
  rw [prodMsys_noSamples] at hP
  have hwf := msysPure_WF h.tables x0
  set P := msysPure (noSamples S) (comps.map noSamples) (fun k => noSamples (E k)) cv cs x0 with hPd
  have hPv : P.vars = sysCols (noSamples S) (comps.map noSamples) ++
    (extraVars (noSamples S) (comps.map noSamples) cv cs).map Prod.fst := rfl
  obtain ⟨Q, q1, q2, q3, q4⟩ := msysSamples_ok h
  have hsub : ∀ k ∈ P.getNames, k ∈ Q.getNames := by
    intro k hk
    rw [q3]
    obtain ⟨v, hv, rfl⟩ := List.mem_map.1 hk
    rw [hPv, List.mem_append] at hv
    rcases hv with hv | hv
    · exact .inl (List.mem_map_of_mem (((perm_sysCols _ _).mem_iff).1 hv))
    · obtain ⟨vs, hvs, rfl⟩ := List.mem_map.1 hv
      have hcv : vs.1 ∈ cv := (List.of_mem_zip (List.mem_filter.1 hvs).1).1
      by_cases hc : compPars S comps = []
      · exact .inl (h.extra hc _ hcv)
      · obtain ⟨v, hv⟩ := List.exists_mem_of_ne_nil _ hc
        refine .inr ⟨v, hv, ?_⟩
        obtain ⟨m, hm, hk⟩ := of_decide_eq_true (List.mem_filter.1 hv).2
        obtain ⟨u, hu⟩ := h.tables.compsOK.vars _ (List.mem_map_of_mem (f := noSamples) hm)
        rw [h.map m hm _ hk]
        have hu' : m.vars = u :: cv := hu
        unfold Cpm.getNames
        rw [hu']
        exact List.mem_cons_of_mem _ (List.mem_map_of_mem hcv)
  obtain ⟨Cs, r1, r2, r3⟩ := reindex_samples hwf q2 hsub
  have hzip : (cv.zip cs).map (fun vs => vs.1.name) = cv.map Variable.name := by
    have : (cv.zip cs).map Prod.fst = cv :=
      List.map_fst_zip (by rw [h.tables.compsOK.cond_facts.2.1])
    conv_rhs => rw [← this]
    rw [List.map_map]
    rfl
  have hflat : S.Cs.flatten ≠ [] ∧ ∀ m ∈ comps, m.Cs.flatten ≠ [] := by
    have hN : S.sampleIdx ≠ [] := by
      intro h0
      have := h.sys.1.siLen
      rw [h0] at this
      exact h.some_sample (List.length_eq_zero_iff.1 this.symm)
    refine ⟨?_, fun m hm => ?_⟩
    · exact (OnlySamples.of (U := U) h.tables.sys h.sys.1 h.sys.2.1 (fun _ => Iff.rfl) h.tables.scope
        h.sys.2.2).flat hN
    · obtain ⟨u, hu⟩ := h.tables.compsOK.vars _ (List.mem_map_of_mem (f := noSamples) hm)
      have hu' : m.vars = u :: cv := hu
      exact (OnlySamples.of (U := U)
        (h.tables.compsOK.wf _ (List.mem_map_of_mem (f := noSamples) hm)) (h.comp m hm).1
        (h.comp m hm).2.1 (h.nums m hm) (by simp [hu']) (h.comp m hm).2.2).flat hN
  refine ⟨P, _, hP, ?_, noSamples_attach hwf Cs Q.q Q.ps Q.sampleIdx, r2, r3, q2.nodup, q2.nums, q4⟩
  unfold prodMsysMcompsS
  rw [hP, ok_bind, if_pos hflat]
  have hcond := condScope_eq h.tables.compsOK
  rw [condScope_noSamples] at hcond
  rw [hcond, ok_bind, hzip, q1, ok_bind]
  exact r1

/-- Without samples in the system or in one of the components, the result is the one without
samples: all other samples are dropped without notice. -/
theorem C88_dropped (S : Cpm K) (comps : List (Cpm K))
    (h : S.Cs.flatten = [] ∨ ∃ m ∈ comps, m.Cs.flatten = []) :
    prodMsysMcompsS S comps = prodMsysMcomps (noSamples S) (comps.map noSamples) := by
  rw [prodMsys_noSamples]
  unfold prodMsysMcompsS
  have hn : ¬(S.Cs.flatten ≠ [] ∧ ∀ m ∈ comps, m.Cs.flatten ≠ []) := by
    rintro ⟨h1, h2⟩
    rcases h with h | ⟨m, hm, h⟩
    · exact h1 h
    · exact h2 m hm h
  cases prodMsysMcomps S comps with
  | error e => rfl
  | ok P => rw [ok_bind, if_neg hn]; rfl

/-- A parent of the system that is neither a component nor a conditioning variable is accepted
without samples, but with samples the same call raises `AssertionError`. -/
theorem C88_missing_component_raises {D : K → Cpm K}
    (h : MsysOK U cv cs (noSamples S) (comps.map noSamples) D)
    (hf : S.Cs.flatten ≠ [] ∧ ∀ m ∈ comps, m.Cs.flatten ≠ []) (v : Variable K)
    (hv : v ∈ S.vars.drop S.noChild) (hc : v.name ∉ cv.map Variable.name)
    (hm : ∀ m ∈ comps, v.name ∉ childNames m) :
    (∃ P, prodMsysMcomps (noSamples S) (comps.map noSamples) = .ok P) ∧
    prodMsysMcompsS S comps = .error .assertion := by
  obtain ⟨x0, hx0⟩ := h.compsOK.exists_cond
  have hP := prodMsys_ok h hx0
  refine ⟨⟨_, hP⟩, ?_⟩
  rw [prodMsys_noSamples] at hP
  unfold prodMsysMcompsS
  have hcond := condScope_eq h.compsOK
  rw [condScope_noSamples] at hcond
  rw [hP, ok_bind, if_pos hf, hcond, ok_bind]
  have hzip : (cv.zip cs).map (fun vs => vs.1.name) = cv.map Variable.name := by
    have : (cv.zip cs).map Prod.fst = cv :=
      List.map_fst_zip (by rw [h.compsOK.cond_facts.2.1])
    conv_rhs => rw [← this]
    rw [List.map_map]
    rfl
  have hfind : comps.find? (fun m => (m.vars.head?.map Variable.name) = some v.name) = none := by
    rw [List.find?_eq_none]
    intro m hmm he
    obtain ⟨u, hu⟩ := h.compsOK.vars _ (List.mem_map_of_mem (f := noSamples) hmm)
    have h1 : m.noChild = 1 := h.compsOK.noChild (noSamples m) (List.mem_map_of_mem hmm)
    have hu' : m.vars = u :: cv := hu
    apply hm m hmm
    unfold childNames
    rw [hu'] at he ⊢
    rw [h1]
    simp only [List.head?_cons, Option.map_some, Option.some.injEq, decide_eq_true_eq] at he
    simp [he]
  have hfold : ∀ (ps : List (Variable K)) (d : List (K × Cpm K)), v ∈ ps →
      ps.foldlM (samplesStep comps (cv.map Variable.name)) d = .error .assertion := by
    intro ps
    induction ps with
    | nil => intro d hd; cases hd
    | cons w ps ih =>
      intro d hd
      rw [List.foldlM_cons]
      by_cases hw : v = w
      · subst hw
        unfold samplesStep
        rw [if_neg hc, hfind]
        rfl
      · have hv' : v ∈ ps := by
          rcases List.mem_cons.1 hd with h | h
          · exact absurd h hw
          · exact h
        unfold samplesStep
        split
        · rw [ok_bind]; exact ih _ hv'
        · split
          · rfl
          · rw [ok_bind]; exact ih _ hv'
  obtain ⟨v0, vr, hvr⟩ := List.exists_cons_of_ne_nil (show S.vars ≠ [] from h.scope)
  unfold msysSamples
  rw [hvr, show pyGet (v0 :: vr) 0 = .ok v0 from rfl, ok_bind, ← hvr, hzip, hfold _ _ hv]
  rfl

end

/-! ## A case of each -/

namespace Ex

/-- the realisations numbered 7, 5 and 9: states of the variables 3 (system), 0 and 2 -/
def joint (n k : ℕ) : ℕ :=
  if n = 7 then (if k = 2 then 2 else 1) else if n = 5 then 0 else if k = 2 then 1 else if k = 0 then 1 else 0

def SyS : Cpm ℕ :=
  { Sy with Cs := [[1, 1, 2], [0, 0, 0], [0, 1, 1]], q := [1, 1, 1], sampleIdx := [7, 5, 9] }
def AS : Cpm ℕ :=
  { A with Cs := [[0], [1], [1]], q := [1/10, 9/10, 4/5], ps := [1/5, 4/5, 1], sampleIdx := [5, 7, 9] }
def C2S : Cpm ℕ :=
  { C2 with Cs := [[1], [2], [0]], q := [3/10, 1/2, 1/5], sampleIdx := [9, 7, 5] }

theorem sampledBy_of (σ : ℕ → ℕ → ℕ) (M : Cpm ℕ)
    (h : ∀ p ∈ M.sampleIdx.zip M.Cs, ∀ v ∈ M.vars, sampleState M.vars p.2 v.name = σ p.1 v.name) :
    SampledBy σ M := fun i _ _ h1 h2 =>
  h _ (List.mem_of_getElem? (List.getElem?_zip_eq_some.2 ⟨h1, h2⟩ : _ = some (_, _)) (i := i))

theorem msys_samples_ok :
    MsysSamplesOK U [] [] SyS [AS, C2S] (fun k => if k = 0 then AS else C2S) joint where
  tables := by
    have h := msys_ok
    have e : (fun k => noSamples (if k = 0 then AS else C2S)) = fun k : ℕ => if k = 0 then A else C2 := by
      funext k
      split <;> rfl
    rw [e]
    exact h
  map := by decide +kernel
  child := by decide
  some_sample := by simp [SyS]
  sys := ⟨by decide +kernel, by decide, sampledBy_of _ _ (by decide +kernel)⟩
  comp := by
    intro m hm
    simp only [List.mem_cons, List.not_mem_nil, or_false] at hm
    rcases hm with rfl | rfl
    · exact ⟨by decide +kernel, by decide, sampledBy_of _ _ (by decide +kernel)⟩
    · exact ⟨by decide +kernel, by decide, sampledBy_of _ _ (by decide +kernel)⟩
  nums := by
    intro m hm n
    simp only [List.mem_cons, List.not_mem_nil, or_false] at hm
    rcases hm with rfl | rfl <;> simp [AS, C2S, SyS] <;> tauto
  all := by decide +kernel
  extra := by simp

/-- without the CPM of component 2 -/
theorem msys_missing_ok :
    MsysOK U [] [] (noSamples SyS) ([AS].map noSamples) (fun _ => A) where
  sys := by decide +kernel
  scope := by simp [SyS, Sy, noSamples]
  some_row := by simp [SyS, Sy, noSamples]
  compsOK := ⟨by simp, by decide +kernel, by
      intro m hm
      simp only [List.map_cons, List.map_nil, List.mem_cons, List.not_mem_nil, or_false] at hm
      subst hm
      exact ⟨U 0, rfl⟩, by decide +kernel, by decide +kernel, by decide +kernel, by decide +kernel,
    by simp, by decide +kernel, by simp⟩
  map := by decide +kernel
  notChild := by decide +kernel
  condNotChild := by simp

theorem msys_missing_hyps : (SyS.Cs.flatten ≠ [] ∧ ∀ m ∈ [AS], m.Cs.flatten ≠ []) ∧
    (∃ v ∈ SyS.vars.drop SyS.noChild, v.name ∉ ([] : List (Variable ℕ)).map Variable.name ∧
      ∀ m ∈ [AS], v.name ∉ childNames m) := by
  decide +kernel

end Ex

end BNS
