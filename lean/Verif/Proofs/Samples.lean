import Verif.Spec.Samples
import Verif.Proofs.CpmProb
import Verif.Proofs.CpmProdList
import Mathlib.Data.List.GetD

/-! CPMs with samples: the samples ride along with the operations on the event matrix. -/

namespace BNS

set_option linter.unusedSectionVars false

section
variable {K : Type} [DecidableEq K] {U : K → Variable K} {M : Cpm K} {cv : List (Variable K)}
  {cs : List ℕ}

/-- `X` with the samples of `M` -/
def attach (M X : Cpm K) : Cpm K :=
  { X with Cs := M.Cs, q := M.q, ps := M.ps, sampleIdx := M.sampleIdx }

/-- the sample checks of the constructor -/
structure SampChk (vars : List (Variable K)) (M : Cpm K) : Prop where
  cs : checkCs vars M.Cs = .ok ()
  q : M.q = [] ∨ M.Cs.flatten = [] ∨ M.q.length = M.Cs.length
  ps : M.ps = [] ∨ M.Cs.flatten = [] ∨ M.ps.length = M.Cs.length
  si : M.sampleIdx = [] ∨ M.Cs.flatten = [] ∨ M.sampleIdx.length = M.Cs.length

theorem checkCs_ok {vs : List (Variable K)} {C : List (List ℕ)}
    (hl : ∀ r ∈ C, r.length = vs.length)
    (he : ∀ r ∈ C, ∀ p ∈ vs.zip r, p.2 ≤ p.1.values.length) : checkCs vs C = .ok () := by
  unfold checkCs
  split
  · rfl
  · have h1 : C.Pairwise (fun a b => a.length = b.length) := by
      rw [List.pairwise_iff_getElem]
      intro i j hi hj _
      rw [hl _ (List.getElem_mem hi), hl _ (List.getElem_mem hj)]
    rw [if_neg (not_not.2 h1), if_pos]
    simp only [Bool.and_eq_true, List.all_eq_true, decide_eq_true_eq]
    exact ⟨hl, fun r hr p hp => he r hr p hp⟩

theorem SamplesOK.chk (h : SamplesOK M) : SampChk M.vars M :=
  ⟨checkCs_ok h.rowLen fun r hr p hp => (h.entry r hr p hp).le, .inr (.inr h.qLen),
    h.psLen.imp id .inr, .inr (.inr h.siLen)⟩

theorem mk'_attach {X : Cpm K} (hX : Cpm.mk' (noSamples X) = .ok (noSamples X))
    (hs : SampChk X.vars X) : Cpm.mk' X = .ok X := by
  unfold Cpm.mk' at hX
  simp only [bind_ok] at hX
  obtain ⟨u1, h1, u2, h2, u3, h3, -⟩ := hX
  unfold Cpm.mk'
  have h1' : pyAssert (X.noChild ≤ X.vars.length) = .ok u1 := h1
  have h2' : checkC X.vars X.C = .ok u2 := h2
  have h3' : pyAssert (X.p = [] ∨ X.p.length = X.C.length) = .ok u3 := h3
  rw [h1', ok_bind, h2', ok_bind, h3', ok_bind, hs.cs, ok_bind, pyAssert_true hs.q, ok_bind,
    pyAssert_true hs.ps, ok_bind, pyAssert_true hs.si, ok_bind]
  rfl

theorem getSubset_attach {P : Cpm K} {idx : List ℕ} {flag : Bool} (hs : SampChk M.vars M)
    (h : (noSamples M).getSubset idx flag = .ok P) : M.getSubset idx flag = .ok (attach M P) := by
  unfold Cpm.getSubset at h ⊢
  simp only [bind_ok] at h
  obtain ⟨rows, h1, p, h2, C, h3, h4⟩ := h
  have hP := mk'_eq h4
  have h1' : subsetRows M.C.length idx flag = .ok rows := h1
  have h2' : takeRowsOpt M.p rows = .ok p := h2
  have h3' : takeRows M.C rows = .ok C := h3
  rw [h1', ok_bind, h2', ok_bind, h3', ok_bind]
  subst hP
  exact mk'_attach h4 ⟨hs.cs, hs.q, hs.ps, hs.si⟩

theorem isCompatibleM_attach (one : Cpm K) (flag : Bool) :
    M.isCompatibleM one flag = (noSamples M).isCompatibleM one flag := rfl

theorem getProb_attach {a : ℚ} {flag : Bool} (hs : SampChk M.vars M)
    (h : (noSamples M).getProb cv cs flag = .ok a) : M.getProb cv cs flag = .ok a := by
  unfold Cpm.getProb at h ⊢
  simp only [bind_ok] at h
  obtain ⟨u, h1, Mc, h2, mask, h3, X, h4, h5⟩ := h
  rw [h1, ok_bind, h2, ok_bind, isCompatibleM_attach, h3, ok_bind, getSubset_attach hs h4, ok_bind]
  exact h5

theorem basic_lt {n s : ℕ} (h : s < n) : s + 1 < 2 ^ n := by
  have := Nat.lt_two_pow_self (n := n)
  omega

/-- the states queried for one sample -/
def sampleQuery (vars cv : List (Variable K)) (cs c : List ℕ) : List ℕ :=
  vars.map fun v => override cv cs (sampleState vars c) v.name

theorem varStates_eq (hn : (M.vars.map Variable.name).Nodup) {c : List ℕ}
    (hc : c.length = M.vars.length) :
    ((ismemberOn Variable.name M.vars cv).zip c).map (fun ri =>
      match ri.1 with
      | some r => cs.getD r 0
      | none => ri.2) = sampleQuery M.vars cv cs c := by
  unfold sampleQuery
  apply List.ext_getElem
  · simp [ismemberOn, hc]
  · intro i h1 h2
    have hi : i < M.vars.length := by simpa using h2
    have hidx : (M.vars.map Variable.name).idxOf M.vars[i].name = i := by
      have := hn.idxOf_getElem i (by simpa using hi)
      simpa using this
    simp only [List.getElem_map, List.getElem_zip, ismemberOn, override, sampleState, hidx]
    rw [idxOf?_eq]
    by_cases hm : M.vars[i].name ∈ cv.map Variable.name
    · rw [if_pos hm, if_pos hm]
    · rw [if_neg hm, if_neg hm]
      simp only
      rw [List.getD_eq_getElem _ _ (by omega)]

theorem sampleQuery_ok (h : WF U (noSamples M)) (hs : SamplesOK M)
    (he : EvidenceOK U M.getNames cv cs) (hn : (cv.map Variable.name).Nodup) (hv : M.vars ≠ [])
    {c : List ℕ} (hc : c ∈ M.Cs) :
    QueryOK U M.getNames M.vars (sampleQuery M.vars cv cs c) := by
  have hst : ∀ p ∈ M.vars.zip (sampleQuery M.vars cv cs c), p.2 + 1 < 2 ^ p.1.values.length := by
    intro p hp
    unfold sampleQuery at hp
    rw [List.zip_map_right, List.mem_map] at hp
    obtain ⟨⟨v, v'⟩, hm, rfl⟩ := hp
    have hvv : v = v' := by
      rw [show M.vars.zip M.vars = M.vars.map fun v => (v, v) by
        simp [List.zip_eq_zipWith]] at hm
      obtain ⟨w, -, hw⟩ := List.mem_map.1 hm
      cases hw; rfl
    subst hvv
    have hvm := (List.of_mem_zip hm).1
    simp only [Prod.map, id, override]
    split
    · rename_i hin
      have hlt : (cv.map Variable.name).idxOf v.name < cv.length := by
        simpa using List.idxOf_lt_length_iff.2 hin
      have hmem : (cv[(cv.map Variable.name).idxOf v.name],
          cs[(cv.map Variable.name).idxOf v.name]'(by rw [he.len]; exact hlt)) ∈ cv.zip cs := by
        rw [List.mem_iff_getElem]
        exact ⟨_, by simp [he.len]; exact hlt, by simp⟩
      have hname : (cv[(cv.map Variable.name).idxOf v.name]).name = v.name := by
        have := List.getElem_idxOf (List.idxOf_lt_length_iff.2 hin)
        rwa [List.getElem_map] at this
      have hvn : v.name ∈ M.getNames := List.mem_map_of_mem hvm
      have h1 := he.state _ hmem (by simpa [hname] using hvn)
      have h2 := he.env _ hmem (by simpa [hname] using hvn)
      simp only [hname] at h2
      rw [h.env v hvm] at h2
      rw [← h2] at h1
      unfold sampleState
      rw [List.getD_eq_getElem _ _ (by rw [he.len]; exact hlt)]
      exact h1
    · apply basic_lt
      exact (zip_forall_iff h.nodup (hs.rowLen c hc) (fun v s => s < v.values.length)).1
        (hs.entry c hc) v hvm
  refine ⟨⟨by simp [sampleQuery], ?_, fun p hp _ => hst p hp⟩, hv, hst, h.nodup⟩
  intro p hp _
  exact h.env p.1 (List.of_mem_zip hp).1

theorem Cs_vars_ne (hs : SamplesOK M) (h0 : M.Cs.flatten ≠ []) : M.vars ≠ [] := by
  intro hv
  apply h0
  rw [List.flatten_eq_nil_iff]
  intro c hc
  have := hs.rowLen c hc
  rw [hv] at this
  exact List.length_eq_zero_iff.1 this

/-- the weight `condition` records for one sample, given its conditioned table `P` -/
noncomputable def condWeight (P M : Cpm K) (cv : List (Variable K)) (cs c : List ℕ) : ℚ :=
  (maskRows (P.C.map fun r => compatRow P M.vars (sampleQuery M.vars cv cs c) r) P.p).sum

theorem condition_attach (h : WF U (noSamples M)) (hs : SamplesOK M) (h0 : M.Cs.flatten ≠ [])
    (he : EvidenceOK U M.getNames cv cs) (hn : (cv.map Variable.name).Nodup) :
    M.condition cv cs = .ok { attach M (condPure (noSamples M) cv cs) with
      ps := if ∃ k ∈ childNames M, k ∈ cv.map Variable.name then
          List.zipWith (fun c q => condWeight (condPure (noSamples M) cv cs) M cv cs c * q) M.Cs M.q
        else if ∃ k ∈ M.getNames, k ∈ cv.map Variable.name then
          M.Cs.map (condWeight (condPure (noSamples M) cv cs) M cv cs)
        else M.q } := by
  have hc := condition_ok h he hn
  have hwf := condPure_WF h he hn
  have hv := Cs_vars_ne hs h0
  unfold Cpm.condition at hc ⊢
  simp only [bind_ok] at hc
  obtain ⟨mask, g1, cv', g2, cs', g3, Cc, g4, u1, g5, u2, g6, g7⟩ := hc
  rw [if_pos (by simp [noSamples])] at g7
  have g1' : isCompatible M.C M.vars cv cs = .ok mask := g1
  have g2' : getValueGivenCondn cv (ismemberOn Variable.name cv M.vars) = .ok cv' := g2
  have g3' : getValueGivenCondn cs (ismemberOn Variable.name cv M.vars) = .ok cs' := g3
  have g5' : checkC M.vars Cc = .ok u1 := g5
  rw [g1', ok_bind]
  simp only
  rw [g2', ok_bind, g3', ok_bind]
  erw [g4]
  rw [ok_bind, g5', ok_bind]
  erw [g6]
  rw [ok_bind, if_neg h0]
  have g7' : ({ noSamples M with C := Cc, p := if M.p = [] then [] else maskRows mask M.p } :
      Cpm K) = condPure (noSamples M) cv cs := by
    have := g7
    rw [pure_ok] at this
    injection this
  have hPC : Cc = (condPure (noSamples M) cv cs).C := by rw [← g7']
  have hPp : (if M.p = [] then [] else maskRows mask M.p) = (condPure (noSamples M) cv cs).p := by
    rw [← g7']
  rw [hPC, hPp]
  have hprob : ∀ c ∈ M.Cs, (attach M (condPure (noSamples M) cv cs)).getProb M.vars
      (((ismemberOn Variable.name M.vars cv).zip c).map fun ri =>
        match ri.1 with
        | some r => cs.getD r 0
        | none => ri.2) true = .ok (condWeight (condPure (noSamples M) cv cs) M cv cs c) := by
    intro c hcm
    rw [varStates_eq (M := M) h.nodup (hs.rowLen c hcm)]
    refine getProb_attach (M := attach M (condPure (noSamples M) cv cs)) ?_ ?_
    · exact ⟨hs.chk.cs, hs.chk.q, hs.chk.ps, hs.chk.si⟩
    · have := getProb_ok hwf (sampleQuery_ok h hs he hn hv hcm) true
      simp only [if_true] at this
      exact this
  have hres1 : ((ismemberOn Variable.name M.vars cv).take M.noChild).any Option.isSome = true ↔
      ∃ k ∈ childNames M, k ∈ cv.map Variable.name := by
    unfold ismemberOn childNames
    rw [← List.map_take, List.any_map, List.any_eq_true]
    simp only [Function.comp, idxOf?_eq]
    constructor
    · rintro ⟨v, hv, h1⟩
      refine ⟨v.name, List.mem_map_of_mem hv, ?_⟩
      by_contra hh
      rw [if_neg hh] at h1
      cases h1
    · rintro ⟨k, hk, h1⟩
      obtain ⟨v, hv, rfl⟩ := List.mem_map.1 hk
      exact ⟨v, hv, by rw [if_pos h1]; rfl⟩
  have hres2 : (ismemberOn Variable.name M.vars cv).all Option.isNone = true ↔
      ¬ ∃ k ∈ M.getNames, k ∈ cv.map Variable.name := by
    unfold ismemberOn Cpm.getNames
    rw [List.all_map, List.all_eq_true]
    simp only [Function.comp, idxOf?_eq, not_exists, not_and]
    constructor
    · intro ha k hk h1
      obtain ⟨v, hv, rfl⟩ := List.mem_map.1 hk
      have := ha v hv
      rw [if_pos h1] at this
      cases this
    · intro ha v hv
      rw [if_neg (ha v.name (List.mem_map_of_mem hv))]
      rfl
  by_cases hch : ∃ k ∈ childNames M, k ∈ cv.map Variable.name
  · rw [if_pos (hres1.2 hch), if_pos hch]
    have hm : (M.Cs.zip M.q).mapM (fun cq => do
        let pr ← (attach M (condPure (noSamples M) cv cs)).getProb M.vars
          (((ismemberOn Variable.name M.vars cv).zip cq.1).map fun ri =>
            match ri.1 with
            | some r => cs.getD r 0
            | none => ri.2) true
        return pr * cq.2) = (.ok ((M.Cs.zip M.q).map fun cq =>
          condWeight (condPure (noSamples M) cv cs) M cv cs cq.1 * cq.2) : Except Err (List ℚ)) := by
      refine mapM_ok fun cq hcq => ?_
      rw [hprob cq.1 (List.of_mem_zip hcq).1, ok_bind]
      rfl
    erw [hm]
    rw [ok_bind, pyAssert_true (.inr (by simp [hs.qLen])), ok_bind, List.zip_eq_zipWith,
      List.map_zipWith]
    rfl
  · rw [if_neg (fun hh => hch (hres1.1 hh)), if_neg hch]
    by_cases hin : ∃ k ∈ M.getNames, k ∈ cv.map Variable.name
    · rw [if_neg (fun hh => hres2.1 hh hin), if_pos hin]
      have hm := mapM_ok hprob
      erw [hm]
      rfl
    · rw [if_pos (hres2.2 hin), if_neg hin]
      rfl

/-- with basic evidence the recorded weight is the table's value at the overwritten sample -/
theorem condWeight_basic (h : WF U (noSamples M)) (hs : SamplesOK M)
    (he : EvidenceOK U M.getNames cv cs) (hn : (cv.map Variable.name).Nodup)
    (hv : M.vars ≠ [])
    (hb : ∀ p ∈ cv.zip cs, p.1.name ∈ M.getNames → p.2 < p.1.values.length)
    {c : List ℕ} (hc : c ∈ M.Cs) :
    condWeight (condPure (noSamples M) cv cs) M cv cs c =
      dens (noSamples M) (override cv cs (sampleState M.vars c)) := by
  have hwf := condPure_WF h he hn
  have hq := sampleQuery_ok h hs he hn hv hc
  set P := condPure (noSamples M) cv cs with hP
  set y := override cv cs (sampleState M.vars c) with hy
  have hbasic : ∀ v ∈ M.vars, stateSet v (y v.name) = {y v.name} := by
    intro v hvm
    refine stateSet_basic (h.table v hvm) ?_
    rw [hy]
    unfold override
    split
    · rename_i hin
      have hlt : (cv.map Variable.name).idxOf v.name < cv.length := by
        simpa using List.idxOf_lt_length_iff.2 hin
      have hmem : (cv[(cv.map Variable.name).idxOf v.name],
          cs[(cv.map Variable.name).idxOf v.name]'(by rw [he.len]; exact hlt)) ∈ cv.zip cs := by
        rw [List.mem_iff_getElem]
        exact ⟨_, by simp [he.len]; exact hlt, by simp⟩
      have hname : (cv[(cv.map Variable.name).idxOf v.name]).name = v.name := by
        have := List.getElem_idxOf (List.idxOf_lt_length_iff.2 hin)
        rwa [List.getElem_map] at this
      have hvn : v.name ∈ M.getNames := List.mem_map_of_mem hvm
      have h1 := hb _ hmem (by simpa [hname] using hvn)
      have h2 := he.env _ hmem (by simpa [hname] using hvn)
      simp only [hname] at h2
      rw [h.env v hvm] at h2
      rw [← h2] at h1
      unfold sampleState
      rw [List.getD_eq_getElem _ _ (by rw [he.len]; exact hlt)]
      exact h1
    · exact (zip_forall_iff h.nodup (hs.rowLen c hc) (fun v s => s < v.values.length)).1
        (hs.entry c hc) v hvm
  have hcons : ∀ x, Consistent P.getNames M.vars (sampleQuery M.vars cv cs c) x ↔
      ∀ v ∈ M.vars, x v.name = y v.name := by
    intro x
    unfold Consistent sampleQuery
    rw [List.zip_map_right]
    rw [show M.vars.zip M.vars = M.vars.map fun v => (v, v) by simp [List.zip_eq_zipWith]]
    simp only [List.map_map, List.mem_map, forall_exists_index, and_imp, forall_apply_eq_imp_iff₂,
      Function.comp, Prod.map, id]
    refine forall_congr' fun v => imp_congr_right fun hvm => ?_
    rw [← hy, hbasic v hvm, Finset.mem_singleton]
    exact ⟨fun hh => hh (List.mem_map_of_mem hvm), fun hh _ => hh⟩
  have hcompat : ∀ r ∈ P.C, compatRow P M.vars (sampleQuery M.vars cv cs c) r =
      decide (RowMatches P.vars r y) := by
    intro r hr
    rw [Bool.eq_iff_iff, decide_eq_true_iff]
    rw [compatRow_iff hwf hq.ev hq.nodup hr]
    constructor
    · rintro ⟨x, h1, h2⟩
      rw [hcons] at h1
      intro vs hvs
      rw [← h1 vs.1 (List.of_mem_zip hvs).1]
      exact h2 vs hvs
    · intro h2
      exact ⟨y, (hcons y).2 fun _ _ => rfl, h2⟩
  have hsum : condWeight P M cv cs c = dens P y := by
    unfold condWeight dens
    rw [List.map_congr_left hcompat, maskRows_map]
    generalize P.C.zip P.p = l
    induction l with
    | nil => rfl
    | cons a l ih =>
      rw [List.filter_cons, List.map_cons, List.sum_cons, ← ih]
      by_cases hm : RowMatches P.vars a.1 y <;> simp [hm]
  rw [hsum, hP, dens_condPure h he hn, if_pos]
  intro p hp hin
  have hvm : p.1 ∈ M.vars := by
    have h1 := he.env p hp hin
    have h2 := h.mem_of_name hin
    rw [h1] at h2
    exact h2
  have hyp : y p.1.name = p.2 := by
    rw [hy]
    unfold override
    rw [if_pos (List.mem_map_of_mem (List.of_mem_zip hp).1)]
    obtain ⟨i, hi, rfl⟩ := List.mem_iff_getElem.1 hp
    have hi' : i < cv.length := by
      simp at hi; omega
    have : (cv.map Variable.name).idxOf cv[i].name = i := by
      have := hn.idxOf_getElem i (by simpa using hi')
      simpa using this
    simp only [List.getElem_zip]
    unfold sampleState
    rw [this, List.getD_eq_getElem _ _ (by rw [he.len]; exact hi')]
  have := hbasic p.1 hvm
  rw [hyp] at this ⊢
  rw [this]
  simp

end
end BNS
