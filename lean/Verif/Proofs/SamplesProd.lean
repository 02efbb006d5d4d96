import Verif.Proofs.Samples

/-! Samples in `Cpm.sum` and `Cpm.product`. -/

namespace BNS

set_option linter.unusedSectionVars false

section
variable {K : Type} [DecidableEq K] {U : K → Variable K} {M : Cpm K}

/-! ### sum -/

theorem sumLoop_attach {n : ℕ} : ∀ {M : Cpm K} {R : List (List ℕ) × List ℚ}, M.Cs = [] →
    sumLoop n (noSamples M) = .ok R → sumLoop n M = .ok R := by
  induction n with
  | zero => intro M R _ h; exact h
  | succ n ih =>
    intro M R h0 h
    have hs : SampChk M.vars M :=
      ⟨by simp [checkCs, h0], .inr (.inl (by simp [h0])), .inr (.inl (by simp [h0])),
        .inr (.inl (by simp [h0]))⟩
    unfold sumLoop at h ⊢
    by_cases hC : M.C.flatten = []
    · rw [if_pos hC]
      rw [if_pos (show (noSamples M).C.flatten = [] from hC)] at h
      exact h
    · rw [if_neg hC]
      rw [if_neg (show (noSamples M).C.flatten ≠ [] from hC)] at h
      simp only [bind_ok] at h
      obtain ⟨Mc, h1, mask, h2, row, h3, M', h4, ⟨Cs, ps⟩, h5, h6⟩ := h
      have hM' : noSamples (attach M M') = M' := by
        unfold Cpm.getSubset at h4
        simp only [bind_ok] at h4
        obtain ⟨_, _, _, _, _, _, h4⟩ := h4
        rw [mk'_eq h4]; rfl
      have h2' : M.isCompatibleM (attach M Mc) false = .ok mask := by
        rw [← h2]
        unfold Cpm.isCompatibleM
        have : (attach M Mc).Cs = Mc.Cs := by
          unfold Cpm.getSubset at h1
          simp only [bind_ok] at h1
          obtain ⟨_, _, _, _, _, _, h1⟩ := h1
          rw [mk'_eq h1]; exact h0
        rw [this]
        rfl
      rw [getSubset_attach hs h1, ok_bind, h2', ok_bind]
      have h3' : pyGet M.C 0 = .ok row := h3
      rw [h3', ok_bind, getSubset_attach hs h4, ok_bind, ih (M := attach M M') h0 (by rw [hM']; exact h5),
        ok_bind]
      exact h6

theorem sumBody_attach {P : Cpm K} {R : List (Variable K)} {idx : List ℕ} (hs : SamplesOK M)
    (h0 : M.Cs.flatten ≠ []) (hn : (M.vars.map Variable.name).Nodup) (hR : ∀ v ∈ R, v ∈ M.vars)
    (h : sumBody (noSamples M) R idx = .ok P) :
    sumBody M R idx = .ok { P with
      Cs := M.Cs.map fun c => P.vars.map fun v => sampleState M.vars c v.name
      q := M.q, ps := M.ps, sampleIdx := M.sampleIdx } ∧
      P.vars = R ++ M.vars.drop M.noChild ∧ noSamples P = P := by
  unfold sumBody at h
  simp only [bind_ok] at h
  obtain ⟨vars', h1, C, h2, M0, h3, ⟨Csum, psum⟩, h4, h5⟩ := h
  have hM0 := mk'_eq h3
  split at h5
  · cases h5
  · rename_i hne
    simp only [bind_ok] at h5
    obtain ⟨Ms, h6, h7⟩ := h5
    rw [if_pos (by simp [noSamples])] at h7
    rw [pure_ok] at h7
    injection h7 with h7
    subst h7
    have hMs := mk'_eq h6
    have hv : Ms.vars = R ++ M.vars.drop M.noChild := by rw [hMs]; rfl
    refine ⟨?_, hv, by rw [hMs]; rfl⟩
    have hin : ∀ v ∈ Ms.vars, v ∈ M.vars := by
      intro v hvm
      rw [hv] at hvm
      rcases List.mem_append.1 hvm with hvm | hvm
      · exact hR v hvm
      · exact List.mem_of_mem_drop hvm
    have h1' : takeRows M.vars (idx ++ List.range' M.noChild (M.vars.length - M.noChild)) =
        .ok vars' := h1
    have h2' : takeCols M.C (idx ++ List.range' M.noChild (M.vars.length - M.noChild)) =
        .ok C := h2
    unfold sumBody
    simp only
    rw [h1', ok_bind, h2', ok_bind]
    have h3' : Cpm.mk' (Cpm.mk vars' (idx ++ List.range' M.noChild (M.vars.length - M.noChild)).length
        C M.p [] M.q [] M.sampleIdx) =
        .ok (Cpm.mk vars' (idx ++ List.range' M.noChild (M.vars.length - M.noChild)).length
        C M.p [] M.q [] M.sampleIdx) := by
      refine mk'_attach ?_ ⟨by simp [checkCs], by simp, by simp, by simp⟩
      rw [hM0] at h3
      exact h3
    rw [h3', ok_bind]
    rw [hM0] at h4
    have h4' := sumLoop_attach (M := (Cpm.mk vars' (idx ++ List.range' M.noChild (M.vars.length - M.noChild)).length
        C M.p [] M.q [] M.sampleIdx)) rfl h4
    simp only at h4'
    rw [h4', ok_bind]
    simp only [if_neg hne]
    have h6' : Cpm.mk' ({ vars := R ++ List.drop M.noChild M.vars, noChild := R.length,
                          C := Csum, p := psum } : Cpm K) = .ok Ms := h6
    rw [h6', ok_bind, if_neg h0]
    have hcol : (ismemberOn Variable.name (R ++ M.vars.drop M.noChild) M.vars).map
        (fun o => o.getD 0) = Ms.vars.map fun v => (M.vars.map Variable.name).idxOf v.name := by
      rw [← hv]
      unfold ismemberOn
      rw [List.map_map]
      refine List.map_congr_left fun v hvm => ?_
      simp only [Function.comp, idxOf?_eq]
      rw [if_pos (List.mem_map_of_mem (hin v hvm))]
      rfl
    rw [hcol, takeCols_ok, ok_bind]
    · have hcs : (M.Cs.map fun r => (Ms.vars.map fun v =>
            (M.vars.map Variable.name).idxOf v.name).map fun i => r.getD i 0) =
          M.Cs.map fun c => Ms.vars.map fun v => sampleState M.vars c v.name := by
        refine List.map_congr_left fun c _ => ?_
        rw [List.map_map]; rfl
      rw [hcs]
      refine mk'_attach ?_ ⟨?_, ?_, ?_, ?_⟩
      · rw [hMs] at h6 ⊢
        exact h6
      · refine checkCs_ok ?_ ?_
        · intro r hr
          obtain ⟨c, _, rfl⟩ := List.mem_map.1 hr
          simp
        · intro r hr p hp
          obtain ⟨c, hc, rfl⟩ := List.mem_map.1 hr
          simp only at hp
          rw [List.zip_map_right, List.mem_map] at hp
          obtain ⟨⟨v, v'⟩, hm, rfl⟩ := hp
          have hvv : v = v' := by
            rw [show Ms.vars.zip Ms.vars = Ms.vars.map fun v => (v, v) by
              simp [List.zip_eq_zipWith]] at hm
            obtain ⟨w, -, hw⟩ := List.mem_map.1 hm
            cases hw; rfl
          subst hvv
          exact ((zip_forall_iff hn (hs.rowLen c hc) (fun v s => s < v.values.length)).1
            (hs.entry c hc) v (hin v (List.of_mem_zip hm).1)).le
      · refine .inr (.inr ?_); simp [hs.qLen]
      · exact hs.psLen.imp id fun hh => .inr (by simpa using hh)
      · refine .inr (.inr ?_); simp [hs.siLen]
    · intro r hr i hi
      obtain ⟨v, hvm, rfl⟩ := List.mem_map.1 hi
      rw [hs.rowLen r hr]
      simpa using List.idxOf_lt_length_iff.2 (List.mem_map_of_mem (f := Variable.name) (hin v hvm))

end

/-! ### product -/

theorem mapM_mono {α β : Type} {f g : α → Except Err β} {l : List α} {ys : List β}
    (hfg : ∀ x ∈ l, ∀ b, f x = .ok b → g x = .ok b) (h : l.mapM f = .ok ys) :
    l.mapM g = .ok ys := by
  induction l generalizing ys with
  | nil => exact h
  | cons a l ih =>
    rw [List.mapM_cons] at h ⊢
    simp only [bind_ok] at h
    obtain ⟨b, h1, bs, h2, h3⟩ := h
    rw [hfg a (by simp) b h1, ok_bind, ih (fun x hx => hfg x (by simp [hx])) h2, ok_bind]
    exact h3

section
variable {K : Type} [LinearOrder K] {U : K → Variable K} {S M : Cpm K}

theorem c1_ok {r : List ℕ} (hr : r.length = S.vars.length) :
    getValueGivenCondn r (ismemberOn Variable.name S.vars M.vars) = .ok (comS S M r) := by
  unfold ismemberOn
  rw [condn_other _ _ _ hr]
  unfold comS
  congr 3
  funext p
  have := idxOf?_eq M.getNames p.1.name
  unfold Cpm.getNames at this ⊢
  by_cases hm : p.1.name ∈ M.vars.map Variable.name
  · rw [if_pos hm] at this
    simp [this, hm]
  · rw [if_neg hm] at this
    simp [this, hm]

theorem notCom_ok {r : List ℕ} (hr : r.length = S.vars.length) :
    ((flip (ismemberOn Variable.name S.vars M.vars)).zipIdx.filterMap
        fun x => if x.1.isSome then some x.2 else none).mapM (fun j => pyGet r j) =
        .ok (notComS S M r) := by
  have h1 : (flip (ismemberOn Variable.name S.vars M.vars)).zipIdx.filterMap
      (fun x => if x.1.isSome then some x.2 else none) =
      S.vars.zipIdx.filterMap fun x =>
        if (!decide (x.1.name ∈ M.getNames)) = true then some x.2 else none := by
    simp only [flip, ismemberOn, List.map_map]
    rw [List.zipIdx_map, List.filterMap_map]
    refine List.filterMap_congr fun x _ => ?_
    have := idxOf?_eq M.getNames x.1.name
    unfold Cpm.getNames at this ⊢
    by_cases hm : x.1.name ∈ M.vars.map Variable.name
    · rw [if_pos hm] at this
      simp [this, hm]
    · rw [if_neg hm] at this
      simp [this, hm]
  obtain ⟨h2, h3⟩ := zipIdx_positions S.vars (fun v => !decide (v.name ∈ M.getNames)) r hr
  rw [h1, mapM_ok (fun j hj => pyGet_lt (h2 j hj) 0), h3]
  rfl

theorem idx2_eq : ((ismemberOn Variable.name (newV S M) (prodV S M)).map fun o => o.getD 0) =
      (newNames S M).map fun k => (prodNames S M).idxOf k := by
  unfold ismemberOn newNames
  rw [List.map_map, List.map_map]
  refine List.map_congr_left fun v hv => ?_
  have hk : v.name ∈ prodNames S M :=
    (mem_prodNames _).2 ((mem_newNames _).1 (List.mem_map_of_mem hv))
  have := idxOf?_eq (prodNames S M) v.name
  rw [if_pos hk] at this
  simp only [Function.comp]
  unfold prodNames at this ⊢
  rw [this]; rfl

theorem productRows_attach (hS : WF U (noSamples S)) (hM : WF U (noSamples M))
    (hsM : SamplesOK M) (h0 : M.Cs.flatten ≠ []) (hne : S.C.flatten ≠ []) :
    productRows S M (ismemberOn Variable.name S.vars M.vars) (comV S M)
      ((flip (ismemberOn Variable.name S.vars M.vars)).zipIdx.filterMap
        fun x => if x.1.isSome then some x.2 else none)
      ((ismemberOn Variable.name (newV S M) (prodV S M)).map fun o => o.getD 0) =
    .ok ((prodPure (noSamples S) (noSamples M)).C, (prodPure (noSamples S) (noSamples M)).p) := by
  have h := productRows_ok hS hM hne
  unfold productRows at h ⊢
  rw [if_neg (show (noSamples S).C.flatten ≠ [] from hne)] at h
  rw [if_neg hne]
  simp only [bind_ok] at h
  obtain ⟨blocks, h1, C, h2, h3⟩ := h
  have hb := mapM_mono (g := fun i => do
      let r ← pyGet S.C i
      let c1 ← getValueGivenCondn r (ismemberOn Variable.name S.vars M.vars)
      let c1n ← ((flip (ismemberOn Variable.name S.vars M.vars)).zipIdx.filterMap
        fun x : Option Unit × ℕ => if x.1.isSome then some x.2 else none).mapM fun j => pyGet r j
      let Mc ← M.condition (comV S M) c1
      let pi ← takeRowsOpt S.p [i]
      return (Mc.C.map (· ++ c1n), pi.map fun y => Mc.p.map (· * y))) ?_ h1
  · rw [show List.range S.C.length = List.range (noSamples S).C.length from rfl, hb, ok_bind]
    have h2' : takeCols (blocks.flatMap fun b => b.1)
      ((ismemberOn Variable.name (newV S M) (prodV S M)).map fun o => o.getD 0) = .ok C := h2
    rw [h2', ok_bind]
    exact h3
  · intro i hi b hb
    simp only [bind_ok] at hb ⊢
    obtain ⟨r, g1, c1, g2, c1n, g3, Mc, g4, pi, g5, g6⟩ := hb
    have hr : r ∈ S.C := by
      have : i < S.C.length := List.mem_range.1 hi
      have g1' : pyGet S.C i = .ok r := g1
      rw [pyGet_lt this []] at g1'
      injection g1' with g1'
      rw [← g1']
      simp [this]
    have hl := hS.rowLen r hr
    have hc1 : c1 = comS S M r := by
      have := c1_ok (S := S) (M := M) hl
      have g2' : getValueGivenCondn r (ismemberOn Variable.name S.vars M.vars) = .ok c1 := g2
      rw [g2'] at this
      injection this
    subst hc1
    have he := com_evidence (M := noSamples M) hS hr
    have hcn := comV_nodup (M := noSamples M) hS
    have hcond := condition_attach hM hsM h0 (cv := comV S M) (cs := comS S M r) he hcn
    have hMc : Mc = condPure (noSamples M) (comV S M) (comS S M r) := by
      have := condition_ok hM he hcn
      have g4' : (noSamples M).condition (comV (noSamples S) (noSamples M))
        (comS (noSamples S) (noSamples M) r) = .ok Mc := g4
      rw [g4'] at this
      injection this
    refine ⟨r, g1, _, g2, c1n, g3, _, hcond, pi, g5, ?_⟩
    rw [← g6, hMc]
    rfl

/-- the sample of `M` with the number of sample `i` of `S` -/
def matchIdx (S M : Cpm K) (i : ℕ) : ℕ := M.sampleIdx.idxOf (S.sampleIdx.getD i 0)

/-- weights of the samples: the recorded ones, or the sampling probabilities -/
def weights (M : Cpm K) : List ℚ := if M.ps = [] then M.q else M.ps

theorem weights_length (h : SamplesOK M) : (weights M).length = M.Cs.length := by
  unfold weights
  split
  · exact h.qLen
  · rename_i hne
    exact (h.psLen.resolve_left hne)

theorem productSamples_ok (hsS : SamplesOK S) (hsM : SamplesOK M)
    (hnd : M.sampleIdx.Nodup) (hsub : ∀ n ∈ S.sampleIdx, n ∈ M.sampleIdx) :
    productSamples S M ((flip (ismemberOn Variable.name S.vars M.vars)).zipIdx.filterMap
        fun x => if x.1.isSome then some x.2 else none)
      ((ismemberOn Variable.name (newV S M) (prodV S M)).map fun o => o.getD 0) =
    .ok ((List.range S.Cs.length).map fun i =>
          reorder S M (M.Cs.getD (matchIdx S M i) [] ++ notComS S M (S.Cs.getD i [])),
        (List.range S.Cs.length).map fun i => M.q.getD (matchIdx S M i) 0 * S.q.getD i 0,
        (List.range S.Cs.length).map fun i =>
          (weights M).getD (matchIdx S M i) 0 * (weights S).getD i 0) := by
  have hlt : ∀ i < S.Cs.length, matchIdx S M i < M.sampleIdx.length := by
    intro i hi
    refine List.idxOf_lt_length_iff.2 (hsub _ ?_)
    have hi' : i < S.sampleIdx.length := by rw [hsS.siLen]; exact hi
    simp [hi']
  have hfil : ∀ i < S.Cs.length, ((List.range M.sampleIdx.length).filter fun j =>
      M.sampleIdx.getD j 0 = S.sampleIdx.getD i 0) = [matchIdx S M i] := by
    intro i hi
    have h1 := hlt i hi
    have hget : M.sampleIdx[matchIdx S M i] = S.sampleIdx.getD i 0 :=
      List.getElem_idxOf h1
    have hsingle : ∀ j ∈ List.range M.sampleIdx.length,
        (decide (M.sampleIdx.getD j 0 = S.sampleIdx.getD i 0)) = (j == matchIdx S M i) := by
      intro j hj
      have hj : j < M.sampleIdx.length := by simpa using hj
      rw [Bool.eq_iff_iff, decide_eq_true_iff, beq_iff_eq, List.getD_eq_getElem _ _ hj, ← hget]
      exact ⟨fun e => (hnd.getElem_inj_iff).1 e, fun e => by simp [e]⟩
    rw [List.filter_congr hsingle, List.filter_beq,
      List.count_eq_one_of_mem List.nodup_range (List.mem_range.2 h1)]
    rfl
  unfold productSamples
  simp only
  have hm : (List.range S.Cs.length).mapM (fun i => do
      let c1 ← pyGet S.Cs i
      let c1n ← ((flip (ismemberOn Variable.name S.vars M.vars)).zipIdx.filterMap
        fun x : Option Unit × ℕ => if x.1.isSome then some x.2 else none).mapM fun j => pyGet c1 j
      let si ← pyGet S.sampleIdx i
      let cand ← takeRows M.Cs ((List.range M.sampleIdx.length).filter fun j =>
        M.sampleIdx.getD j 0 = si)
      let c2 ← pyGet cand 0
      let qi ← pyGet S.q i
      let psi ← pyGet (weights S) i
      let mq ← takeRows M.q ((List.range M.sampleIdx.length).filter fun j =>
        M.sampleIdx.getD j 0 = si)
      let mps ← takeRows (weights M) ((List.range M.sampleIdx.length).filter fun j =>
        M.sampleIdx.getD j 0 = si)
      return (c2 ++ c1n, mq.map (· * qi), mps.map (· * psi))) =
      (.ok ((List.range S.Cs.length).map fun i =>
        (M.Cs.getD (matchIdx S M i) [] ++ notComS S M (S.Cs.getD i []),
          [M.q.getD (matchIdx S M i) 0 * S.q.getD i 0],
          [(weights M).getD (matchIdx S M i) 0 * (weights S).getD i 0])) :
        Except Err (List (List ℕ × List ℚ × List ℚ))) := by
    apply mapM_ok
    intro i hi
    have hi : i < S.Cs.length := by simpa using hi
    have h1 := hlt i hi
    have h1' : matchIdx S M i < M.Cs.length := by rw [← hsM.siLen]; exact h1
    have hmem : S.Cs.getD i [] ∈ S.Cs := by simp [hi]
    rw [pyGet_lt hi [], ok_bind, notCom_ok (hsS.rowLen _ hmem), ok_bind,
      pyGet_lt (by rw [hsS.siLen]; exact hi) 0, ok_bind, hfil i hi,
      takeRows_ok [] (by simpa using h1'), ok_bind]
    simp only [List.map_cons, List.map_nil]
    rw [pyGet_lt (by simp) [], ok_bind, pyGet_lt (by rw [hsS.qLen]; exact hi) 0, ok_bind,
      pyGet_lt (by rw [weights_length hsS]; exact hi) 0, ok_bind,
      takeRows_ok 0 (by simpa [hsM.qLen] using h1'), ok_bind,
      takeRows_ok 0 (by simpa [weights_length hsM] using h1'), ok_bind]
    rfl
  have hm' := hm
  unfold weights at hm'
  rw [hm', ok_bind, takeCols_ok, idx2_eq, ok_bind]
  · rw [pure_ok]
    congr 1
    refine Prod.ext ?_ (Prod.ext ?_ ?_)
    · simp only [List.map_map]
      refine List.map_congr_left fun i _ => ?_
      simp only [Function.comp, reorder, List.map_map]
      rfl
    · simp only; rw [List.flatMap_map, ← List.map_eq_flatMap]
    · simp only; rw [List.flatMap_map, ← List.map_eq_flatMap]; rfl
  · intro row hrow i hi
    rw [List.map_map, List.mem_map] at hrow
    obtain ⟨l, hl, rfl⟩ := hrow
    have hl : l < S.Cs.length := by simpa using hl
    rw [idx2_eq] at hi
    obtain ⟨k, hk, rfl⟩ := List.mem_map.1 hi
    have h1 := List.idxOf_lt_length_iff.2 ((mem_prodNames _).2 ((mem_newNames _).1 hk))
    have h2 : matchIdx S M l < M.Cs.length := by rw [← hsM.siLen]; exact hlt l hl
    have hmem : M.Cs.getD (matchIdx S M l) [] ∈ M.Cs := by simp [h2]
    have hmem' : S.Cs.getD l [] ∈ S.Cs := by simp [hl]
    simp only [Function.comp]
    rw [List.length_append, hsM.rowLen _ hmem, length_notComS _ (hsS.rowLen _ hmem')]
    simpa [prodNames, prodV] using h1

theorem productCore_attach' (hS : WF U (noSamples S)) (hM : WF U (noSamples M))
    (hsS : SamplesOK S) (hsM : SamplesOK M) (h0S : S.Cs.flatten ≠ []) (h0M : M.Cs.flatten ≠ [])
    (hd : ∀ k ∈ childNames S, k ∉ childNames M) (hne : S.C.flatten ≠ [] ∨ S.C = [] ∧ M.C = [])
    (hnd : M.sampleIdx.Nodup) (hsub : ∀ n ∈ S.sampleIdx, n ∈ M.sampleIdx) :
    productCore S M = .ok { sortPure (prodPure (noSamples S) (noSamples M)) with
      Cs := (List.range S.Cs.length).map fun i =>
          reorder S M (M.Cs.getD (matchIdx S M i) [] ++ notComS S M (S.Cs.getD i []))
      q := (List.range S.Cs.length).map fun i => M.q.getD (matchIdx S M i) 0 * S.q.getD i 0
      ps := (List.range S.Cs.length).map fun i =>
          (weights M).getD (matchIdx S M i) 0 * (weights S).getD i 0
      sampleIdx := S.sampleIdx } := by
  have hp0 : ∀ {X : Cpm K}, WF U (noSamples X) → X.C = [] → X.p = [] := by
    intro X hX h
    have := hX.pLen
    rw [show (noSamples X).C = X.C from rfl, h] at this
    exact List.length_eq_zero_iff.1 this
  have hcp : (S.p ≠ [] ∧ (M.p = [] → M.C = [])) ∨ (S.p = [] ∧ M.p = []) := by
    rcases hne with hne | ⟨h1, h2⟩
    · have hSC : S.C ≠ [] := by rintro h; simp [h] at hne
      refine .inl ⟨fun h => ?_, fun h => ?_⟩
      · have := hS.pLen
        rw [show (noSamples S).p = S.p from rfl, h] at this
        exact hSC (List.length_eq_zero_iff.1 this.symm)
      · have := hM.pLen
        rw [show (noSamples M).p = M.p from rfl, h] at this
        exact List.length_eq_zero_iff.1 this.symm
    · exact .inr ⟨hp0 hS h1, hp0 hM h2⟩
  have hwf := prodPure_WF hS hM hd
  unfold productCore
  rw [pyAssert_true, ok_bind]
  swap
  · intro v hv w hw e
    exact hd v.name (List.mem_map_of_mem hv) (e ▸ List.mem_map_of_mem hw)
  have h1 : (if S.p ≠ [] ∧ M.p = [] then M.C.map (fun _ => (1 : ℚ)) else M.p) = M.p := by
    split
    · rename_i h
      rcases hcp with hcp | hcp
      · rw [h.2, hcp.2 h.2]; rfl
      · exact absurd hcp.1 h.1
    · rfl
  have h2 : (if S.p = [] ∧ M.p ≠ [] then S.C.map (fun _ => (1 : ℚ)) else S.p) = S.p := by
    rw [if_neg]
    rintro ⟨ha, hb⟩
    rcases hcp with hcp | hcp
    · exact hcp.1 ha
    · exact hb hcp.2
  simp only [h1, h2]
  rw [if_neg (fun h => h0S h.2)]
  have h3 : getValueGivenCondn S.vars (ismemberOn Variable.name S.vars M.vars) =
      .ok (comV S M) := by
    unfold ismemberOn
    rw [condn_self]
    unfold comV
    congr 2
    funext v
    have := idxOf?_eq M.getNames v.name
    unfold Cpm.getNames at this ⊢
    by_cases hm : v.name ∈ M.vars.map Variable.name
    · rw [if_pos hm] at this
      simp [this, hm]
    · rw [if_neg hm] at this
      simp [this, hm]
  have h4 : getValueGivenCondn S.vars (flip (ismemberOn Variable.name S.vars M.vars)) =
      .ok (notComV S M) := by
    unfold ismemberOn flip
    rw [List.map_map, condn_self]
    unfold notComV
    congr 2
    funext v
    have := idxOf?_eq M.getNames v.name
    unfold Cpm.getNames at this ⊢
    by_cases hm : v.name ∈ M.vars.map Variable.name
    · rw [if_pos hm] at this
      simp [this, hm]
    · rw [if_neg hm] at this
      simp [this, hm]
  rw [h3, ok_bind, h4, ok_bind]
  have h5 : productRows S M (ismemberOn Variable.name S.vars M.vars) (comV S M)
      ((flip (ismemberOn Variable.name S.vars M.vars)).zipIdx.filterMap
        fun x => if x.1.isSome then some x.2 else none)
      ((ismemberOn Variable.name (newV S M) (prodV S M)).map fun o => o.getD 0) =
      .ok ((prodPure (noSamples S) (noSamples M)).C, (prodPure (noSamples S) (noSamples M)).p) := by
    rcases hne with hne | ⟨hC1, hC2⟩
    · exact productRows_attach hS hM hsM h0M hne
    · unfold productRows
      rw [if_pos (by simp [hC1])]
      have : (noSamples S).C = [] := hC1
      simp [prodPure, this]
  have h9 := productSamples_ok hsS hsM hnd hsub
  unfold prodV newV newParentV newChildV at h5 h9
  rw [h5, ok_bind]
  simp only
  have h6 : Cpm.mk' (prodPure (noSamples S) (noSamples M)) =
      .ok (prodPure (noSamples S) (noSamples M)) :=
    mk'_ok hwf.rowLen hwf.entry hwf.child (.inr hwf.pLen) hwf.noCs.1
  erw [h6]
  rw [ok_bind, sort_ok hwf, ok_bind, if_neg (by simp only [not_or]; exact ⟨h0S, h0M⟩)]
  erw [h9]
  rw [ok_bind]
  have hswf := sortPure_WF hwf
  refine mk'_attach ?_ ⟨?_, ?_, ?_, ?_⟩
  · have := mk'_ok hswf.rowLen hswf.entry hswf.child (.inr hswf.pLen) hswf.noCs.1
    exact this
  · refine checkCs_ok ?_ ?_
    · intro r hr
      obtain ⟨i, _, rfl⟩ := List.mem_map.1 hr
      exact length_reorder _
    · intro r hr
      obtain ⟨i, hi, rfl⟩ := List.mem_map.1 hr
      have hi : i < S.Cs.length := by simpa using hi
      have hi' : i < S.sampleIdx.length := by rw [hsS.siLen]; exact hi
      have hlt : matchIdx S M i < M.Cs.length := by
        rw [← hsM.siLen]
        refine List.idxOf_lt_length_iff.2 (hsub _ ?_)
        simp [hi']
      have hmM : M.Cs.getD (matchIdx S M i) [] ∈ M.Cs := by simp [hlt]
      have hmS : S.Cs.getD i [] ∈ S.Cs := by simp [hi]
      have hnd' : ((newV S M).map Variable.name).Nodup :=
        newNames_nodup (S := noSamples S) (M := noSamples M) hS hM hd
      refine (zip_forall_iff hnd' (length_reorder _) (fun v s => s ≤ v.values.length)).2 ?_
      intro v hv
      have hk : v.name ∈ newNames S M := List.mem_map_of_mem hv
      rw [show (newV S M).map Variable.name = newNames S M from rfl, val_reorder _ hk,
        val_join (hsM.rowLen _ hmM)]
      split
      · rename_i hin
        have h7 := hM.mem_of_name hin
        have hvM : v ∈ M.vars := by
          have hU : U v.name = v := by
            rcases newV_sub v hv with hh | hh
            · exact hS.env v hh
            · exact hM.env v hh
          rw [hU] at h7
          exact h7
        exact ((zip_forall_iff hM.nodup (hsM.rowLen _ hmM) (fun v s => s < v.values.length)).1
          (hsM.entry _ hmM) v hvM).le
      · rename_i hin
        have hvS : v ∈ S.vars := (newV_sub v hv).resolve_right
          fun hh => hin (List.mem_map_of_mem hh)
        have h8 : val ((notComV S M).map Variable.name) (notComS S M (S.Cs.getD i [])) v.name =
            val S.getNames (S.Cs.getD i []) v.name := by
          unfold notComV notComS
          exact val_filter S.vars hS.nodup _ (hsS.rowLen _ hmS) _ hvS (by simp [hin])
        rw [h8]
        exact ((zip_forall_iff hS.nodup (hsS.rowLen _ hmS) (fun v s => s < v.values.length)).1
          (hsS.entry _ hmS) v hvS).le
  · refine .inr (.inr ?_); simp
  · refine .inr (.inr ?_); simp
  · refine .inr (.inr ?_); simp [hsS.siLen]

theorem productCore_attach (hS : WF U (noSamples S)) (hM : WF U (noSamples M))
    (hsS : SamplesOK S) (hsM : SamplesOK M) (h0S : S.Cs.flatten ≠ []) (h0M : M.Cs.flatten ≠ [])
    (hd : ∀ k ∈ childNames S, k ∉ childNames M) (hne : S.C.flatten ≠ [])
    (hnd : M.sampleIdx.Nodup) (hsub : ∀ n ∈ S.sampleIdx, n ∈ M.sampleIdx) :
    productCore S M = .ok { sortPure (prodPure (noSamples S) (noSamples M)) with
      Cs := (List.range S.Cs.length).map fun i =>
          reorder S M (M.Cs.getD (matchIdx S M i) [] ++ notComS S M (S.Cs.getD i []))
      q := (List.range S.Cs.length).map fun i => M.q.getD (matchIdx S M i) 0 * S.q.getD i 0
      ps := (List.range S.Cs.length).map fun i =>
          (weights M).getD (matchIdx S M i) 0 * (weights S).getD i 0
      sampleIdx := S.sampleIdx } :=
  productCore_attach' hS hM hsS hsM h0S h0M hd (.inl hne) hnd hsub

/-- what the sample of the product says about each variable -/
theorem joined_state (hS : WF U (noSamples S)) {c d : List ℕ}
    (hc : c.length = S.vars.length) (hdl : d.length = M.vars.length) {k : K}
    (hk : k ∈ S.getNames ∨ k ∈ M.getNames) :
    sampleState (newV S M) (reorder S M (d ++ notComS S M c)) k =
      if k ∈ M.getNames then sampleState M.vars d k else sampleState S.vars c k := by
  have hk' : k ∈ newNames S M := (mem_newNames k).2 hk
  have h1 : sampleState (newV S M) (reorder S M (d ++ notComS S M c)) k =
      val (newNames S M) (reorder S M (d ++ notComS S M c)) k := rfl
  rw [h1, val_reorder _ hk', val_join hdl]
  split
  · rfl
  · rename_i hin
    obtain ⟨v, hv, rfl⟩ := List.mem_map.1 (hk.resolve_right hin)
    unfold notComV notComS
    exact val_filter S.vars hS.nodup _ hc _ hv (by simp [hin])

end
end BNS
