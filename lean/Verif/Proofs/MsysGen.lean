import Verif.Props.Msys
import Verif.Proofs.ElimCond

/-! # `prod_Msys_and_Mcomps` whenever it returns

The checks on the conditioning of the components are skipped when the first component CPM has no
parent.  Only the child column and the probabilities of a component CPM are read, so the result is
then that of the CPMs cut down to their child column. -/

namespace BNS

set_option linter.unusedSectionVars false

variable {K : Type} [DecidableEq K] {U : K → Variable K} {S : Cpm K} {comps : List (Cpm K)}
  {D : K → Cpm K}

/-- A component CPM cut down to its child column. -/
def truncComp (m : Cpm K) : Cpm K :=
  { vars := m.vars.take 1, noChild := 1, C := m.C.map fun c => c.take 1, p := m.p }

theorem trunc_compOK {v : Variable K} {cv : List (Variable K)} {cs : List ℕ} {m : Cpm K}
    (h : CompOK U v cv cs m) : CompOK U v [] [] (truncComp m) := by
  have hv : (truncComp m).vars = [v] := by simp [truncComp, h.vars]
  have hC : ∀ c ∈ (truncComp m).C, ∃ k, c = [k] ∧ k < v.values.length := by
    intro c hc
    obtain ⟨c', hc', rfl⟩ := List.mem_map.1 hc
    obtain ⟨k, rfl, hk⟩ := h.row hc'
    exact ⟨k, rfl, hk⟩
  refine ⟨⟨?_, ?_, ?_, ?_, ?_, ?_, ?_, rfl, rfl, rfl, rfl⟩, hv, rfl, ?_, ?_⟩
  · intro w hw
    rw [hv, List.mem_singleton] at hw
    exact h.wf.env w (by rw [h.vars, hw]; simp)
  · intro w hw
    rw [hv, List.mem_singleton] at hw
    exact h.wf.table w (by rw [h.vars, hw]; simp)
  · rw [hv]; simp
  · intro c hc
    obtain ⟨k, rfl, -⟩ := hC c hc
    rw [hv]; rfl
  · intro c hc vs hvs
    obtain ⟨c', hc', rfl⟩ := List.mem_map.1 hc
    have he := h.wf.entry c' hc'
    obtain ⟨k, rfl, -⟩ := h.row hc'
    rw [hv] at hvs
    rw [h.vars] at he
    refine he vs ?_
    simp only [List.take_succ_cons, List.take_zero, List.zip_cons_cons, List.zip_nil_right,
      List.mem_singleton] at hvs
    rw [hvs]; simp
  · simp [truncComp, h.wf.pLen]
  · rw [hv]; simp [truncComp]
  · intro c hc
    obtain ⟨k, rfl, -⟩ := hC c hc
    rfl
  · have : (truncComp m).C.map (fun c => c.headD 0) = m.C.map fun c => c.headD 0 := by
      unfold truncComp
      rw [List.map_map]
      refine List.map_congr_left fun c hc => ?_
      obtain ⟨k, rfl, -⟩ := h.row hc
      rfl
    rw [this]; exact h.perm

theorem trunc_dens {v : Variable K} {cv : List (Variable K)} {cs : List ℕ} {m : Cpm K}
    (h : CompOK U v cv cs m) {y : K → ℕ} (hy : RowMatches cv cs y) :
    dens (truncComp m) y = dens m y := by
  unfold dens truncComp
  simp only
  rw [List.zip_map_left, List.map_map]
  congr 1
  refine List.map_congr_left fun cp hcp => ?_
  obtain ⟨k, hk, -⟩ := h.row (List.of_mem_zip hcp).1
  simp only [Function.comp_apply, Prod.map, id]
  refine if_congr ?_ rfl rfl
  rw [hk, h.vars]
  unfold RowMatches
  simp only [List.take_succ_cons, List.take_zero, List.zip_cons_cons, List.zip_nil_right]
  constructor
  · intro hm vs hvs
    rcases List.mem_cons.1 hvs with rfl | hvs
    · exact hm _ (by simp)
    · exact hy vs hvs
  · intro hm vs hvs
    exact hm vs (by rw [List.mem_singleton] at hvs; rw [hvs]; simp)

/-- Cutting the components does not change the result when the first one has no parent. -/
theorem prodMsys_trunc (hcomp : ∀ m ∈ comps, ∃ v cv cs, CompOK U v cv cs m)
    (h0 : ∀ m ∈ comps.take 1, m.vars.length = 1) :
    prodMsysMcomps S comps = prodMsysMcomps S (comps.map truncComp) := by
  have hnc : ∀ m ∈ comps, m.noChild = 1 := by
    intro m hm
    obtain ⟨v, cv, cs, h⟩ := hcomp m hm
    exact h.noChild
  have hheads : (comps.map truncComp).mapM (fun m => (do
      let v ← pyGet m.vars 0; return v.name : Except Err K)) =
      comps.mapM (fun m => (do let v ← pyGet m.vars 0; return v.name : Except Err K)) := by
    rw [List.mapM_map]
    clear h0 hnc
    induction comps with
    | nil => rfl
    | cons m l ih =>
      rw [List.mapM_cons, List.mapM_cons, ih fun m hm => hcomp m (by simp [hm])]
      obtain ⟨v, cv, cs, h⟩ := hcomp m (by simp)
      simp [truncComp, h.vars, pyGet]
  have hscope : condScope comps = condScope (comps.map truncComp) := by
    cases comps with
    | nil => rfl
    | cons m l =>
      unfold condScope
      simp only [List.map_cons]
      have h1 := h0 m (by simp)
      have h2 := hnc m (by simp)
      rw [if_neg (by omega), if_neg (by simp [truncComp, h1])]
  have hget : ∀ i, pyGet (comps.map truncComp) i = (pyGet comps i).map truncComp := by
    intro i
    unfold pyGet
    rw [List.getElem?_map]
    cases comps[i]? <;> rfl
  have hbody : ∀ (i : ℕ) (g : Except Err ℕ), (do
      let m ← pyGet comps i
      let c1 ← m.C.mapM fun c => pyGet c 0
      let st ← g
      let v ← pyGet m.vars 0
      match v.B with
      | none => .error .type
      | some B => do
        let T ← pyGet B st
        compProb m c1 (T.sort (· ≤ ·)) : Except Err ℚ) = (do
      let m ← pyGet (comps.map truncComp) i
      let c1 ← m.C.mapM fun c => pyGet c 0
      let st ← g
      let v ← pyGet m.vars 0
      match v.B with
      | none => .error .type
      | some B => do
        let T ← pyGet B st
        compProb m c1 (T.sort (· ≤ ·)) : Except Err ℚ) := by
    intro i g
    rw [hget]
    cases hm : pyGet comps i with
    | error e => rfl
    | ok m =>
      have hmem : m ∈ comps := by
        unfold pyGet at hm
        cases hi : comps[i]? with
        | none => rw [hi] at hm; cases hm
        | some m' => rw [hi] at hm; cases hm; exact List.mem_of_getElem? hi
      obtain ⟨v, cv, cs, h⟩ := hcomp m hmem
      have hC1 : m.C.mapM (fun c => pyGet c 0) = .ok (m.C.map fun c => c.headD 0) := by
        refine mapM_ok fun c hc => ?_
        obtain ⟨k, rfl, -⟩ := h.row hc
        rfl
      have h' := trunc_compOK h
      have hC2 : (truncComp m).C.mapM (fun c => pyGet c 0) = .ok (m.C.map fun c => c.headD 0) := by
        have h2 : (truncComp m).C.mapM (fun c => pyGet c 0) =
            .ok ((truncComp m).C.map fun c => c.headD 0) := by
          refine mapM_ok fun c hc => ?_
          obtain ⟨k, rfl, -⟩ := h'.row hc
          rfl
        rw [h2]
        congr 1
        unfold truncComp
        rw [List.map_map]
        refine List.map_congr_left fun c hc => ?_
        obtain ⟨k, rfl, -⟩ := h.row hc
        rfl
      have hcp : ∀ (c1 : List ℕ) (l : List ℕ), compProb m c1 l = compProb (truncComp m) c1 l := by
        intro c1 l
        induction l with
        | nil => rfl
        | cons k l ih => unfold compProb; rw [ih]; rfl
      have hp0 : pyGet m.vars 0 = pyGet (truncComp m).vars 0 := by
        rw [h.vars, h'.vars]; rfl
      simp only [Except.map, ok_bind]
      rw [hC1, hC2, hp0]
      simp only [hcp]
  have hnc' : ∀ m ∈ comps.map truncComp, m.noChild = 1 := by
    intro m hm
    obtain ⟨m', -, rfl⟩ := List.mem_map.1 hm
    rfl
  unfold prodMsysMcomps
  rw [pyAssert_true hnc, pyAssert_true hnc', hheads, ← hscope]
  refine bind_congr fun _ => bind_congr fun ns => ?_
  refine bind_congr fun cond => ?_
  split
  · rfl
  refine bind_congr fun cols => bind_congr fun C => ?_
  have hfun : ∀ rp : List ℕ × ℚ, (fun vij : (Variable K × ℕ) × ℕ => (do
      let m ← pyGet comps vij.1.2
      let c1 ← m.C.mapM fun c => pyGet c 0
      let st ← pyGet rp.1 (S.noChild + vij.2)
      let v ← pyGet m.vars 0
      match v.B with
      | none => .error .type
      | some B => do
        let T ← pyGet B st
        compProb m c1 (T.sort (· ≤ ·)) : Except Err ℚ)) = (fun vij => (do
      let m ← pyGet (comps.map truncComp) vij.1.2
      let c1 ← m.C.mapM fun c => pyGet c 0
      let st ← pyGet rp.1 (S.noChild + vij.2)
      let v ← pyGet m.vars 0
      match v.B with
      | none => .error .type
      | some B => do
        let T ← pyGet B st
        compProb m c1 (T.sort (· ≤ ·)) : Except Err ℚ)) := by
    intro rp
    funext vij
    exact hbody _ _
  have hmap : ∀ X : List (List ℕ × ℚ), ∀ Y : List ((Variable K × ℕ) × ℕ), X.mapM (fun rp => (do
      let fs ← Y.mapM (fun vij : (Variable K × ℕ) × ℕ => (do
        let m ← pyGet comps vij.1.2
        let c1 ← m.C.mapM fun c => pyGet c 0
        let st ← pyGet rp.1 (S.noChild + vij.2)
        let v ← pyGet m.vars 0
        match v.B with
        | none => .error .type
        | some B => do
          let T ← pyGet B st
          compProb m c1 (T.sort (· ≤ ·)) : Except Err ℚ))
      return fs.foldl (· * ·) rp.2 : Except Err ℚ)) = X.mapM (fun rp => (do
      let fs ← Y.mapM (fun vij : (Variable K × ℕ) × ℕ => (do
        let m ← pyGet (comps.map truncComp) vij.1.2
        let c1 ← m.C.mapM fun c => pyGet c 0
        let st ← pyGet rp.1 (S.noChild + vij.2)
        let v ← pyGet m.vars 0
        match v.B with
        | none => .error .type
        | some B => do
          let T ← pyGet B st
          compProb m c1 (T.sort (· ≤ ·)) : Except Err ℚ))
      return fs.foldl (· * ·) rp.2 : Except Err ℚ)) := by
    intro X Y
    congr 1
    funext rp
    exact congrArg (fun F => (Y.mapM F >>= fun fs => pure (fs.foldl (· * ·) rp.2) :
      Except Err ℚ)) (hfun rp)
  simp only
  erw [hmap]
  rfl

/-! ### `sum` on a well-formed CPM -/

theorem sumAny_ok {M : Cpm K} (h : WF U M) (vs : List (Variable K))
    (hne : (M.vars.take M.noChild).filter (fun v => v.name ∉ vs.map Variable.name) ++
      M.vars.drop M.noChild ≠ []) :
    ∃ Q, M.sum vs true = .ok Q ∧
      Q.vars = (M.vars.take M.noChild).filter (fun v => v.name ∉ vs.map Variable.name) ++
        M.vars.drop M.noChild ∧
      Q.noChild = ((M.vars.take M.noChild).filter
        (fun v => v.name ∉ vs.map Variable.name)).length ∧ WF U Q ∧ Q.C.Nodup ∧
      (∀ r, r ∈ Q.C ↔ r ∈ M.C.map (projRow M Q.vars)) ∧
      ∀ D : List (Variable K), (∀ r ∈ M.C, ∀ v ∈ D, val M.getNames r v.name < v.values.length) →
        D.Perm ((M.vars.take M.noChild).filter (fun v => v.name ∈ vs.map Variable.name)) →
        ∀ x, dens Q x = sumOver (D.map fun v => (v.name, v.values.length)) (dens M) x := by
  obtain ⟨Q, q1, q2, q3, q4, q5, q6, q7⟩ := sumBody_ok h
    (R := (M.vars.take M.noChild).filter (fun v => v.name ∉ vs.map Variable.name))
    (fun v hv => (List.mem_filter.1 hv).1)
    (h.nodup.sublist ((List.filter_sublist.trans (List.take_sublist _ _)).map _)) hne
  refine ⟨Q, ?_, q2, q3, q4, q5, by rw [q2]; exact q6, fun D hD hp x => ?_⟩
  · unfold Cpm.sum
    rw [sumRemain_true h]
    exact q1
  · refine dens_sum h hD (fun v hv => (List.mem_filter.1 (hp.mem_iff.1 hv)).1) ?_ q2 q7 x
    refine (hp.append_right _).trans ?_
    have := List.filter_append_perm (fun v : Variable K => decide (v.name ∈ vs.map Variable.name))
      (M.vars.take M.noChild)
    refine List.Perm.trans (List.Perm.of_eq ?_) this
    congr 1
    refine List.filter_congr fun v _ => ?_
    rw [decide_not]

theorem sum_congr_names {M : Cpm K} (h : WF U M) {vs ws : List (Variable K)}
    (hvw : ∀ k, k ∈ vs.map Variable.name ↔ k ∈ ws.map Variable.name) :
    M.sum vs true = M.sum ws true := by
  unfold Cpm.sum
  rw [sumRemain_true h, sumRemain_true h]
  have : (M.vars.take M.noChild).filter (fun v => v.name ∉ vs.map Variable.name) =
      (M.vars.take M.noChild).filter (fun v => v.name ∉ ws.map Variable.name) := by
    refine List.filter_congr fun v _ => ?_
    rw [decide_eq_decide, hvw]
  rw [this]

/-! ### the marginal -/

theorem env_ext {l m : List (Variable K)} (hl : ∀ v ∈ l, v = U v.name) (hm : ∀ v ∈ m, v = U v.name)
    (h : l.map Variable.name = m.map Variable.name) : l = m := by
  have e : ∀ l : List (Variable K), (∀ v ∈ l, v = U v.name) → l = (l.map Variable.name).map U := by
    intro l hl
    rw [List.map_map]
    conv_lhs => rw [← List.map_id l]
    exact List.map_congr_left fun v hv => hl v hv
  rw [e l hl, e m hm, h]

theorem compPars_trunc (hcomp : ∀ m ∈ comps, ∃ v cv cs, CompOK U v cv cs m) (S : Cpm K) :
    compPars S (comps.map truncComp) = compPars S comps ∧
    otherPars S (comps.map truncComp) = otherPars S comps ∧
    ∀ m ∈ comps, childNames (truncComp m) = childNames m := by
  have hch : ∀ m ∈ comps, childNames (truncComp m) = childNames m := by
    intro m hm
    obtain ⟨v, cv, cs, h⟩ := hcomp m hm
    rw [h.childNames, (trunc_compOK h).childNames]
  refine ⟨?_, ?_, hch⟩
  · unfold compPars
    refine List.filter_congr fun v _ => ?_
    rw [decide_eq_decide]
    simp only [List.mem_map, exists_exists_and_eq_and]
    exact exists_congr fun m => and_congr_right fun hm => by rw [hch m hm]
  · unfold otherPars
    refine List.filter_congr fun v _ => ?_
    rw [decide_eq_decide]
    simp only [List.forall_mem_map]
    exact forall₂_congr fun m hm => by rw [hch m hm]

/-- Components that are each conditioned on their own, possibly different, variables. -/
structure MixedOK (U : K → Variable K) (S : Cpm K) (comps : List (Cpm K)) (D : K → Cpm K) : Prop where
  sys : WF U S
  child : 0 < S.noChild
  ne : comps ≠ []
  comp : ∀ m ∈ comps, ∃ v cv cs, CompOK U v cv cs m
  some_row : ∀ m ∈ comps, m.C ≠ []
  disjoint : (comps.map childNames).Nodup
  map : ∀ m ∈ comps, ∀ k ∈ childNames m, D k = m
  notChild : ∀ m ∈ comps, ∀ k ∈ childNames m, k ∉ childNames S
  pars : ∀ m ∈ comps, ∀ k ∈ parentNames m, k ∉ childNames S ∧ ∀ m' ∈ comps, k ∉ childNames m'

theorem condScope_of_prod {P : Cpm K} (h : prodMsysMcomps S comps = .ok P) :
    S.C.flatten ≠ [] ∧ ∃ c, condScope comps = .ok c := by
  unfold prodMsysMcomps at h
  obtain ⟨_, -, h1⟩ := bind_ok.1 h
  obtain ⟨ns, -, h2⟩ := bind_ok.1 h1
  simp only at h2
  obtain ⟨c, hc, h3⟩ := bind_ok.1 h2
  refine ⟨fun h0 => ?_, c, hc⟩
  rw [if_pos h0] at h3
  cases h3

/-- Either the first component has no parent, or all are conditioned alike. -/
theorem MixedOK.cases (h : MixedOK U S comps D) {P : Cpm K} (hP : prodMsysMcomps S comps = .ok P) :
    (∀ m ∈ comps.take 1, m.vars.length = 1) ∨ ∃ cv cs, MsysOK U cv cs S comps D := by
  obtain ⟨hS0, c, hc⟩ := condScope_of_prod hP
  have hscope : S.vars ≠ [] := by
    intro h0
    have := h.child
    have h1 := h.sys.child
    rw [h0] at h1
    simp at h1
    omega
  have hSC : S.C ≠ [] := fun h0 => hS0 (by rw [h0]; rfl)
  cases hcomps : comps with
  | nil => exact absurd hcomps h.ne
  | cons m0 l =>
    have hm0 : m0 ∈ comps := by simp [hcomps]
    obtain ⟨v0, cv, cs, h0⟩ := h.comp m0 hm0
    by_cases hlen : m0.vars.length = 1
    · left
      intro m hm
      rw [List.take_succ_cons, List.take_zero, List.mem_singleton] at hm
      rw [hm]; exact hlen
    right
    rw [← hcomps]
    rw [hcomps] at hc
    unfold condScope at hc
    simp only at hc
    rw [if_pos (by
      rw [h0.noChild]
      have : 0 < m0.vars.length := by rw [h0.vars]; simp
      omega)] at hc
    obtain ⟨_, ha, hc1⟩ := bind_ok.1 hc
    obtain ⟨r0, hr0, hc2⟩ := bind_ok.1 hc1
    have hr0m : r0 ∈ m0.C := by
      unfold pyGet at hr0
      cases hi : m0.C[0]? with
      | none => rw [hi] at hr0; cases hr0
      | some r => rw [hi] at hr0; cases hr0; exact List.mem_of_getElem? hi
    have hcs : r0.drop m0.noChild = cs := by rw [h0.noChild]; exact h0.rows r0 hr0m
    have hcv : m0.vars.drop m0.noChild = cv := by rw [h0.noChild, h0.vars]; rfl
    rw [hcs] at hc2
    by_cases h2 : 2 ≤ cs.length
    · rw [if_pos h2] at hc2; cases hc2
    rw [if_neg h2] at hc2
    obtain ⟨_, hb, -⟩ := bind_ok.1 hc2
    rw [← hcomps, hcv] at ha
    rw [← hcomps] at hb
    have ha' : ∀ m ∈ comps, (m.vars.drop 1).map Variable.name = cv.map Variable.name := by
      by_contra hn
      rw [pyAssert_false hn] at ha
      cases ha
    have hb' : ∀ m ∈ comps, ∀ c ∈ m.C, c.drop 1 = cs := by
      by_contra hn
      rw [pyAssert_false hn] at hb
      cases hb
    have hlen' : cs.length = cv.length := by
      have := h0.wf.rowLen r0 hr0m
      rw [h0.vars] at this
      rw [← h0.rows r0 hr0m]
      simp [this]
    have hvars : ∀ m ∈ comps, ∃ v, m.vars = v :: cv := by
      intro m hm
      obtain ⟨v, cv', cs', hm'⟩ := h.comp m hm
      refine ⟨v, ?_⟩
      have h3 := ha' m hm
      rw [hm'.vars] at h3 ⊢
      congr 1
      exact env_ext (U := U) (fun w hw => (hm'.wf.env w (by simp [hm'.vars, hw])).symm)
        (fun w hw => (h0.wf.env w (by simp [h0.vars, hw])).symm) h3
    have hpar : ∀ m ∈ comps, ∀ w ∈ cv, w.name ∈ parentNames m := by
      intro m hm w hw
      obtain ⟨v, hv⟩ := hvars m hm
      obtain ⟨v', cv', cs', hm'⟩ := h.comp m hm
      unfold parentNames
      rw [hm'.noChild, hv]
      exact List.mem_map_of_mem hw
    refine ⟨cv, cs, h.sys, hscope, hSC, ⟨h.ne, ?_, hvars, ?_, h.some_row, hb', ?_, by omega,
      h.disjoint, ?_⟩, h.map, h.notChild, ?_⟩
    · intro m hm
      obtain ⟨v', cv', cs', hm'⟩ := h.comp m hm
      exact hm'.wf
    · intro m hm
      obtain ⟨v', cv', cs', hm'⟩ := h.comp m hm
      exact hm'.noChild
    · intro m hm v hv
      obtain ⟨v', cv', cs', hm'⟩ := h.comp m hm
      rw [hm'.vars] at hv
      simp at hv
      rw [hv]; exact hm'.perm
    · intro m hm w hw
      exact (h.pars m0 hm0 w.name (hpar m0 hm0 w hw)).2 m hm
    · intro w hw
      exact (h.pars m0 hm0 w.name (hpar m0 hm0 w hw)).1

/-- What a product that succeeds gives once the components are summed out. -/
theorem prodMsys_marginal (h : MixedOK U S comps D) {P : Cpm K}
    (hP : prodMsysMcomps S comps = .ok P) :
    ∃ Q, P.sum (compPars S comps) true = .ok Q ∧ WF U P ∧ WF U Q ∧ childNames Q = childNames S ∧
      (∀ k ∈ parentNames Q, k ∈ (otherPars S comps).map Variable.name ∨
        ∃ m ∈ comps, k ∈ parentNames m) ∧
      ∀ x, (∀ m ∈ comps, ∀ c ∈ m.C, RowMatches (m.vars.drop 1) (c.drop 1) x) →
        dens Q x = sumOver ((compPars S comps).map fun v => (v.name, v.values.length))
          (fun y => dens S y * ((compPars S comps).map fun v => dens (D v.name) y).prod) x := by
  -- the names of the parents, from the shape of the product
  have hshape : ∀ {cv : List (Variable K)} {cs : List ℕ} {comps' : List (Cpm K)} {D' : K → Cpm K},
      MsysOK U cv cs S comps' D' → ∀ {P Q : Cpm K}, prodMsysMcomps S comps' = .ok P →
      P.sum (compPars S comps') true = .ok Q → WF U P ∧ ∀ k ∈ parentNames Q,
        k ∈ (otherPars S comps').map Variable.name ∨ k ∈ cv.map Variable.name := by
    intro cv cs comps' D' h' P Q hP hQ
    obtain ⟨P', new, e1, e2, e3, e4, e5, -⟩ := C46_rows_partial h'
    rw [hP] at e1
    cases e1
    refine ⟨e2, ?_⟩
    have hdrop : P.vars.drop P.noChild = otherPars S comps' ++ new := by
      rw [e3, e5, List.append_assoc, List.drop_left']
      simp [h.sys.child]
    have htake : P.vars.take P.noChild = S.vars.take S.noChild ++ compPars S comps' := by
      rw [e3, e5, List.append_assoc, List.take_left']
      simp [h.sys.child]
    have hne : (P.vars.take P.noChild).filter
        (fun v => v.name ∉ (compPars S comps').map Variable.name) ++ P.vars.drop P.noChild ≠ [] := by
      obtain ⟨w, hw⟩ : ∃ w, w ∈ S.vars.take S.noChild := by
        have h1 := h.child
        have h2 := h.sys.child
        refine List.exists_mem_of_length_pos ?_
        rw [List.length_take]; omega
      refine List.ne_nil_of_mem (a := w) (List.mem_append_left _ (List.mem_filter.2 ⟨?_, ?_⟩))
      · rw [htake]; exact List.mem_append_left _ hw
      · rw [decide_eq_true_iff]
        intro hc
        obtain ⟨u, hu, hue⟩ := List.mem_map.1 hc
        obtain ⟨m, hm, hmc⟩ := of_decide_eq_true (List.mem_filter.1 hu).2
        refine h'.notChild m hm u.name hmc ?_
        rw [hue]
        exact List.mem_map_of_mem hw
    obtain ⟨Q', q1, q2, q3, -⟩ := sumAny_ok e2 (compPars S comps') hne
    rw [hQ] at q1
    cases q1
    intro k hk
    unfold parentNames at hk
    rw [q2, q3, List.drop_left' rfl, hdrop, List.map_append, List.mem_append] at hk
    rcases hk with hk | hk
    · exact .inl hk
    · right
      obtain ⟨w, hw, rfl⟩ := List.mem_map.1 hk
      rw [e4] at hw
      exact List.mem_map_of_mem (List.mem_filter.1 hw).1
  rcases h.cases hP with h0 | ⟨cv, cs, h'⟩
  · -- cut the components
    obtain ⟨t1, t2, t3⟩ := compPars_trunc h.comp S
    have htr := prodMsys_trunc (S := S) h.comp h0
    rw [hP] at htr
    have hS0 := (condScope_of_prod hP).1
    have hok : MsysOK U [] [] S (comps.map truncComp) (fun k => truncComp (D k)) := by
      refine ⟨h.sys, ?_, fun h1 => hS0 (by rw [h1]; rfl), ⟨?_, ?_, ?_, ?_, ?_, ?_, ?_, by simp, ?_,
        by simp⟩, ?_, ?_, by simp⟩
      · intro h1
        have h2 := h.sys.child
        have h3 := h.child
        rw [h1] at h2
        simp at h2
        omega
      · simpa using h.ne
      · intro m hm
        obtain ⟨m', hm', rfl⟩ := List.mem_map.1 hm
        obtain ⟨v, cv, cs, hv⟩ := h.comp m' hm'
        exact (trunc_compOK hv).wf
      · intro m hm
        obtain ⟨m', hm', rfl⟩ := List.mem_map.1 hm
        obtain ⟨v, cv, cs, hv⟩ := h.comp m' hm'
        exact ⟨v, (trunc_compOK hv).vars⟩
      · intro m hm
        obtain ⟨m', hm', rfl⟩ := List.mem_map.1 hm
        rfl
      · intro m hm
        obtain ⟨m', hm', rfl⟩ := List.mem_map.1 hm
        simpa [truncComp] using h.some_row m' hm'
      · intro m hm
        obtain ⟨m', hm', rfl⟩ := List.mem_map.1 hm
        obtain ⟨v, cv, cs, hv⟩ := h.comp m' hm'
        exact (trunc_compOK hv).rows
      · intro m hm v hv
        obtain ⟨m', hm', rfl⟩ := List.mem_map.1 hm
        obtain ⟨v', cv, cs, hv'⟩ := h.comp m' hm'
        rw [(trunc_compOK hv').vars] at hv
        simp at hv
        rw [hv]; exact (trunc_compOK hv').perm
      · rw [List.map_map, show comps.map (childNames ∘ truncComp) = comps.map childNames from
          List.map_congr_left fun m hm => t3 m hm]
        exact h.disjoint
      · intro m hm k hk
        obtain ⟨m', hm', rfl⟩ := List.mem_map.1 hm
        rw [t3 m' hm'] at hk
        rw [h.map m' hm' k hk]
      · intro m hm k hk
        obtain ⟨m', hm', rfl⟩ := List.mem_map.1 hm
        rw [t3 m' hm'] at hk
        exact h.notChild m' hm' k hk
    obtain ⟨P', Q, e1, e2, e3, e4, e5⟩ := C46_system_marginal_partial hok h.child
    rw [← htr] at e1
    cases e1
    obtain ⟨s1, s2⟩ := hshape hok htr.symm e2
    refine ⟨Q, by rw [← t1]; exact e2, s1, e3, e4, fun k hk => ?_, fun x hx => ?_⟩
    · rcases s2 k hk with h1 | h1
      · exact .inl (t2 ▸ h1)
      · simp at h1
    · rw [e5 x (by intro vs hvs; simp at hvs), t1]
      have hcn : (((compPars S comps).map fun v => (v.name, v.values.length)).map Prod.fst).Nodup := by
        rw [List.map_map]
        exact h.sys.nodup.sublist ((List.filter_sublist.trans (List.drop_sublist _ _)).map _)
      refine sumOver_congr' _ hcn x fun y _ hy => ?_
      congr 2
      refine List.map_congr_left fun v hv => ?_
      obtain ⟨m, hm, hmc⟩ := of_decide_eq_true (List.mem_filter.1 hv).2
      rw [h.map m hm _ hmc]
      obtain ⟨u, cv, cs, hu⟩ := h.comp m hm
      refine trunc_dens hu ?_
      obtain ⟨c, hc⟩ := List.exists_mem_of_ne_nil _ (h.some_row m hm)
      have hxc := hx m hm c hc
      rw [hu.rows c hc, hu.vars] at hxc
      refine (rowMatches_congr fun k hk => ?_).1 hxc
      refine (hy k fun hc' => ?_).symm
      rw [List.map_map] at hc'
      obtain ⟨w, hw, hwe⟩ := List.mem_map.1 hc'
      obtain ⟨m', hm', hmc'⟩ := of_decide_eq_true (List.mem_filter.1 hw).2
      have hwe' : w.name = k := hwe
      refine (h.pars m hm k ?_).2 m' hm' (hwe' ▸ hmc')
      unfold parentNames
      rw [hu.noChild, hu.vars]
      exact hk
  · obtain ⟨P', Q, e1, e2, e3, e4, e5⟩ := C46_system_marginal_partial h' h.child
    rw [hP] at e1
    cases e1
    obtain ⟨s1, s2⟩ := hshape h' hP e2
    refine ⟨Q, e2, s1, e3, e4, fun k hk => ?_, fun x hx => ?_⟩
    · rcases s2 k hk with h1 | h1
      · exact .inl h1
      · right
        obtain ⟨m0, hm0⟩ := List.exists_mem_of_ne_nil _ h.ne
        obtain ⟨v, hv⟩ := h'.compsOK.vars m0 hm0
        refine ⟨m0, hm0, ?_⟩
        unfold parentNames
        rw [h'.compsOK.noChild m0 hm0, hv]
        exact h1
    · refine e5 x ?_
      obtain ⟨m0, hm0⟩ := List.exists_mem_of_ne_nil _ h.ne
      obtain ⟨c, hc⟩ := List.exists_mem_of_ne_nil _ (h.some_row m0 hm0)
      obtain ⟨v, hv⟩ := h'.compsOK.vars m0 hm0
      have := hx m0 hm0 c hc
      rw [h'.compsOK.rows m0 hm0 c hc, hv] at this
      exact this

end BNS
