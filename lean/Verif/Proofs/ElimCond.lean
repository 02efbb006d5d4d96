import Verif.Proofs.Elim
import Verif.Props.CpmQuery

/-! Lemmas for `variable_elim_cond`. -/

namespace BNS

set_option linter.unusedSectionVars false

section
variable {K : Type} [DecidableEq K] {U : K → Variable K} {M : Cpm K} {cv : List (Variable K)}
  {cs : List ℕ}

theorem condPure_childBasic (h : WF U M) (he : EvidenceOK U M.getNames cv cs)
    (hn : (cv.map Variable.name).Nodup) (hb : ChildBasic M) : ChildBasic (condPure M cv cs) := by
  rw [childBasic_iff (condPure_WF h he hn)]
  rw [childBasic_iff h] at hb
  intro r' hr' v hv
  obtain ⟨r, hr, hc, rfl⟩ := condPure_mem hr'
  have hvM : v ∈ M.vars := List.mem_of_mem_take hv
  obtain ⟨e1, e2⟩ := condRow_stateSet h he hn hr hc hvM
  have hbv := hb r hr v hv
  have := basic_of_subset (h.table v hvM) e1 hbv fun i hi => by
    have := ((e2 i).1 hi).1
    rw [stateSet_basic (h.table v hvM) hbv, Finset.mem_singleton] at this
    exact this
  rw [show (condPure M cv cs).getNames = M.getNames from rfl, this]
  exact hbv

/-- A row covers some assignment, and any value of any of its entries is taken by one. -/
theorem exists_rowMatches (h : WF U M) {r : List ℕ} (hr : r ∈ M.C) {v : Variable K}
    (hv : v ∈ M.vars) {i : ℕ} (hi : i ∈ stateSet v (val M.getNames r v.name)) :
    ∃ x, RowMatches M.vars r x ∧ x v.name = i := by
  have hne : ∀ w, ∃ j, w ∈ M.vars → j ∈ stateSet w (val M.getNames r w.name) := by
    intro w
    by_cases hw : w ∈ M.vars
    · obtain ⟨j, hj⟩ := (mem_genB.1 (mem_genB_stateSet (h.table w hw) (h.entry_lt hr hw))).1
      exact ⟨j, fun _ => hj⟩
    · exact ⟨0, fun hw' => absurd hw' hw⟩
  choose f hf using hne
  refine ⟨Function.update (fun k => f (U k)) v.name i, ?_, Function.update_self _ _ _⟩
  rw [rowMatches_iff h.nodup (h.rowLen r hr)]
  intro w hw
  by_cases hwv : w.name = v.name
  · have : w = v := by rw [← h.env w hw, ← h.env v hv, hwv]
    rw [this, Function.update_self]
    exact hi
  · rw [Function.update_of_ne hwv, h.env w hw]
    exact hf w hw

/-- Dropping columns that hold basic states sums over them. -/
theorem dens_proj (h : WF U M) {D R : List (Variable K)}
    (hb : ∀ r ∈ M.C, ∀ v ∈ D, val M.getNames r v.name < v.values.length)
    (hperm : (D ++ R).Perm M.vars) {P : Cpm K} (hPv : P.vars = R)
    (hPC : P.C = M.C.map (projRow M R)) (hPp : P.p = M.p) (x : K → ℕ) :
    dens P x = sumOver (D.map fun v => (v.name, v.values.length)) (dens M) x := by
  have hnall : ((D ++ R).map Variable.name).Nodup := ((hperm.map _).nodup_iff).2 h.nodup
  unfold dens
  rw [hPv, hPC, hPp, sumOver_list_sum]
  have hz : (M.C.map (projRow M R)).zip M.p =
      (M.C.zip M.p).map fun cp => (projRow M R cp.1, cp.2) := by
    rw [List.zip_map_left]; rfl
  rw [hz, List.map_map]
  congr 1
  refine List.map_congr_left fun cp hcp => ?_
  simp only [Function.comp]
  have hr := (List.of_mem_zip hcp).1
  have hlen := h.rowLen _ hr
  have hnk : (R.map Variable.name).Nodup := by
    rw [List.map_append] at hnall
    exact (List.nodup_append.1 hnall).2.1
  have key := sumOver_indicator cp.2 D R
    (fun v => stateSet v (val M.getNames cp.1 v.name))
    (fun v hv => ⟨_, hb _ hr v hv,
      stateSet_basic (h.table v (hperm.subset (by simp [hv]))) (hb _ hr v hv)⟩) hnall x
  have h1 : RowMatches R (projRow M R cp.1) x ↔
      ∀ v ∈ R, x v.name ∈ stateSet v (val M.getNames cp.1 v.name) := by
    rw [rowMatches_iff hnk (by simp [projRow])]
    refine forall₂_congr fun v hv => ?_
    rw [projRow_val cp.1 hv]
  simp only [h1]
  rw [← key]
  refine sumOver_congr _ _ fun y => ?_
  have h2 : RowMatches M.vars cp.1 y ↔
      ∀ v ∈ D ++ R, y v.name ∈ stateSet v (val M.getNames cp.1 v.name) := by
    rw [rowMatches_iff h.nodup hlen]
    exact ⟨fun hh v hv => hh v (hperm.mem_iff.1 hv), fun hh v hv => hh v (hperm.mem_iff.2 hv)⟩
  simp only [h2]

theorem takeRows_inv {α : Type} {X ys : List α} {idx : List ℕ} (h : takeRows X idx = .ok ys) :
    ∀ i ∈ idx, i < X.length := by
  intro i hi
  by_contra hc
  unfold takeRows at h
  have : ∀ i ∈ idx, ∃ y, pyGet X i = .ok y := by
    have hf := mapM_ok_forall₂ h
    clear h hi
    induction hf with
    | nil => simp
    | cons h1 _ ih =>
      intro j hj
      rcases List.mem_cons.1 hj with rfl | hj
      · exact ⟨_, h1⟩
      · exact ih j hj
  obtain ⟨y, hy⟩ := this i hi
  unfold pyGet at hy
  rw [List.getElem?_eq_none (by omega)] at hy
  cases hy

/-- Selecting columns by position, as a projection on the variables selected. -/
theorem takeCols_proj (h : WF U M) {idv : List ℕ} {vars' : List (Variable K)}
    (hv : takeRows M.vars idv = .ok vars') :
    takeCols M.C idv = .ok (M.C.map (projRow M vars')) := by
  have hi := takeRows_inv hv
  rw [takeCols_ok fun r hr i hi' => by rw [h.rowLen r hr]; exact hi i hi']
  congr 1
  refine List.map_congr_left fun r hr => ?_
  unfold projRow
  have hf := mapM_ok_forall₂ hv
  clear hv
  induction hf with
  | nil => rfl
  | @cons i v idv vs h1 _ ih =>
    rw [List.map_cons, List.map_cons, ih fun j hj => hi j (by simp [hj])]
    congr 1
    have hlt := hi i (by simp)
    have : M.vars[i] = v := by
      unfold pyGet at h1
      rw [List.getElem?_eq_getElem hlt] at h1
      cases h1; rfl
    have hg := getD_eq_val (ns := M.getNames) h.nodup r (j := i) (by simpa [Cpm.getNames] using hlt)
    rw [← hg]
    simp [Cpm.getNames, this]

end

section
variable {K : Type} [LinearOrder K] {U : K → Variable K}

/-- The conditioning set inside the network: what `variable_elim_cond` needs. -/
structure CondNet (U : K → Variable K) (cpms : List (Cpm K)) (varis : List (Variable K))
    (P : Cpm K) : Prop where
  net : NetOK U cpms
  wf : WF U P
  child : ∀ k ∈ P.getNames, k ∈ childNames P
  basic : ChildBasic P
  rows : RowsDisjoint P
  disj : ∀ M ∈ cpms, ∀ k ∈ childNames M, k ∉ childNames P
  nodup : (varis.map Variable.name).Nodup
  defined : ∀ v ∈ varis, ∃ M ∈ cpms, v.name ∈ childNames M

/-- The number of states of the named variables. -/
def sizes (U : K → Variable K) (names : List K) : List (K × ℕ) :=
  names.map fun k => (k, (U k).values.length)

theorem sizes_fst (U : K → Variable K) (names : List K) : (sizes U names).map Prod.fst = names := by
  unfold sizes; rw [List.map_map]; exact List.map_id' names

theorem CondNet.varis_not {cpms : List (Cpm K)} {varis : List (Variable K)} {P : Cpm K}
    (h : CondNet U cpms varis P) : ∀ k ∈ varis.map Variable.name, k ∉ P.getNames := by
  intro k hk hP
  obtain ⟨v, hv, rfl⟩ := List.mem_map.1 hk
  obtain ⟨M, hM, hc⟩ := h.defined v hv
  exact h.disj M hM _ hc (h.child _ hP)

theorem evidence_row {P : Cpm K} (h : WF U P) {cx : List ℕ} (hcx : cx ∈ P.C) (names : List K) :
    EvidenceOK U names P.vars cx where
  len := h.rowLen cx hcx
  env _ hp _ := h.env _ (List.of_mem_zip hp).1
  state p hp _ := h.entry cx hcx p hp

/-- The network conditioned on a row. -/
theorem conditionAll_ok {cpms : List (Cpm K)} {P : Cpm K} (hl : ∀ M ∈ cpms, WF U M) (h : WF U P)
    {cx : List ℕ} (hcx : cx ∈ P.C) :
    conditionAll cpms P.vars cx = .ok (cpms.map fun M => condPure M P.vars cx) :=
  mapM_ok fun M hM => condition_ok (hl M hM) (evidence_row h hcx _) h.nodup

theorem condNet_ok {cpms : List (Cpm K)} {P : Cpm K} (hl : NetOK U cpms) (h : WF U P)
    {cx : List ℕ} (hcx : cx ∈ P.C) : NetOK U (cpms.map fun M => condPure M P.vars cx) where
  wf M hM := by
    obtain ⟨N, hN, rfl⟩ := List.mem_map.1 hM
    exact condPure_WF (hl.wf N hN) (evidence_row h hcx _) h.nodup
  basic M hM := by
    obtain ⟨N, hN, rfl⟩ := List.mem_map.1 hM
    exact condPure_childBasic (hl.wf N hN) (evidence_row h hcx _) h.nodup (hl.basic N hN)
  disjoint := by
    unfold ChildDisjoint
    rw [List.pairwise_map]
    exact hl.disjoint

/-- What one conditioning row contributes before its columns are dropped. -/
structure CondSpec (U : K → Variable K) (cpms : List (Cpm K)) (varis : List (Variable K))
    (P : Cpm K) (cx : List ℕ) (M : Cpm K) : Prop where
  wf : WF U M
  basic : ChildBasic M
  names : ∀ k, k ∈ M.getNames ↔
    ((∃ N ∈ cpms, k ∈ N.getNames) ∧ k ∉ varis.map Variable.name) ∨ k ∈ P.getNames
  child : (childNames M).Perm
    ((cpms.flatMap childNames).filter (· ∉ varis.map Variable.name) ++ childNames P)
  cols : ∀ r ∈ M.C, ∀ v ∈ P.vars, val M.getNames r v.name < v.values.length
  dens : ∀ x, dens M x = if RowMatches P.vars cx x then
    sumOver (sizes U (varis.map Variable.name)) (jointDens cpms) x * BNS.dens P x else 0

theorem condSpec_of_ok {cpms : List (Cpm K)} {varis : List (Variable K)} {P : Cpm K}
    (h : CondNet U cpms varis P) {cx : List ℕ} (hcx : cx ∈ P.C) {E M : Cpm K}
    (hE : variableElim (cpms.map fun M => condPure M P.vars cx) varis = .ok E)
    (hM : E.product (condPure P P.vars cx) = .ok M) : CondSpec U cpms varis P cx M := by
  have hev := fun names => evidence_row (U := U) h.wf hcx names
  have hnet1 := condNet_ok h.net h.wf hcx
  obtain ⟨e1, e2, e3, e4, e5⟩ := variableElim_of_ok hnet1 h.nodup (fun v hv => by
    obtain ⟨N, hN, hc⟩ := h.defined v hv
    exact ⟨_, List.mem_map_of_mem hN, hc⟩) hE
  have hPwf := condPure_WF h.wf (hev P.getNames) h.wf.nodup
  have hch : ((cpms.map fun M => condPure M P.vars cx).flatMap childNames) =
      cpms.flatMap childNames := by
    rw [List.flatMap_map]; rfl
  rw [hch] at e4
  have hdj : ∀ k ∈ childNames E, k ∉ childNames (condPure P P.vars cx) := by
    intro k hk
    rw [e4.mem_iff, List.mem_filter, List.mem_flatMap] at hk
    obtain ⟨⟨N, hN, hc⟩, -⟩ := hk
    exact h.disj N hN k hc
  have hs := product_ok_spec e1 hPwf hdj hM
  have hcons : ∀ x, Consistent P.getNames P.vars cx x ↔ RowMatches P.vars cx x := by
    intro x
    unfold Consistent RowMatches
    refine forall₂_congr fun p hp => ?_
    have : p.1.name ∈ P.getNames := List.mem_map_of_mem (List.of_mem_zip hp).1
    simp [this]
  have hallb : ∀ v ∈ P.vars, val P.getNames cx v.name < v.values.length := by
    intro v hv
    have hv' : v ∈ P.vars.take P.noChild := by
      obtain ⟨w, hw, hwe⟩ := List.mem_map.1 (h.child _ (List.mem_map_of_mem hv))
      have : w = v := by
        rw [← h.wf.env w (List.mem_of_mem_take hw), ← h.wf.env v hv, hwe]
      rw [← this]; exact hw
    exact (childBasic_iff h.wf).1 h.basic cx hcx v hv'
  have hPd : ∀ x, dens (condPure P P.vars cx) x = if RowMatches P.vars cx x then dens P x else 0 := by
    intro x
    rw [dens_condPure h.wf (hev _) h.wf.nodup]
    simp only [hcons]
  have hPcov : ∀ x, Covers (condPure P P.vars cx) x → RowMatches P.vars cx x := by
    rintro x ⟨r', hr', hm⟩
    obtain ⟨r, hr, hc, rfl⟩ := condPure_mem hr'
    exact (hcons x).1 ((condRow_matches h.wf (hev _) h.wf.nodup x r hr).1 ⟨hc, hm⟩).1
  have hMn : ∀ k, k ∈ M.getNames ↔ k ∈ E.getNames ∨ k ∈ P.getNames := by
    intro k
    rw [hs.names]
    simp only [List.mem_cons, List.not_mem_nil, or_false, exists_eq_or_imp, exists_eq_left]
    rfl
  refine ⟨hs.wf, hs.basic ?_, fun k => ?_, hs.child.trans ?_, ?_, fun x => ?_⟩
  · intro N hN
    simp only [List.mem_cons, List.not_mem_nil, or_false] at hN
    rcases hN with rfl | rfl
    · exact e2
    · exact condPure_childBasic h.wf (hev _) h.wf.nodup h.basic
  · rw [hMn, e5]
    have : (∃ N ∈ cpms.map fun M => condPure M P.vars cx, k ∈ N.getNames) ↔
        ∃ N ∈ cpms, k ∈ N.getNames := by
      simp only [List.mem_map, exists_exists_and_eq_and]
      rfl
    rw [this]
  · simp only [List.flatMap_cons, List.flatMap_nil, List.append_nil]
    exact e4.append_right _
  · intro r hr v hv
    have hvM : v ∈ M.vars := by
      obtain ⟨w, hw, hwe⟩ := List.mem_map.1 ((hMn v.name).2 (.inr (List.mem_map_of_mem hv)))
      have : w = v := by rw [← hs.wf.env w hw, ← h.wf.env v hv, hwe]
      rw [← this]; exact hw
    have := basic_of_subset (hs.wf.table v hvM) (hs.wf.entry_lt hr hvM) (hallb v hv) fun i hi => by
      obtain ⟨x, hx, hxi⟩ := exists_rowMatches hs.wf hr hvM hi
      have hcov := (hs.covers x).1 ⟨r, hr, hx⟩ (condPure P P.vars cx) (by simp)
      have hm := (rowMatches_iff h.wf.nodup (h.wf.rowLen cx hcx) x).1 (hPcov x hcov) v hv
      rw [show P.vars.map Variable.name = P.getNames from rfl,
        stateSet_basic (h.wf.table v hv) (hallb v hv), Finset.mem_singleton] at hm
      rw [← hxi, hm]
    change val M.getNames r v.name = _ at this
    rw [this]
    exact hallb v hv
  · rw [hs.dens]
    simp only [List.map_cons, List.map_nil, List.prod_cons, List.prod_nil, mul_one]
    rw [hPd, e3]
    by_cases hm : RowMatches P.vars cx x
    · rw [if_pos hm, if_pos hm]
      congr 1
      have hsz : (varis.map fun v => (v.name, (U v.name).values.length)) =
          sizes U (varis.map Variable.name) := by
        unfold sizes; rw [List.map_map]; rfl
      rw [hsz]
      refine sumOver_congr' _ ?_ x fun y _ hy => ?_
      · rw [sizes_fst]; exact h.nodup
      · have hmy : RowMatches P.vars cx y := by
          refine (rowMatches_congr fun k hk => ?_).1 hm
          refine (hy k fun hc => ?_).symm
          rw [sizes_fst] at hc
          exact h.varis_not _ hc hk
        unfold jointDens
        rw [List.map_map]
        congr 1
        refine List.map_congr_left fun N hN => ?_
        simp only [Function.comp]
        rw [dens_condPure (h.net.wf N hN) (hev _) h.wf.nodup, if_pos]
        intro p hp _
        exact hmy p hp
    · rw [if_neg hm, if_neg hm, mul_zero]

/-- The distribution one conditioning row contributes. -/
def rowPart (U : K → Variable K) (cpms : List (Cpm K)) (varis : List (Variable K)) (P : Cpm K)
    (cx : List ℕ) (x : K → ℕ) : ℚ :=
  sumOver (sizes U P.getNames) (fun y => if RowMatches P.vars cx y then
    sumOver (sizes U (varis.map Variable.name)) (jointDens cpms) y * dens P y else 0) x

/-- The CPM left when the conditioning columns have been dropped. -/
structure ProjSpec (U : K → Variable K) (cpms : List (Cpm K)) (varis : List (Variable K))
    (P : Cpm K) (cx : List ℕ) (c2 : Cpm K) : Prop where
  wf : WF U c2
  names : ∀ k, k ∈ c2.getNames ↔
    (∃ N ∈ cpms, k ∈ N.getNames) ∧ k ∉ varis.map Variable.name ∧ k ∉ P.getNames
  dens : ∀ x, dens c2 x = rowPart U cpms varis P cx x

theorem vars_ext {A : List (Variable K)} {V : List (Variable K)} (hA : ∀ v ∈ A, U v.name = v)
    (hV : ∀ v ∈ V, U v.name = v) (h : A.map Variable.name = V.map Variable.name) : A = V := by
  have h1 : ∀ {L : List (Variable K)}, (∀ v ∈ L, U v.name = v) →
      (L.map Variable.name).map U = L := by
    intro L hL
    rw [List.map_map]
    conv_rhs => rw [← List.map_id L]
    exact List.map_congr_left fun v hv => hL v hv
  rw [← h1 hA, ← h1 hV, h]

theorem vars_perm {A : List (Variable K)} {V : List (Variable K)} (hA : ∀ v ∈ A, U v.name = v)
    (hV : ∀ v ∈ V, U v.name = v) (h : (A.map Variable.name).Perm (V.map Variable.name)) :
    A.Perm V := by
  have h1 : ∀ {L : List (Variable K)}, (∀ v ∈ L, U v.name = v) →
      (L.map Variable.name).map U = L := by
    intro L hL
    rw [List.map_map]
    conv_rhs => rw [← List.map_id L]
    exact List.map_congr_left fun v hv => hL v hv
  rw [← h1 hA, ← h1 hV]
  exact h.map U

theorem projSpec {cpms : List (Cpm K)} {varis : List (Variable K)} {P : Cpm K}
    (h : CondNet U cpms varis P) {cx : List ℕ} {M : Cpm K} (hs : CondSpec U cpms varis P cx M)
    {vars' : List (Variable K)} (hsub : ∀ v ∈ vars', v ∈ M.vars)
    (hn : (vars'.map Variable.name).Nodup)
    (hk : ∀ k, k ∈ vars'.map Variable.name ↔
      (∃ N ∈ cpms, k ∈ N.getNames) ∧ k ∉ varis.map Variable.name ∧ k ∉ P.getNames)
    {n : ℕ} (hnc : n + P.vars.length ≤ M.noChild) :
    ProjSpec U cpms varis P cx
      { vars := vars', noChild := n, C := M.C.map (projRow M vars'), p := M.p } := by
  have hnames : ((P.vars ++ vars').map Variable.name).Perm (M.vars.map Variable.name) := by
    rw [List.perm_ext_iff_of_nodup _ hs.wf.nodup]
    · intro k
      have := hs.names k
      unfold Cpm.getNames at this
      rw [this, List.map_append, List.mem_append, hk]
      unfold Cpm.getNames
      by_cases hkP : k ∈ P.vars.map Variable.name
      · simp [hkP]
      · simp only [hkP, false_or, or_false, not_false_eq_true, and_true]
    · rw [List.map_append, List.nodup_append]
      refine ⟨h.wf.nodup, hn, fun a ha b hb e => ?_⟩
      exact ((hk b).1 hb).2.2 (e ▸ ha)
  have henv : ∀ v ∈ P.vars ++ vars', U v.name = v := by
    intro v hv
    rcases List.mem_append.1 hv with hv | hv
    · exact h.wf.env v hv
    · exact hs.wf.env v (hsub v hv)
  have hperm := vars_perm henv hs.wf.env hnames
  have hw := projPure_WF hs.wf hsub hn
  have hlen : P.vars.length + vars'.length = M.vars.length := by
    rw [← hperm.length_eq, List.length_append]
  refine ⟨⟨hw.env, hw.table, hw.nodup, hw.rowLen, hw.entry, hw.pLen, ?_, ⟨rfl, rfl, rfl, rfl⟩⟩, hk,
    fun x => ?_⟩
  · have := hs.wf.child
    change n ≤ vars'.length
    omega
  · refine (dens_proj (P := { vars := vars', noChild := n, C := M.C.map (projRow M vars'), p := M.p })
      hs.wf hs.cols hperm rfl rfl rfl x).trans ?_
    unfold rowPart
    have hsz : (P.vars.map fun v => (v.name, v.values.length)) = sizes U P.getNames := by
      unfold sizes Cpm.getNames
      rw [List.map_map]
      refine List.map_congr_left fun v hv => ?_
      simp only [Function.comp, h.wf.env v hv]
    rw [hsz]
    exact sumOver_congr _ _ fun y => hs.dens y

theorem elimCondRow_of_ok {cpms : List (Cpm K)} {varis : List (Variable K)} {P : Cpm K}
    (h : CondNet U cpms varis P) {cNames : List K} {cx : List ℕ} (hcx : cx ∈ P.C)
    {idv0 idv : Option (List ℕ)} {c2 : Option (Cpm K)}
    (hrow : elimCondRow cpms varis cNames P idv0 cx = .ok (c2, idv)) :
    ∃ M idx iv, CondSpec U cpms varis P cx M ∧ M.getColInd cNames = .ok idx ∧
      iv = idv0.getD ((List.range M.vars.length).filter fun i => i ∉ idx) ∧
      ((iv = [] ∧ c2 = none ∧ idv = none) ∨
        (iv ≠ [] ∧ idv = some iv ∧ ∃ vars', takeRows M.vars iv = .ok vars' ∧
          idx.length ≤ M.noChild ∧ c2 = some
            { vars := vars', noChild := M.noChild - idx.length, C := M.C.map (projRow M vars')
              p := M.p })) := by
  unfold elimCondRow at hrow
  rw [condition_ok h.wf (evidence_row h.wf hcx _) h.wf.nodup, ok_bind,
    conditionAll_ok h.net.wf h.wf hcx, ok_bind, bind_ok] at hrow
  obtain ⟨E, hE, hrow⟩ := hrow
  rw [bind_ok] at hrow
  obtain ⟨M, hM, hrow⟩ := hrow
  rw [bind_ok] at hrow
  obtain ⟨idx, hidx, hrow⟩ := hrow
  have hs := condSpec_of_ok h hcx hE hM
  refine ⟨M, idx, _, hs, hidx, rfl, ?_⟩
  simp only at hrow
  split at hrow
  · rename_i he
    cases hrow
    exact .inl ⟨he, rfl, rfl⟩
  · rename_i he
    rw [bind_ok] at hrow
    obtain ⟨vars', hv, hrow⟩ := hrow
    rw [takeCols_proj hs.wf hv, ok_bind, bind_ok] at hrow
    obtain ⟨_, ha, hrow⟩ := hrow
    rw [bind_ok] at hrow
    obtain ⟨c, hc, hrow⟩ := hrow
    cases hrow
    refine .inr ⟨he, rfl, vars', hv, ?_, by rw [mk'_eq hc]⟩
    by_contra hn
    rw [pyAssert_false hn] at ha
    cases ha

theorem getColInd_inv {M : Cpm K} {names : List K} {idx : List ℕ} (h : M.getColInd names = .ok idx) :
    names.Nodup ∧ idx = names.map (fun k => M.getNames.idxOf k) ∧ ∀ k ∈ names, k ∈ M.getNames := by
  unfold Cpm.getColInd at h
  rw [bind_ok] at h
  obtain ⟨_, h1, h2⟩ := h
  have hn : names.Nodup := by
    by_contra hc
    rw [pyAssert_false hc] at h1
    cases h1
  refine ⟨hn, ?_⟩
  have hf := mapM_ok_forall₂ h2
  clear h1 h2 hn
  induction hf with
  | nil => simp
  | @cons k i ks is h1 _ ih =>
    rw [pyIndex_eq] at h1
    split at h1
    · rename_i hm
      cases h1
      rw [List.map_cons, ← ih.1]
      refine ⟨rfl, fun k hk => ?_⟩
      rcases List.mem_cons.1 hk with rfl | hk
      · exact hm
      · exact ih.2 k hk
    · cases h1

theorem takeRows_complement {M : Cpm K} (h : (M.vars.map Variable.name).Nodup) (names : List K)
    (hm : ∀ k ∈ names, k ∈ M.getNames) {vars' : List (Variable K)}
    (hv : takeRows M.vars ((List.range M.vars.length).filter fun i =>
      i ∉ names.map fun k => M.getNames.idxOf k) = .ok vars') :
    vars' = M.vars.filter fun v => v.name ∉ names := by
  have hi := takeRows_inv hv
  cases hM : M.vars with
  | nil =>
    rw [hM] at hv
    simp [takeRows, pure_ok] at hv
    rw [hv]; rfl
  | cons d l =>
  rw [← hM]
  rw [takeRows_ok d hi] at hv
  cases hv
  have h1 : ∀ i ∈ List.range M.vars.length, (decide (i ∉ names.map fun k => M.getNames.idxOf k)) =
      decide ((M.vars.getD i d).name ∉ names) := by
    intro i hi
    rw [List.mem_range] at hi
    have hg : M.vars.getD i d = M.vars[i] := by simp [hi]
    rw [hg]
    congr 1
    rw [eq_iff_iff, not_iff_not]
    constructor
    · intro hmem
      obtain ⟨k, hk, hki⟩ := List.mem_map.1 hmem
      have hkm := hm k hk
      have hlt := List.idxOf_lt_length_iff.2 hkm
      have : M.getNames[M.getNames.idxOf k] = k := List.getElem_idxOf hlt
      simp only [hki] at this
      unfold Cpm.getNames at this
      rw [List.getElem_map] at this
      rw [this]; exact hk
    · intro hmem
      refine List.mem_map.2 ⟨_, hmem, ?_⟩
      have := h.idxOf_getElem i (by simpa using hi)
      rw [List.getElem_map] at this
      exact this
  rw [List.filter_congr h1]
  have hr : M.vars = (List.range M.vars.length).map fun i => M.vars.getD i d := by
    refine List.ext_getElem (by simp) fun i h1 h2 => ?_
    simp [h1]
  conv_rhs => rw [hr]
  rw [List.filter_map]
  rfl

/-- The first row that leaves a column. -/
theorem first_row {cpms : List (Cpm K)} {varis : List (Variable K)} {P : Cpm K}
    (h : CondNet U cpms varis P) {cNames : List K} (hcN : ∀ k, k ∈ cNames ↔ k ∈ P.getNames)
    {cx : List ℕ} (hcx : cx ∈ P.C)
    {idv : Option (List ℕ)} {c2 : Option (Cpm K)}
    (hrow : elimCondRow cpms varis cNames P none cx = .ok (c2, idv)) :
    (c2 = none ∧ idv = none ∧ ∀ k, (∃ N ∈ cpms, k ∈ N.getNames) →
      k ∈ varis.map Variable.name ∨ k ∈ P.getNames) ∨
    ∃ c, c2 = some c ∧ idv.isSome ∧ ProjSpec U cpms varis P cx c ∧ c.vars ≠ [] ∧
      (childNames c).Perm ((cpms.flatMap childNames).filter (· ∉ varis.map Variable.name)) := by
  obtain ⟨M, idx, iv, hs, hidx, hiv, hcase⟩ := elimCondRow_of_ok h hcx hrow
  obtain ⟨hcn, rfl, hcm⟩ := getColInd_inv hidx
  rw [Option.getD_none] at hiv
  have hcperm : cNames.Perm P.getNames := (List.perm_ext_iff_of_nodup hcn h.wf.nodup).2 hcN
  have hrest : ∀ k, k ∈ (M.vars.filter fun v => v.name ∉ cNames).map Variable.name ↔
      (∃ N ∈ cpms, k ∈ N.getNames) ∧ k ∉ varis.map Variable.name ∧ k ∉ P.getNames := by
    intro k
    have h1 : k ∈ (M.vars.filter fun v => v.name ∉ cNames).map Variable.name ↔
        k ∈ M.getNames ∧ k ∉ cNames := by
      constructor
      · intro hk
        obtain ⟨v, hv, rfl⟩ := List.mem_map.1 hk
        obtain ⟨h1, h2⟩ := List.mem_filter.1 hv
        exact ⟨List.mem_map_of_mem h1, by simpa using h2⟩
      · rintro ⟨hk, hk2⟩
        obtain ⟨v, hv, rfl⟩ := List.mem_map.1 hk
        exact List.mem_map_of_mem (List.mem_filter.2 ⟨hv, by simpa using hk2⟩)
    rw [h1, hcN, hs.names]
    generalize (∃ N ∈ cpms, k ∈ N.getNames) = a
    by_cases hb : k ∈ P.getNames <;> simp [hb]
  rcases hcase with ⟨he, rfl, rfl⟩ | ⟨he, rfl, vars', hv, hle, rfl⟩
  · left
    refine ⟨rfl, rfl, fun k hk => ?_⟩
    by_contra hc
    rw [not_or] at hc
    have hmem := (hrest k).2 ⟨hk, hc.1, hc.2⟩
    have h0 : takeRows M.vars iv = .ok [] := by rw [he]; rfl
    rw [hiv] at h0
    rw [← takeRows_complement hs.wf.nodup cNames hcm h0] at hmem
    simp at hmem
  · right
    rw [hiv] at hv he
    have hv' := takeRows_complement hs.wf.nodup cNames hcm hv
    subst hv'
    have hlen : (cNames.map fun k => M.getNames.idxOf k).length = P.vars.length := by
      rw [List.length_map, hcperm.length_eq]; simp [Cpm.getNames]
    have hchildM : ∀ k ∈ cNames, k ∈ childNames M := by
      intro k hk
      rw [hs.child.mem_iff, List.mem_append]
      exact .inr (h.child k ((hcN k).1 hk))
    have hnt : ((M.vars.take M.noChild).map Variable.name).Nodup :=
      hs.wf.nodup.sublist ((List.take_sublist _ _).map _)
    -- the dropped columns are children of M
    have hcount : ((M.vars.take M.noChild).filter fun v => v.name ∉ cNames).length =
        M.noChild - (cNames.map fun k => M.getNames.idxOf k).length := by
      have hp := List.filter_append_perm (fun v : Variable K => decide (v.name ∈ cNames))
        (M.vars.take M.noChild)
      have hpl := hp.length_eq
      have hp2 : (((M.vars.take M.noChild).filter fun v => decide (v.name ∈ cNames)).map
          Variable.name).Perm cNames := by
        rw [List.perm_ext_iff_of_nodup (hnt.sublist (List.filter_sublist.map _)) hcn]
        intro k
        constructor
        · intro hk
          obtain ⟨v, hv, rfl⟩ := List.mem_map.1 hk
          simpa using (List.mem_filter.1 hv).2
        · intro hk
          obtain ⟨v, hv, rfl⟩ := List.mem_map.1 (hchildM k hk)
          exact List.mem_map_of_mem (List.mem_filter.2 ⟨hv, by simpa using hk⟩)
      have hp2l := hp2.length_eq
      rw [List.length_map] at hp2l
      rw [List.length_append, hp2l, List.length_take, min_eq_left hs.wf.child] at hpl
      rw [List.length_map]
      have : (fun v : Variable K => !decide (v.name ∈ cNames)) =
          fun v => decide (v.name ∉ cNames) := by funext v; simp
      rw [this] at hpl
      omega
    refine ⟨_, rfl, rfl, projSpec h hs (fun v hv => (List.mem_filter.1 hv).1)
      (hs.wf.nodup.sublist (List.filter_sublist.map _)) hrest (by omega), ?_, ?_⟩
    · change (M.vars.filter fun v => v.name ∉ cNames) ≠ []
      intro h0
      rw [h0] at hv
      have := mapM_ok_forall₂ hv
      exact he (List.forall₂_nil_right_iff.1 this)
    · have hfilt : childNames ({ vars := M.vars.filter fun v => v.name ∉ cNames, noChild :=
          M.noChild - (cNames.map fun k => M.getNames.idxOf k).length, C := M.C.map (projRow M
          (M.vars.filter fun v => v.name ∉ cNames)), p := M.p } : Cpm K) =
          (childNames M).filter (· ∉ cNames) := by
        unfold childNames
        simp only
        rw [← hcount]
        conv_lhs => rw [← List.take_append_drop M.noChild M.vars]
        rw [List.filter_append]
        have h2 : ((M.vars.take M.noChild ++ M.vars.drop M.noChild).take M.noChild) =
            M.vars.take M.noChild := by rw [List.take_append_drop]
        rw [h2, List.take_left' rfl, List.filter_map]
        rfl
      rw [hfilt]
      refine (hs.child.filter _).trans ?_
      rw [List.filter_append]
      have e1 : (childNames P).filter (fun k => decide (k ∉ cNames)) = [] := by
        rw [List.filter_eq_nil_iff]
        intro k hk
        have : k ∈ cNames := (hcN k).2 (by
          rw [getNames_eq]; exact List.mem_append.2 (.inl hk))
        simpa using this
      rw [e1, List.append_nil, List.filter_filter]
      refine List.Perm.of_eq (List.filter_congr fun k hk => ?_)
      obtain ⟨N, hN, hkN⟩ := List.mem_flatMap.1 hk
      have : k ∉ cNames := fun hc => h.disj N hN k hkN (h.child k ((hcN k).1 hc))
      simp [this]

/-- What a `merge` that succeeds has done. -/
theorem merge_inv {A B A' R : Cpm K} (hm : A.merge B = .ok (A', R)) : A.getNames = B.getNames := by
  unfold Cpm.merge at hm
  rw [bind_ok] at hm
  obtain ⟨_, h1, -⟩ := hm
  by_contra hc
  rw [pyAssert_false hc] at h1
  cases h1

/-- A later row, merged into what there is. -/
theorem later_row {cpms : List (Cpm K)} {varis : List (Variable K)} {P : Cpm K}
    (h : CondNet U cpms varis P) {cNames : List K} (hcN : ∀ k, k ∈ cNames ↔ k ∈ P.getNames)
    {cx : List ℕ} (hcx : cx ∈ P.C) {iv0 : List ℕ}
    {idv : Option (List ℕ)} {c2 : Option (Cpm K)}
    (hrow : elimCondRow cpms varis cNames P (some iv0) cx = .ok (c2, idv)) {A : Cpm K}
    (hA : WF U A) (hAn : ∀ k, k ∈ A.getNames ↔
      (∃ N ∈ cpms, k ∈ N.getNames) ∧ k ∉ varis.map Variable.name ∧ k ∉ P.getNames)
    (hiv : iv0 ≠ []) :
    ∃ c, c2 = some c ∧ idv = some iv0 ∧ ∀ A' R, A.merge c = .ok (A', R) →
      WF U R ∧ R.vars = A.vars ∧ R.noChild = A.noChild ∧
        ∀ x, dens R x = dens A x + rowPart U cpms varis P cx x := by
  obtain ⟨M, idx, iv, hs, hidx, hiv', hcase⟩ := elimCondRow_of_ok h hcx hrow
  obtain ⟨hcn, rfl, hcm⟩ := getColInd_inv hidx
  rw [Option.getD_some] at hiv'
  subst hiv'
  have hcperm : cNames.Perm P.getNames := (List.perm_ext_iff_of_nodup hcn h.wf.nodup).2 hcN
  rcases hcase with ⟨he, -⟩ | ⟨-, rfl, vars', hv, hle, rfl⟩
  · exact absurd he hiv
  refine ⟨_, rfl, rfl, fun A' R hm => ?_⟩
  have hnames := merge_inv hm
  have hnames' : A.vars.map Variable.name = vars'.map Variable.name := hnames
  have hsub : ∀ v ∈ vars', v ∈ M.vars := by
    intro v hvv
    have hb := takeRows_inv hv
    rw [takeRows_ok v hb] at hv
    cases hv
    obtain ⟨i, hi, he⟩ := List.mem_map.1 hvv
    rw [← he]
    simp [hb i hi]
  have hlen : (cNames.map fun k => M.getNames.idxOf k).length = P.vars.length := by
    rw [List.length_map, hcperm.length_eq]; simp [Cpm.getNames]
  have hp := projSpec h hs hsub (hnames' ▸ hA.nodup)
    (fun k => by rw [← hnames']; exact hAn k)
    (n := M.noChild - (cNames.map fun k => M.getNames.idxOf k).length) (by omega)
  have hvars : A.vars = vars' :=
    vars_ext hA.env (fun v hv => hs.wf.env v (hsub v hv)) hnames'
  by_cases hsubr : ∀ r ∈ M.C.map (projRow M vars'), r ∈ A.C
  · obtain ⟨A1, R1, m1, m2, m4, m5, -, m6⟩ := C14_merge_partial A _ hA hp.wf hvars hsubr
    rw [hm] at m1
    cases m1
    exact ⟨m2, m4, m5, fun x => by rw [m6, hp.dens]⟩
  · push Not at hsubr
    rw [C14_missing_row_raises A _ hA hp.wf hvars hsubr] at hm
    cases hm

theorem loop_some {cpms : List (Cpm K)} {varis : List (Variable K)} {P : Cpm K}
    (h : CondNet U cpms varis P) {cNames : List K} (hcN : ∀ k, k ∈ cNames ↔ k ∈ P.getNames)
    {iv : List ℕ} (hiv : iv ≠ []) : ∀ (rows : List (List ℕ)), (∀ cx ∈ rows, cx ∈ P.C) →
    ∀ {A : Cpm K} {res : Option (Cpm K)}, WF U A → (∀ k, k ∈ A.getNames ↔
      (∃ N ∈ cpms, k ∈ N.getNames) ∧ k ∉ varis.map Variable.name ∧ k ∉ P.getNames) →
    elimCondLoop cpms varis cNames P rows (some iv) (some A) = .ok res →
    ∃ R, res = some R ∧ WF U R ∧ R.vars = A.vars ∧ R.noChild = A.noChild ∧
      ∀ x, dens R x = dens A x + (rows.map fun cx => rowPart U cpms varis P cx x).sum := by
  intro rows
  induction rows with
  | nil =>
    intro _ A res hA _ hl
    cases hl
    exact ⟨A, rfl, hA, rfl, rfl, by simp⟩
  | cons cx rows ih =>
    intro hr A res hA hAn hl
    unfold elimCondLoop at hl
    rw [bind_ok] at hl
    obtain ⟨⟨c2, idv⟩, hrow, hl⟩ := hl
    obtain ⟨c, rfl, rfl, hmerge⟩ := later_row h hcN (hr cx (by simp)) hrow hA hAn hiv
    simp only [bind_ok] at hl
    obtain ⟨⟨A', R1⟩, hm, hl⟩ := hl
    obtain ⟨m1, m2, m3, m4⟩ := hmerge A' R1 hm
    obtain ⟨R, r1, r2, r3, r4, r5⟩ := ih (fun c hc => hr c (by simp [hc])) m1
      (by unfold Cpm.getNames at hAn ⊢; rw [m2]; exact hAn) hl
    refine ⟨R, r1, r2, r3.trans m2, r4.trans m3, fun x => ?_⟩
    rw [r5, m4, List.map_cons, List.sum_cons, add_assoc]

/-- Everything a successful run has returned. -/
theorem loop_none {cpms : List (Cpm K)} {varis : List (Variable K)} {P : Cpm K}
    (h : CondNet U cpms varis P) {cNames : List K} (hcN : ∀ k, k ∈ cNames ↔ k ∈ P.getNames)
    {rows : List (List ℕ)} (hrows : ∀ cx ∈ rows, cx ∈ P.C) {res : Option (Cpm K)}
    (hl : elimCondLoop cpms varis cNames P rows none none = .ok res) :
    (res = none ∧ (rows ≠ [] → ∀ k, (∃ N ∈ cpms, k ∈ N.getNames) →
      k ∈ varis.map Variable.name ∨ k ∈ P.getNames)) ∨
    ∃ R, res = some R ∧ WF U R ∧ R.vars ≠ [] ∧
      (childNames R).Perm ((cpms.flatMap childNames).filter (· ∉ varis.map Variable.name)) ∧
      (∀ k, k ∈ R.getNames ↔
        (∃ N ∈ cpms, k ∈ N.getNames) ∧ k ∉ varis.map Variable.name ∧ k ∉ P.getNames) ∧
      ∀ x, dens R x = (rows.map fun cx => rowPart U cpms varis P cx x).sum := by
  induction rows with
  | nil => cases hl; exact .inl ⟨rfl, fun h => absurd rfl h⟩
  | cons cx rows ih =>
    unfold elimCondLoop at hl
    rw [bind_ok] at hl
    obtain ⟨⟨c2, idv⟩, hrow, hl⟩ := hl
    rcases first_row h hcN (hrows cx (by simp)) hrow with ⟨rfl, rfl, hall⟩ | ⟨c, rfl, hi, hp, hne, hch⟩
    · rcases ih (fun c hc => hrows c (by simp [hc])) hl with ⟨h1, -⟩ | ⟨R, h1, h2, h3, -, h5, -⟩
      · exact .inl ⟨h1, fun _ => hall⟩
      · exfalso
        obtain ⟨v, hv⟩ := List.exists_mem_of_ne_nil _ h3
        obtain ⟨k1, k2, k3⟩ := (h5 v.name).1 (List.mem_map_of_mem hv)
        rcases hall _ k1 with hk | hk
        · exact k2 hk
        · exact k3 hk
    · right
      obtain ⟨iv, rfl⟩ := Option.isSome_iff_exists.1 hi
      have hiv : iv ≠ [] := by
        rintro rfl
        obtain ⟨M, idx, iv', -, -, -, hcase⟩ := elimCondRow_of_ok h (hrows cx (by simp)) hrow
        rcases hcase with ⟨-, h1, -⟩ | ⟨h1, h2, -⟩
        · cases h1
        · cases h2; exact h1 rfl
      obtain ⟨R, r1, r2, r3, r4, r5⟩ := loop_some h hcN hiv rows
        (fun c hc => hrows c (by simp [hc])) hp.wf hp.names hl
      refine ⟨R, r1, r2, by rw [r3]; exact hne, ?_, ?_, fun x => ?_⟩
      · unfold childNames at hch ⊢; rw [r3, r4]; exact hch
      · have := hp.names
        unfold Cpm.getNames at this ⊢
        rw [r3]; exact this
      · rw [r5, hp.dens, List.map_cons, List.sum_cons]

/-- The rows of the conditioning CPM together: the whole marginal. -/
theorem sum_rowPart {cpms : List (Cpm K)} {varis : List (Variable K)} {P : Cpm K}
    (h : CondNet U cpms varis P) (x : K → ℕ) :
    (P.C.map fun cx => rowPart U cpms varis P cx x).sum =
      sumOver (sizes U (P.getNames ++ varis.map Variable.name))
        (fun y => jointDens cpms y * dens P y) x := by
  unfold rowPart
  rw [← sumOver_list_sum]
  have happ : sizes U (P.getNames ++ varis.map Variable.name) =
      sizes U P.getNames ++ sizes U (varis.map Variable.name) := by
    unfold sizes; rw [List.map_append]
  rw [happ, sumOver_append]
  refine sumOver_congr _ _ fun y => ?_
  have hin : sumOver (sizes U (varis.map Variable.name)) (fun y => jointDens cpms y * dens P y) y =
      sumOver (sizes U (varis.map Variable.name)) (jointDens cpms) y * dens P y := by
    rw [mul_comm, ← sumOver_mul_indep _ (jointDens cpms) (dens P) y]
    · exact sumOver_congr _ _ fun z => mul_comm _ _
    · intro a b hab
      refine dens_congr fun k hk => hab k fun hc => ?_
      rw [sizes_fst] at hc
      exact h.varis_not k hc hk
  rw [hin]
  generalize sumOver (sizes U (varis.map Variable.name)) (jointDens cpms) y = g
  -- exactly one row covers y, or none and the density is zero
  have hz : (∀ r ∈ P.C, ¬ RowMatches P.vars r y) → dens P y = 0 := by
    intro hno
    unfold dens
    refine List.sum_eq_zero fun q hq => ?_
    obtain ⟨cp, hcp, rfl⟩ := List.mem_map.1 hq
    rw [if_neg (hno _ (List.of_mem_zip hcp).1)]
  have hone : ∀ (L : List (List ℕ)) (w : ℚ), (L.Pairwise fun r r' => ∀ x, ¬ (RowMatches P.vars r x ∧
      RowMatches P.vars r' x)) → (L.map fun cx => if RowMatches P.vars cx y then w else 0).sum =
      if ∃ r ∈ L, RowMatches P.vars r y then w else 0 := by
    intro L w
    induction L with
    | nil => simp
    | cons r L ih =>
      intro hL
      rw [List.pairwise_cons] at hL
      rw [List.map_cons, List.sum_cons, ih hL.2]
      by_cases hm : RowMatches P.vars r y
      · have hno : ¬ ∃ r ∈ L, RowMatches P.vars r y := by
          rintro ⟨r', hr', hm'⟩
          exact hL.1 r' hr' y ⟨hm, hm'⟩
        rw [if_pos hm, if_neg hno, if_pos ⟨r, by simp, hm⟩, add_zero]
      · rw [if_neg hm, zero_add]
        congr 1
        simp [hm]
  have h1 := hone P.C (g * dens P y) h.rows
  by_cases hex : ∃ r ∈ P.C, RowMatches P.vars r y
  · rw [if_pos hex] at h1; exact h1
  · rw [if_neg hex] at h1
    rw [hz (by push Not at hex; exact hex), mul_zero] at h1 ⊢
    exact h1

end
end BNS
