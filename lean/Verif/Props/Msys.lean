import Verif.Proofs.Msys
import Verif.Examples.Cpm

/-!
# Property C46: system CPM times component CPMs

For components conditioned on at most one variable; with two, the code raises `ValueError`
(`C46_two_conditions_raise`).
-/

namespace BNS

set_option linter.unusedSectionVars false

section
variable {K : Type} [DecidableEq K] {U : K → Variable K} {cv : List (Variable K)} {cs : List ℕ}
  {S : Cpm K} {comps : List (Cpm K)} {D : K → Cpm K}

/-- `prod_Msys_and_Mcomps` succeeds; the components found among the parents of the system move to
the child side, conditioning variables not in the scope yet are added at the end, every row keeps
its states, and its probability is multiplied, for each of those components, by the probability
that the component is in one of the basic states that the row's (composite) state stands for. -/
theorem C46_rows_partial (h : MsysOK U cv cs S comps D) :
    ∃ P new, prodMsysMcomps S comps = .ok P ∧ WF U P ∧
      P.vars = S.vars.take S.noChild ++ compPars S comps ++ otherPars S comps ++ new ∧
      new = cv.filter (fun w => w.name ∉ (otherPars S comps).map Variable.name) ∧
      P.noChild = S.noChild + (compPars S comps).length ∧ P.C.length = S.C.length ∧
      ∀ (i : ℕ) (r : List ℕ) (q : ℚ), S.C[i]? = some r → S.p[i]? = some q →
        ∃ r' q', P.C[i]? = some r' ∧ P.p[i]? = some q' ∧
          (∀ v ∈ S.vars, val P.getNames r' v.name = val S.getNames r v.name) ∧
          (∀ wc ∈ cv.zip cs, wc.1 ∈ new → val P.getNames r' wc.1.name = wc.2) ∧
          ∀ x, RowMatches cv cs x → q' = q * ((compPars S comps).map fun v =>
            ∑ k ∈ stateSet v (val S.getNames r v.name),
              dens (D v.name) (Function.update x v.name k)).prod := by
  obtain ⟨x0, hx0⟩ := h.compsOK.exists_cond
  have hz : (cv.zip cs).map Prod.fst = cv :=
    List.map_fst_zip (by rw [h.compsOK.cond_facts.2.1])
  have hnew : (extraVars S comps cv cs).map Prod.fst =
      cv.filter (fun w => w.name ∉ (otherPars S comps).map Variable.name) := by
    conv_rhs => rw [← hz]
    unfold extraVars
    rw [List.filter_map]
    rfl
  refine ⟨_, _, prodMsys_ok h hx0, msysPure_WF h x0, rfl, hnew, ?_, by simp [msysPure], ?_⟩
  · simp [msysPure, h.sys.child]
  · intro i r q hr hq
    have hi : (S.C.zip S.p)[i]? = some (r, q) := List.getElem?_zip_eq_some.2 ⟨hr, hq⟩
    refine ⟨_, q * compFactor S comps D x0 r,
      by simp only [msysPure, List.getElem?_map, hr, Option.map_some],
      by simp only [msysPure, List.getElem?_map, hi, Option.map_some],
      fun v hv => val_msysRow h x0 r hv, ?_, ?_⟩
    · intro wc hwc hw
      refine val_extra h x0 r (List.mem_filter.2 ⟨hwc, ?_⟩)
      rw [hnew] at hw
      simpa using (List.mem_filter.1 hw).2
    · intro x hx
      exact compFactor_indep h hx0 hx hi

/-- Summing the component columns out of the result gives the marginal distribution of the system:
at every `x` under the condition of the components, the sum over their basic states of the system
CPM times the component CPMs. -/
theorem C46_system_marginal_partial (h : MsysOK U cv cs S comps D) (hc : 0 < S.noChild) :
    ∃ P Q, prodMsysMcomps S comps = .ok P ∧ P.sum (compPars S comps) true = .ok Q ∧ WF U Q ∧
      childNames Q = childNames S ∧
      ∀ x, RowMatches cv cs x → dens Q x =
        sumOver ((compPars S comps).map fun v => (v.name, v.values.length))
          (fun y => dens S y * ((compPars S comps).map fun v => dens (D v.name) y).prod) x := by
  obtain ⟨x0, hx0⟩ := h.compsOK.exists_cond
  have hwf := msysPure_WF h x0
  have hck := h.sys.child
  have htake : (msysPure S comps D cv cs x0).vars.take (msysPure S comps D cv cs x0).noChild =
      S.vars.take S.noChild ++ compPars S comps := by
    unfold msysPure sysCols
    simp only
    rw [List.append_assoc, List.take_left']
    rfl
  have hnd : (childNames S ++ (compPars S comps).map Variable.name).Nodup := by
    have h1 := (perm_sysCols S comps).map Variable.name |>.nodup_iff.2 h.sys.nodup
    unfold sysCols at h1
    rw [List.map_append, List.map_append] at h1
    exact h1.sublist (List.sublist_append_left _ _)
  have hrem : (S.vars.take S.noChild ++ compPars S comps).filter
      (fun v => v.name ∉ (compPars S comps).map Variable.name) = S.vars.take S.noChild := by
    rw [List.filter_append, List.filter_eq_self.2, List.filter_eq_nil_iff.2, List.append_nil]
    · intro v hv
      simpa using ⟨v, hv, rfl⟩
    · intro v hv
      rw [decide_eq_true_iff]
      exact fun hc' => (List.nodup_append.1 hnd).2.2 _ (List.mem_map_of_mem hv) _ hc' rfl
  have hR : sumRemain (msysPure S comps D cv cs x0) (compPars S comps) true =
      (S.vars.take S.noChild, colIdx (msysPure S comps D cv cs x0) (S.vars.take S.noChild)) := by
    rw [sumRemain_true hwf, htake, hrem]
  have hdrop : (msysPure S comps D cv cs x0).vars.drop (msysPure S comps D cv cs x0).noChild =
      otherPars S comps ++ (extraVars S comps cv cs).map Prod.fst := by
    unfold msysPure sysCols
    simp only
    rw [List.append_assoc, List.drop_left']
    rfl
  have hne : S.vars.take S.noChild ≠ [] := by
    intro h0
    have := congrArg List.length h0
    simp at this
    rcases this with h1 | h1
    · omega
    · exact h.scope h1
  obtain ⟨Q, q1, q2, q3, q4, -, -, q7⟩ := sumBody_ok hwf (R := S.vars.take S.noChild)
    (fun v hv => by rw [htake]; exact List.mem_append_left _ hv)
    (List.nodup_append.1 hnd).1 (by simp [hne])
  refine ⟨_, Q, prodMsys_ok h hx0, ?_, q4, ?_, ?_⟩
  · unfold Cpm.sum
    rw [hR]
    exact q1
  · unfold childNames
    rw [q2, q3, List.take_left' rfl]
  · intro x hx
    rw [← msys_marginal h hx]
    have hg := q7 (fun r p => if RowMatches Q.vars r x then p else 0) (by
      intro r a b; split <;> simp)
    have hkeepWF := q4.nodup
    unfold dens
    rw [hg]
    have hzip : (msysPure S comps D cv cs x0).C.zip (msysPure S comps D cv cs x0).p =
        (S.C.zip S.p).map fun cp => (projRow S (sysCols S comps) cp.1 ++
          (extraVars S comps cv cs).map Prod.snd, cp.2 * compFactor S comps D x0 cp.1) := by
      have hC : (msysPure S comps D cv cs x0).C = (S.C.zip S.p).map fun cp =>
          projRow S (sysCols S comps) cp.1 ++ (extraVars S comps cv cs).map Prod.snd := by
        conv_lhs => rw [msysPure]
        simp only
        conv_lhs => rw [← List.map_fst_zip (l₁ := S.C) (l₂ := S.p) (by rw [h.sys.pLen])]
        rw [List.map_map]
        rfl
      rw [hC]
      conv_lhs => rw [msysPure]
      simp only
      rw [List.zip_map']
    rw [hzip, List.map_map]
    congr 1
    refine List.map_congr_left fun cp hcp => ?_
    obtain ⟨i, hi, hie⟩ := List.getElem_of_mem hcp
    have hr := (List.of_mem_zip hcp).1
    simp only [Function.comp_apply]
    rw [compFactor_indep h hx0 hx (List.getElem?_eq_some_iff.2 ⟨hi, hie⟩)]
    refine if_congr ?_ rfl rfl
    rw [← q2, rowMatches_iff q4.nodup (by simp [projRow])]
    have hvals : ∀ v ∈ Q.vars, val (Q.vars.map Variable.name)
        (projRow (msysPure S comps D cv cs x0) Q.vars (projRow S (sysCols S comps) cp.1 ++
          (extraVars S comps cv cs).map Prod.snd)) v.name =
        val (msysPure S comps D cv cs x0).getNames (projRow S (sysCols S comps) cp.1 ++
          (extraVars S comps cv cs).map Prod.snd) v.name := fun v hv => projRow_val _ hv
    rw [hdrop] at q2
    constructor
    · intro hm v hv hnv
      have hvQ : v ∈ Q.vars := by
        rw [q2]
        have h1 := (perm_sysCols S comps).mem_iff.2 hv
        unfold sysCols at h1
        simp only [List.mem_append] at h1 ⊢
        tauto
      have h2 := hm v hvQ
      rw [hvals v hvQ, val_msysRow h x0 cp.1 hv] at h2
      exact h2
    · intro hm v hvQ
      rw [hvals v hvQ]
      have hvQ' := hvQ
      rw [q2] at hvQ'
      rcases List.mem_append.1 hvQ' with h1 | h1
      · have hvS := List.mem_of_mem_take h1
        rw [val_msysRow h x0 cp.1 hvS]
        refine hm v hvS fun hc' => ?_
        exact (List.nodup_append.1 hnd).2.2 _ (List.mem_map_of_mem h1) _
          (List.mem_map_of_mem hc') rfl
      · rcases List.mem_append.1 h1 with h1 | h1
        · have hvS := List.mem_of_mem_drop (List.mem_filter.1 h1).1
          rw [val_msysRow h x0 cp.1 hvS]
          refine hm v hvS fun hc' => ?_
          obtain ⟨m, hm', hmc⟩ := of_decide_eq_true (List.mem_filter.1 hc').2
          exact of_decide_eq_true (List.mem_filter.1 h1).2 m hm' hmc
        · obtain ⟨wc, hwc, rfl⟩ := List.mem_map.1 h1
          rw [val_extra h x0 cp.1 hwc]
          exact hx wc (List.mem_filter.1 hwc).1

/-- More than one child in a component CPM is refused. -/
theorem C46_two_children_rejected (S : Cpm K) (comps : List (Cpm K))
    (h : ∃ m ∈ comps, m.noChild ≠ 1) : prodMsysMcomps S comps = .error .assertion := by
  unfold prodMsysMcomps
  rw [pyAssert_false (by push Not; exact h)]
  rfl

end

/-! ### Witnesses -/

namespace Ex

/-- system 3 fails (state 0) when component 0 fails, or component 2 is in one of its two lower
states (index 3) and component 0 survives -/
def Sy : Cpm ℕ :=
  { vars := [U 3, U 0, U 2], noChild := 1, C := [[0, 0, 6], [0, 1, 3], [1, 1, 2]], p := [1, 1, 1] }

/-- P(2) -/
def C2 : Cpm ℕ :=
  { vars := [U 2], noChild := 1, C := [[2], [0], [1]], p := [1/2, 1/5, 3/10] }

theorem msys_ok : MsysOK U [] [] Sy [A, C2] (fun k => if k = 0 then A else C2) where
  sys := by decide +kernel
  scope := by simp [Sy]
  some_row := by simp [Sy]
  compsOK := ⟨by simp, by decide +kernel, by
      intro m hm
      simp only [List.mem_cons, List.not_mem_nil, or_false] at hm
      rcases hm with rfl | rfl
      · exact ⟨U 0, rfl⟩
      · exact ⟨U 2, rfl⟩, by decide +kernel, by decide +kernel, by decide +kernel, by decide +kernel,
    by simp, by decide +kernel, by simp⟩
  map := by decide +kernel
  notChild := by decide +kernel
  condNotChild := by simp

/-- P(2 | 0 = 1) and P(1 | 0 = 1): conditional component CPMs -/
def K2 : Cpm ℕ :=
  { vars := [U 2, U 0], noChild := 1, C := [[2, 1], [0, 1], [1, 1]], p := [1/2, 1/5, 3/10] }
def K1 : Cpm ℕ := { vars := [U 1, U 0], noChild := 1, C := [[0, 1], [1, 1]], p := [1/3, 2/3] }
def Sz : Cpm ℕ :=
  { vars := [U 3, U 1, U 2], noChild := 1, C := [[0, 0, 6], [0, 1, 3], [1, 1, 2]], p := [1, 1, 1] }

theorem msys_cond_ok : MsysOK U [U 0] [1] Sz [K1, K2] (fun k => if k = 1 then K1 else K2) where
  sys := by decide +kernel
  scope := by simp [Sz]
  some_row := by simp [Sz]
  compsOK := ⟨by simp, by decide +kernel, by
      intro m hm
      simp only [List.mem_cons, List.not_mem_nil, or_false] at hm
      rcases hm with rfl | rfl
      · exact ⟨U 1, rfl⟩
      · exact ⟨U 2, rfl⟩, by decide +kernel, by decide +kernel, by decide +kernel, by decide +kernel,
    by simp, by decide +kernel, by decide +kernel⟩
  map := by decide +kernel
  notChild := by decide +kernel
  condNotChild := by decide +kernel

/-- P(2 | 0 = 1, 1 = 0) -/
def K3 : Cpm ℕ :=
  { vars := [U 2, U 0, U 1], noChild := 1, C := [[0, 1, 0], [1, 1, 0], [2, 1, 0]]
    p := [1/2, 1/5, 3/10] }

end Ex

/-- With two conditioning variables the comparison `c[1:] == cond_st` is an array, whose truth value
is a `ValueError`. -/
theorem C46_two_conditions_raise : WF Ex.U Ex.K3 ∧ ChildBasic Ex.K3 ∧
    prodMsysMcomps Ex.Sz [Ex.K3] = .error .value := by
  exact ⟨by decide +kernel, by decide +kernel, by decide +kernel⟩

end BNS
