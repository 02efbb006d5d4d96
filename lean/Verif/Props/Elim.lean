import Verif.Proofs.Elim
import Verif.Examples.Cpm

/-!
# Property C15: variable elimination
-/

namespace BNS

set_option linter.unusedSectionVars false

variable {K : Type} [LinearOrder K] {U : K → Variable K}

/-- What `variable_elim` needs: a network whose tables have an assignment in common (no table is
empty), and variables to eliminate that are distinct, known, defined by some CPM of the network and
connected to a variable that stays. -/
structure ElimOK (U : K → Variable K) (cpms : List (Cpm K)) (ve : List (Variable K)) : Prop where
  net : NetOK U cpms
  ne : cpms ≠ []
  scope : ∀ M ∈ cpms, M.vars ≠ []
  covered : ∃ x, ∀ M ∈ cpms, Covers M x
  nodup : (ve.map Variable.name).Nodup
  env : ∀ v ∈ ve, U v.name = v
  defined : ∀ v ∈ ve, ∃ M ∈ cpms, v.name ∈ childNames M
  linked : ∀ v ∈ ve, Linked cpms (fun k => k ∉ ve.map Variable.name) v.name

/-- `variable_elim` succeeds, and its result is the brute-force marginal: at every `x`, the sum over
the basic states of the eliminated variables of the product of all the input CPMs.  Its children are
the children of the inputs that were not eliminated, its scope the union of the scopes without the
eliminated variables. -/
theorem C15_elimination_partial (cpms : List (Cpm K)) (ve : List (Variable K)) (h : ElimOK U cpms ve) :
    ∃ P, variableElim cpms ve = .ok P ∧ WF U P ∧ ChildBasic P ∧
      (∀ x, dens P x = sumOver (ve.map fun v => (v.name, v.values.length)) (jointDens cpms) x) ∧
      (childNames P).Perm ((cpms.flatMap childNames).filter (· ∉ ve.map Variable.name)) ∧
      (∀ k, k ∈ P.getNames ↔ (∃ M ∈ cpms, k ∈ M.getNames) ∧ k ∉ ve.map Variable.name) := by
  obtain ⟨x0, hx0⟩ := h.covered
  obtain ⟨l, e1, e2, e3, e4, e5, e6, -, e8⟩ := elimList_spec
    (S := fun k => k ∉ ve.map Variable.name) x0 ve h.net hx0 h.nodup
    (fun v hv => ⟨h.defined v hv, not_not.2 (List.mem_map_of_mem hv), h.linked v hv⟩)
  have hsz : (ve.map fun v => (v.name, (U v.name).values.length)) =
      ve.map fun v => (v.name, v.values.length) :=
    List.map_congr_left fun v hv => by rw [h.env v hv]
  -- no CPM of the final list is without variables
  have hvars : ∀ M ∈ l, M.vars ≠ [] := elimList_vars ve h.scope e1
  obtain ⟨P, hP⟩ := productList_total (U := U) (e8 h.ne) x0
    (fun M hM => ⟨e2.wf M hM, hvars M hM, e3 M hM⟩) e2.disjoint
  have hPs := productList_ok e2.wf e2.disjoint hP
  refine ⟨P, ?_, hPs.wf, hPs.basic e2.basic, fun x => ?_, hPs.child.trans e5, fun k => ?_⟩
  · unfold variableElim
    rw [e1, ok_bind, hP]
  · rw [hPs.dens, ← hsz, ← e4]; rfl
  · rw [hPs.names, e6]

theorem ElimOK.perm {cpms : List (Cpm K)} {ve ve' : List (Variable K)} (h : ElimOK U cpms ve)
    (hp : ve.Perm ve') : ElimOK U cpms ve' where
  net := h.net
  ne := h.ne
  scope := h.scope
  covered := h.covered
  nodup := (hp.map _).nodup_iff.1 h.nodup
  env v hv := h.env v (hp.mem_iff.2 hv)
  defined v hv := h.defined v (hp.mem_iff.2 hv)
  linked v hv := by
    obtain ⟨q, hq, hl⟩ := h.linked v (hp.mem_iff.2 hv)
    exact ⟨q, fun hq' => hq ((hp.map _).mem_iff.2 hq'), hl⟩

/-- The elimination order does not matter: any two orders of the same variables succeed, with the
same distribution, the same children and the same scope. -/
theorem C15_order_partial (cpms : List (Cpm K)) (ve ve' : List (Variable K)) (h : ElimOK U cpms ve)
    (hp : ve.Perm ve') :
    ∃ P Q, variableElim cpms ve = .ok P ∧ variableElim cpms ve' = .ok Q ∧
      (∀ x, dens P x = dens Q x) ∧ (childNames P).Perm (childNames Q) ∧
      ∀ k, k ∈ P.getNames ↔ k ∈ Q.getNames := by
  obtain ⟨P, p1, -, -, p4, p5, p6⟩ := C15_elimination_partial cpms ve h
  obtain ⟨Q, q1, -, -, q4, q5, q6⟩ := C15_elimination_partial cpms ve' (h.perm hp)
  refine ⟨P, Q, p1, q1, fun x => ?_, p5.trans (List.Perm.trans (List.Perm.of_eq ?_) q5.symm),
    fun k => ?_⟩
  · rw [p4, q4]
    refine sumOver_perm (hp.map _) ?_ _ x
    rw [List.map_map]
    exact h.nodup
  · refine List.filter_congr fun k _ => ?_
    simp only [(hp.map Variable.name).mem_iff]
  · rw [p6, q6, (hp.map Variable.name).mem_iff]

/-- A variable that occurs in no CPM is refused. -/
theorem C15_unknown_raises (cpms : List (Cpm K)) (v : Variable K) (ve : List (Variable K))
    (h : ∀ M ∈ cpms, v.name ∉ M.getNames) :
    variableElim cpms (v :: ve) = .error .assertion := by
  have hs : cpms.filter (inScope v) = [] := by
    rw [List.filter_eq_nil_iff]
    intro M hM hc
    exact h M hM ((inScope_iff v M).1 hc)
  unfold variableElim variableElimList elimStep
  simp only [List.foldlM_cons, isInScope_one, maskRows_self, hs]
  rfl

/-- Why the variables have to be connected to one that stays: eliminating all the variables of an
independent part of the network raises `ValueError` (see C09). -/
theorem C15_disconnected_raises :
    NetOK Ex.U [Ex.A, Ex.E1] ∧ variableElim [Ex.A, Ex.E1] [Ex.U 0] = .error .value := by
  exact ⟨⟨by decide +kernel, by decide +kernel, by decide +kernel⟩, by decide +kernel⟩

/-- Why they have to be defined by some CPM: a variable that occurs as a parent only is not summed
out, silently. -/
theorem C15_parent_only_kept :
    NetOK Ex.U [Ex.B] ∧ ∃ P, variableElim [Ex.B] [Ex.U 0] = .ok P ∧ 0 ∈ P.getNames :=
  ⟨⟨by decide +kernel, by decide +kernel, by decide +kernel⟩, _, rfl, by decide +kernel⟩

/-- Non-vacuity: eliminate variables 0 and 2 of the example network (composite parent states). -/
theorem Ex.elim_ok : ElimOK Ex.U [Ex.A, Ex.B, Ex.D] [Ex.U 0, Ex.U 2] where
  net := ⟨by decide +kernel, by decide +kernel, by decide +kernel⟩
  ne := by simp
  scope := by decide +kernel
  covered := ⟨fun _ => 0, by decide +kernel⟩
  nodup := by decide +kernel
  env := by decide +kernel
  defined := by decide +kernel
  linked := by
    intro v hv
    refine ⟨1, by decide +kernel, .single ⟨Ex.D, by simp, ?_, by decide +kernel⟩⟩
    revert v
    decide +kernel

example : (variableElim [Ex.A, Ex.B, Ex.D] [Ex.U 0, Ex.U 2]).toOption.map
    (fun P => (P.getNames, P.C, P.p)) = some ([1], [[0], [1]], [23/300, 277/300]) := by
  decide +kernel

end BNS
