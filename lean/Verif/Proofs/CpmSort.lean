import Verif.Proofs.CpmBasic

/-! `Cpm.sort` on well-formed input. -/

namespace BNS

open List

set_option linter.unusedSectionVars false
set_option linter.unnecessarySimpa false

section
variable {K : Type} [DecidableEq K]

theorem range_map_getD {α : Type} (X : List α) (d : α) :
    (List.range X.length).map (fun i => X.getD i d) = X := by
  apply List.ext_getElem
  · simp
  · intro i h1 h2
    simp [h2]

theorem range_map_getD₂ {α β γ : Type} (X : List α) (Y : List β) (dx : α) (dy : β)
    (hl : Y.length = X.length) (G : α → β → γ) :
    (List.range X.length).map (fun i => G (X.getD i dx) (Y.getD i dy)) =
      (X.zip Y).map fun xy => G xy.1 xy.2 := by
  apply List.ext_getElem
  · simp [hl]
  · intro i h1 h2
    simp at h1 h2
    simp [h2]

theorem argsortOn_perm {α κ : Type} [LE κ] [DecidableLE κ] (key : α → κ) (d : κ) (seq : List α) :
    (argsortOn key d seq).Perm (List.range seq.length) := List.perm_insertionSort _ _

variable {U : K → Variable K} {M : Cpm K}

/-- Well-formedness only depends on the set of rows. -/
theorem WF.of_perm (h : WF U M) {C : List (List ℕ)} {p : List ℚ} (hC : C.Perm M.C)
    (hp : p.length = C.length) : WF U { M with C := C, p := p } :=
  ⟨h.env, h.table, h.nodup, fun r hr => h.rowLen r (hC.subset hr),
    fun r hr => h.entry r (hC.subset hr), hp, h.child, h.noCs⟩

theorem dens_perm {M N : Cpm K} (hv : N.vars = M.vars)
    (h : (N.C.zip N.p).Perm (M.C.zip M.p)) (x : K → ℕ) : dens N x = dens M x := by
  unfold dens
  rw [hv]
  exact (h.map _).sum_eq

/-- The row order used by `sort`. -/
def sortIdx (M : Cpm K) : List ℕ := argsortOn (fun r : List ℕ => r.reverse) [] M.C

/-- The sorted CPM. -/
def sortPure (M : Cpm K) : Cpm K :=
  { M with C := (sortIdx M).map fun i => M.C.getD i []
           p := (sortIdx M).map fun i => M.p.getD i 0 }

theorem sortPure_C_perm (M : Cpm K) : (sortPure M).C.Perm M.C := by
  have h1 : (sortIdx M).Perm (List.range M.C.length) := argsortOn_perm _ _ _
  have h2 := h1.map fun i => M.C.getD i []
  rw [range_map_getD] at h2
  exact h2

theorem sortPure_rows_perm (h : WF U M) :
    ((sortPure M).C.zip (sortPure M).p).Perm (M.C.zip M.p) := by
  have h1 : (sortIdx M).Perm (List.range M.C.length) := argsortOn_perm _ _ _
  have h2 := h1.map fun i => (M.C.getD i [], M.p.getD i 0)
  rw [range_map_getD₂ _ _ _ _ h.pLen (fun a b => (a, b))] at h2
  simp only [Prod.mk.eta, List.map_id'] at h2
  simp only [sortPure]
  rw [List.zip_map']
  exact h2

theorem sortPure_WF (h : WF U M) : WF U (sortPure M) :=
  h.of_perm (sortPure_C_perm M) (by simp)

theorem sort_ok (h : WF U M) : M.sort = .ok (sortPure M) := by
  have h1 : (sortIdx M).Perm (List.range M.C.length) := argsortOn_perm _ _ _
  have hlt : ∀ i ∈ sortIdx M, i < M.C.length := fun i hi => by simpa using h1.subset hi
  have hwf := sortPure_WF h
  unfold Cpm.sort
  rw [if_pos h.noCs.2.2.2]
  simp only
  have hC : takeRows M.C (argsortOn (fun r : List ℕ => r.reverse) [] M.C) = .ok (sortPure M).C :=
    takeRows_ok [] hlt
  rw [hC, ok_bind, show M.vars = (sortPure M).vars from rfl, checkC_ok hwf.rowLen hwf.entry,
    ok_bind]
  have hp : takeRowsOpt M.p (argsortOn (fun r : List ℕ => r.reverse) [] M.C) =
      (.ok (sortPure M).p : Except Err (List ℚ)) := by
    unfold takeRowsOpt
    split
    · rename_i h0
      have : M.C = [] := by
        have := h.pLen; rw [h0] at this
        exact List.length_eq_zero_iff.1 this.symm
      simp [sortPure, sortIdx, argsortOn, this]
    · exact takeRows_ok 0 (by rw [h.pLen]; exact hlt)
  rw [hp, ok_bind, pyAssert_true (Or.inr hwf.pLen), ok_bind]
  rw [h.noCs.2.1, h.noCs.2.2.2, h.noCs.1]
  simp only [takeRowsOpt, ok_bind]
  rw [pyAssert_true (Or.inl trivial), ok_bind, pyAssert_true (Or.inl trivial), ok_bind]
  unfold sortPure
  rw [pure_ok, h.noCs.2.1, h.noCs.2.2.2, h.noCs.1]

end

end BNS
