import Verif.Model.CpmEdit

/-!
# When a CPM is coherent
-/

namespace BNS

set_option linter.unusedSectionVars false

section
variable {K : Type}

/-- A matrix over the variables whose entries do not exceed the bounds, or an empty array. -/
def MatOK (bound : Variable K → ℕ) (scope : List (Variable K)) (C : List (List ℕ)) : Prop :=
  C.flatten = [] ∨ ∀ r ∈ C, r.length = scope.length ∧
    ∀ (i : ℕ) (v : Variable K) (x : ℕ), scope[i]? = some v → r[i]? = some x → x ≤ bound v

/-- One number per row, if there are any numbers. -/
def PerRow {α : Type} (x : List α) (C : List (List ℕ)) : Prop := x = [] ∨ x.length = C.length

/-- The attributes of the CPM fit together. -/
structure FieldsFit (M : Cpm K) : Prop where
  child : M.noChild ≤ M.vars.length
  mat : MatOK (fun v => 2 ^ v.values.length - 1) M.vars M.C
  prob : PerRow M.p M.C
  samples : MatOK (fun v => v.values.length) M.vars M.Cs
  weights : M.Cs.flatten = [] ∨ PerRow M.q M.Cs
  probs : M.Cs.flatten = [] ∨ PerRow M.ps M.Cs
  numbers : M.Cs.flatten = [] ∨ PerRow M.sampleIdx M.Cs

/-- Assignments that keep the number of rows when something belongs to the rows: an event matrix is
replaced by one with as many rows unless the probabilities have been removed, samples by as many
samples unless weights, probabilities and numbers have been removed, variables by variables with as
many states. -/
def Safe (M : Cpm K) : CpmOp K → Prop
  | .scope vs => vs.map (fun v => v.values.length) = M.vars.map fun v => v.values.length
  | .C a => (∃ r, a = .mat r) ∧ (M.p = [] ∨ a.rows.length = M.C.length)
  | .Cs a => (∃ r, a = .mat r) ∧ (M.q = [] ∧ M.ps = [] ∧ M.sampleIdx = [] ∨
      M.Cs.flatten ≠ [] ∧ a.rows.length = M.Cs.length)
  | _ => True

end

end BNS
