import Verif.Spec.Cpm

/-! A small network used to show that the hypotheses of the CPM theorems are met: variable 2 has
three values, the others two; the second CPM uses composite parent states. -/

namespace BNS.Ex

def U (k : ℕ) : Variable ℕ :=
  Variable.mk' k (if k = 2 then [10, 20, 30] else [0, 1]) .dflt

/-- P(0) -/
def A : Cpm ℕ := { vars := [U 0], noChild := 1, C := [[0], [1]], p := [1/10, 9/10] }

/-- P(2 | 0): state 0 of variable 2 has the same probability for both states of variable 0 -/
def B : Cpm ℕ :=
  { vars := [U 2, U 0], noChild := 1, C := [[0, 2], [1, 0], [2, 0], [1, 1]]
    p := [1/5, 3/10, 1/2, 4/5] }

/-- P(1 | 2, 0) with the composite state {1, 2} of variable 2 (index 5) -/
def D : Cpm ℕ :=
  { vars := [U 1, U 2, U 0], noChild := 1
    C := [[0, 0, 2], [1, 0, 2], [0, 5, 0], [1, 5, 0], [1, 5, 1]]
    p := [1/4, 3/4, 1/3, 2/3, 1] }

/-- P(1), independent of the rest -/
def E1 : Cpm ℕ := { vars := [U 1], noChild := 1, C := [[0], [1]], p := [1/2, 1/2] }

/-- an empty table over variable 1 -/
def E : Cpm ℕ := { vars := [U 1], noChild := 1, C := [], p := [] }

example : WF U A ∧ WF U B ∧ WF U D ∧ WF U E ∧ ChildDisjoint [A, B, D] ∧
    (∀ M ∈ [A, B, D], M.vars ≠ [] ∧ Covers M (fun _ => 0) ∧ ChildBasic M) := by
  decide +kernel

end BNS.Ex
