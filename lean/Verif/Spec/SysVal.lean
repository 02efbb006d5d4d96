import Verif.Spec.Cpm

/-!
# Specification vocabulary: maximum and minimum of the values of several variables
-/

namespace BNS

variable {K : Type}

/-- Every variable of the list is in one of its states. -/
def ValidAt (vs : List (Variable K)) (x : K → ℕ) : Prop := ∀ v ∈ vs, x v.name < v.values.length

/-- `z` is the greatest of the values of the variables at `x`. -/
def IsMaxAt (vs : List (Variable K)) (x : K → ℕ) (z : ℚ) : Prop :=
  (∃ v ∈ vs, v.values[x v.name]? = some z) ∧
    ∀ v ∈ vs, ∀ y, v.values[x v.name]? = some y → y ≤ z

/-- `z` is the least of the values of the variables at `x`. -/
def IsMinAt (vs : List (Variable K)) (x : K → ℕ) (z : ℚ) : Prop :=
  (∃ v ∈ vs, v.values[x v.name]? = some z) ∧
    ∀ v ∈ vs, ∀ y, v.values[x v.name]? = some y → z ≤ y

/-- The parents of a maximum or minimum system: at least one variable, distinct names, complete
stored tables, and distinct values. -/
structure SysParentsOK (vs : List (Variable K)) : Prop where
  ne : vs ≠ []
  names : (vs.map Variable.name).Nodup
  table : ∀ v ∈ vs, v.B = some (genB v.values.length)
  some_value : ∀ v ∈ vs, v.values ≠ []
  distinct : ∀ v ∈ vs, v.values.Nodup

end BNS
