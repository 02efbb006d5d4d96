import Verif.Model.Csys
import Verif.Spec.Brc
import Verif.Spec.Cpm

/-!
# Specification vocabulary: branches as rows of an event matrix
-/

namespace BNS

variable {K : Type}

/-- Every component has a variable with its name and a stored table in which the basic states come
first. -/
def TablesOK (vs : List (K × ℕ)) (varis : K → Option (Variable K)) : Prop :=
  ∀ kn ∈ vs, ∃ v B, varis kn.1 = some v ∧ v.name = kn.1 ∧ v.B = some B ∧
    ∀ i < kn.2, B[i]? = some {i}

/-- The tables of the variables are only extended at the end, and nothing else changes. -/
def TablesExtend (varis varis' : K → Option (Variable K)) : Prop :=
  ∀ k, varis' k = varis k ∨ ∃ v B B', varis k = some v ∧ v.B = some B ∧
    varis' k = some { v with B := some B' } ∧ B <+: B'

/-- The label of a branch as a whole: its common label, or `'u'`. -/
def Branch.label (b : Branch K) : St := if b.downState = b.upState then b.downState else .u

/-- The variables of the components. -/
def compVars (vs : List (K × ℕ)) (varis : K → Option (Variable K)) : List (Variable K) :=
  vs.filterMap fun kn => varis kn.1

end BNS
