import Verif.Spec.Cpm
import Mathlib.Logic.Relation

/-!
# Specification vocabulary: networks of CPMs

Only the data type `Cpm` of the model is used here, none of its operations.
-/

namespace BNS

variable {K : Type}

/-- The joint probability the CPMs of a network assign to `x`. -/
def jointDens (l : List (Cpm K)) (x : K → ℕ) : ℚ := (l.map fun M => dens M x).prod

/-- A network: well-formed CPMs over the same variables, basic states in the child columns, no
variable defined twice. -/
structure NetOK (U : K → Variable K) (l : List (Cpm K)) : Prop where
  wf : ∀ M ∈ l, WF U M
  basic : ∀ M ∈ l, ChildBasic M
  disjoint : ChildDisjoint l

/-- Two variables occur in one CPM. -/
def Share (l : List (Cpm K)) (a b : K) : Prop :=
  ∃ M ∈ l, a ∈ M.vars.map Variable.name ∧ b ∈ M.vars.map Variable.name

/-- `k` is connected, through CPMs with common variables, to a variable of `S`. -/
def Linked (l : List (Cpm K)) (S : K → Prop) (k : K) : Prop :=
  ∃ q, S q ∧ Relation.ReflTransGen (Share l) k q

end BNS
