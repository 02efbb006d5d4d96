import Verif.Model.CpmNames
import Verif.Spec.Cpm

/-!
# Specification vocabulary: queries by names and by labels

Of the model only the data types `Variable`, `Cpm`, `QVars` and `QState` are used.
-/

namespace BNS

variable {K : Type} [DecidableEq K] {U : K → Variable K}

/-- The position a state stands for, if its label is known. -/
def QState.pos (v : Variable K) : QState → ℕ
  | .idx n => n
  | .label l => v.values.idxOf l

/-- A label of the query describes a state of its variable. -/
def QState.Known (v : Variable K) : QState → Prop
  | .idx _ => True
  | .label l => l ∈ v.values

/-- The assignment gives each named variable its label. -/
def LabelsHold (U : K → Variable K) (ns : List K) (ls : List ℚ) (x : K → ℕ) : Prop :=
  ∀ p ∈ ns.zip ls, (U p.1).values[x p.1]? = some p.2

instance (ns : List K) (ls : List ℚ) (x : K → ℕ) : Decidable (LabelsHold U ns ls x) := by
  unfold LabelsHold; infer_instance

/-- Names and labels of a query: distinct variables of the CPM, one label for each, and each label
describes exactly one state. -/
structure QueryLabelsOK (U : K → Variable K) (M : Cpm K) (ns : List K) (ls : List ℚ) : Prop where
  scope : ∀ k ∈ ns, k ∈ M.getNames
  nodup : ns.Nodup
  len : ls.length = ns.length
  ne : ns ≠ []
  known : ∀ p ∈ ns.zip ls, p.2 ∈ (U p.1).values
  once : ∀ k ∈ ns, (U k).values.Nodup

end BNS
