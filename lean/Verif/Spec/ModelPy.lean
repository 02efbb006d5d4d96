import Verif.Model.ModelPy
import Verif.Spec.Bnb
import Verif.Spec.SysNet

/-!
# Specification vocabulary: the path-based network model
-/

namespace BNS

variable {K : Type} [DecidableEq K]

/-- The component probabilities of a scenario. -/
def scenProbs (scen : List (K × List ℚ)) (k : K) (i : ℕ) : ℚ :=
  (((scen.find? fun kv => kv.1 = k).map Prod.snd).getD []).getD i 0

/-- The arcs as binary components. -/
def binVs (edges : List K) : List (K × ℕ) := edges.map fun k => (k, 2)

/-- A network with one OD: distinct arcs, each with two damage states and its two probabilities in the
scenario; the OD is not an arc; at least one path and at most five (the table of a variable with more
than six values is not stored); every path is a non-empty list of distinct arcs with a finite time;
different times differ by more than the tolerance. -/
structure RoadNetOK (edges : List K) (damage : List ℚ) (scen : List (K × List ℚ)) (od : K)
    (pathTime : List (List K × Option ℚ)) : Prop where
  nodup : edges.Nodup
  two : damage.length = 2
  keys : (scen.map Prod.fst).Perm edges
  scenLen : ∀ kv ∈ scen, kv.2.length = 2
  odNew : od ∉ edges
  ne : pathTime ≠ []
  few : pathTime.length ≤ 5
  path : ∀ x ∈ pathTime, x.1 ≠ [] ∧ x.1.Nodup ∧ ∀ e ∈ x.1, e ∈ edges
  finite : ∀ x ∈ pathTime, x.2 ≠ none
  apart : ∀ x ∈ pathTime, ∀ y ∈ pathTime, TimesApart x.2 y.2

end BNS
