import Verif.Spec.Brc
import Mathlib.Algebra.Order.BigOperators.Group.Finset
import Mathlib.Algebra.Order.Group.Abs

/-! What the properties say about two sets of component probabilities. -/

namespace BNS

variable {K : Type}

/-- How far two distributions over `n` states are apart: half the sum of the differences. -/
def stateDist (p q : ℕ → ℚ) (n : ℕ) : ℚ := (∑ i ∈ Finset.range n, |p i - q i|) / 2

/-- The same, added over the components. -/
def compDist (vs : List (K × ℕ)) (p q : K → ℕ → ℚ) : ℚ :=
  (vs.map fun kn => stateDist (p kn.1) (q kn.1) kn.2).sum

end BNS
