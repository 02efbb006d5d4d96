import Mathlib.Algebra.BigOperators.Group.Finset.Basic
import Mathlib.Algebra.Order.Ring.Rat
import Mathlib.Logic.Function.Basic

/-!
# Specification vocabulary: distributions over assignments

Independent of the model: an assignment gives every named variable a basic state; summing a
function over some variables means letting each of them range over its basic states.
-/

namespace BNS

variable {K : Type} [DecidableEq K]

/-- `sumOver [(k₁, n₁), …] f x = Σ_{i₁ < n₁} Σ_{i₂ < n₂} … f (x with kⱼ := iⱼ)`. -/
def sumOver : List (K × ℕ) → ((K → ℕ) → ℚ) → (K → ℕ) → ℚ
  | [], f, x => f x
  | (k, n) :: vs, f, x => ∑ i ∈ Finset.range n, sumOver vs f (Function.update x k i)

end BNS
