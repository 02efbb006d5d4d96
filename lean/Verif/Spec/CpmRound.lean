import Verif.Model.CpmRound
import Verif.Spec.Cpm
import Verif.Spec.Round

/-!
# Specification vocabulary: CPMs computed with rounded arithmetic
-/

namespace BNS

variable {K : Type}

/-- The number `x'` of the computer is `x`, not negative, up to `k` relative errors of size `ε`. -/
structure NearP (F : ℚ → Prop) (ε : ℚ) (k : ℕ) (x' x : ℚ) : Prop where
  repr : F x'
  nonneg : 0 ≤ x
  low : (1 - ε) ^ k * x ≤ x'
  up : x' ≤ (1 + ε) ^ k * x

/-- The same with underflow: besides, an absolute error of at most `η 8ᵏ`; the numbers are at most
`2ᵏ`. -/
structure NearU (F : ℚ → Prop) (ε η : ℚ) (k : ℕ) (x' x : ℚ) : Prop where
  repr : F x'
  nonneg' : 0 ≤ x'
  nonneg : 0 ≤ x
  le : x ≤ 2 ^ k
  low : (1 - ε) ^ k * x - η * 8 ^ k ≤ x'
  up : x' ≤ (1 + ε) ^ k * x + η * 8 ^ k

/-- Rounding to 53 binary digits: sums and differences of numbers of the computer, `F`, have a relative
error of at most `2⁻⁵³`; any other result has it, too, besides an absolute error of at most `η`. -/
structure Round53 (fl : ℚ → ℚ) (F : ℚ → Prop) (η : ℚ) : Prop where
  zero : F 0
  one : F 1
  mem : ∀ x, F (fl x)
  nonneg : ∀ x, 0 ≤ x → 0 ≤ fl x
  add : ∀ a b, F a → F b → |fl (a + b) - (a + b)| ≤ (2 : ℚ) ^ (-53 : ℤ) * |a + b|
  sub : ∀ a b, F a → F b → |fl (a - b) - (a - b)| ≤ (2 : ℚ) ^ (-53 : ℤ) * |a - b|
  any : ∀ x, |fl x - x| ≤ (2 : ℚ) ^ (-53 : ℤ) * |x| + η
  eta : 0 ≤ η ∧ η ≤ (2 : ℚ) ^ (-53 : ℤ)

/-- `M'` is the table `M`, with the same rows in the same order, and with probabilities related by
`R`; neither has samples. -/
structure SameTable (R : ℚ → ℚ → Prop) (M' M : Cpm K) : Prop where
  vars : M'.vars = M.vars
  noChild : M'.noChild = M.noChild
  C : M'.C = M.C
  p : List.Forall₂ R M'.p M.p
  samples : M'.Cs = M.Cs ∧ M'.q = M.q ∧ M'.ps = M.ps ∧ M'.sampleIdx = M.sampleIdx
  noCs : M.Cs.flatten = []

/-- Two outcomes of a computation: the same exception, or results related by `R`. -/
def Outcome {α β : Type} (R : α → β → Prop) : Except Err α → Except Err β → Prop
  | .ok a, .ok b => R a b
  | .error e, .error f => e = f
  | _, _ => False

section
variable [LinearOrder K]

/-- Number of rows of a table, if there is one. -/
def tableRows : Except Err (Cpm K) → ℕ
  | .ok M => M.C.length
  | .error _ => 0

/-- Number of rows of the intermediate tables of `variable_elim`: the product of the tables with the
variable, before the sum, for one variable after the other. -/
def elimRows : List (Cpm K) → List (Variable K) → ℕ
  | _, [] => 0
  | cpms, v :: ve =>
    tableRows (productList (maskRows (isInScope [v] cpms) cpms)) +
    (match elimStep cpms v with
      | .ok l => elimRows l ve
      | .error _ => 0)

/-- Relative errors in the result of `variable_elim`: those of the given tables (`k` each), one per
multiplication and one per row that is added up. -/
def elimRoundings (k : ℕ) (cpms : List (Cpm K)) (ve : List (Variable K)) : ℕ :=
  cpms.length * k + (cpms.length - 1) + elimRows cpms ve

/-- Relative errors in the result of `variable_elim_cond`, read off the given tables (which have `k`
each): the tables are multiplied and the variables eliminated once per row of the conditioning tables, and
the tables of the rows are added up. -/
def condRoundings (k : ℕ) (cpms : List (Cpm K)) (varis : List (Variable K)) (cond : List (Cpm K)) : ℕ :=
  let n := (cpms.map fun M => max 1 M.C.length).prod
  let c := (cond.map fun M => max 1 M.C.length).prod
  (cpms.length + cond.length) * (k + 1) + varis.length * n + c * (2 * (n * c))

end

end BNS
