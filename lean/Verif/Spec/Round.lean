import Verif.Model.BrcRound
import Verif.Spec.Brc

/-!
# Specification vocabulary: accuracy of rounded arithmetic
-/

namespace BNS

variable {K : Type}

/-- Arithmetic on the numbers `F` with relative error at most `ε` in every operation, and with an
additional absolute error `η` in products (underflow).  A sum of `n` numbers that are not negative
is formed with `n` operations, or at least as accurately.  Double precision meets it with `F` the
multiples of `2⁻¹⁰⁷⁴`, `ε = 2⁻⁵³` and `η = 2⁻¹⁰⁷⁵` (`C102_float64`). -/
structure Arith.Within (A : Arith) (F : ℚ → Prop) (ε η : ℚ) : Prop where
  eps : 0 ≤ ε ∧ ε < 1
  eta : 0 ≤ η
  one : F 1
  sum : ∀ l : List ℚ, (∀ x ∈ l, F x ∧ 0 ≤ x) → F (A.sum l) ∧
    (1 - ε) ^ l.length * l.sum ≤ A.sum l ∧ A.sum l ≤ (1 + ε) ^ l.length * l.sum
  mul : ∀ a b, F a → F b → 0 ≤ a → 0 ≤ b → F (A.mul a b) ∧ 0 ≤ A.mul a b ∧
    (1 - ε) * (a * b) - η ≤ A.mul a b ∧ A.mul a b ≤ (1 + ε) * (a * b) + η
  sub : ∀ a b, F a → F b → F (A.sub a b) ∧ |A.sub a b - (a - b)| ≤ ε * |a - b|

/-- The doubles: 53 binary digits, none below `2⁻¹⁰⁷⁴`, no upper limit. -/
def IsDouble (y : ℚ) : Prop := ∃ m e : ℤ, |m| ≤ 2 ^ 53 ∧ -1074 ≤ e ∧ y = m * (2 : ℚ) ^ e

/-- The probabilities in the computer, `probs`, are those meant, `pr`, up to rounding. -/
def NearProbs (F : ℚ → Prop) (ε : ℚ) (vs : List (K × ℕ)) (probs pr : K → ℕ → ℚ) : Prop :=
  ∀ kn ∈ vs, ∀ i < kn.2, F (probs kn.1 i) ∧
    (1 - ε) * pr kn.1 i ≤ probs kn.1 i ∧ probs kn.1 i ≤ (1 + ε) * pr kn.1 i

/-- Number of roundings in the probability of a branch: for every component one per state, one for
the given probabilities and one for the product. -/
def roundings (vs : List (K × ℕ)) : ℕ := (vs.map fun kn => kn.2 + 2).sum

/-- The stored probability of a branch is the probability of its box, up to rounding. -/
structure PNear [DecidableEq K] (F : ℚ → Prop) (ε η : ℚ) (vs : List (K × ℕ)) (pr : K → ℕ → ℚ)
    (b : Branch K) : Prop where
  repr : F b.p
  nonneg : 0 ≤ b.p
  low : (1 - ε) ^ roundings vs * probOf vs pr (InBox vs b) - vs.length * η ≤ b.p
  up : b.p ≤ (1 + ε) ^ roundings vs * (probOf vs pr (InBox vs b) + vs.length * η)

/-- What `run` needs of its fixed inputs, apart from the probabilities. -/
structure SysCfgOK (c : RunCfg K) (Φ : (K → ℕ) → Bool) : Prop where
  vs : VarisOK c.vs
  coh : Coherent c.vs Φ
  sys : SysOK c.vs Φ c.sysFun

/-- What `run` needs of the rules and branches handed in: valid rules, a partition with right
labels, and the property `N` of every branch. -/
structure StartOKR (c : RunCfg K) (Φ : (K → ℕ) → Bool) (N : Branch K → Prop) (rules : Rules K)
    (brs : Option (List (Branch K))) : Prop where
  dict : RulesDict c.vs rules
  valid : RulesValid c.vs Φ rules
  part : ∀ bs, brs = some bs → bs = [] ∨ Partition c.vs bs
  labels : ∀ bs, brs = some bs → ∀ b ∈ bs, LabelsOK Φ b
  near : ∀ bs, brs = some bs → ∀ b ∈ bs, N b

/-- How far the numbers of a monitor row with `n` branches may be off: `n + roundings` roundings one
after the other and at most two for the differences, and `n` times the absolute error of the
products. -/
def tolerance (ε η : ℚ) (vs : List (K × ℕ)) (n : ℕ) : ℚ :=
  (1 + ε) ^ (n + roundings vs + 2) * (1 + n * (vs.length * η)) - 1

end BNS
