import Verif.Model.McsIndep
import Verif.Spec.Mcs

/-!
# Specification vocabulary: plain Monte Carlo simulation of independent components

Only the data types of the model are used here, none of its operations.
-/

namespace BNS

variable {K : Type}

/-- The uniform number `u` draws state `s` from `states` with probabilities `p`: it lies in the slot
of `s` when the slots are laid out one after the other from zero. -/
def Draws (states : List ℕ) (p : ℕ → ℚ) (u : ℚ) (s : ℕ) : Prop :=
  ∃ l l' : List ℕ, states = l ++ s :: l' ∧ (l.map p).sum ≤ u ∧ u < (l.map p).sum + p s

/-- A distribution over distinct states. -/
structure DistOK (states : List ℕ) (p : ℕ → ℚ) : Prop where
  nodup : states.Nodup
  nonneg : ∀ s ∈ states, 0 ≤ p s
  total : (states.map p).sum = 1

/-- The component names are distinct and each component has a distribution. -/
structure IndepOK (c : IndepCfg K) : Prop where
  nodup : c.names.Nodup
  dist : ∀ e ∈ c.names, DistOK (c.keys e) (c.prob e)

/-- `xs i` is the vector drawn in iteration `i`; zero outside the components. -/
def Drawn (c : IndepCfg K) (r : ℕ → ℕ → ℚ) (xs : ℕ → K → ℕ) : Prop :=
  ∀ i, (∀ j (h : j < c.names.length),
    Draws (c.keys c.names[j]) (c.prob c.names[j]) (r i j) (xs i c.names[j])) ∧
    ∀ k, k ∉ c.names → xs i k = 0

/-- The number of failing vectors among the first `n`. -/
def nFail (c : IndepCfg K) (xs : ℕ → K → ℕ) (n : ℕ) : ℕ :=
  (List.range n).countP fun i => (c.sysFun (xs i)).st = .f

/-- The loop may stop after `n` vectors: the last one fails, there are more than five failures, and
the target is met. -/
def StopAt (c : IndepCfg K) (xs : ℕ → K → ℕ) (n : ℕ) : Prop :=
  ∃ m, n = m + 1 ∧ (c.sysFun (xs m)).st = .f ∧ 5 < nFail c xs n ∧
    (1 - (nFail c xs n : ℚ) / n) / nFail c xs n ≤ c.covT ^ 2

end BNS
