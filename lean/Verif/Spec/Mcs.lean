import Verif.Model.Mcs
import Verif.Spec.Brc

/-!
# Specification vocabulary: Monte Carlo simulation of the unspecified branches

Only the data types of the model are used here, none of its operations.
-/

namespace BNS

variable {K : Type}

/-- A branch one of whose ends has an unknown state. -/
def Unspec (b : Branch K) : Prop := b.downState = .u ∨ b.upState = .u

instance (b : Branch K) : Decidable (Unspec b) := by unfold Unspec; infer_instance

/-- The probability of the branches known to fail. -/
def failMass (brs : List (Branch K)) : ℚ :=
  (brs.map fun b => if b.upState = .f then b.p else 0).sum

/-- The probability of the unspecified branches. -/
def unkMass (brs : List (Branch K)) : ℚ := (brs.map fun b => if Unspec b then b.p else 0).sum

/-- Numbers a uniform generator may return. -/
def Uniform (r : ℕ → ℕ → ℚ) : Prop := ∀ i j, 0 ≤ r i j ∧ r i j < 1

/-- The component is fixed in the branch, or has two neighbouring states whose probabilities add up
to one. -/
def TwoState (probs : K → ℕ → ℚ) (b : Branch K) (e : K) : Prop :=
  b.down e = b.up e ∨ (b.up e = b.down e + 1 ∧ 0 ≤ probs e (b.down e) ∧ 0 ≤ probs e (b.up e) ∧
    probs e (b.down e) + probs e (b.up e) = 1)

/-- What the simulation needs: some unspecified branch with positive probability, no negative
probability, and two-state components in the unspecified branches. -/
structure McsOK (c : McsCfg K) : Prop where
  nonneg : ∀ b ∈ c.brs, 0 ≤ b.p
  some : ∃ b ∈ c.brs, Unspec b ∧ 0 < b.p
  two : ∀ b ∈ c.brs, Unspec b → ∀ e ∈ c.names, TwoState c.probs b e

/-- The component vector lies in the box of the branch. -/
def InRow (names : List K) (b : Branch K) (row : List ℕ) : Prop :=
  List.Forall₂ (fun e x => b.down e ≤ x ∧ x ≤ b.up e) names row

/-- Probability of state `s` of component `e` within the branch. -/
def drawProb (probs : K → ℕ → ℚ) (b : Branch K) (e : K) (s : ℕ) : ℚ :=
  if b.down e = b.up e then (if s = b.down e then 1 else 0)
  else if s = b.down e ∨ s = b.up e then probs e s else 0

/-- Probability of drawing the component vector `x`: first a branch, in proportion to the branch
probabilities, then each component within it. -/
def sampleProb (vs : List (K × ℕ)) (probs : K → ℕ → ℚ) (brs : List (Branch K)) (x : K → ℕ) : ℚ :=
  (brs.map fun b => if Unspec b then
    b.p / unkMass brs * (vs.map fun kn => drawProb probs b kn.1 (x kn.1)).prod else 0).sum

end BNS
