import Verif.Spec.FlowDir

/-!
# Specification vocabulary: flow networks with parallel components

No operation of the model is used.
-/

namespace BNS

variable {K N : Type} [DecidableEq N]

/-- The components connect the same nodes, in the same direction unless both directions are open. -/
def SameLink (bi : Bool) (ends : K → N × N) (a b : K) : Prop :=
  ends a = ends b ∨ (bi = true ∧ ends a = (ends b).swap)

instance (bi : Bool) (ends : K → N × N) (a b : K) : Decidable (SameLink bi ends a b) := by
  unfold SameLink; infer_instance

/-- Of the components that connect the same nodes, the one listed last. -/
def lastLinks (bi : Bool) (ends : K → N × N) : List (K × ℕ) → List (K × ℕ)
  | [] => []
  | a :: l => if ∃ b ∈ l, SameLink bi ends a.1 b.1 then lastLinks bi ends l
    else a :: lastLinks bi ends l

/-- A flow network, in which several components may connect the same nodes: every component has its
capacities, which are not negative and grow with the state; `newT` is the name of no node. -/
structure ParNetOK [DecidableEq K] (vs : List (K × ℕ)) (ends : K → N × N)
    (varis : List (K × Variable K)) (o d newT : N) : Prop where
  nodup : (vs.map Prod.fst).Nodup
  values : ∀ kn ∈ vs, ∃ v, varis.lookup kn.1 = some v ∧ v.values.length = kn.2 ∧
    (∀ w ∈ v.values, 0 ≤ w) ∧ v.values.Pairwise (· ≤ ·)
  fresh : ∀ kn ∈ vs, (ends kn.1).1 ≠ newT ∧ (ends kn.1).2 ≠ newT
  origin : ∃ kn ∈ vs, (ends kn.1).1 = o ∨ (ends kn.1).2 = o
  od : o ≠ d
  dest : d ≠ newT

end BNS
