import Verif.Spec.Samples

/-!
# Specification vocabulary: estimates from samples

A query is a list of variables with one (composite) state each.  A sample answers a query when the
states it holds are consistent with it.  `flag = false` asks for the complement.
-/

namespace BNS

variable {K : Type} [DecidableEq K]

/-- The sample `c` of `M` answers the query (or its complement when `flag` is false). -/
def Hit (M : Cpm K) (cv : List (Variable K)) (cs : List ℕ) (flag : Bool) (c : List ℕ) : Prop :=
  Consistent (M.vars.map Variable.name) cv cs (sampleState M.vars c) ↔ flag = true

instance (M : Cpm K) (cv : List (Variable K)) (cs : List ℕ) (flag : Bool) (c : List ℕ) :
    Decidable (Hit M cv cs flag c) := by unfold Hit; infer_instance

/-- The importance weight of sample number `j`: its probability over the probability with which it
was drawn; one when no probabilities are stored. -/
def wt (M : Cpm K) (j : ℕ) : ℚ := if M.ps = [] then 1 else M.ps.getD j 0 / M.q.getD j 0

/-- The weight of the samples that answer the query, over all the samples. -/
def hitWeight (M : Cpm K) (cv : List (Variable K)) (cs : List ℕ) (flag : Bool) : ℚ :=
  ((List.range M.Cs.length).map fun j =>
    if Hit M cv cs flag (M.Cs.getD j []) then wt M j else 0).sum

/-- The number of samples that answer the query. -/
def hitCount (M : Cpm K) (cv : List (Variable K)) (cs : List ℕ) (flag : Bool) : ℕ :=
  M.Cs.countP fun c => Hit M cv cs flag c

/-- The rows of the event matrix carry part of a probability distribution. -/
structure SubProb (M : Cpm K) : Prop where
  nonneg : ∀ x ∈ M.p, 0 ≤ x
  le_one : M.p.sum ≤ 1

instance (M : Cpm K) : Decidable (SubProb M) :=
  decidable_of_iff ((∀ x ∈ M.p, 0 ≤ x) ∧ M.p.sum ≤ 1) ⟨fun ⟨a, b⟩ => ⟨a, b⟩, fun ⟨a, b⟩ => ⟨a, b⟩⟩

end BNS
