import Verif.Spec.SysNet
import Verif.Spec.Elim

/-!
# Specification vocabulary: observations
-/

namespace BNS

variable {K : Type}

/-- Observed states: distinct variables of the network, one valid state (basic or composite) for
each. -/
structure Observed (U : K → Variable K) (cpms : List (Cpm K)) (ns : List K) (ss : List ℕ) : Prop where
  len : ss.length = ns.length
  nodup : ns.Nodup
  scope : ∀ k ∈ ns, ∃ M ∈ cpms, k ∈ M.vars.map Variable.name
  state : ∀ p ∈ ns.zip ss, p.2 + 1 < 2 ^ (U p.1).values.length

/-- The assignment agrees with the observed states. -/
def Agrees (U : K → Variable K) (ns : List K) (ss : List ℕ) (x : K → ℕ) : Prop :=
  ∀ p ∈ ns.zip ss, x p.1 ∈ stateSet (U p.1) p.2

instance (U : K → Variable K) (ns : List K) (ss : List ℕ) (x : K → ℕ) :
    Decidable (Agrees U ns ss x) := by unfold Agrees; infer_instance

/-- An observation of a component: the variable of the observation, the component, and the observed
state. -/
structure Obs (K : Type) where
  node : K
  comp : K
  seen : ℕ

/-- The observations: variables of their own with complete tables, each for one component, and a
state that can be observed. -/
structure ObsVars (U : K → Variable K) (vs : List (K × ℕ)) (sys : K) (obs : List (Obs K)) : Prop where
  nodup : (obs.map Obs.node).Nodup
  new : ∀ o ∈ obs, o.node ∉ vs.map Prod.fst ∧ o.node ≠ sys
  name : ∀ o ∈ obs, (U o.node).name = o.node
  table : ∀ o ∈ obs, (U o.node).B = some (genB (U o.node).values.length)
  comp : ∀ o ∈ obs, o.comp ∈ vs.map Prod.fst
  seen : ∀ o ∈ obs, o.seen < (U o.node).values.length

/-- CPM of an observation given the component (tests/test_brc.py:677-688): state `j` is observed with
probability `lik j i` when the component is in state `i`. -/
def obsCpm (U : K → Variable K) (lik : K → ℕ → ℕ → ℚ) (o : Obs K) : Cpm K :=
  let rows := (List.range (U o.comp).values.length).flatMap fun i =>
    (List.range (U o.node).values.length).map fun j => (j, i)
  { vars := [U o.node, U o.comp], noChild := 1, C := rows.map fun r => [r.1, r.2]
    p := rows.map fun r => lik o.node r.1 r.2 }

/-- CPM of the system whose event matrix also has a column for every observation, with the state "any"
(the last composite state) in all of it (tests/test_brc.py:690-702). -/
def sysObsCpm (U : K → Variable K) (vs : List (K × ℕ)) (sys : K) (obs : List (Obs K))
    (C : List (List ℕ)) : Cpm K :=
  { vars := (U sys :: compVariables U vs) ++ obs.map fun o => U o.node, noChild := 1
    C := C.map fun r => r ++ obs.map fun o => 2 ^ (U o.node).values.length - 2
    p := C.map fun _ => 1 }

/-- The likelihood of the observations when the components are in the states `x`. -/
def likelihood (lik : K → ℕ → ℕ → ℚ) (obs : List (Obs K)) (x : K → ℕ) : ℚ :=
  (obs.map fun o => lik o.node o.seen (x o.comp)).prod

/-- The probability of a set of component vectors together with the observations: the sum of the
probabilities of its vectors, each times the likelihood of the observations. -/
def probWith [DecidableEq K] (vs : List (K × ℕ)) (probs : K → ℕ → ℚ) (lik : K → ℕ → ℕ → ℚ)
    (obs : List (Obs K)) (E : (K → ℕ) → Prop) [DecidablePred E] : ℚ :=
  sumOver vs (fun x => if E x then weight vs probs x * likelihood lik obs x else 0) (fun _ => 0)

end BNS
