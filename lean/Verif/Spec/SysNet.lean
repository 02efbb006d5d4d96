import Verif.Spec.Brc
import Verif.Spec.Cpm

/-!
# Specification vocabulary: independent components and one system event

How a user puts a network together from component probabilities and a system event matrix
(`demos/*/batch.py`, `model.py:98-113`): one CPM per component with a row per state, and one CPM of the
system given the components, all of whose probabilities are 1.
-/

namespace BNS

variable {K : Type}

/-- The variables: complete stored tables; `m` states of the system `sys`, which is not a
component. -/
structure SysVars (U : K → Variable K) (vs : List (K × ℕ)) (sys : K) (m : ℕ) : Prop where
  varis : VarisOK vs
  name : ∀ kn ∈ vs, (U kn.1).name = kn.1
  size : ∀ kn ∈ vs, (U kn.1).values.length = kn.2
  table : ∀ kn ∈ vs, (U kn.1).B = some (genB kn.2)
  sysNew : sys ∉ vs.map Prod.fst
  sysName : (U sys).name = sys
  sysSize : (U sys).values.length = m
  sysTable : (U sys).B = some (genB m)

/-- The variables of the components. -/
def compVariables (U : K → Variable K) (vs : List (K × ℕ)) : List (Variable K) :=
  vs.map fun kn => U kn.1

/-- CPM of one component: state `i` with probability `probs k i`. -/
def compCpm (U : K → Variable K) (probs : K → ℕ → ℚ) (kn : K × ℕ) : Cpm K :=
  { vars := [U kn.1], noChild := 1, C := (List.range kn.2).map fun i => [i]
    p := (List.range kn.2).map (probs kn.1) }

/-- CPM of the system given the components, with event matrix `C`. -/
def sysCpm (U : K → Variable K) (vs : List (K × ℕ)) (sys : K) (C : List (List ℕ)) : Cpm K :=
  { vars := U sys :: compVariables U vs, noChild := 1, C := C, p := C.map fun _ => 1 }

/-- An event matrix of the system: a basic system state, then valid component states; and no
component vector is covered by two rows. -/
structure EventsOK (U : K → Variable K) (vs : List (K × ℕ)) (m : ℕ) (C : List (List ℕ)) :
    Prop where
  ne : C ≠ []
  rows : ∀ r ∈ C, ∃ s cs, r = s :: cs ∧ s < m ∧ cs.length = vs.length ∧
    ∀ vc ∈ (compVariables U vs).zip cs, vc.2 + 1 < 2 ^ vc.1.values.length
  once : ∀ x, InSpace vs x →
    C.countP (fun r => decide (RowMatches (compVariables U vs) r.tail x)) ≤ 1

/-- The row of the event matrix that covers the component vector `x` gives system state `j`. -/
def SysState (U : K → Variable K) (vs : List (K × ℕ)) (C : List (List ℕ)) (j : ℕ) (x : K → ℕ) :
    Prop := ∃ r ∈ C, r.head? = some j ∧ RowMatches (compVariables U vs) r.tail x

instance (U : K → Variable K) (vs : List (K × ℕ)) (C : List (List ℕ)) (j : ℕ) (x : K → ℕ) :
    Decidable (SysState U vs C j x) := by unfold SysState; infer_instance

end BNS
