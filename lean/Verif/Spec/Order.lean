import Verif.Model.Cpm
import Mathlib.Logic.Relation

/-!
# Parents and ancestors in a network

A dictionary of CPMs is read as a graph: the CPM stored under a name lists, after its child
variables, the parents of that name.  Nothing here refers to the functions of `operation.py`.
-/

namespace BNS

variable {K : Type} [DecidableEq K]

/-- `b` is a parent in the CPM stored under `a`. -/
def ParentOf (cpms : List (K × Cpm K)) (a b : K) : Prop :=
  ∃ M, cpms.lookup a = some M ∧ b ∈ (M.vars.drop M.noChild).map Variable.name

/-- `k` is one of `varis` or an ancestor of one of them. -/
def Relevant (cpms : List (K × Cpm K)) (varis : List K) (k : K) : Prop :=
  ∃ v ∈ varis, Relation.ReflTransGen (ParentOf cpms) v k

/-- `M` depends on `N`: a variable defined by `N` is a parent in `M`. -/
def DependsOn (M N : Cpm K) : Prop :=
  ∃ v ∈ (M.vars.drop M.noChild).map Variable.name, v ∈ (N.vars.take N.noChild).map Variable.name

/-- No CPM of the list depends on itself, directly or through others. -/
def Acyclic (cpms : List (Cpm K)) : Prop :=
  ∀ i : Fin cpms.length, ¬ Relation.TransGen
    (fun a b : Fin cpms.length => DependsOn cpms[a] cpms[b]) i i

/-- The child variables of the CPM at position `i`. -/
def childrenAt (cpms : List (Cpm K)) (i : ℕ) : List (Variable K) :=
  ((cpms[i]?).map fun M => M.vars.take M.noChild).getD []

/-- The parent names of the CPM at position `i`. -/
def parentsAt (cpms : List (Cpm K)) (i : ℕ) : List K :=
  ((cpms[i]?).map fun M => (M.vars.drop M.noChild).map Variable.name).getD []

/-- What a sampling order needs: no cycle, every parent is the child of some CPM, no two CPMs define
the same variable. -/
structure OrderOK (cpms : List (Cpm K)) : Prop where
  acyclic : Acyclic cpms
  defined : ∀ M ∈ cpms, ∀ v ∈ (M.vars.drop M.noChild).map Variable.name,
    ∃ N ∈ cpms, v ∈ (N.vars.take N.noChild).map Variable.name
  disjoint : cpms.Pairwise fun M N => ∀ v ∈ (M.vars.take M.noChild).map Variable.name,
    v ∉ (N.vars.take N.noChild).map Variable.name

/-- The CPMs are listed parents first: every parent of a CPM is a child of an earlier one. -/
def ParentsFirst (cpms : List (Cpm K)) : Prop :=
  ∀ pre M post, cpms = pre ++ M :: post → ∀ v ∈ (M.vars.drop M.noChild).map Variable.name,
    ∃ N ∈ pre, v ∈ (N.vars.take N.noChild).map Variable.name

/-- The assignment a list of states of `vars` stands for. -/
def assignment (vars : List (Variable K)) (states : List ℕ) (k : K) : ℕ :=
  states.getD ((vars.map Variable.name).idxOf k) 0

end BNS
