import Verif.Model.PfNode
import Verif.Spec.SysNet

/-!
# Specification vocabulary of the pf_map demo: which nodes reach a destination in time
-/

namespace BNS

section
variable {K : Type} [DecidableEq K]

/-- Every road is in its best state. -/
def AllBest (varis : List (K × Variable K)) (x : K → ℕ) : Prop :=
  ∀ kv ∈ varis, x kv.1 + 1 = kv.2.values.length

/-- `t` is the time from the node to the nearest destination in the intact network. -/
def IntactTime (c : PfCfg K) (node : K) (t : ℚ) : Prop :=
  ∃ x, AllBest c.varis x ∧
    (∃ d ∈ c.dests, ∃ es ns, Route c.G node es ns d ∧ routeTime c.varis x es = t) ∧
    ∀ d ∈ c.dests, ∀ es ns, Route c.G node es ns d → t ≤ routeTime c.varis x es

/-- With the roads in the states `x` the node reaches a destination within `th`. -/
def Reaches (c : PfCfg K) (node : K) (th : ℚ) (x : K → ℕ) : Prop :=
  ∃ d ∈ c.dests, InTime c.G c.varis node d th x

/-- The input of the demo: a simple undirected network; roads with positive times that get shorter
with better states, named by their keys; destinations that are nodes; a positive delay; a
probability for each state of a road. -/
structure RoadsOK (c : PfCfg K) : Prop where
  graph : GraphOK c.G
  simple : c.G.multi = false
  undirected : c.G.directed = false
  times : TimesOK c.G c.varis
  ne : c.varis ≠ []
  pos : ∀ kv ∈ c.varis, ∀ w ∈ kv.2.values, 0 < w
  name : ∀ kv ∈ c.varis, kv.2.name = kv.1
  table : ∀ kv ∈ c.varis, kv.2.B = some (genB kv.2.values.length)
  dests : c.dests ≠ []
  destNodes : ∀ d ∈ c.dests, d ∈ c.G.nodes
  thres : 0 < c.thres
  probs : ProbOK (statesOf c.varis) c.probs

/-- A node of the network that is not called like a road. -/
def NodeOK (c : PfCfg K) (node : K) : Prop := node ∈ c.G.nodes ∧ node ∉ c.varis.map Prod.fst

/-- The variables: those of the roads, and three states for the node. -/
def roadVar (c : PfCfg K) (node k : K) : Variable K := (c.varis.lookup k).getD (nodeVariable node)

end

end BNS
