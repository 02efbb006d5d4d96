import Verif.Spec.Flow
import Verif.Model.Trans

/-!
# Model of `max_flow` (`BNS_JT/operation.py:886-941`)

`networkx.maximum_flow` is a parameter `lib` (contract: `FlowLibOK`); `f_dict[u][v]` is a total
function of the nodes.  The name `'new_t'` of the added node is the parameter `newT`.
-/

namespace BNS

section
variable {K N : Type} [DecidableEq K] [DecidableEq N]

/-- `networkx.maximum_flow`: graph, source, sink; value and flow.  As in operation.py:886-941. -/
abbrev FlowLib (N : Type) := CapGraph N → N → N → Except Err (ℚ × (N → N → ℚ))

/-- `G.add_edge(u, v, capacity=c)` for a `networkx.Graph`: an edge between the same nodes gets the
new capacity.  As in operation.py:919. -/
def addEdge (G : CapGraph N) (u v : N) (c : ℚ) : CapGraph N :=
  if G.any fun e => decide (Joins e u v) then
    G.map fun e => if Joins e u v then (e.1, e.2.1, c) else e
  else G ++ [(u, v, c)]

/-- One edge of the graph (operation.py:919). -/
def flowEdge (edges : List (K × N × N)) (varis : List (K × Variable K)) (G : CapGraph N)
    (kx : K × ℕ) : Except Err (CapGraph N) := do
  let e ← itemsGet edges kx.1
  let v ← itemsGet varis kx.1
  let c ← pyGet v.values kx.2
  return addEdge G e.1 e.2 c

/-- The entry of `min_comps_st` for one component (operation.py:929-933), if there is one. -/
def flowRule (edges : List (K × N × N)) (varis : List (K × Variable K)) (f : N → N → ℚ)
    (kx : K × ℕ) : Except Err (Option (K × Option ℕ)) := do
  let e ← itemsGet edges kx.1
  let kFlow := max (f e.1 e.2) (f e.2 e.1)
  if 0 < kFlow then do
    let v ← itemsGet varis kx.1
    return some (kx.1, v.values.findIdx? fun x => decide (kFlow ≤ x))
  else return none

/-- `max_flow(comps_st, target_flow, od_pair, edges, varis)` (operation.py:886-941).  A state that no
value of the component allows is `None`. -/
def maxFlow (lib : FlowLib N) (newT : N) (comps : List (K × ℕ)) (target : ℚ) (o d : N)
    (edges : List (K × N × N)) (varis : List (K × Variable K)) :
    Except Err (ℚ × St × List (K × Option ℕ)) := do
  let G0 ← comps.foldlM (flowEdge edges varis) []
  let G := addEdge G0 d newT target
  let r ← lib G o newT
  if target ≤ r.1 then do
    let rule ← comps.mapM (flowRule edges varis r.2)
    return (r.1, .s, rule.filterMap id)
  else return (r.1, .f, [])

/-- `max_flow` as the system function of `run`, called with the components of `vs`.  An exception,
and a rule with a state `None` (which makes the comparisons of `update_rule_set` raise), are shown as
state `'u'`.  operation.py:886-941, called from brc.py:347-372. -/
def flowSysFun (lib : FlowLib N) (newT : N) (target : ℚ) (o d : N) (edges : List (K × N × N))
    (varis : List (K × Variable K)) (vs : List (K × ℕ)) (x : K → ℕ) : SysRes K :=
  match maxFlow lib newT (compsOf vs x) target o d edges varis with
  | .ok r =>
    if r.2.2.all fun ki => ki.2.isSome then
      { val := r.1, st := r.2.1, min := r.2.2.map fun ki => (ki.1, ki.2.getD 0) }
    else { val := 0, st := .u, min := [] }
  | .error _ => { val := 0, st := .u, min := [] }

end

end BNS
