import Verif.Model.Flow

/-!
# Model of the system function of `BNS_JT/demos/max_flow/batch.py`

`networkx.maximum_flow` is a parameter `lib`, for a `Graph` (`true`) and for a `DiGraph` (`false`);
`flow_dict[u][v]` is a total function of the nodes.  The name `'t_new'` of the added node is the
parameter `newT`.  Entries of `edges` are pairs or dictionaries with `origin` and `destination`
(`isDict`), all of them of the same kind.
-/

namespace BNS

section
variable {K N : Type} [DecidableEq K] [DecidableEq N]

/-- `G.add_edge(u, v, capacity=c)` for a `Graph` or a `DiGraph` (max_flow/batch.py:28, 32, 34): an edge
between the same nodes, or in the directed graph from the same to the same node, gets the new
capacity. -/
def addEdgeIn (bi : Bool) (G : CapGraph N) (u v : N) (c : ℚ) : CapGraph N :=
  if bi then addEdge G u v c
  else if G.any fun e => decide (e.1 = u ∧ e.2.1 = v) then
    G.map fun e => if e.1 = u ∧ e.2.1 = v then (e.1, e.2.1, c) else e
  else G ++ [(u, v, c)]

/-- `G.add_edge(…, capacity=varis[k].values[comps_st[k]])` (max_flow/batch.py:28, 32). -/
def demoEdge (bi : Bool) (comps : List (K × ℕ)) (varis : List (K × Variable K)) (G : CapGraph N)
    (e : K × N × N) : Except Err (CapGraph N) := do
  let v ← itemsGet varis e.1
  let x ← itemsGet comps e.1
  let c ← pyGet v.values x
  return addEdgeIn bi G e.2.1 e.2.2 c

/-- `get_max_flow(comps_st, od_pair, edges, varis, target_flow, is_bi_dir)` (max_flow/batch.py:18-37).
Without edges `next` raises `StopIteration`, which stands as `value` here. -/
def getMaxFlow (lib : Bool → FlowLib N) (newT : N) (comps : List (K × ℕ)) (o d : N)
    (edges : List (K × N × N)) (varis : List (K × Variable K)) (target : ℚ) (bi : Bool) :
    Except Err (ℚ × (N → N → ℚ)) :=
  match edges with
  | [] => .error .value
  | _ :: _ => do
    let G0 ← edges.foldlM (demoEdge bi comps varis) []
    lib bi (addEdgeIn bi G0 d newT target) o newT

/-- The entry of `min_comps_st` for one edge (max_flow/batch.py:57-65), if there is one.  `v[0]` of a
dictionary with the keys `origin` and `destination` is a `KeyError`. -/
def demoRule (bi isDict : Bool) (varis : List (K × Variable K)) (f : N → N → ℚ) (e : K × N × N) :
    Except Err (Option (K × ℕ)) :=
  if isDict then .error .key
  else
    let flow := if bi then max (f e.2.1 e.2.2) (f e.2.2 e.2.1) else f e.2.1 e.2.2
    if 0 < flow then do
      let v ← itemsGet varis e.1
      match v.values.findIdx? fun x => decide (flow ≤ x) with
      | some i => return some (e.1, i)
      | none => .error .assertion
    else .ok none

/-- `max_flow_fun(comps_st, od_pair, edges, varis, target_flow, is_bi_dir)`
(max_flow/batch.py:40-67). -/
def maxFlowFun (lib : Bool → FlowLib N) (newT : N) (isDict : Bool) (comps : List (K × ℕ)) (o d : N)
    (edges : List (K × N × N)) (varis : List (K × Variable K)) (target : ℚ) (bi : Bool) :
    Except Err (ℚ × St × Rule K) := do
  let r ← getMaxFlow lib newT comps o d edges varis target bi
  if r.1 < target then return (r.1, .f, [])
  else do
    let rule ← edges.mapM (demoRule bi isDict varis r.2)
    return (r.1, .s, rule.filterMap id)

/-- The system function that `init_prob` makes (max_flow/batch.py:109-136), called with the components
of `vs`; an exception is shown as state `'u'`. -/
def demoSysFun (lib : Bool → FlowLib N) (newT : N) (o d : N) (edges : List (K × N × N))
    (varis : List (K × Variable K)) (target : ℚ) (bi : Bool) (vs : List (K × ℕ)) (x : K → ℕ) :
    SysRes K :=
  match maxFlowFun lib newT false (compsOf vs x) o d edges varis target bi with
  | .ok r => { val := r.1, st := r.2.1, min := r.2.2 }
  | .error _ => { val := 0, st := .u, min := [] }

end

end BNS
