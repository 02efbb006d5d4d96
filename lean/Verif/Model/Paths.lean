import Verif.Model.Trans
import Verif.Model.ModelPy

/-!
# Model of the path-based set-up of a network

`get_all_paths_and_times` (trans.py:251-269), `read_model_from_json` (config.py:88-131) after
`json.load`, and `setup_model` (model.py:9-30).  The function `all_simple_paths` of networkx is a
parameter (contract: `SimplePathLibOK`).  Dictionaries are their lists of items, with distinct keys.
-/

namespace BNS

set_option linter.unusedSectionVars false

section
variable {K : Type} [DecidableEq K]

/-- `nx.all_simple_paths(G, source, target)`, as the list of the paths it yields.
As in trans.py:251-269. -/
abbrev SimplePathLib (K : Type) := NGraph K → K → K → Except Err (List (List K))

/-- `G[u][v]`, asked for the attribute `label` (trans.py:265) and, by `nx.path_weight`, for the
weight.  In a multigraph `G[u][v]` is the dictionary of the parallel edges, which has no key
`'label'`. -/
def stepEdge (G : NGraph K) (u v : K) : Except Err (NEdge K) :=
  if G.multi then .error .key
  else match G.between u v with
    | e :: _ => .ok e
    | [] => .error .key

/-- The entry of one path (trans.py:261-267): labels of its edges and sum of their weights. -/
def pathEntry (G : NGraph K) (p : List K) : Except Err (List K × ℚ) := do
  let es ← (p.zip p.tail).mapM fun uv => stepEdge G uv.1 uv.2
  return (es.map NEdge.label, (es.map NEdge.weight).sum)

/-- `path_time.setdefault(od, []).append(x)` (trans.py:267). -/
def appendTo {B X : Type} [DecidableEq B] (d : List (B × List X)) (od : B) (x : X) :
    List (B × List X) :=
  if od ∈ d.map Prod.fst then d.map fun kl => if kl.1 = od then (od, kl.2 ++ [x]) else kl
  else d ++ [(od, [x])]

/-- `get_all_paths_and_times(ODs, G, key='weight')` (trans.py:251-269). -/
def getAllPaths (lib : SimplePathLib K) (ods : List (K × K)) (G : NGraph K) :
    Except Err (List ((K × K) × List (List K × ℚ))) :=
  ods.foldlM (fun acc od => do
    let ps ← lib G od.1 od.2
    let xs ← ps.mapM (pathEntry G)
    return xs.foldl (fun d x => appendTo d od x) acc) []

/-- The value of `graph_type` in a model file; `other` is any other text.  config.py:106-121. -/
inductive GType where
  | graph | digraph | multigraph | multidigraph | other
  deriving DecidableEq

/-- A model file after `json.load`: the items of `component_list` with the positions, of
`node_conn_df` with origin, destination and weight, of `sysout_setup` with origin and destination,
and `graph_type` if there is one.  Other fields are not used; a missing field, which is a `KeyError`,
is not modelled. -/
structure NetJson (K : Type) where
  comps : List (K × ℚ × ℚ)
  conns : List (K × K × K × ℚ)
  ods : List (K × K × K)
  gtype : Option GType

/-- The result of `read_model_from_json`; positions of the nodes as a list of items. -/
structure Infra (K : Type) where
  G : NGraph K
  comps : List (K × ℚ × ℚ)
  conns : List (K × K × K × ℚ)
  ods : List (K × K × K)

/-- `G.add_node(k)`: a node that exists stays where it is.  As in config.py:123. -/
def addNode (nodes : List K) (k : K) : List K := if k ∈ nodes then nodes else nodes ++ [k]

/-- `G.add_edge(o, d, label=k, weight=w, key=k)` (config.py:123): the ends become nodes.  In a
multigraph `key` is the key of the edge.  In a graph that is not a multigraph, an edge between the same
nodes gets the new attributes (`key` is one of them and is not used). -/
def addConn (G : NGraph K) (c : K × K × K × ℚ) : NGraph K :=
  let same := fun e : NEdge K =>
    decide (Links G.directed e c.2.1 c.2.2.1) && (!G.multi || decide (e.key = .inr c.1))
  let edges :=
    if G.edges.any same then
      G.edges.map fun e => if same e then { e with label := c.1, weight := c.2.2.2 } else e
    else G.edges ++ [{ src := c.2.1, dst := c.2.2.1, key := if G.multi then .inr c.1 else .inl 0
                       label := c.1, weight := c.2.2.2 }]
  { G with nodes := addNode (addNode G.nodes c.2.1) c.2.2.1, edges := edges }

/-- The graph of config.py:106-121. -/
def emptyGraph : Option GType → Except Err (NGraph K)
  | none => .ok { directed := false, multi := false, nodes := [], edges := [] }
  | some .graph => .ok { directed := false, multi := false, nodes := [], edges := [] }
  | some .digraph => .ok { directed := true, multi := false, nodes := [], edges := [] }
  | some .multigraph => .ok { directed := false, multi := true, nodes := [], edges := [] }
  | some .multidigraph => .ok { directed := true, multi := true, nodes := [], edges := [] }
  | some .other => .error .assertion

/-- `read_model_from_json(file)` (config.py:88-131). -/
def readModel (m : NetJson K) : Except Err (Infra K) := do
  let G0 ← emptyGraph m.gtype
  let G1 := m.conns.foldl addConn G0
  let G2 := { G1 with nodes := (m.comps.map Prod.fst).foldl addNode G1.nodes }
  return { G := G2, comps := m.comps, conns := m.conns, ods := m.ods }

/-- `path_times[v]` (model.py:74): `KeyError` for a pair without a path. -/
def pathsOf (d : List ((K × K) × List (List K × ℚ))) (od : K × K) :
    Except Err (List (List K × Option ℚ)) :=
  match d.lookup od with
  | some l => .ok (l.map fun x => (x.1, some x.2))
  | none => .error .key

/-- `setup_model(cfg)` (model.py:9-30): for every OD and scenario the CPMs and variables.  `scens` are
the items of `cfg.scenarios['scenarios']`.  A `KeyError` for an OD without a path comes before the
files of the ODs that precede it are written (in the code, after). -/
def setupModel (lib : SimplePathLib K) (m : Infra K) (damage : List ℚ)
    (scens : List (K × List (K × List ℚ))) (key : List Char) (dir : Dir K) :
    Except Err (List ((K × K) × List (K × Cpm K) × List (K × Variable K))) := do
  let d ← getAllPaths lib (m.ods.map Prod.snd) m.G
  let pts ← m.ods.mapM fun kod => do
    let l ← pathsOf d kod.2
    return (kod.1, l)
  let (brs, _) ← getBranches (m.conns.map Prod.fst) key pts dir
  ((pts.zip brs).flatMap fun pb => scens.map fun s => (pb, s)).mapM fun pbs => do
    let (cpms, varis) ← modelGivenOd (m.conns.map Prod.fst) damage pbs.2.2 pbs.1.1.1 pbs.1.1.2
      pbs.1.2.2
    return ((pbs.1.1.1, pbs.2.1), cpms, varis)

end
end BNS
