import Verif.Spec.Net
import Verif.Model.Csys

/-!
# Model of the network system functions of `BNS_JT/trans.py`

The shortest-path functions of networkx are a parameter `lib` (contract: `PathLibOK`).  A dictionary
is its list of items.  `od_pair` is a pair or the dictionary `{'origin': .., 'dests': [..]}`.
-/

namespace BNS

section
variable {K : Type} [DecidableEq K]

/-- The shortest-path functions of networkx: graph, length of the edges, sources, target; length and
nodes of the path.  As used in trans.py:63-140, 211-253. -/
abbrev PathLib (K : Type) := NGraph K → (NEdge K → ℚ) → List K → K → Except Err (ℚ × List K)

/-- `d[k]` for a dictionary given by its items.  As in trans.py:172, 176. -/
def itemsGet {B : Type} (d : List (K × B)) (k : K) : Except Err B := dictGet (fun k => d.lookup k) k

/-- `G.get_edge_data(u, v)`: the edges from `u` to `v` (one at most unless `G` is a multigraph).
As in trans.py:143-157. -/
def NGraph.between (G : NGraph K) (u v : K) : List (NEdge K) :=
  G.edges.filter fun e => decide (Links G.directed e u v)

/-- `get_edge_from_nodes(G, path_nodes)` (trans.py:143-157): the labels of the edges of the path; in a
multigraph the first of the lightest edges.  Between nodes that are not adjacent `get_edge_data` is
`None`: `AttributeError` in a multigraph (`None.items()`), else `TypeError` (`None['label']`). -/
def edgeFromNodes (G : NGraph K) (path : List K) : Except Err (List K) :=
  (path.zip path.tail).mapM fun uv =>
    match (if G.multi then (G.between uv.1 uv.2).insertionSort fun a b => a.weight ≤ b.weight
           else G.between uv.1 uv.2) with
    | e :: _ => .ok e.label
    | [] => if G.multi then .error .attribute else .error .type

/-- `varis[k].values[comps_st[k]]` (trans.py:172, 176). -/
def edgeWeight (varis : List (K × Variable K)) (comps : List (K × ℕ)) (k : K) : Except Err ℚ := do
  let v ← itemsGet varis k
  let s ← itemsGet comps k
  pyGet v.values s

/-- `nx.set_edge_attributes` in a multigraph, for one edge: the attribute given for its nodes and key
`0`, if it has this key.  As in trans.py:165-180. -/
def setKey0 (a : Option (NEdge K × ℚ)) (e : NEdge K) : NEdge K :=
  match a with
  | some a => if e.key = .inl 0 then { e with weight := a.2 } else e
  | none => e

/-- `update_G_given_comps_st` with `varis` (trans.py:165-180).  In a multigraph the attributes are set
for key `0` only: a later edge between the same nodes replaces the value of an earlier one
(line 172), and `set_edge_attributes` skips an edge without that key. -/
def setWeights (G : NGraph K) (varis : List (K × Variable K)) (comps : List (K × ℕ)) :
    Except Err (NGraph K) := do
  let ws ← G.edges.mapM fun e => edgeWeight varis comps e.label
  let attrs := G.edges.zip ws
  if G.multi then
    let f := fun e : NEdge K =>
      setKey0 ((attrs.filter fun a => decide (Links G.directed a.1 e.src e.dst)).getLast?) e
    return { G with edges := G.edges.map f }
  else
    return { G with edges := attrs.map fun a => { a.1 with weight := a.2 } }

/-- One step of the loop over the edges (trans.py:185-195): an edge in state `0` is removed, in a
multigraph by its label, which raises if no edge between the nodes has this key. -/
def removeEdge (G : NGraph K) (comps : List (K × ℕ)) (es : List (NEdge K)) (e : NEdge K) :
    Except Err (List (NEdge K)) :=
  if comps.lookup e.label = some 0 then
    if G.multi then
      if es.any fun e' => decide (Links G.directed e' e.src e.dst ∧ e'.key = .inr e.label) then
        .ok (es.filter fun e' =>
          !decide (Links G.directed e' e.src e.dst ∧ e'.key = .inr e.label))
      else .error .graph
    else .ok (es.filter fun e' => !decide (Links G.directed e' e.src e.dst))
  else .ok es

/-- `update_G_given_comps_st` without `varis` (trans.py:184-206): the edges, then the nodes in state
`0` are removed, a node together with its edges. -/
def removeFailed (G : NGraph K) (comps : List (K × ℕ)) : Except Err (NGraph K) := do
  let es ← G.edges.foldlM (removeEdge G comps) G.edges
  let live := fun n => !decide (comps.lookup n = some 0)
  return { G with nodes := G.nodes.filter live
                  edges := es.filter fun e => live e.src && live e.dst }

/-- `update_G_given_comps_st(G, comps_st, varis)` (trans.py:160-208); `varis` is falsy if it is `None`
or empty. -/
def updateG (G : NGraph K) (comps : List (K × ℕ)) (varis : List (K × Variable K)) :
    Except Err (NGraph K) :=
  if varis = [] then removeFailed G comps else setWeights G varis comps

/-- `get_connectivity_given_comps(comps_st, G, od_pair)` (trans.py:110-140): edges and nodes of a
path with the fewest edges, empty if there is none or an end has been removed. -/
def connectivity (lib : PathLib K) (comps : List (K × ℕ)) (G : NGraph K) (o d : K) :
    Except Err (List K × List K) := do
  let H ← updateG G comps []
  match lib H (fun _ => 1) [o] d with
  | .error .noPath => return ([], [])
  | .error .graph => return ([], [])
  | .error e => .error e
  | .ok r => do
    let pe ← edgeFromNodes H r.2
    return (pe, r.2)

/-- `get_time_and_path_given_comps(comps_st, G, od_pair, varis)` (trans.py:211-227): time, nodes and
edges of the fastest path.  No exception of networkx is caught. -/
def timeAndPath (lib : PathLib K) (comps : List (K × ℕ)) (G : NGraph K) (o d : K)
    (varis : List (K × Variable K)) : Except Err (ℚ × List K × List K) := do
  let ok ← varis.mapM fun kv => do
    let s ← itemsGet comps kv.1
    return decide (s < kv.2.values.length)
  pyAssert (ok.all id)
  let H ← updateG G comps varis
  let r ← lib H (fun e => e.weight) [o] d
  let pe ← edgeFromNodes H r.2
  return (r.1, r.2, pe)

/-- `get_time_and_path_multi_dest(comps_st, G, origin, dests, varis)` (trans.py:230-253); the time is
`none` for `np.inf`. -/
def timeAndPathMulti (lib : PathLib K) (comps : List (K × ℕ)) (G : NGraph K) (o : K) (ds : List K)
    (varis : List (K × Variable K)) : Except Err (Option ℚ × List K × List K) := do
  let ok ← comps.mapM fun ks => do
    let v ← itemsGet varis ks.1
    return decide (ks.2 < v.values.length)
  pyAssert (ok.all id)
  pyAssert (!G.directed)
  let H ← updateG G comps varis
  match lib H (fun e => e.weight) ds o with
  | .error .noPath => return (none, [], [])
  | .error e => .error e
  | .ok r => do
    let pe ← edgeFromNodes H r.2.reverse
    return (some r.1, r.2.reverse, pe)

/-- The argument `od_pair`.  As in trans.py:63-107. -/
inductive OdArg (K : Type) where
  | pair (o d : K)
  | multi (o : K) (ds : List K)

/-- One insertion into `min_comps_st` (trans.py:101, 104): `k: comps_st[k]` if `k in comps_st`; a
dictionary keeps the position of the first insertion of a key. -/
def minStep (comps : List (K × ℕ)) (r : Rule K) (k : K) : Rule K :=
  match comps.lookup k with
  | some s => if k ∈ r.map Prod.fst then r else r ++ [(k, s)]
  | none => r

/-- `min_comps_st` (trans.py:98-104): the states of the components among the edges and nodes of the
path. -/
def minComps (comps : List (K × ℕ)) (path : List K) : Rule K := path.foldl (minStep comps) []

/-- `sf_min_path(comps_st, G, od_pair, varis, thres)` (trans.py:63-107).  The time is `none` for
`np.inf` and for `None`.  A threshold `0` is falsy like `None`.  Without a threshold a dictionary
`od_pair` is a `KeyError` at line 130. -/
def sfMinPath (lib : PathLib K) (comps : List (K × ℕ)) (G : NGraph K) (od : OdArg K)
    (varis : List (K × Variable K)) (thres : Option ℚ) : Except Err (Option ℚ × St × Rule K) :=
  match thres with
  | some th =>
    if th = 0 then conn
    else do
      let r ← timed
      let late := match r.1 with
        | some t => decide (th < t)
        | none => true
      return (r.1, if late then .f else .s, if late then [] else minComps comps (r.2.2 ++ r.2.1))
  | none => conn
where
  /-- The threshold form (trans.py:72-83). -/
  timed : Except Err (Option ℚ × List K × List K) :=
    match od with
    | .pair o d => do
      let r ← timeAndPath lib comps G o d varis
      return (some r.1, r.2)
    | .multi o ds => timeAndPathMulti lib comps G o ds varis
  /-- The connectivity form (trans.py:85-96). -/
  conn : Except Err (Option ℚ × St × Rule K) :=
    match od with
    | .pair o d => do
      let r ← connectivity lib comps G o d
      return (none, if r.2 = [] then .f else .s, if r.2 = [] then [] else minComps comps (r.1 ++ r.2))
    | .multi _ _ => do
      let _ ← updateG G comps []
      .error .key

/-- `sys_fun_wrap(G, od_pair, varis, thres)` (trans.py:55-59) as `run` calls it: on a dictionary with
the components of `vs`.  An exception, which would end the run, is shown as state `'u'`. -/
def sysFunWrap (lib : PathLib K) (G : NGraph K) (od : OdArg K) (varis : List (K × Variable K))
    (thres : Option ℚ) (vs : List (K × ℕ)) (x : K → ℕ) : SysRes K :=
  match sfMinPath lib (compsOf vs x) G od varis thres with
  | .ok r => { val := r.1.getD 0, st := r.2.1, min := r.2.2 }
  | .error _ => { val := 0, st := .u, min := [] }

end

end BNS
