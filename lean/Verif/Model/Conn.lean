import Verif.Model.Flow

/-!
# Model of `conn` of `BNS_JT/demos/routine/batch.py`

`networkx.maximum_flow` and `networkx.shortest_path` are the parameters `lib` and `sp`.  The values of
`arcs` are lists of two nodes (`isList`), as the demo has them, or tuples, which are equal to no list.
-/

namespace BNS

section
variable {K N : Type} [DecidableEq K] [DecidableEq N]

/-- `if x > 0: G.add_edge(arcs[k][0], arcs[k][1], capacity=1)` (routine/batch.py:51-53). -/
def connAddEdge (arcs : List (K × N × N)) (G : CapGraph N) (kx : K × ℕ) : Except Err (CapGraph N) :=
  if 0 < kx.2 then do
    let e ← itemsGet arcs kx.1
    return addEdge G e.1 e.2 1
  else .ok G

/-- The arc of a step of the path (routine/batch.py:68-72): the first whose value is the pair, else the
first whose value is the reversed pair, else `ValueError`. -/
def arcOf (isList : Bool) (arcs : List (K × N × N)) (uv : N × N) : Except Err K :=
  if isList then
    match arcs.find? fun e => decide (e.2 = uv) with
    | some e => .ok e.1
    | none =>
      match arcs.find? fun e => decide (e.2 = (uv.2, uv.1)) with
      | some e => .ok e.1
      | none => .error .value
  else .error .value

/-- `min_comps_st[a] = 1` (routine/batch.py:73). -/
def connInsert (r : Rule K) (k : K) : Rule K :=
  if k ∈ r.map Prod.fst then r else r ++ [(k, 1)]

/-- `conn(comps_st, od_pair, arcs)` (routine/batch.py:49-79). -/
def connFun (lib : FlowLib N) (sp : CapGraph N → N → N → Except Err (List N)) (isList : Bool)
    (comps : List (K × ℕ)) (o d : N) (arcs : List (K × N × N)) :
    Except Err (ℚ × St × Option (Rule K)) := do
  let G ← comps.foldlM (connAddEdge arcs) []
  let fVal ← (if o ∈ nodesOf G ∧ d ∈ nodesOf G then Prod.fst <$> lib G o d else .ok 0)
  if 0 < fVal then do
    let p ← sp G o d
    let ks ← (p.zip p.tail).mapM (arcOf isList arcs)
    return (fVal, .s, some (ks.foldl connInsert []))
  else return (fVal, .f, none)

/-- `lambda comps_st: conn(comps_st, od_pair, arcs)` (routine/batch.py:101, in a comment there) as the
system function of `run`, called with the components of `vs`; `None` makes no rule, like `{}`
(brc.py:363); an exception is shown as state `'u'`. -/
def connSysFun (lib : FlowLib N) (sp : CapGraph N → N → N → Except Err (List N)) (o d : N)
    (arcs : List (K × N × N)) (vs : List (K × ℕ)) (x : K → ℕ) : SysRes K :=
  match connFun lib sp true (compsOf vs x) o d arcs with
  | .ok r => { val := r.1, st := r.2.1, min := r.2.2.getD [] }
  | .error _ => { val := 0, st := .u, min := [] }

end

end BNS
