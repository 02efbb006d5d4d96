import Verif.Model.ByOd

/-!
# Model of the analysis of a node and of the map of the pf_map demo

`process_node`, `mcs_unknown` and `main` of demos/pf_map/batch.py.  `varis` has the roads in the order of
`arcs`; travel times are numbers, so that the time `np.inf` over a failed road is any time that is
too long.  The maximum number of system function runs is a number; `float('inf')` is one that is
never reached.
-/

namespace BNS

set_option linter.unusedSectionVars false

section
variable {K : Type} [DecidableEq K]

/-- `vari_node` (pf_map/batch.py:422): the labels `'f'`, `'s'`, `'u'` are shown as numbers. -/
def nodeVariable (node : K) : Variable K := .mk' node [0, 1, 2] .dflt

/-- The system function of a node (pf_map/batch.py:410) given the time `t` from the intact network.  If
there is no way to a destination the threshold `thres * np.inf` is infinite, which no time exceeds
(trans.py:80): the state is survival and the rule has what there is of a path. -/
def nodeSysFun (lib : PathLib K) (G : NGraph K) (dests : List K) (thres : ℚ) (node : K)
    (varis : List (K × Variable K)) (t : Option ℚ) (x : K → ℕ) : SysRes K :=
  match t with
  | some t => sysFunWrap lib G (.multi node dests) varis (some (thres * t)) (statesOf varis) x
  | none =>
    match timeAndPathMulti lib (compsOf (statesOf varis) x) G node dests varis with
    | .ok r => { val := r.1.getD 0, st := .s, min := minComps (compsOf (statesOf varis) x) (r.2.2 ++ r.2.1) }
    | .error _ => { val := 0, st := .u, min := [] }

/-- What `process_node` is given besides the node: network, destinations, allowed delay, roads and
their probabilities, limits and target width of the bounds.  As in pf_map/batch.py:417. -/
structure PfCfg (K : Type) where
  G : NGraph K
  dests : List K
  thres : ℚ
  varis : List (K × Variable K)
  probs : K → ℕ → ℚ
  maxSf : ℕ
  maxNb : ℕ
  wr : ℚ

/-- The arguments of `brc.run` (pf_map/batch.py:417). -/
def nodeCfg (lib : PathLib K) (c : PfCfg K) (node : K) (t : Option ℚ) : RunCfg K where
  vs := statesOf c.varis
  probs := c.probs
  sysFun := nodeSysFun lib c.G c.dests c.thres node c.varis t
  maxSf := c.maxSf
  maxNb := c.maxNb
  pfBndWr := c.wr

/-- `mcs_unknown(brs_u, …, cov_t=0.01, …)` (pf_map/batch.py:230-334).  A `Branch` cannot be indexed
(line 255): `TypeError`.  Without branches the loop is entered, as `cov = 1.0`, and divides an empty
list by the number 0 (line 273): `TypeError` too.  Nothing after that is reached. -/
def mcsUnknown (brsU : List (Branch K)) : Except Err (ℚ × ℕ) := do
  let _ ← brsU.mapM fun _ => (.error .type : Except Err ℚ)
  .error .type

/-- What `process_node` returns, as far as `main` uses it; `monitor` by its rows, and `none` with the
CPM for a destination.  As in pf_map/batch.py:398-490. -/
structure NodeOut (K : Type) where
  cpm : Option (Cpm K)
  pf : ℚ
  nsamp : ℕ
  mon : List MonRow

/-- `process_node(cfg, node, comps_st_itc, st_br_to_cs, arcs, varis, probs, cpms)`
(pf_map/batch.py:398-490).  `st_br_to_cs` is that of line 566.  Without any evaluation the
branches are `None`, a `TypeError` in `get_csys`. -/
def processNode (lib : PathLib K) (c : PfCfg K) (node : K) : Except Err (NodeOut K) :=
  if node ∈ c.dests then .ok { cpm := none, pf := 0, nsamp := 0, mon := [] }
  else do
    let r ← timeAndPathMulti lib (compsOf (statesOf c.varis) (intactState c.varis)) c.G node c.dests c.varis
    let st ← run (nodeCfg lib c node r.1) { s := [], f := [] } none
    match st.brs with
    | none => .error .type
    | some bs => do
      let cs ← getCsys (c.varis.map Prod.fst) bs (fun k => c.varis.lookup k) stBrToCs
      let vs ← c.varis.mapM fun kv => dictGet cs.2 kv.1
      let P ← Cpm.mk' { vars := nodeVariable node :: vs, noChild := 1, C := cs.1, p := cs.1.map fun _ => 1 }
      match st.mon.getLast? with
      | none => .error .index
      | some row =>
        if st.outFlag = some .maxSf ∨ st.outFlag = some .maxNb then do
          let m ← mcsUnknown (bs.filter fun b => b.upState = .u ∨ b.downState = .u ∨ b.upState ≠ b.downState)
          return { cpm := some P, pf := m.1, nsamp := m.2, mon := st.mon }
        else return { cpm := some P, pf := row.pfUp, nsamp := 0, mon := st.mon }

/-- A line of `result.txt` (pf_map/batch.py:619): node, bounds, number of samples; the c.o.v. is 0
without samples. -/
structure NodeLine (K : Type) where
  node : K
  low : ℚ
  up : ℚ
  nsamp : ℕ
  deriving DecidableEq

/-- What `main` keeps of the result of a node (pf_map/batch.py:584-591): nothing for a destination. -/
def nodeRecord (node : K) (o : NodeOut K) : Except Err (Option (NodeLine K)) :=
  match o.cpm with
  | none => .ok none
  | some _ =>
    match o.mon.getLast? with
    | none => .error .index
    | some row => .ok (some { node := node, low := row.pfLow, up := row.pfUp, nsamp := o.nsamp })

/-- `main` (pf_map/batch.py:536-625) after the input was read: the results are collected in the order
`done` in which the nodes are completed; an exception in one of them is raised.  The lines are written
in the order of the nodes, without the epicentre and the destinations. -/
def pfMapMain (lib : PathLib K) (c : PfCfg K) (nodes : List K) (epi : K) (done : List K) :
    Except Err (List (NodeLine K)) := do
  let rows ← done.mapM fun n => do
    let o ← processNode lib c n
    let row ← nodeRecord n o
    return (n, row)
  (nodes.filter fun n => n ≠ epi ∧ n ∉ c.dests).mapM fun n => do
    let row ← itemsGet rows n
    match row with
    | some l => .ok l
    | none => .error .key

end

end BNS
