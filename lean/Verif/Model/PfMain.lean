import Verif.Model.PfMap
import Verif.Model.PfNode
import Verif.Model.Files
import Verif.Model.FlowMain

/-!
# Model of the commands of `BNS_JT/demos/pf_map/batch.py`

From a configuration file to the stored results: `config_custom`, `main`, `run_MCS` and `batch_comp`.
`nSf`, `nWr` and `nCov` are the names `'MAX_SYS_FUN'`, `'SYS_BND_WIDTH_RATIO'` and `'MCS_COV'`.

Simplifications.  The analysis computes with rationals: what the real functions of `Verif.Model.PfMap`
give is rounded by a function `rnd`, whatever it is.  `float('inf')` as limit is a natural number `inf`,
`np.inf` as travel time a number `far`.  A limit that is not a number raises `TypeError` at once, a road
without `fragility_type` `KeyError` at once.  Of the files in the output directory, `result.txt`,
`varis.pk` and the results of `run_MCS` are kept; a command that fails leaves these as they were.  As in
`Verif.Model.FlowMain` the directory that a failing command has made is not kept.
-/

namespace BNS

set_option linter.unusedSectionVars false

/-- The numerical functions: `bisplrep` with `bisplev`, `norm.cdf`, the rounding, and the number that
stands for `np.inf`.  As in pf_map/batch.py:337-357. -/
structure PfNum where
  bis : List ℝ → List ℝ → List ℝ → ℝ → ℝ → ℝ
  cdf : ℝ → ℝ → ℝ → ℝ
  rnd : ℝ → ℚ
  far : ℚ

section
variable {K : Type} [DecidableEq K]

/-- What a model file of the demo has besides the fields of `NetJson`: `ID` in the entries of
`origin_list`, `epicentre` and `Mw` in those of `eq_scenario`, `Sa_g` and `Sa_g_dispersion` in those of
`fragility_data`, `delay_thres`, and `fragility_type` in the entries of `node_conn_df`
(pf_map/batch.py:24-39). -/
structure PfExt (K : Type) where
  origins : List (K × K)
  eq : List (K × List ℝ × ℝ)
  frag : List (K × List ℝ × ℝ)
  thres : ℚ
  frags : List (K × K)

/-- `cfg.infra['origins']` (pf_map/batch.py:25-27). -/
def PfExt.dests (e : PfExt K) : List K := e.origins.map Prod.snd

/-- The object of `config_custom`; `maxSf` is `none` for `float('inf')`, `pf` has the entries `pf` of
the edges.  As in pf_map/batch.py:337-357. -/
structure PfConf (K : Type) where
  base : Cfg K
  disk : Disk K
  maxSf : Option (CfgVal K)
  wr : CfgVal K
  covT : CfgVal K
  ext : PfExt K
  pf : List (K × ℝ)

/-- The part of `cfg.infra` that `cal_edge_dist` reads (pf_map/batch.py:47-53, 65-68). -/
noncomputable def pfRoads (inf : Infra K) (ext : PfExt K) : Except Err (RoadCfg K) := do
  let edges ← inf.conns.mapM fun c => do
    let f ← itemsGet ext.frags c.1
    return (c.1, ({ origin := c.2.1, dest := c.2.2.1, frag := f } : RoadEdge K))
  return { edges := edges, nodes := inf.comps.map fun n => (n.1, [(n.2.1 : ℝ), (n.2.2 : ℝ)])
           frag := ext.frag, eq := ext.eq }

/-- `config_custom(file_cfg, eq_name)` (pf_map/batch.py:337-357); `ext` gives the further fields of the
model files, as `read_model_from_json_custom` (pf_map/batch.py:19-39) reads them. -/
noncomputable def pfConfig (N : PfNum) (nSf nWr nCov : K) (disk : Disk K) (ext : K → PfExt K)
    (data : List (CfgKey K × CfgVal K)) (eqName : K) : Except Err (PfConf K) := do
  let r ← Cfg.new disk data
  let m ← itemsGet r.1.data (.other nSf)
  let w ← itemsGet r.1.data (.other nWr)
  let c ← itemsGet r.1.data (.other nCov)
  let p ← modelPath data
  let roads ← pfRoads r.1.infra (ext p)
  let out ← calEdgeDistOutput N.bis N.cdf roads eqName
  return { base := r.1, disk := r.2, maxSf := if m.truthy then some m else none, wr := w, covT := c
           ext := ext p, pf := out.pf }

/-- `probs[k][s]` (pf_map/batch.py:382, 541): 0 is failure. -/
def PfConf.prob (N : PfNum) (c : PfConf K) (k : K) (s : ℕ) : ℚ :=
  if s = 0 then N.rnd ((c.pf.lookup k).getD 0) else 1 - N.rnd ((c.pf.lookup k).getD 0)

/-- `varis` (pf_map/batch.py:544-564): the time at 100 km/h over the straight line. -/
noncomputable def pfVaris (N : PfNum) (inf : Infra K) : Except Err (List (K × Variable K)) := do
  let len ← arcsLength Real.sqrt (inf.conns.map fun c => (c.1, c.2.1, c.2.2.1))
    (inf.comps.map fun n => (n.1, (n.2.1 : ℝ), (n.2.2 : ℝ)))
  return len.map fun l => (l.1, Variable.mk' l.1 [N.far, N.rnd (l.2 / 100)] .dflt)

/-- What `main` and `run_single` hand to `process_node` (pf_map/batch.py:539-566, 629-662). -/
noncomputable def pfInput (N : PfNum) (inf : ℕ) (c : PfConf K) : Except Err (PfCfg K) := do
  let varis ← pfVaris N c.base.infra
  let maxSf ← flowLimit inf c.maxSf
  let maxNb ← cfgNum c.base.maxBranches
  let wr ← cfgNum c.wr
  return { G := c.base.infra.G, dests := c.ext.dests, thres := c.ext.thres, varis := varis
           probs := c.prob N, maxSf := maxSf, maxNb := maxNb.ceil.toNat, wr := wr }

/-- The files of an output directory: `varis.pk`, `result.txt`, and `mcs_{node}_{eq_name}.txt` with
`pf`, `cov ** 2` and `nsamp`.  pf_map/batch.py:360-395, 536-625. -/
structure PfDir (K : Type) where
  varis : Option (List (K × Variable K)) := none
  result : Option (List (NodeLine K)) := none
  mcs : List ((K × K) × ℚ × ℚ × ℕ) := []

/-- The disk, and the output directories by their names.  pf_map/batch.py:536-625. -/
abbrev PfWorld (K : Type) := Disk K × (Option K → PfDir K)

/-- `varis` when it is stored (pf_map/batch.py:578, 622): with the nodes that are no destinations, in the order in
which they were completed. -/
def pfStored (c : PfCfg K) (done : List K) : List (K × Variable K) :=
  done.foldl (fun d n => if n ∈ c.dests then d else itemSet d n (nodeVariable n)) c.varis

/-- `main(file_cfg, eq_name)` (pf_map/batch.py:536-625); `done` is the order in which the nodes are
completed, `epi` the name `'epi'`. -/
noncomputable def pfMain (lib : PathLib K) (N : PfNum) (inf : ℕ) (nSf nWr nCov epi : K)
    (ext : K → PfExt K) (data : List (CfgKey K × CfgVal K)) (eqName : K) (done : List K)
    (w : PfWorld K) : Except Err (PfWorld K) := do
  let c ← pfConfig N nSf nWr nCov w.1 ext data eqName
  let i ← pfInput N inf c
  let lines ← pfMapMain lib i (c.base.infra.comps.map Prod.fst) epi done
  return (c.disk, Function.update w.2 c.base.outputPath
    { w.2 c.base.outputPath with varis := some (pfStored i done), result := some lines })

/-- The system function of `run_MCS` (pf_map/batch.py:378-379), as `nodeSysFun`, on the roads `vs` when
`varis` may have more entries. -/
def pfMcsSys (lib : PathLib K) (G : NGraph K) (dests : List K) (thres : ℚ) (node : K)
    (varis : List (K × Variable K)) (vs : List (K × ℕ)) (t : Option ℚ) (x : K → ℕ) : SysRes K :=
  match t with
  | some t => sysFunWrap lib G (.multi node dests) varis (some (thres * t)) vs x
  | none =>
    match timeAndPathMulti lib (compsOf vs x) G node dests varis with
    | .ok r => { val := r.1.getD 0, st := .s, min := minComps (compsOf vs x) (r.2.2 ++ r.2.1) }
    | .error _ => { val := 0, st := .u, min := [] }

/-- The arguments of `run_MCS_indep_comps` (pf_map/batch.py:381-385). -/
def pfMcsCfg (lib : PathLib K) (N : PfNum) (c : PfConf K) (varis : List (K × Variable K)) (node : K)
    (t : Option ℚ) : IndepCfg K :=
  { names := c.pf.map Prod.fst, keys := fun _ => [0, 1], prob := c.prob N
    sysFun := pfMcsSys lib c.base.infra.G c.ext.dests c.ext.thres node varis
      (c.pf.map fun e => (e.1, 2)) t
    covT := 1 / 100 }

/-- `run_MCS(file_cfg, eq_name, node)` (pf_map/batch.py:360-395).  Without `varis.pk` it is a
`FileNotFoundError`, an `OSError`, which stands as `graph` here.  The time 0 makes the threshold 0, which
is none: the system function then raises `KeyError` (trans.py:130) on the first sample. -/
noncomputable def pfMcs (lib : PathLib K) (N : PfNum) (nSf nWr nCov : K) (ext : K → PfExt K)
    (data : List (CfgKey K × CfgVal K)) (eqName node : K) (r : ℕ → ℕ → ℚ) (fuel : ℕ)
    (w : PfWorld K) : Except Err (PfWorld K) := do
  let c ← pfConfig N nSf nWr nCov w.1 ext data eqName
  match (w.2 c.base.outputPath).varis with
  | none => .error .graph
  | some varis => do
    let itc := c.base.infra.conns.map fun a => (a.1, 1)
    let t ← timeAndPathMulti lib itc c.base.infra.G node c.ext.dests varis
    let cfg := pfMcsCfg lib N c varis node t.1
    if t.1.map (c.ext.thres * ·) = some 0 then do
      let _ ← indepDraw cfg (r 0)
      .error .key
    else do
      let res ← runMcsIndep cfg r fuel
      let d := w.2 c.base.outputPath
      return (c.disk, Function.update w.2 c.base.outputPath
        { d with mcs := itemSet d.mcs (node, eqName) res })

/-- `run_single(file_cfg, eq_name, node)` (pf_map/batch.py:628-665): the result is thrown away. -/
noncomputable def pfSingle (lib : PathLib K) (N : PfNum) (inf : ℕ) (nSf nWr nCov : K)
    (ext : K → PfExt K) (data : List (CfgKey K × CfgVal K)) (eqName node : K) (w : PfWorld K) :
    Except Err (PfWorld K) := do
  let c ← pfConfig N nSf nWr nCov w.1 ext data eqName
  let i ← pfInput N inf c
  let _ ← processNode lib i node
  return (c.disk, w.2)

/-- `batch_comp()` (pf_map/batch.py:668-675) for the given nodes and earthquakes, there six nodes with
`'s1'` and `'s2'` each; `r` are the random numbers of each call.  An exception ends the loop, what has
been stored stays. -/
noncomputable def pfBatch (lib : PathLib K) (N : PfNum) (nSf nWr nCov : K) (ext : K → PfExt K)
    (data : List (CfgKey K × CfgVal K)) (fuel : ℕ) :
    List ((K × K) × (ℕ → ℕ → ℚ)) → PfWorld K → PfWorld K × Option Err
  | [], w => (w, none)
  | a :: l, w =>
    match pfMcs lib N nSf nWr nCov ext data a.1.2 a.1.1 a.2 fuel w with
    | .ok w' => pfBatch lib N nSf nWr nCov ext data fuel l w'
    | .error e => (w, some e)

end

end BNS
