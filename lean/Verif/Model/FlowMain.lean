import Verif.Model.Config
import Verif.Model.MaxFlowDemo
import Verif.Model.McsIndep
import Verif.Model.ModelPy
import Verif.Spec.Net

/-!
# Model of the commands of `BNS_JT/demos/max_flow/batch.py`

From a configuration file to the stored results.  `nSf` and `nWr` are the names `'MAX_SYS_FUN'` and
`'SYS_BND_WIDTH_RATIO'`; nodes, like components, have names of type `K`.

Simplifications.  `float('inf')` is a natural number `inf`, which the theorems take above the number of
component vectors (a run never needs more evaluations than that).  Limits that are not whole numbers are
rounded up.  A limit that is not a number raises `TypeError` at once and not at the first comparison.
An exception of the system function is shown as state `'u'` (`demoSysFun`).  A state without probability
has probability 0 and not a `KeyError`.  The directory that a failing command has made is not kept.
-/

namespace BNS

set_option linter.unusedSectionVars false

section
variable {K : Type} [DecidableEq K]

/-- What a model file of the demo has besides the fields of `NetJson`: `link_capacity` and `prob` of the
entries of `node_conn_df`, and `target_flow`, `edge_bidirectional` and `key` of those of `sysout_setup`
(max_flow/batch.py:100-104, 116, 129). -/
structure FlowExt (K : Type) where
  caps : List (K × List ℚ)
  probs : List (K × List ℚ)
  setup : List (K × ℚ × Bool × K)

/-- An entry of `cfg.infra['ODs']` (max_flow/batch.py:101-104). -/
structure FlowOd (K : Type) where
  o : K
  d : K
  target : ℚ
  bi : Bool
  key : K

/-- `read_model_from_json_custom(file_input)` (max_flow/batch.py:92-106) for the entries of
`sysout_setup`. -/
def readFlowOds (ods : List (K × K × K)) (ext : FlowExt K) : Except Err (List (K × FlowOd K)) :=
  ods.mapM fun e => do
    let s ← itemsGet ext.setup e.1
    return (e.1, { o := e.2.1, d := e.2.2, target := s.1, bi := s.2.1, key := s.2.2 })

/-- The object of `config_custom`: `maxSf` is the entry `MAX_SYS_FUN`, `none` for `float('inf')`.
max_flow/batch.py:70-89. -/
structure FlowCfg (K : Type) where
  base : Cfg K
  disk : Disk K
  maxSf : Option (CfgVal K)
  wr : CfgVal K
  ods : List (K × FlowOd K)
  ext : FlowExt K

/-- `cfg.file_model` (config.py:60), when it names a file. -/
def modelPath (data : List (CfgKey K × CfgVal K)) : Except Err K := do
  let v ← itemsGet data .modelName
  match v with
  | .text p => .ok p
  | _ => .error .graph

/-- `config_custom(file_cfg)` (max_flow/batch.py:70-89); `ext` gives the further fields of the model
files. -/
def flowConfig (nSf nWr : K) (disk : Disk K) (ext : K → FlowExt K)
    (data : List (CfgKey K × CfgVal K)) : Except Err (FlowCfg K) := do
  let r ← Cfg.new disk data
  let m ← itemsGet r.1.data (.other nSf)
  let w ← itemsGet r.1.data (.other nWr)
  let p ← modelPath data
  let ods ← readFlowOds r.1.infra.ods (ext p)
  return { base := r.1, disk := r.2, maxSf := if m.truthy then some m else none, wr := w, ods := ods
           ext := ext p }

/-- The results of `init_prob`; the system function is made from `od`, `edges` and `varis`.
As in max_flow/batch.py:109-136. -/
structure FlowProb (K : Type) where
  cfg : FlowCfg K
  varis : List (K × Variable K)
  edges : List (K × K × K)
  probs : List (K × List ℚ)
  od : FlowOd K

/-- `init_prob(file_cfg, od_name)` (max_flow/batch.py:109-136). -/
def initFlowProb (nSf nWr : K) (disk : Disk K) (ext : K → FlowExt K)
    (data : List (CfgKey K × CfgVal K)) (odName : K) : Except Err (FlowProb K) := do
  let cfg ← flowConfig nSf nWr disk ext data
  let varis ← cfg.base.infra.conns.mapM fun c => do
    let v ← itemsGet cfg.ext.caps c.1
    return (c.1, Variable.mk' c.1 v .dflt)
  let od ← itemsGet cfg.ods odName
  let probs ← cfg.base.infra.conns.mapM fun c => do
    let p ← itemsGet cfg.ext.probs c.1
    return (c.1, p)
  return { cfg := cfg, varis := varis, od := od, probs := probs
           edges := cfg.base.infra.conns.map fun c => (c.1, c.2.1, c.2.2.1) }

/-- `probs[k][s]` (max_flow/batch.py:126-131). -/
def FlowProb.prob (p : FlowProb K) (k : K) (s : ℕ) : ℚ := ((p.probs.lookup k).getD []).getD s 0

/-- `sys_fun` (max_flow/batch.py:134). -/
def FlowProb.sysFun (lib : Bool → FlowLib K) (newT : K) (p : FlowProb K) : (K → ℕ) → SysRes K :=
  demoSysFun lib newT p.od.o p.od.d p.edges p.varis p.od.target p.od.bi (statesOf p.varis)

/-- A number of the configuration file, where a number is needed.  max_flow/batch.py:75-78. -/
def cfgNum : CfgVal K → Except Err ℚ
  | .num n => .ok n
  | _ => .error .type

/-- `cfg.max_sys_fun` (max_flow/batch.py:75-78) as a number of evaluations. -/
def flowLimit (inf : ℕ) : Option (CfgVal K) → Except Err ℕ
  | none => .ok inf
  | some v => do
    let n ← cfgNum v
    return n.ceil.toNat

/-- The call of `run` in `main` (max_flow/batch.py:171). -/
def flowRunCfg (lib : Bool → FlowLib K) (newT : K) (p : FlowProb K) (maxSf : ℕ) (maxNb wr : ℚ) :
    RunCfg K :=
  { vs := statesOf p.varis, probs := p.prob, sysFun := p.sysFun lib newT, maxSf := maxSf
    maxNb := maxNb.ceil.toNat, pfBndWr := wr, survFirst := true }

/-- The four files `{key}_brs.pk`, `{key}_varis.pk`, `{key}_rules.pk` and `{key}_monitor.pk`
(max_flow/batch.py:175-190). -/
structure FlowOut (K : Type) where
  brs : Option (List (Branch K))
  varis : List (K × Variable K)
  rules : Rules K
  mon : List MonRow

/-- `main(cfg_fname, od_name)` (max_flow/batch.py:155-192): the directories and the results in the
output directory afterwards, by key. -/
def flowMain (lib : Bool → FlowLib K) (newT : K) (inf : ℕ) (nSf nWr : K) (ext : K → FlowExt K)
    (data : List (CfgKey K × CfgVal K)) (odName : K) (w : Disk K × List (K × FlowOut K)) :
    Except Err (Disk K × List (K × FlowOut K)) := do
  let p ← initFlowProb nSf nWr w.1 ext data odName
  let maxSf ← flowLimit inf p.cfg.maxSf
  let maxNb ← cfgNum p.cfg.base.maxBranches
  let wr ← cfgNum p.cfg.wr
  let st ← run (flowRunCfg lib newT p maxSf maxNb wr) { s := [], f := [] } none
  return (p.cfg.disk, itemSet w.2 p.od.key
    { brs := st.brs, varis := p.varis, rules := st.rules, mon := st.mon })

/-- `run_all()` (max_flow/batch.py:202-221) for the given names, there `'od1'` … `'od5'`: an exception
ends the loop, what has been stored stays. -/
def flowAll (lib : Bool → FlowLib K) (newT : K) (inf : ℕ) (nSf nWr : K) (ext : K → FlowExt K)
    (data : List (CfgKey K × CfgVal K)) : List K → Disk K × List (K × FlowOut K) →
    (Disk K × List (K × FlowOut K)) × Option Err
  | [], w => (w, none)
  | od :: ods, w =>
    match flowMain lib newT inf nSf nWr ext data od w with
    | .ok w' => flowAll lib newT inf nSf nWr ext data ods w'
    | .error e => (w, some e)

/-- The simulation in `run_MCS` (max_flow/batch.py:142-146). -/
def flowMcsCfg (lib : Bool → FlowLib K) (newT : K) (p : FlowProb K) : IndepCfg K :=
  { names := p.probs.map Prod.fst
    keys := fun k => List.range ((p.probs.lookup k).getD []).length
    prob := p.prob, sysFun := p.sysFun lib newT, covT := 1 / 100 }

/-- `run_MCS(cfg_fname, od_name)` (max_flow/batch.py:140-151): the printed numbers are lost;
`output_path` is not defined, so a `NameError` (`unbound`) is raised before the file is opened. -/
def flowMcs (lib : Bool → FlowLib K) (newT : K) (nSf nWr : K) (disk : Disk K) (ext : K → FlowExt K)
    (data : List (CfgKey K × CfgVal K)) (odName : K) (r : ℕ → ℕ → ℚ) (fuel : ℕ) :
    Except Err Unit := do
  let p ← initFlowProb nSf nWr disk ext data odName
  let _ ← runMcsIndep (flowMcsCfg lib newT p) r fuel
  .error .unbound

end

end BNS
