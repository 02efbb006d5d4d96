import Verif.Model.Rbd
import Verif.Model.FlowMain

/-!
# Model of the commands of the connectivity demos

`BNS_JT/demos/routine/batch.py`, `BNS_JT/demos/n3e3/batch.py` and `BNS_JT/demos/SF/batch.py`, from the
configuration file to what is printed.  All components are connections with two states, failed and
working.

Simplifications.  The pictures (`monitor.png`, `graph_n3e3.png`) are left out: `plot_monitoring` succeeds on
the monitor of a run with evaluations (`C82_tables`), the program that renders the other one is taken to be
there.  Limits that are not whole numbers are rounded up; a limit that is not a number raises
`TypeError` at once and not at the first comparison.  A connection without probabilities is a `KeyError` at
once and not at the first use.  An exception of the system function is shown as state `'u'`
(`sysFunWrap`).
-/

namespace BNS

set_option linter.unusedSectionVars false

section
variable {K : Type} [LinearOrder K]

/-- `probs` (routine/batch.py:91, n3e3/batch.py:33-36): for every connection `{0: …, 1: …}`. -/
abbrev ConnProbs (K : Type) := List (K × ℚ × ℚ)

/-- `probs[k][s]`.  As in routine/batch.py:104-105. -/
def ConnProbs.prob (probs : ConnProbs K) (k : K) (s : ℕ) : ℚ :=
  match probs.lookup k with
  | some p => if s = 0 then p.1 else if s = 1 then p.2 else 0
  | none => 0

/-- The call of `brc.run` (routine/batch.py:104-105, n3e3/batch.py:52-53, SF/batch.py:78); `varis` are the
variables handed to the system function, none in n3e3. -/
def connRunCfg (lib : PathLib K) (G : NGraph K) (o d : K) (names : List K) (varis : List (K × Variable K))
    (prob : K → ℕ → ℚ) (maxSf maxNb : ℕ) : RunCfg K where
  vs := names.map fun k => (k, 2)
  probs := prob
  sysFun := sysFunWrap lib G (.pair o d) varis none (names.map fun k => (k, 2))
  maxSf := maxSf
  maxNb := maxNb

/-- The event matrix of the branches of the run (routine/batch.py:104-109, n3e3/batch.py:52-55,
SF/batch.py:78-81).  Without any evaluation the branches are `None`, a `TypeError` in `get_csys`. -/
def connCsys (names : List K) (c : RunCfg K) : Except Err (List (List ℕ)) := do
  let st ← run c { s := [], f := [] } none
  match st.brs with
  | none => .error .type
  | some bs => do
    let r ← getCsys names bs (fun k => if k ∈ names then some (rbdVariable k) else none) stBrToCs
    return r.1

/-- `varis[k]` after line 111 (routine/batch.py:96, 111): the system has three states.  A connection called
like the system is replaced. -/
def routineVar (sys k : K) : Variable K :=
  if k = sys then .mk' k [0, 1, 2] .dflt else rbdVariable k

/-- `cpms[k]` (routine/batch.py:98-99). -/
def routineComp (probs : ConnProbs K) (k : K) : Except Err (Cpm K) := do
  let p ← itemsGet probs k
  Cpm.mk' { vars := [rbdVariable k], noChild := 1, C := [[0], [1]], p := [p.1, p.2] }

/-- `main` of the routine demo (routine/batch.py:83-124): the two numbers printed, and the files
afterwards.  `od` is the name `'od1'`, `sys` the name `'sys'`. -/
def routineMain (lib : PathLib K) (probs : ConnProbs K) (od sys : K)
    (data : List (CfgKey K × CfgVal K)) (disk : Disk K) : Except Err ((ℚ × ℚ) × Disk K) := do
  let r ← Cfg.new disk data
  let pair ← itemsGet r.1.infra.ods od
  let names := r.1.infra.conns.map Prod.fst
  let comps ← names.mapM (routineComp probs)
  let C ← connCsys names (connRunCfg lib r.1.infra.G pair.1 pair.2 names
    (names.map fun k => (k, rbdVariable k)) probs.prob 1000 100)
  let S ← Cpm.mk' { vars := (sys :: names).map (routineVar sys), noChild := 1, C := C
                    p := C.map fun _ => 1 }
  let M ← prodMsysMcomps S ((names.zip comps).map fun kc => if kc.1 = sys then S else kc.2)
  let v ← M.getVariables [sys]
  let pf ← M.getProb v [0] true
  let ps ← M.getProb v [1] true
  return ((pf, ps), r.2)

/-- `main` of the n3e3 demo (n3e3/batch.py:17-57): the event matrix printed, and the files afterwards.
`nSf` is the name `'MAX_SYS_FUN'`, `o` and `d` are `'n1'` and `'n3'`. -/
def n3e3Main (lib : PathLib K) (probs : ConnProbs K) (nSf o d : K)
    (data : List (CfgKey K × CfgVal K)) (disk : Disk K) : Except Err (List (List ℕ) × Disk K) := do
  let r ← Cfg.new disk data
  let names := r.1.infra.conns.map Prod.fst
  let sf ← itemsGet r.1.data (.other nSf)
  let maxSf ← cfgNum sf
  let maxNb ← cfgNum r.1.maxBranches
  let _ ← names.mapM (itemsGet probs)
  let C ← connCsys names (connRunCfg lib r.1.infra.G o d names [] probs.prob maxSf.ceil.toNat
    maxNb.ceil.toNat)
  return (C, r.2)

/-- `main(max_sf)` of the SF demo (SF/batch.py:65-81): its event matrix, which is not used any further, and
the files afterwards.  `o` and `d` are `'13'` and `'2'`; every connection fails with probability 0.5. -/
def sfMain (lib : PathLib K) (o d : K) (maxSf : ℕ) (data : List (CfgKey K × CfgVal K)) (disk : Disk K) :
    Except Err (List (List ℕ) × Disk K) := do
  let r ← Cfg.new disk data
  let names := r.1.infra.conns.map Prod.fst
  let maxNb ← cfgNum r.1.maxBranches
  let C ← connCsys names (connRunCfg lib r.1.infra.G o d names (names.map fun k => (k, rbdVariable k))
    (fun _ _ => 1 / 2) maxSf maxNb.ceil.toNat)
  return (C, r.2)

end

end BNS
