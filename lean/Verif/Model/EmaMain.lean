import Verif.Model.ByOd
import Verif.Model.FlowMain

/-!
# Model of the commands of the EMA demo

`main` of `BNS_JT/demos/EMA/batch.py`, from the configuration file to the stored results.  The values of
a connection in scenario `s1` are its travel times, worst state first.

Simplifications.  The numbers drawn by `rnd_state.choice` are a parameter.  The times and the lengths of
the rules in the monitor are left out, as in `run`.  An exception of the system function is shown as state
`'u'` (`sysFunWrap`).  A state without probability has probability 0 and not a `KeyError`.  The five files
of a key are stored together; the directory that a failing command has made is not kept.
-/

namespace BNS

set_option linter.unusedSectionVars false

section
variable {K : Type} [DecidableEq K]

/-- `probs_set[v][s]` (EMA/batch.py:68-71). -/
def emaSet (v : Fin 3) (s : ℕ) : ℚ :=
  match v, s with
  | 0, 0 => 1 / 100
  | 0, 1 => 4 / 100
  | 0, 2 => 95 / 100
  | 1, 0 => 3 / 100
  | 1, 1 => 12 / 100
  | 1, 2 => 85 / 100
  | 2, 0 => 6 / 100
  | 2, 1 => 24 / 100
  | 2, 2 => 70 / 100
  | _, _ => 0

/-- `probs` (EMA/batch.py:72-74): the set of every connection. -/
def emaDraws (draw : ℕ → Fin 3) (names : List K) : List (K × Fin 3) :=
  names.zipIdx.map fun ki => (ki.1, draw ki.2)

/-- `probs[k][s]`.  As in EMA/batch.py:96-99. -/
def emaProb (sets : List (K × Fin 3)) (k : K) (s : ℕ) : ℚ :=
  match sets.lookup k with
  | some v => emaSet v s
  | none => 0

/-- The variable and the CPM of one connection (EMA/batch.py:77-82): without a scenario file the object
has no scenarios, an `AttributeError`; the CPM has three rows, whatever the number of travel times. -/
def emaComp (sc : Option (ScenJson K)) (s1 : K) (kv : K × Fin 3) :
    Except Err ((K × Variable K) × K × Cpm K) :=
  match sc with
  | none => .error .attribute
  | some sc => do
    let scen ← itemsGet sc.scenarios s1
    let values ← itemsGet scen kv.1
    let v := Variable.mk' kv.1 values .dflt
    let M ← Cpm.mk' { vars := [v], noChild := 1, C := [[0], [1], [2]]
                      p := [emaSet kv.2 0, emaSet kv.2 1, emaSet kv.2 2] }
    return ((kv.1, v), kv.1, M)

/-- The two calls of `run` (EMA/batch.py:96-99). -/
def emaRunCfg (lib : PathLib K) (G : NGraph K) (o d : K) (varis : List (K × Variable K))
    (sets : List (K × Fin 3)) (th : ℚ) (maxSf maxNb : ℕ) : RunCfg K where
  vs := statesOf varis
  probs := emaProb sets
  sysFun := sysFunWrap lib G (.pair o d) varis (some th) (statesOf varis)
  maxSf := maxSf
  maxNb := maxNb

/-- The five files of a key (EMA/batch.py:107-129).  `mon` are the rows of the two monitors one after the
other, `noSf` the counters of the evaluations, `flag` the texts of the two flags put together. -/
structure EmaOut (K : Type) where
  brs : List (Branch K)
  cpms : List (K × Cpm K)
  varis : List (K × Variable K)
  rules : Rules K
  mon : List MonRow
  noSf : List ℕ
  flag : List OutFlag

/-- `monitor['out_flag']` of the two runs added (EMA/batch.py:123-125): `None` cannot be added. -/
def emaFlag : Option OutFlag → Option OutFlag → Except Err (List OutFlag)
  | some a, some b => .ok [a, b]
  | _, _ => .error .type

/-- `main(key, max_sf)` (EMA/batch.py:58-129): the directories and the results in the output directory
afterwards, by key.  `s1` is the name `'s1'`, `sys` the name `'sys'`.  Without any evaluation the branches
are `None`, a `TypeError` in `get_csys`. -/
def emaMain (lib : PathLib K) (draw : ℕ → Fin 3) (s1 sys key : K) (maxSf : ℕ)
    (data : List (CfgKey K × CfgVal K)) (w : Disk K × List (K × EmaOut K)) :
    Except Err (Disk K × List (K × EmaOut K)) := do
  let r ← Cfg.new w.1 data
  let pair ← itemsGet r.1.infra.ods key
  let names := r.1.infra.conns.map Prod.fst
  let sets := emaDraws draw names
  let comps ← sets.mapM (emaComp r.1.scenarios s1)
  let varis := comps.map Prod.fst
  let itc ← timeAndPath lib (compsOf (statesOf varis) (intactState varis)) r.1.infra.G pair.1 pair.2 varis
  let st1 ← run (emaRunCfg lib r.1.infra.G pair.1 pair.2 varis sets (2 * itc.1) maxSf 10000)
    { s := [], f := [] } none
  let st2 ← run (emaRunCfg lib r.1.infra.G pair.1 pair.2 varis sets (2 * itc.1) maxSf 50000)
    st1.rules none
  match st2.brs with
  | none => .error .type
  | some bs => do
    let c ← getCsys names bs (fun k => varis.lookup k) stBrToCs
    let varis' := itemSet (varis.map fun kv => (kv.1, (c.2 kv.1).getD kv.2)) sys
      (.mk' sys [0, 1, 2] .dflt)
    let vars ← (sys :: names).mapM (itemsGet varis')
    let S ← Cpm.mk' { vars := vars, noChild := 1, C := c.1, p := c.1.map fun _ => 1 }
    let flag ← emaFlag st1.outFlag st2.outFlag
    return (r.2, itemSet w.2 key
      { brs := bs, cpms := itemSet (comps.map Prod.snd) sys S, varis := varis', rules := st2.rules
        mon := st1.mon ++ st2.mon
        noSf := List.range (st1.evals.length + 1) ++ List.range (st2.evals.length + 1), flag := flag })

end

end BNS
