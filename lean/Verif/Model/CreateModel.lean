import Mathlib.Algebra.Field.Rat
import Verif.Model.ByOd
import Verif.Model.Config
import Verif.Model.Files

/-!
# Model of the commands that write the files of the EMA, SF and road demos

`create_model` of `BNS_JT/demos/EMA/batch.py` (20-54), of `BNS_JT/demos/SF/batch.py` (19-54), which has the
same text, and of `BNS_JT/demos/road/batch.py` (16-62).  The tables of nodes and arcs are the rows that
`pd.read_csv` returns; an empty file, for which it raises an exception, and rows with other columns are
not modelled.  `nd n` is the text `f'n{n}'`, `eg i` the text `f'e{i}'`.  Names are texts, so writing a file
and reading it again leaves them as they are.  `sqrt` is `np.sqrt` as in `Verif.Model.Files`.
-/

namespace BNS

set_option linter.unusedSectionVars false

section
variable {K : Type} [DecidableEq K]

/-- `open(path, 'w')` and `json.dump` (trans.py:464-467, 487-490): the file has the new content. -/
def Disk.put (disk : Disk K) (p : K) (c : FileC K) : Disk K :=
  { disk with files := fun k => if k = p then some c else disk.files k }

/-- `create_scenario_json_for_trans_network(damage_states, scenarios_dic, outfile)` (trans.py:473-492): the
file as `json.load` returns it.  The damage states are texts; here they are numbers, of which only the
length of the list is used by `Config`. -/
def scenarioTrans (damage : List ℚ) (scens : List (K × List (K × List ℚ))) : ScenJson K :=
  { damage := some damage, scenarios := jsonItems id (scens.map fun kv => (kv.1, jsonItems id kv.2)) }

/-- `delay_rate` (EMA/batch.py:46, SF/batch.py:46, road/batch.py:55). -/
def delayRate : List ℚ := [10, 2, 1]

/-- The common second half of the three commands (EMA/batch.py:41-54, SF/batch.py:41-54,
road/batch.py:50-62): the model file `pm`, then the scenario file `ps`.  `s1` is the name `'s1'`. -/
def delayCreate (sqrt : ℚ → ℚ) (arcs : List (K × K × K)) (coords : List (K × ℚ × ℚ)) (speed : List (K × ℚ))
    (ods : List (K × K × K)) (s1 pm ps : K) (disk : Disk K) : Except Err (Disk K) := do
  let f ← createTransport sqrt arcs coords speed ods
  let disk := disk.put pm (.model (loadNet id f))
  let times ← arcs.mapM fun a => do
    let c ← itemsGet f.conns a.1
    return (a.1, delayRate.map fun x => x * c.2.2)
  return disk.put ps (.scen (scenarioTrans [1, 2, 3] [(s1, times)]))

/-- `pd.read_csv(file)` (EMA/batch.py:24, 32) for the rows of a file, `none` if there is no such file: the
`FileNotFoundError` stands as `graph`, as in `Disk.open`. -/
def readTable {R : Type} : Option (List R) → Except Err (List R)
  | some rows => .ok rows
  | none => .error .graph

/-- `nodes_coords` (EMA/batch.py:24-28): a node in two rows keeps its place and gets the coordinates of
the later row. -/
def nodeTable (nd : ℕ → K) (rows : List (ℕ × ℚ × ℚ)) : List (K × ℚ × ℚ) :=
  rows.foldl (fun acc r => itemSet acc (nd r.1) r.2) []

/-- `arcs` (EMA/batch.py:31-36): the arcs are numbered from 1. -/
def arcTable (nd eg : ℕ → K) (rows : List (ℕ × ℕ)) : List (K × K × K) :=
  rows.zipIdx.map fun r => (eg (r.2 + 1), nd r.1.1, nd r.1.2)

/-- `create_model()` of the EMA and SF demos (EMA/batch.py:20-54, SF/batch.py:19-54) from the rows of the
two text files: speed 100 on every arc, one pair `od1` from node 22 to node 53. -/
def emaCreate (sqrt : ℚ → ℚ) (nd eg : ℕ → K) (od1 s1 pm ps : K) (nodes : Option (List (ℕ × ℚ × ℚ)))
    (edges : Option (List (ℕ × ℕ))) (disk : Disk K) : Except Err (Disk K) := do
  let nodes ← readTable nodes
  let edges ← readTable edges
  delayCreate sqrt (arcTable nd eg edges) (nodeTable nd nodes)
    ((arcTable nd eg edges).map fun a => (a.1, 100)) [(od1, nd 22, nd 53)] s1 pm ps disk

/-- The nodes of the road demo (road/batch.py:18-27). -/
def roadNodes : List (ℕ × ℚ × ℚ) := [(1, -2, 3), (2, -2, -3), (3, 2, -2), (4, 1, 1), (5, 0, 0)]

/-- The arcs of the road demo (road/batch.py:31-39). -/
def roadEdges : List (ℕ × ℕ) := [(1, 2), (1, 5), (2, 5), (3, 4), (3, 5), (4, 5)]

/-- `arcs_avg_kmh` of the road demo (road/batch.py:41-46). -/
def roadSpeeds (eg : ℕ → K) : List (K × ℚ) :=
  [(eg 1, 40), (eg 2, 40), (eg 3, 40), (eg 4, 30), (eg 5, 30), (eg 6, 20)]

/-- `create_model()` of the road demo (road/batch.py:16-62). -/
def roadCreate (sqrt : ℚ → ℚ) (nd eg : ℕ → K) (od1 s1 pm ps : K) (disk : Disk K) : Except Err (Disk K) :=
  delayCreate sqrt (arcTable nd eg roadEdges) (nodeTable nd roadNodes) (roadSpeeds eg)
    [(od1, nd 1, nd 3)] s1 pm ps disk

/-- `main()` of the road demo (road/batch.py:65-70): the files afterwards and what is printed.  Without a
scenario file the object has no scenarios, an `AttributeError` (if there is a connection).  Branch limits
that are not natural numbers are not modelled; a text is a `TypeError`. -/
def roadMain (lib : PathLib K) (s1 : K) (data : List (CfgKey K × CfgVal K)) (disk : Disk K) :
    Except Err (Disk K × List (K × List (List ℕ)) × List (K × Variable K)) := do
  let cfg ← Cfg.new disk data
  match cfg.1.scenarios, cfg.1.maxBranches with
  | some sc, .num n => do
    let r ← getBranchesByOd lib cfg.1.infra sc.scenarios s1 n.num.toNat
    return (cfg.2, r)
  | some _, _ => .error .type
  | none, _ => .error .attribute

end

end BNS
