import Mathlib.Algebra.Field.Defs
import Verif.Model.Paths

/-!
# Model of the functions that write model and scenario files

`trans.py:303-324, 368-524`, `config.py:143-182` and `utils.py:17-21`.  Dictionaries are their lists of items.  A file is
the dictionary that `json.dump` gets; what `json.load` returns for it differs in the keys, which JSON
turns into text: `key` is this conversion.  Numbers are of any field `F`; `sqrt` is `np.sqrt`.
-/

namespace BNS

set_option linter.unusedSectionVars false

section
variable {K F : Type} [DecidableEq K] [Field F]

/-- `read_nodes(file_node)` (utils.py:17-21) for the rows of the file: the index and the entries by column.
`to_dict('index')` raises `ValueError` if an index is repeated.  `cx`, `cy` are the names `'x'`, `'y'`.
A file without any row is not distinguished from one without the columns. -/
def readNodes (cx cy : K) (rows : List (K × List (K × F))) : Except Err (List (K × F × F)) := do
  if (rows.map Prod.fst).Nodup then
    rows.mapM fun r => do
      let x ← itemsGet r.2 cx
      let y ← itemsGet r.2 cy
      return (r.1, x, y)
  else .error .value

/-- One round of the loop of `get_arcs_length` (trans.py:320-322), for coordinates in the plane. -/
def arcLength (sqrt : F → F) (p q : F × F) : F := sqrt ((p.1 - q.1) ^ 2 + (p.2 - q.2) ^ 2)

/-- `get_arcs_length(arcs, node_coords)` (trans.py:303-324). -/
def arcsLength (sqrt : F → F) (arcs : List (K × K × K)) (coords : List (K × F × F)) :
    Except Err (List (K × F)) :=
  arcs.mapM fun a => do
    let p ← itemsGet coords a.2.1
    let q ← itemsGet coords a.2.2
    return (a.1, arcLength sqrt p q)

/-- `get_node_conn_df(arcs, node_coords, avg_speed_by_arc)` (trans.py:368-387): origin, destination
and weight of the arcs.  Speed zero, which gives the weight `inf`, is not modelled. -/
def nodeConn (sqrt : F → F) (arcs : List (K × K × K)) (coords : List (K × F × F))
    (speed : List (K × F)) : Except Err (List (K × K × K × F)) := do
  let len ← arcsLength sqrt arcs coords
  arcs.mapM fun a => do
    let l ← itemsGet len a.1
    let v ← itemsGet speed a.1
    return (a.1, a.2.1, a.2.2, l / v)

/-- The dictionary of a model file: `component_list` with the positions, `node_conn_df` and
`sysout_setup`.  Fields that are always `None` and `system_meta` are left out.  trans.py:389-470. -/
structure NetDict (K F : Type) where
  comps : List (K × F × F)
  conns : List (K × K × K × F)
  ods : List (K × K × K)

/-- `create_model_json_for_tranportation_network(arcs, node_coords, avg_speed_by_arc, ODs)`
(trans.py:434-470). -/
def createTransport (sqrt : F → F) (arcs : List (K × K × K)) (coords : List (K × F × F))
    (speed : List (K × F)) (ods : List (K × K × K)) : Except Err (NetDict K F) := do
  let conns ← nodeConn sqrt arcs coords speed
  return { comps := coords, conns := conns, ods := ods }

/-- `create_model_json_for_graph_network(arcs, node_coords, ODs)` (trans.py:389-432): every weight
is 1. -/
def createGraph (arcs : List (K × K × K)) (coords : List (K × F × F)) (ods : List (K × K × K)) :
    NetDict K F :=
  { comps := coords, conns := arcs.map fun a => (a.1, a.2.1, a.2.2, 1), ods := ods }

/-- `json.load` of what `json.dump` wrote for a dictionary: the keys are converted, of two keys that
become equal the later value counts. -/
def jsonItems {V : Type} (key : K → K) (d : List (K × V)) : List (K × V) :=
  d.foldl (fun acc kv => itemSet acc (key kv.1) kv.2) []

/-- A model file as `read_model_from_json` loads it; the functions above write no `graph_type`. -/
def loadNet (key : K → K) (f : NetDict K ℚ) : NetJson K :=
  { comps := jsonItems key f.comps, conns := jsonItems key f.conns, ods := jsonItems key f.ods
    gtype := none }

/-- `create_scenario_json_for_tranportation_network(damage_states, arcs, type_by_arc, frag_by_type,
obs_by_arc)` (trans.py:495-524): the only scenario, `'s1'`.  `cdf obs std med` is `lognorm.cdf`; `frag`
gives `std` and `med` of a type. -/
def createScenario {T : Type} [DecidableEq T] (cdf : F → F → F → F) (arcs : List (K × K × K))
    (typ : List (K × T)) (frag : List (T × F × F)) (obs : List (K × F)) :
    Except Err (List (K × List F)) :=
  arcs.mapM fun a => do
    let t ← itemsGet typ a.1
    let o ← itemsGet obs a.1
    let f ← itemsGet frag t
    return (a.1, [cdf o f.1 f.2, 1 - cdf o f.1 f.2])

/-- `dict_to_json(dict_pf, damage_states, filename)` (config.py:156-182): the items of the scenarios
`s1`, `s2`, ..., written to a file and loaded again.  A value of `dict_pf` is the list of the first
entries of its elements, the only ones used.  `rnd` is the rounding of `DataFrame.to_json`.  An empty
dictionary raises `StopIteration`, here `ValueError`.  Without a file name the function returns
nothing and has no effect; not modelled. -/
def dictToJson (key : K → K) (rnd : F → F) (pf : List (K × List F)) :
    Except Err (List (ℕ × List (K × List F))) :=
  match pf with
  | [] => .error .value
  | a :: _ => (List.range a.2.length).mapM fun i => do
    let col ← pf.mapM fun kv => do
      let v ← pyGet kv.2 i
      return (kv.1, [rnd v, rnd (1 - v)])
    return (i + 1, jsonItems key col)

end

section
variable {K V : Type} [DecidableEq K]

/-- `template.update(**v)` (config.py:150). -/
def itemsUpdate (d : List (K × V)) (v : List (K × V)) : List (K × V) :=
  v.foldl (fun acc kv => itemSet acc kv.1 kv.2) d

/-- `convert_csv_to_json(df, template)` (config.py:143-153): the result and the template afterwards,
which is the caller's object.  `rows` are the rows of `df` with their labels, `str` is `str(k)`. -/
def csvToJson (str : K → K) (rows : List (K × List (K × V))) (template : List (K × V)) :
    List (K × List (K × V)) × List (K × V) :=
  rows.foldl (fun acc kv =>
    let t := itemsUpdate acc.2 kv.2
    (itemSet acc.1 (str kv.1) t, t)) ([], template)

end

end BNS
