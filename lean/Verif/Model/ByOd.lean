import Verif.Model.Paths

/-!
# Model of `get_branches_by_od` (model.py:32-60)

The rule-based set-up of a road network: the values of a connection in scenario `s1` are its travel
times, worst state first.  `conns` are the items of `cfg.infra['edges']`, `scens` those of
`cfg.scenarios['scenarios']`.
-/

namespace BNS

set_option linter.unusedSectionVars false

section
variable {K : Type} [DecidableEq K]

/-- The variable of one connection (model.py:38-39): `KeyError` without scenario `s1` or without an
entry in it.  A connection with an empty list of values gets state `-1` at line 44, which is an
`IndexError` when its travel time is looked up; here it is one at once. -/
def delayVariable (scens : List (K × List (K × List ℚ))) (s1 k : K) :
    Except Err (K × Variable K) := do
  let scen ← itemsGet scens s1
  let values ← itemsGet scen k
  if values = [] then .error .index else .ok (k, Variable.mk' k values .dflt)

/-- `probs[k] = (np.ones_like(v_scen)/len(v_scen)).tolist()` (model.py:40). -/
def uniformProbs (varis : List (K × Variable K)) (k : K) (_ : ℕ) : ℚ :=
  match varis.lookup k with
  | some v => 1 / v.values.length
  | none => 0

/-- `comps_st_itc` (model.py:44): every component in its highest state. -/
def intactState (varis : List (K × Variable K)) (k : K) : ℕ :=
  match varis.lookup k with
  | some v => v.values.length - 1
  | none => 0

/-- `st_br_to_cs` (model.py:47). -/
def stBrToCs : St → Option ℕ
  | .f => some 0
  | .s => some 1
  | .u => some 2

/-- One round of the loop over the origins and destinations (model.py:51-58): the travel time with all
components intact, a run with twice this time as the threshold, the event matrix of its branches.
`run` returns the branches `None` if `max_branches` is 0, a `TypeError` in `get_csys`.  An exception
of the system function, which would end the call, is the label `'u'` (`sysFunWrap`). -/
def branchesOfOd (lib : PathLib K) (G : NGraph K) (maxBranches : ℕ) (o d : K)
    (varis : List (K × Variable K)) : Except Err (List (List ℕ) × List (K × Variable K)) := do
  let itc ← timeAndPath lib (compsOf (statesOf varis) (intactState varis)) G o d varis
  let st ← run { vs := statesOf varis, probs := uniformProbs varis
                 sysFun := sysFunWrap lib G (.pair o d) varis (some (2 * itc.1)) (statesOf varis)
                 maxSf := maxBranches, maxNb := maxBranches } { s := [], f := [] } none
  match st.brs with
  | none => .error .type
  | some bs => do
    let r ← getCsys (varis.map Prod.fst) bs (fun k => varis.lookup k) stBrToCs
    return (r.1, varis.map fun kv => (kv.1, (r.2 kv.1).getD kv.2))

/-- The loop over `cfg.infra['ODs']` (model.py:51-58).  The dictionary `varis` is shared by all rounds
and by all entries of `varis_by_od`; the model returns it once. -/
def byOdLoop (lib : PathLib K) (G : NGraph K) (maxBranches : ℕ) : List (K × K × K) →
    List (K × Variable K) → Except Err (List (K × List (List ℕ)) × List (K × Variable K))
  | [], varis => .ok ([], varis)
  | od :: ods, varis => do
    let r ← branchesOfOd lib G maxBranches od.2.1 od.2.2 varis
    let rest ← byOdLoop lib G maxBranches ods r.2
    return ((od.1, r.1) :: rest.1, rest.2)

/-- `get_branches_by_od(cfg)` (model.py:32-60). -/
def getBranchesByOd (lib : PathLib K) (inf : Infra K) (scens : List (K × List (K × List ℚ))) (s1 : K)
    (maxBranches : ℕ) : Except Err (List (K × List (List ℕ)) × List (K × Variable K)) := do
  let varis ← (inf.conns.map Prod.fst).mapM (delayVariable scens s1)
  byOdLoop lib inf.G maxBranches inf.ods varis

end
end BNS
