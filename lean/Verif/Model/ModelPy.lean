import Verif.Model.Bnb
import Verif.Model.Operation

/-!
# Model of `BNS_JT/model.py` (the path-based network model)

The list of paths with their times is an input, one per OD pair; `get_all_paths_and_times` and
`setup_model`, which combines the functions below over all pairs of an OD and a scenario, are in
`Model/Paths.lean`.  `get_branches_by_od` (model.py:32-60) is in `Model/ByOd.lean`.
-/

namespace BNS

section
variable {K : Type} [DecidableEq K]

/-- Is `a` at least `b`, `none` being infinity?  model.py:74. -/
def timeGe : Option ℚ → Option ℚ → Bool
  | none, _ => true
  | some _, none => false
  | some a, some b => decide (b ≤ a)

/-- `[np.inf] + sorted([y for _, y in path_times[v]], reverse=True)` (model.py:74 and 113). -/
def odValues (pathTime : List (List K × Option ℚ)) : List (Option ℚ) :=
  none :: (pathTime.map Prod.snd).insertionSort fun a b => timeGe a b

/-- `get_branches(cfg, path_times)` for one OD (model.py:73-89). -/
def getBranchesOne (edges : List K) (key : List Char) (pathTime : List (List K × Option ℚ))
    (dir : Dir K) : Except Err (List (BBranch K) × Dir K) := do
  let lower := edges.map fun k => (k, 0)
  let upper := edges.map fun k => (k, 1)
  let table := getPathTimeIdx pathTime (odValues pathTime)
  let fl ← evalSysState table lower 1
  let fu ← evalSysState table upper 1
  let dir ← branchAndBound [⟨lower, upper, fl, fu⟩] table 1 key dir
  return (sbSaved dir key, dir)

/-- `get_branches(cfg, path_times)` (model.py:65-91): the branches of each OD, in order; all ODs use
the same output directory and the same key. -/
def getBranches (edges : List K) (key : List Char) :
    List (K × List (List K × Option ℚ)) → Dir K →
    Except Err (List (K × List (BBranch K)) × Dir K)
  | [], dir => .ok ([], dir)
  | od :: ods, dir => do
    let (brs, dir) ← getBranchesOne edges key od.2 dir
    let (rest, dir) ← getBranches edges key ods dir
    return ((od.1, brs) :: rest, dir)

/-- `d[k] = v`.  As in model.py:94-126. -/
def itemSet {α : Type} (d : List (K × α)) (k : K) (v : α) : List (K × α) :=
  if k ∈ d.map Prod.fst then d.map fun kv => if kv.1 = k then (k, v) else kv
  else d ++ [(k, v)]

/-- `d[k]`, `KeyError` if the key is missing.  As in model.py:94-126. -/
def itemGet {α : Type} (d : List (K × α)) (k : K) : Except Err α :=
  match d.find? fun kv => kv.1 = k with
  | some kv => .ok kv.2
  | none => .error .key

/-- The variable of the travel time: values of CPM variables are rationals in the model, infinity is
encoded by -1 (the operations on CPMs only use the number of values).  model.py:94-126. -/
def odVariable (od : K) (pathTime : List (List K × Option ℚ)) : Variable K :=
  Variable.mk' od ((odValues pathTime).map fun t => t.getD (-1)) .dflt

/-- CPM of one arc (model.py:106-110). -/
def arcCpm (v : Variable K) (values : List ℚ) : Except Err (Cpm K) :=
  Cpm.mk' { vars := [v], noChild := 1, C := (List.range values.length).map fun i => [i]
            p := values }

/-- `model_given_od_scen(cfg, path_times, od, scen, branches)` (model.py:94-126); `scen` are the items
of the scenario, whose keys are distinct. -/
def modelGivenOd (edges : List K) (damage : List ℚ) (scen : List (K × List ℚ)) (od : K)
    (pathTime : List (List K × Option ℚ)) (branches : List (BBranch K)) :
    Except Err (List (K × Cpm K) × List (K × Variable K)) := do
  let varis := scen.map fun kv => (kv.1, Variable.mk' kv.1 damage .dflt)
  let cpms ← scen.mapM fun kv => do
    let M ← arcCpm (Variable.mk' kv.1 damage .dflt) kv.2
    return (kv.1, M)
  let varis := itemSet varis od (odVariable od pathTime)
  let arcVars ← edges.mapM fun k => do
    let v ← itemGet varis k
    return (k, v)
  let c ← cmatFromBranches branches arcVars
  let M ← Cpm.mk' { vars := odVariable od pathTime :: arcVars.map Prod.snd, noChild := 1, C := c
                    p := c.map fun _ => 1 }
  return (itemSet cpms od M, varis)

end

section
variable {K : Type} [LinearOrder K]

/-- `compute_prob(cfg, cpms, varis, var_elim, key, idx_state, flag)` (model.py:129-153). -/
def computeProb (cpms : List (K × Cpm K)) (varis : List (K × Variable K)) (ve : List K) (key : K)
    (state : ℕ) (flag : Bool) : Except Err (ℚ × Cpm K) := do
  let M ← (ve ++ [key]).mapM fun k => itemGet cpms k
  let vs ← ve.mapM fun k => itemGet varis k
  let P ← variableElim M vs
  let v ← itemGet varis key
  let prob ← P.getProb [v] [state] flag
  return (prob, P)

end

end BNS
