import Verif.Model.Basic
import Verif.Model.Variable
import Mathlib.Algebra.Order.Group.Abs
import Mathlib.Algebra.Order.Ring.Rat

/-!
# Model of the binary branch and bound (`trans.py`, `branch.py`)

Dictionaries of arc states are association lists in insertion order.  All dictionaries of one run
come from two dictionaries by comprehensions that keep the keys and their order, so that equality of
the lists is equality of the dictionaries.  Travel times are rationals or `none` for `np.inf`.
Type assertions are left out.
-/

namespace BNS

/-- A row of `path_time_idx`: (path, time, index) (trans.py:287-297). -/
structure PathRow (K : Type) where
  path : List K
  time : Option ℚ
  state : ℕ
  deriving DecidableEq

/-- `np.isclose(x, y)` with its default tolerances (trans.py:289); an infinite number is close only
to infinity. -/
def isClose : Option ℚ → Option ℚ → Bool
  | some a, some b => decide (|a - b| ≤ 1 / 100000000 + 1 / 100000 * |b|)
  | none, none => true
  | _, _ => false

section
variable {K : Type} [DecidableEq K]

/-- The index of a time: the first value that is close (trans.py:289-291). -/
def timeIdx (values : List (Option ℚ)) (t : Option ℚ) : Option ℕ :=
  values.findIdx? fun y => isClose t y

/-- `get_path_time_idx(path_time, vari)` (trans.py:272-300), `values` being `vari.values`.  A time
that is close to no value is dropped (a message is printed).  The sort is stable. -/
def getPathTimeIdx (pathTime : List (List K × Option ℚ)) (values : List (Option ℚ)) :
    List (PathRow K) :=
  let rows := pathTime.filterMap fun x =>
    (timeIdx values x.2).map fun i => { path := x.1, time := x.2, state := i }
  let rows := rows.insertionSort fun a b => b.state ≤ a.state
  if pathTime.any fun x => x.2 = none then rows
  else { path := [], time := none, state := 0 } :: rows

/-- `d[k]`: `KeyError` if the key is missing.  As in trans.py:342-343. -/
def arcGet (d : List (K × ℕ)) (k : K) : Except Err ℕ :=
  match d.find? fun kv => kv.1 = k with
  | some kv => .ok kv.2
  | none => .error .key

/-- `path_is_surv and all(path_is_surv)` (trans.py:342-343). -/
def pathSurvives (x : List (K × ℕ)) (cond : ℕ) (path : List K) : Except Err Bool := do
  let l ← path.mapM fun i => do
    let v ← arcGet x i
    return decide (v = cond)
  return !l.isEmpty && l.all id

/-- The loop of `eval_sys_state` (trans.py:340-345). -/
def evalPaths (x : List (K × ℕ)) (cond s0 : ℕ) : List (PathRow K) → Except Err ℕ
  | [] => .ok s0
  | r :: rs => do
    let b ← pathSurvives x cond r.path
    if b then return r.state else evalPaths x cond s0 rs

/-- `eval_sys_state(path_time_idx, arcs_state, arc_cond)` (trans.py:349-365) and
`eval_sys_state_given_arc` (trans.py:327-347), which has the same body. -/
def evalSysState (table : List (PathRow K)) (x : List (K × ℕ)) (cond : ℕ) : Except Err ℕ :=
  match table with
  | [] => .error .index
  | r :: _ => evalPaths x cond r.state table

/-- A branch of the binary algorithm: (lower, upper, fl, fu).  branch.py:562-577. -/
structure BBranch (K : Type) where
  lower : List (K × ℕ)
  upper : List (K × ℕ)
  fl : ℕ
  fu : ℕ
  deriving DecidableEq

/-- `[x for x in _path if upper[x] > lower[x]]` (branch.py:573). -/
def freeArcs (lower upper : List (K × ℕ)) : List K → Except Err (List K)
  | [] => .ok []
  | x :: xs => do
    let u ← arcGet upper x
    let l ← arcGet lower x
    let rest ← freeArcs lower upper xs
    return if l < u then x :: rest else rest

/-- The loop over the paths in `get_arcs_given_bstar` (branch.py:569-575). -/
def arcsLoop (lower upper : List (K × ℕ)) (matched : List K) :
    List (PathRow K) → Except Err (List K)
  | [] => .ok []
  | r :: rs =>
    if r.path.all fun e => decide (e ∈ matched) then freeArcs lower upper r.path
    else arcsLoop lower upper matched rs

/-- `get_arcs_given_bstar(bstar, path_time_idx, arc_cond)` (branch.py:562-577). -/
def getArcs (b : BBranch K) (table : List (PathRow K)) (cond : ℕ) : Except Err (List K) :=
  arcsLoop b.lower b.upper ((b.upper.filter fun kv => kv.2 = cond).map Prod.fst) table.tail

/-- `create_arc_state_given_cond(arc, value=…, arc_state=…)` (branch.py:593-601). -/
def setArc (arc : K) (value : ℕ) (d : List (K × ℕ)) : List (K × ℕ) :=
  d.map fun kv => (kv.1, if kv.1 = arc then value else kv.2)

/-- The loop of `get_set_of_branches` (branch.py:629-641), the first argument being the current
lower bound. -/
def setLoop (table : List (PathRow K)) (cond : ℕ) (b : BBranch K) (upperF : List (K × ℕ)) :
    List (K × ℕ) → List K → Except Err (List (BBranch K))
  | lower, [] => .ok [{ lower := lower, upper := upperF, fl := b.fu, fu := b.fu }]
  | lower, arc :: arcs => do
    let upper := setArc arc 0 b.upper
    let fu ← evalSysState table upper cond
    let rest ← setLoop table cond b upperF (setArc arc 1 lower) arcs
    return { lower := lower, upper := upper, fl := b.fl, fu := fu } :: rest

/-- `get_set_of_branches(bstar, arcs, path_time_idx, arc_cond)` (branch.py:623-645). -/
def getSetOfBranches (b : BBranch K) (arcs : List K) (table : List (PathRow K)) (cond : ℕ) :
    Except Err (List (BBranch K)) :=
  setLoop table cond b (b.upper.map fun kv => (kv.1, if kv.1 ∈ arcs then 1 else kv.2)) b.lower arcs

/-- `bnb_core(bstars, path_time_idx, arc_cond)` (branch.py:546-559). -/
def bnbCore (bstars : List (BBranch K)) (table : List (PathRow K)) (cond : ℕ) :
    Except Err (List (List (BBranch K))) :=
  bstars.mapM fun b => do
    let arcs ← getArcs b table cond
    getSetOfBranches b arcs table cond

/-- The output directory: file names with their contents (the list that was dumped; the keys of the
dictionaries are strings, which JSON gives back unchanged).  branch.py:516-543. -/
abbrev Dir (K : Type) := List (List Char × List (BBranch K))

/-- Writing a file: it is replaced if it exists.  branch.py:525-543. -/
def Dir.write (d : Dir K) (name : List Char) (c : List (BBranch K)) : Dir K :=
  d.filter (fun f => f.1 ≠ name) ++ [(name, c)]

/-- `sb_dump_{key}_` (branch.py:485, 535). -/
def dumpPrefix (key : List Char) : List Char := "sb_dump_".toList ++ key ++ ['_']

/-- `f'sb_dump_{key}_{i}.json'` (branch.py:535). -/
def dumpName (key : List Char) (i : ℕ) : List Char :=
  dumpPrefix key ++ (Nat.toDigits 10 i ++ ".json".toList)

/-- Does a file name match the pattern `sb_dump_{key}_*.json` (branch.py:481)?  (A key without the
special characters of patterns.) -/
def globMatch (key name : List Char) : Bool :=
  decide (dumpPrefix key <+: name) && decide (".json".toList <:+ name.drop (dumpPrefix key).length)

/-- The `while` loop of `branch_and_bound` (branch.py:525-543), `i` being the iteration number. -/
def bnbLoop (table : List (PathRow K)) (cond : ℕ) (key : List Char) :
    ℕ → ℕ → List (BBranch K) → Dir K → Except Err (Dir K)
  | 0, _, _, _ => .error .fuel
  | n + 1, i, bstars, dir =>
    if bstars = [] then .ok dir
    else do
      let results ← bnbCore bstars table cond
      let new := results.flatten.filter fun x => x ∉ bstars
      bnbLoop table cond key n (i + 1) (new.filter fun x => x.fl ≠ x.fu)
        (Dir.write dir (dumpName key i) new)

/-- `branch_and_bound(bstars, path_time_idx, arc_cond, output_path, key)` (branch.py:516-543): the
effect is on the output directory. -/
def branchAndBound (bstars : List (BBranch K)) (table : List (PathRow K)) (cond : ℕ)
    (key : List Char) (dir : Dir K) : Except Err (Dir K) :=
  bnbLoop table cond key ((bstars.map fun b => b.upper.length).foldr max 0 + 2) 0 bstars dir

/-- `get_sb_saved_from_job(output_path, key)` (branch.py:470-487); the files are read in the order of
the directory. -/
def sbSaved (dir : Dir K) (key : List Char) : List (BBranch K) :=
  (dir.filter fun f => globMatch key f.1).flatMap fun f => f.2.filter fun x => x.fl = x.fu

/-- `get_sb_saved_from_sb_dump` on the contents of one file (branch.py:500-507). -/
def sbSavedDump (c : List (BBranch K)) : List (BBranch K) := c.filter fun x => x.fl = x.fu

/-- `get_bstars_from_sb_dump` on the contents of one file (branch.py:490-497). -/
def bstarsDump (c : List (BBranch K)) : List (BBranch K) := c.filter fun x => x.fl ≠ x.fu

/-- `v.B[i]` of a variable whose table is not stored is a `TypeError`.  As in branch.py:733-745. -/
def tableGet (v : Variable K) (i : ℕ) : Except Err (Finset ℕ) :=
  match v.B with
  | some B => pyGet B i
  | none => .error .type

/-- `v.B.index(s)`.  As in branch.py:733-745. -/
def tableIndex (v : Variable K) (s : Finset ℕ) : Except Err ℕ :=
  match v.B with
  | some B => pyIndex B s
  | none => .error .type

/-- One row of `get_cmat_from_branches` (branch.py:733-745). -/
def cmatRow (b : BBranch K) (vars : List (K × Variable K)) : Except Err (List ℕ) :=
  if b.fl = b.fu then do
    let cs ← vars.mapM fun kv => do
      let l ← arcGet b.lower kv.1
      let s1 ← tableGet kv.2 l
      let u ← arcGet b.upper kv.1
      let s2 ← tableGet kv.2 u
      tableIndex kv.2 (s1 ∪ s2)
    return b.fl :: cs
  else .error .assertion

/-- `get_cmat_from_branches(branches, variables)` (branch.py:724-749).  `argsort` is not stable; the
model sorts stably, the theorems only use that the result is a sorted permutation. -/
def cmatFromBranches (brs : List (BBranch K)) (vars : List (K × Variable K)) :
    Except Err (List (List ℕ)) := do
  let C ← brs.mapM fun b => cmatRow b vars
  return C.insertionSort fun a b => a.headD 0 ≤ b.headD 0

end

end BNS
