import Verif.Model.Variable
import Mathlib.Data.List.Lex
import Mathlib.Algebra.Order.Ring.Rat
import Mathlib.Algebra.BigOperators.Group.List.Basic

/-!
# Model of `BNS_JT/cpm.py`

Conventions.  A 2-D integer array is a list of rows, a column vector is a list.  `X.size` is
zero iff the list of rows is empty or the rows are.  `C.shape[1]` is the number of variables
(true of every CPM whose `C` is a 2-D array; a CPM built with the 1-D default `C=[]` has no
`shape[1]` and is not modelled).  `Variable.__eq__`, `__hash__` and `__lt__` look at the name only
(variable.py:301-314), so list membership and sorting of variables are by name here.
-/

namespace BNS

section Basic
variable {K : Type} [DecidableEq K]

/-! ## Module-level helpers -/

/-- `ismember(A, B)[1]` (cpm.py:959-997), `none` standing for `False`; `key` is what Python's
`==` looks at (the name for variables).  `lia` is `isSome` of the entries.  All the variants of
the code (lists, arrays, rows of a 2-D array) compute the first matching position. -/
def ismemberOn {α κ : Type} [DecidableEq κ] (key : α → κ) (A B : List α) : List (Option ℕ) :=
  A.map fun x => (B.map key).idxOf? (key x)

/-- `list(dict.fromkeys(first))` (cpm.py:1005): first occurrences, in order. -/
def firstOccOn {α κ : Type} [DecidableEq κ] (key : α → κ) : List α → List α
  | [] => []
  | a :: l => a :: (firstOccOn key l).filter fun b => key b ≠ key a

/-- `setdiff(first, second)` (cpm.py:1000-1008). -/
def setdiffOn {α κ : Type} [DecidableEq κ] (key : α → κ) (first second : List α) :
    List α × List ℕ :=
  let first := firstOccOn key first
  let val := first.filter fun a => key a ∉ second.map key
  (val, val.map fun x => (first.map key).idxOf (key x))

/-- The list branch of `get_value_given_condn(A, condn)` (cpm.py:1011-1022). -/
def getValueGivenCondn {α β : Type} (A : List α) (condn : List (Option β)) :
    Except Err (List α) :=
  if A.length = condn.length then
    .ok ((condn.zip A).filterMap fun ix => if ix.1.isSome then some ix.2 else none)
  else .error .assertion

/-- `flip` (cpm.py:1077-1082), with `False` = `none` and `True` = `some ()`. -/
def flip {β : Type} (idx : List (Option β)) : List (Option Unit) :=
  idx.map fun x => if x.isNone then some () else none

/-- `argsort(seq)` (cpm.py:953-956): Python's `sorted` is stable. -/
def argsortOn {α κ : Type} [LE κ] [DecidableLE κ] (key : α → κ) (dflt : κ) (seq : List α) :
    List ℕ :=
  (List.range seq.length).insertionSort fun i j =>
    ((seq.map key).getD i dflt) ≤ ((seq.map key).getD j dflt)

/-- `X[idx]` / `X[idx, :]` for a list of non-negative indices.  As in cpm.py:217-239. -/
def takeRows {α : Type} (X : List α) (idx : List ℕ) : Except Err (List α) := idx.mapM (pyGet X)

/-- The idiom `if X.size: X[idx] else: []`.  cpm.py:217-268. -/
def takeRowsOpt {α : Type} (X : List α) (idx : List ℕ) : Except Err (List α) :=
  match X with
  | [] => .ok []
  | _ => takeRows X idx

/-- One pass of the loop of the module-level `iscompatible` for one checked variable
(cpm.py:1049-1072): `B` its table, `col` its column in `C`.
An out-of-range `C` entry is an uncaught `IndexError`; `B_fly` does not exist, so a missing table
is an `AttributeError` as soon as one row has to be looked up; an out-of-range `state` is caught
and printed and the check is skipped (when no row is left, nothing is looked up at all). -/
def compatStep (C : List (List ℕ)) (mask : List Bool) (B : Option (List (Finset ℕ)))
    (state col : ℕ) : Except Err (List Bool) :=
  match B with
  | none => if mask.any id then .error .attribute else .ok mask
  | some B => do
    let x1 ← (mask.zip C).mapM fun mr =>
      if mr.1 then do
        let k ← pyGet mr.2 col
        let x ← pyGet B k
        return some x
      else return none
    match B[state]? with
    | none => return mask
    | some S => return x1.map fun ox => match ox with
        | some x => decide ((S ∩ x).Nonempty)
        | none => false

/-- The module-level `iscompatible(C, variables, check_vars, check_states)` (cpm.py:1025-1074) for
variables and integer states (the translation of names and string labels, lines 1037-1038 and
1051-1052, is in `Verif.Model.CpmNames`). -/
def isCompatible (C : List (List ℕ)) (scope checkVars : List (Variable K))
    (checkStates : List ℕ) : Except Err (List Bool) := do
  let idx := ismemberOn Variable.name checkVars scope
  let cv ← getValueGivenCondn checkVars idx
  let cs ← getValueGivenCondn checkStates idx
  let ci := idx.filterMap id
  ((cv.zip cs).zip ci).foldlM (fun mask vsi => compatStep C mask vsi.1.1.B vsi.1.2 vsi.2)
    (List.replicate C.length true)

/-! ## The class -/

/-- `class Cpm` (cpm.py:11-186).  `p`, `q`, `ps`, `sampleIdx` are column vectors; an empty list is
an absent vector (`size == 0`). -/
structure Cpm (K : Type) where
  vars : List (Variable K)
  noChild : ℕ
  C : List (List ℕ)
  p : List ℚ
  Cs : List (List ℕ) := []
  q : List ℚ := []
  ps : List ℚ := []
  sampleIdx : List ℕ := []
  deriving DecidableEq

/-- The check of the `C` setter (cpm.py:71-88) for a 2-D array; ragged lists are refused by
`np.array` (`ValueError`). -/
def checkC (scope : List (Variable K)) (C : List (List ℕ)) : Except Err Unit :=
  if C.flatten = [] then .ok ()
  else if ¬ C.Pairwise (fun a b => a.length = b.length) then .error .value
  else if C.all (fun r => r.length = scope.length) &&
      C.all (fun r => (scope.zip r).all fun vs => vs.2 ≤ 2 ^ vs.1.values.length - 1) then .ok ()
  else .error .assertion

/-- The check of the `Cs` setter (cpm.py:113-128). -/
def checkCs (scope : List (Variable K)) (Cs : List (List ℕ)) : Except Err Unit :=
  if Cs.flatten = [] then .ok ()
  else if ¬ Cs.Pairwise (fun a b => a.length = b.length) then .error .value
  else if Cs.all (fun r => r.length = scope.length) &&
      Cs.all (fun r => (scope.zip r).all fun vs => vs.2 ≤ vs.1.values.length) then .ok ()
  else .error .assertion

/-- Python `assert`.  As in cpm.py:36-186. -/
def pyAssert (b : Prop) [Decidable b] : Except Err Unit := if b then .ok () else .error .assertion

/-- `Cpm.__init__` with its setters, in order (cpm.py:36-186). -/
def Cpm.mk' (M : Cpm K) : Except Err (Cpm K) := do
  pyAssert (M.noChild ≤ M.vars.length)
  checkC M.vars M.C
  pyAssert (M.p = [] ∨ M.p.length = M.C.length)
  checkCs M.vars M.Cs
  pyAssert (M.q = [] ∨ M.Cs.flatten = [] ∨ M.q.length = M.Cs.length)
  pyAssert (M.ps = [] ∨ M.Cs.flatten = [] ∨ M.ps.length = M.Cs.length)
  pyAssert (M.sampleIdx = [] ∨ M.Cs.flatten = [] ∨ M.sampleIdx.length = M.Cs.length)
  return M

/-- `Cpm.get_variables(names)` (cpm.py:192-197): `[...][0]` is an `IndexError` for an unknown
name. -/
def Cpm.getVariables (M : Cpm K) (names : List K) : Except Err (List (Variable K)) :=
  names.mapM fun n => pyGet (M.vars.filter fun v => v.name = n) 0

/-- `Cpm.get_names` (cpm.py:200-201). -/
def Cpm.getNames (M : Cpm K) : List K := M.vars.map Variable.name

/-- `assert`-guarded choice of rows in `get_subset` (cpm.py:221-225 and 242-246): the given rows, or
all the other ones; `n` is the number of rows. -/
def subsetRows (n : ℕ) (rowIdx : List ℕ) (flag : Bool) : Except Err (List ℕ) :=
  if flag then
    if ∀ i ∈ rowIdx, i < n then .ok rowIdx else .error .assertion
  else .ok (setdiffOn id (List.range n) rowIdx).1

/-- `Cpm.get_subset(row_idx, flag, isC=True)` (cpm.py:217-239). -/
def Cpm.getSubset (M : Cpm K) (rowIdx : List ℕ) (flag : Bool) : Except Err (Cpm K) := do
  let rows ← subsetRows M.C.length rowIdx flag
  let p ← takeRowsOpt M.p rows
  let C ← takeRows M.C rows
  Cpm.mk' { M with C := C, p := p }

/-- `Cpm.get_subset(row_idx, flag, isC=False)` (cpm.py:241-268): the result has no `C`/`p`. -/
def Cpm.getSubsetCs (M : Cpm K) (rowIdx : List ℕ) (flag : Bool) : Except Err (Cpm K) := do
  let rows ← subsetRows M.Cs.length rowIdx flag
  let q ← takeRowsOpt M.q rows
  let ps ← takeRowsOpt M.ps rows
  let si ← takeRowsOpt M.sampleIdx rows
  let Cs ← takeRows M.Cs rows
  Cpm.mk' { vars := M.vars, noChild := M.noChild, C := [], p := [],
            Cs := Cs, q := q, ps := ps, sampleIdx := si }

/-- `Cpm.get_col_ind(names)` (cpm.py:385-397). -/
def Cpm.getColInd (M : Cpm K) (names : List K) : Except Err (List ℕ) := do
  pyAssert names.Nodup
  names.mapM fun x => pyIndex M.getNames x

/-- `X[:, i]`.  As in cpm.py:273-286. -/
def column (C : List (List ℕ)) (i : ℕ) : Except Err (List ℕ) := C.mapM fun r => pyGet r i

/-- `X[:, idx]` for a list of column numbers.  As in cpm.py:399-411. -/
def takeCols (C : List (List ℕ)) (idx : List ℕ) : Except Err (List (List ℕ)) :=
  C.mapM fun r => idx.mapM fun i => pyGet r i

/-- `Cpm.get_col(names)` (cpm.py:399-411). -/
def Cpm.getCol (M : Cpm K) (names : List K) : Except Err (List (List ℕ)) := do
  let inds ← M.getColInd names
  takeCols M.C inds

/-- `Cpm.get_means(names)` (cpm.py:273-286): `Σ_r C[r, i] * p[r]` per name.  Without probabilities the
columns of several rows cannot be multiplied (`ValueError`); a single one is broadcast to nothing. -/
def Cpm.getMeans (M : Cpm K) (names : List K) : Except Err (List ℚ) := do
  pyAssert names.Nodup
  let idx ← names.mapM fun x => pyIndex M.getNames x
  idx.mapM fun i => do
    let col ← column M.C i
    if M.p = [] ∧ 1 < M.C.length then .error .value
    else return (List.zipWith (fun (c : ℕ) (x : ℚ) => (c : ℚ) * x) col M.p).sum

/-- The table used by the method `iscompatible` for one variable (cpm.py:316-319).  `np.max` of an
empty column is a `ValueError`. -/
def compatTable (C : List (List ℕ)) (v : Variable K) (col : ℕ) (flag : Bool) :
    Except Err (Option (List (Finset ℕ))) :=
  if flag then .ok v.B else do
    let c ← column C col
    match c.max? with
    | none => .error .value
    | some m => .ok (some ((List.range (m + 1)).map fun i => ({i} : Finset ℕ)))

/-- The method `Cpm.iscompatible(M, flag)` (cpm.py:289-382), where `one` is the single-row CPM.
`flag = True` uses the tables of `one`'s variables; `flag = False` uses
`[{0}, ..., {max of the column}]`, i.e. it compares the indices themselves.
Unlike the module-level function, an out-of-range state is an `IndexError`.
With no column in `one.C`, the local `is_cmp` is unbound.
(`one.Cs` must be empty; the sample-only alternative of the assertion leaves `is_cmp` unbound.) -/
def Cpm.isCompatibleM (M one : Cpm K) (flag : Bool) : Except Err (List Bool) := do
  pyAssert (one.C.length = 1 ∧ one.Cs.flatten = [])
  match one.C with
  | [] => .error .unbound
  | [] :: _ => .error .unbound
  | row :: _ => do
    let idx := ismemberOn Variable.name one.vars M.vars
    let cv ← getValueGivenCondn one.vars idx
    let cs ← getValueGivenCondn row idx
    let ci := idx.filterMap id
    ((cv.zip cs).zip ci).foldlM (fun mask vsi => do
      let B ← compatTable M.C vsi.1.1 vsi.2 flag
      let mask' ← compatStep M.C mask B vsi.1.2 vsi.2
      if mask.any id ∧ ∃ T ∈ B, T.length ≤ vsi.1.2 then .error .index else .ok mask')
      (List.replicate M.C.length true)

/-- `np.where(is_cmp)[0]`.  As in cpm.py:484-500. -/
def whereTrue (mask : List Bool) : List ℕ :=
  (List.range mask.length).filter fun i => mask.getD i false

/-- `X[is_cmp]` for a boolean mask.  As in cpm.py:484-500. -/
def maskRows {α : Type} (mask : List Bool) (X : List α) : List α :=
  (mask.zip X).filterMap fun mx => if mx.1 then some mx.2 else none

/-- The `while M.C.size` loop of `Cpm.sum` (cpm.py:484-500).  Each iteration takes the first row,
collects the probability of all the rows equal to it and removes them.  The fuel is the number of
rows, which is proved enough (`Err.fuel` never occurs).  The lists `qsum`, `sample_idx_sum` of the
code are computed but never used, and are left out. -/
def sumLoop : ℕ → Cpm K → Except Err (List (List ℕ) × List ℚ)
  | 0, M => if M.C.flatten = [] then .ok ([], []) else .error .fuel
  | fuel + 1, M =>
    if M.C.flatten = [] then .ok ([], [])
    else do
      let Mc ← M.getSubset [0] true
      let mask ← M.isCompatibleM Mc false
      let row ← pyGet M.C 0
      let M' ← M.getSubset (whereTrue mask) false
      let (Cs, ps) ← sumLoop fuel M'
      return (row :: Cs, (if M.p = [] then [] else [(maskRows mask M.p).sum]) ++ ps)

/-- The children `Cpm.sum` keeps, with their columns (cpm.py:457-466). -/
def sumRemain (M : Cpm K) (vars : List (Variable K)) (flag : Bool) : List (Variable K) × List ℕ :=
  let child := M.vars.take M.noChild
  if flag then setdiffOn Variable.name child vars
  else
    let idx := ((ismemberOn Variable.name vars child).filterMap id).insertionSort (· ≤ ·)
    (idx.filterMap fun i => M.vars[i]?, idx)

/-- `Cpm.sum` once the remaining children `remVars` and their columns are known (cpm.py:467-519).
`np.reshape([], (-1, 0))` (no column left) is a `ValueError`. -/
def sumBody (M : Cpm K) (remVars : List (Variable K)) (remIdx : List ℕ) : Except Err (Cpm K) := do
  let scope := remVars ++ M.vars.drop M.noChild
  let remIdx := remIdx ++ List.range' M.noChild (M.vars.length - M.noChild)
  let vars' ← takeRows M.vars remIdx
  let C ← takeCols M.C remIdx
  let M0 ← Cpm.mk' { vars := vars', noChild := remIdx.length, C := C, p := M.p, q := M.q,
                     sampleIdx := M.sampleIdx }
  let (Csum, psum) ← sumLoop M0.C.length M0
  if vars' = [] then .error .value else do
  let Ms ← Cpm.mk' { vars := scope, noChild := remVars.length, C := Csum, p := psum }
  if M.Cs.flatten = [] then return Ms else do
  let res := ismemberOn Variable.name scope M.vars
  let Cs ← takeCols M.Cs (res.map fun o => o.getD 0)
  Cpm.mk' { Ms with Cs := Cs, q := M.q, ps := M.ps, sampleIdx := M.sampleIdx }

/-- `Cpm.sum(variables, flag)` (cpm.py:439-519) for a list of variables (names are resolved by
`getVariables` first, lines 451-452).  The `print` of line 455 is not modelled. -/
def Cpm.sum (M : Cpm K) (vars : List (Variable K)) (flag : Bool) : Except Err (Cpm K) :=
  sumBody M (sumRemain M vars flag).1 (sumRemain M vars flag).2

/-- `Cpm.get_prob(var_inds, var_states, flag)` (cpm.py:522-557) for variables and integer states
(names and labels: `Verif.Model.CpmNames`). -/
def Cpm.getProb (M : Cpm K) (vars : List (Variable K)) (states : List ℕ) (flag : Bool) :
    Except Err ℚ := do
  pyAssert (vars.length = states.length)
  let Mc ← Cpm.mk' { vars := vars, noChild := vars.length, C := [states], p := [0] }
  let mask ← M.isCompatibleM Mc true
  let Msub ← M.getSubset (whereTrue mask) flag
  return Msub.p.sum

/-- The column written by `condition` for one conditioned variable (cpm.py:605-613):
`ismember(check, B)[1]`, `False` being stored as 0. -/
def condColumn (B : Option (List (Finset ℕ))) (state : ℕ) (col : List ℕ) :
    Except Err (List ℕ) :=
  match B with
  | none => .error .attribute
  | some B => col.mapM fun x => do
      let S ← pyGet B x
      let T ← pyGet B state
      return (B.idxOf? (S ∩ T)).getD 0

/-- `Ccond[:, idx] = col`.  As in cpm.py:560-646. -/
def setCol (C : List (List ℕ)) (idx : ℕ) (col : List ℕ) : List (List ℕ) :=
  List.zipWith (fun r c => r.set idx c) C col

/-- `Cpm.condition(cnd_vars, cnd_states)` (cpm.py:560-646) for variables and integer states
(names and labels: `Verif.Model.CpmNames`).
The zero-initialised `Ccond` of the code gets every unconditioned column copied and every
conditioned column overwritten, so it is modelled as a copy of `C` whose conditioned columns are
overwritten. -/
def Cpm.condition (M : Cpm K) (vars : List (Variable K)) (states : List ℕ) :
    Except Err (Cpm K) := do
  let mask ← isCompatible M.C M.vars vars states
  let C := maskRows mask M.C
  let idxCnd := ismemberOn Variable.name vars M.vars
  let cv ← getValueGivenCondn vars idxCnd
  let cs ← getValueGivenCondn states idxCnd
  let ci := idxCnd.filterMap id
  let Ccond ← ((cv.zip cs).zip ci).foldlM (fun Cc vsi => do
    let col ← column C vsi.2
    let col' ← condColumn vsi.1.1.B vsi.1.2 col
    return setCol Cc vsi.2 col') C
  let p := if M.p = [] then [] else maskRows mask M.p
  checkC M.vars Ccond
  pyAssert (p = [] ∨ p.length = Ccond.length)
  let Mx := { M with C := Ccond, p := p }
  if M.Cs.flatten = [] then return Mx else do
  let res := ismemberOn Variable.name M.vars vars
  let varStates := fun (c : List ℕ) => (res.zip c).map fun ri =>
    match ri.1 with
    | some r => states.getD r 0
    | none => ri.2
  if (res.take M.noChild).any Option.isSome then do
    let ps ← (M.Cs.zip M.q).mapM fun cq => do
      let pr ← Mx.getProb M.vars (varStates cq.1) true
      return pr * cq.2
    pyAssert (ps = [] ∨ ps.length = M.Cs.length)
    return { Mx with ps := ps }
  else if res.all Option.isNone then
    return { Mx with ps := M.q }
  else do
    let ps ← M.Cs.mapM fun c => Mx.getProb M.vars (varStates c) true
    return { Mx with ps := ps }

/-- `Cpm.sort` (cpm.py:776-792).  Without samples, rows are ordered by their reversed tuples. -/
def Cpm.sort (M : Cpm K) : Except Err (Cpm K) := do
  let idx := if M.sampleIdx = [] then argsortOn (fun r : List ℕ => r.reverse) [] M.C
    else argsortOn id 0 M.sampleIdx
  let C ← takeRows M.C idx
  checkC M.vars C
  let p ← takeRowsOpt M.p idx
  pyAssert (p = [] ∨ p.length = C.length)
  let q ← takeRowsOpt M.q idx
  pyAssert (q = [] ∨ M.Cs.flatten = [] ∨ q.length = M.Cs.length)
  let si ← takeRowsOpt M.sampleIdx idx
  pyAssert (si = [] ∨ M.Cs.flatten = [] ∨ si.length = M.Cs.length)
  return { M with C := C, p := p, q := q, sampleIdx := si }

/-- `Cpm.merge` (cpm.py:415-436).  `cs.index(cx)` raises `ValueError`, which the `except
IndexError` does not catch, so a row missing from `self` is an error.
Returns `(self after the call, result)`: `copy.copy` is shallow and `+=` on the shared array `p`
writes into `self`.  A `Cs` without samples is the one-dimensional default `np.array([])`, which `np.vstack`
does not put on top of samples (`ValueError`). -/
def Cpm.merge (A B : Cpm K) : Except Err (Cpm K × Cpm K) := do
  pyAssert (A.getNames = B.getNames)
  let p ← (B.C.zip B.p).foldlM (fun p cx => do
    let i ← pyIndex A.C cx.1
    let old ← pyGet p i
    return p.set i (old + cx.2)) A.p
  if A.Cs = [] ∧ B.Cs.flatten ≠ [] ∨ A.Cs.flatten ≠ [] ∧ B.Cs = [] then .error .value else do
  checkCs A.vars (A.Cs ++ B.Cs)
  pyAssert (A.q ++ B.q = [] ∨ (A.Cs ++ B.Cs).flatten = [] ∨
    (A.q ++ B.q).length = (A.Cs ++ B.Cs).length)
  pyAssert (A.ps ++ B.ps = [] ∨ (A.Cs ++ B.Cs).flatten = [] ∨
    (A.ps ++ B.ps).length = (A.Cs ++ B.Cs).length)
  pyAssert (A.sampleIdx ++ B.sampleIdx = [] ∨ (A.Cs ++ B.Cs).flatten = [] ∨
    (A.sampleIdx ++ B.sampleIdx).length = (A.Cs ++ B.Cs).length)
  return ({ A with p := p },
    { A with p := p, Cs := A.Cs ++ B.Cs, q := A.q ++ B.q, ps := A.ps ++ B.ps,
             sampleIdx := A.sampleIdx ++ B.sampleIdx })

/-- `Cpm.get_prob_bnd` (cpm.py:795-811).  A zero denominator is a numpy warning and `inf`/`nan` in
the code; here it is reported as an error (`.value`) so that no theorem rests on `x / 0`.
`if cvar_inds:` is false for an empty list. -/
def Cpm.getProbBnd (M : Cpm K) (vars : List (Variable K)) (states : List ℕ) (flag : Bool)
    (cond : Option (List (Variable K) × List ℕ × Bool)) : Except Err (ℚ × ℚ) := do
  let prob1 ← M.getProb vars states flag
  let unk := 1 - M.p.sum
  match cond with
  | some (cv, cs, cflag) =>
    if cv = [] then return (prob1, min 1 (prob1 + unk)) else do
    let prob2 ← M.getProb cv cs cflag
    if prob2 + unk = 0 ∨ prob2 = 0 then .error .value
    else return (prob1 / (prob2 + unk), min 1 ((prob1 + unk) / prob2))
  | none => return (prob1, min 1 (prob1 + unk))

end Basic

section Product
variable {K : Type} [LinearOrder K]

/-- The sample part of `Cpm.product` (cpm.py:736-771): samples are matched on `sample_idx`. -/
def productSamples (S M : Cpm K) (notCom idx2 : List ℕ) :
    Except Err (List (List ℕ) × List ℚ × List ℚ) := do
  let Sps := if S.ps = [] then S.q else S.ps
  let Mps := if M.ps = [] then M.q else M.ps
  let rows ← (List.range S.Cs.length).mapM fun i => do
    let c1 ← pyGet S.Cs i
    let c1n ← notCom.mapM fun j => pyGet c1 j
    let si ← pyGet S.sampleIdx i
    let mIdx := (List.range M.sampleIdx.length).filter fun j => M.sampleIdx.getD j 0 = si
    let cand ← takeRows M.Cs mIdx
    let c2 ← pyGet cand 0
    let qi ← pyGet S.q i
    let psi ← pyGet Sps i
    let mq ← takeRows M.q mIdx
    let mps ← takeRows Mps mIdx
    return (c2 ++ c1n, mq.map (· * qi), mps.map (· * psi))
  let Cs ← takeCols (rows.map fun r => r.1) idx2
  return (Cs, rows.flatMap fun r => r.2.1, rows.flatMap fun r => r.2.2)

/-- `sorted(new_child)` : by name (`Variable.__lt__`, variable.py:305-307). -/
def sortVars (vs : List (Variable K)) : List (Variable K) :=
  vs.insertionSort fun a b => a.name ≤ b.name

/-- The row loop of `Cpm.product` (cpm.py:704-729): each row of `self` is joined with `M`
conditioned on that row's common variables. -/
def productRows (S M : Cpm K) (idxVars : List (Option ℕ)) (comVars : List (Variable K))
    (notCom idx2 : List ℕ) : Except Err (List (List ℕ) × List ℚ) :=
  if S.C.flatten = [] then .ok ([], []) else do
    let blocks ← (List.range S.C.length).mapM fun i => do
      let r ← pyGet S.C i
      let c1 ← getValueGivenCondn r idxVars
      let c1n ← notCom.mapM fun j => pyGet r j
      let Mc ← M.condition comVars c1
      let pi ← takeRowsOpt S.p [i]
      return (Mc.C.map (· ++ c1n), pi.map fun y => Mc.p.map (· * y))
    let C ← takeCols (blocks.flatMap fun b => b.1) idx2
    let pps := blocks.flatMap fun b => b.2
    if pps = [] then .error .value else .ok (C, pps.flatten)

/-- `Cpm.product` once `self` has at most as many columns as `M` (cpm.py:661-773).
`get_prod` is modelled as the exact product (see C56).  The defaulting of a missing `p` to ones
(lines 666-671) is modelled on local copies; the code writes it back into the operands. -/
def productCore (S M : Cpm K) : Except Err (Cpm K) := do
  pyAssert (∀ v ∈ S.vars.take S.noChild, ∀ w ∈ M.vars.take M.noChild, v.name ≠ w.name)
  let Mp := if S.p ≠ [] ∧ M.p = [] then M.C.map (fun _ => (1 : ℚ)) else M.p
  let Sp := if S.p = [] ∧ M.p ≠ [] then S.C.map (fun _ => (1 : ℚ)) else S.p
  let M := { M with p := Mp }
  let S := { S with p := Sp }
  if S.C.flatten = [] ∧ S.Cs.flatten = [] then .error .unbound else do
  let idxVars := ismemberOn Variable.name S.vars M.vars
  let comVars ← getValueGivenCondn S.vars idxVars
  let notComVars ← getValueGivenCondn S.vars (flip idxVars)
  let notCom := (flip idxVars).zipIdx.filterMap fun x => if x.1.isSome then some x.2 else none
  let prodVars := M.vars ++ notComVars
  let newChild := sortVars (S.vars.take S.noChild ++ M.vars.take M.noChild)
  let newParent := (setdiffOn Variable.name
    (S.vars.drop S.noChild ++ M.vars.drop M.noChild) newChild).1
  let newVars := newChild ++ newParent
  let idx2 := (ismemberOn Variable.name newVars prodVars).map fun o => o.getD 0
  let (Cprod, pprod) ← productRows S M idxVars comVars notCom idx2
  let Mprod ← Cpm.mk' { vars := newVars, noChild := newChild.length, C := Cprod, p := pprod }
  let Mprod ← Mprod.sort
  if S.Cs.flatten = [] ∨ M.Cs.flatten = [] then return Mprod else do
  let (Cs, q, ps) ← productSamples S M notCom idx2
  Cpm.mk' { Mprod with Cs := Cs, q := q, ps := ps, sampleIdx := S.sampleIdx }

/-- `Cpm.product` (cpm.py:649-773): the operand with more columns becomes the second one. -/
def Cpm.product (S M : Cpm K) : Except Err (Cpm K) :=
  if S.vars.length > M.vars.length then productCore M S else productCore S M

/-- Module-level `product(cpms)` (cpm.py:1085-1102). -/
def productList : List (Cpm K) → Except Err (Cpm K)
  | [] => .error .assertion
  | M :: Ms => Ms.foldlM (fun prod cx => prod.product cx) M

end Product

end BNS
