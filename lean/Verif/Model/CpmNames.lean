import Verif.Model.Cpm

/-!
# Queries by names and by labels

The methods of `Cpm` take a list of variables or a list of their names, and states that are numbers
or labels out of `Variable.values`.  `Verif.Model.Cpm` models the methods after that translation;
here the translation itself is added.  A list of variables is taken to hold either names only or
variables only.
-/

namespace BNS

variable {K : Type} [DecidableEq K]

/-- The argument naming the variables: a list of names or a list of `Variable`s (the first element
is tested, e.g. cpm.py:526, 576, 1037). -/
inductive QVars (K : Type) where
  | names (l : List K)
  | vars (l : List (Variable K))
  deriving DecidableEq

/-- A state given by its number, or by a label (a `str`). Labels are coded by rationals, as in
`Variable.values`.  As in cpm.py:585. -/
inductive QState where
  | idx (n : ℕ)
  | label (l : ℚ)
  deriving DecidableEq

/-- The value that `values.index(y)` looks for (cpm.py:585): a number is looked for as itself. -/
def QState.value : QState → ℚ
  | .idx n => n
  | .label l => l

/-- The translation of names by `self.get_variables` (cpm.py:451-452, 526-527, 576-577). -/
def Cpm.resolve (M : Cpm K) : QVars K → Except Err (List (Variable K))
  | .names l => M.getVariables l
  | .vars l => .ok l

/-- The translation of names by `iscompatible` (cpm.py:1037-1038): an unknown name is dropped. -/
def resolveIn (scope : List (Variable K)) : QVars K → List (Variable K)
  | .names l => l.flatMap fun y => scope.filter fun x => x.name = y
  | .vars l => l

/-- The loop of `get_prob` over the states (cpm.py:535-539): the translated labels only. -/
def labelIndices : List (Variable K × QState) → Except Err (List ℕ)
  | [] => .ok []
  | (_, .idx _) :: t => labelIndices t
  | (v, .label l) :: t =>
    if l ∈ v.values then do
      let r ← labelIndices t
      return v.values.idxOf l :: r
    else .error .assertion

/-- The states that are numbers.  cpm.py:522-557. -/
def numbers : List QState → List ℕ
  | [] => []
  | .idx n :: t => n :: numbers t
  | .label _ :: t => numbers t

/-- `Cpm.get_prob(var_inds, var_states, flag)` (cpm.py:522-557).  As soon as one label has been
translated, `var_states` is replaced by the translated labels (lines 541-542). -/
def Cpm.getProbQ (M : Cpm K) (qv : QVars K) (qs : List QState) (flag : Bool) : Except Err ℚ := do
  let vs ← M.resolve qv
  pyAssert (vs.length = qs.length)
  let ls ← labelIndices (vs.zip qs)
  M.getProb vs (if ls = [] then numbers qs else ls) flag

/-- `Cpm.sum(variables, flag)` (cpm.py:439-519). -/
def Cpm.sumQ (M : Cpm K) (qv : QVars K) (flag : Bool) : Except Err (Cpm K) := do
  let vs ← M.resolve qv
  M.sum vs flag

/-- `if isinstance(state, str): state = variable.values.index(state)` (cpm.py:1051-1052). -/
def stateIndex (v : Variable K) : QState → Except Err ℕ
  | .idx n => .ok n
  | .label l => pyIndex v.values l

/-- The module-level `iscompatible(C, variables, check_vars, check_states)` (cpm.py:1025-1074). -/
def isCompatibleQ (C : List (List ℕ)) (scope : List (Variable K)) (qv : QVars K)
    (qs : List QState) : Except Err (List Bool) := do
  let idx := ismemberOn Variable.name (resolveIn scope qv) scope
  let cv ← getValueGivenCondn (resolveIn scope qv) idx
  let cs ← getValueGivenCondn qs idx
  let ci := idx.filterMap id
  ((cv.zip cs).zip ci).foldlM (fun mask vsi => do
    let s ← stateIndex vsi.1.1 vsi.1.2
    compatStep C mask vsi.1.1.B s vsi.2) (List.replicate C.length true)

/-- The column written by `condition` for one conditioned variable (cpm.py:605-613): `B[state]` with
a label is a `TypeError` as soon as there is a row. -/
def condColumnQ (B : Option (List (Finset ℕ))) (s : QState) (col : List ℕ) :
    Except Err (List ℕ) :=
  match s, B with
  | .idx n, _ => condColumn B n col
  | .label _, none => .error .attribute
  | .label _, some _ => if col = [] then .ok [] else .error .type

/-- `var_states` of a sample in `condition` (cpm.py:629, 641). -/
def sampleStates (res : List (Option ℕ)) (qs : List QState) (c : List ℕ) : List QState :=
  (res.zip c).map fun ri =>
    match ri.1 with
    | some r => qs.getD r (.idx 0)
    | none => .idx ri.2

/-- `condition` from line 587 on (cpm.py:587-646); the labels of a list that starts with a number
have not been translated. -/
def Cpm.conditionRest (M : Cpm K) (vs : List (Variable K)) (qs : List QState) :
    Except Err (Cpm K) := do
  let mask ← isCompatibleQ M.C M.vars (.vars vs) qs
  let C := maskRows mask M.C
  let idxCnd := ismemberOn Variable.name vs M.vars
  let cv ← getValueGivenCondn vs idxCnd
  let cs ← getValueGivenCondn qs idxCnd
  let ci := idxCnd.filterMap id
  let Ccond ← ((cv.zip cs).zip ci).foldlM (fun Cc vsi => do
    let col ← column C vsi.2
    let col' ← condColumnQ vsi.1.1.B vsi.1.2 col
    return setCol Cc vsi.2 col') C
  let p := if M.p = [] then [] else maskRows mask M.p
  checkC M.vars Ccond
  pyAssert (p = [] ∨ p.length = Ccond.length)
  let Mx := { M with C := Ccond, p := p }
  if M.Cs.flatten = [] then return Mx else do
  let res := ismemberOn Variable.name M.vars vs
  if (res.take M.noChild).any Option.isSome then do
    let ps ← (M.Cs.zip M.q).mapM fun cq => do
      let pr ← Mx.getProbQ (.vars M.vars) (sampleStates res qs cq.1) true
      return pr * cq.2
    pyAssert (ps = [] ∨ ps.length = M.Cs.length)
    return { Mx with ps := ps }
  else if res.all Option.isNone then
    return { Mx with ps := M.q }
  else do
    let ps ← M.Cs.mapM fun c => Mx.getProbQ (.vars M.vars) (sampleStates res qs c) true
    return { Mx with ps := ps }

/-- The translation of the labels in `condition` (cpm.py:584-585): done if the first state is a
label, for the shorter of both lists. -/
def condStates (vs : List (Variable K)) : List QState → Except Err (List QState)
  | .label l :: t => do
    let is ← (vs.zip (.label l :: t)).mapM fun vq => pyIndex vq.1.values vq.2.value
    return is.map .idx
  | qs => .ok qs

/-- `Cpm.condition(cnd_vars, cnd_states)` (cpm.py:560-646). -/
def Cpm.conditionQ (M : Cpm K) (qv : QVars K) (qs : List QState) : Except Err (Cpm K) := do
  let vs ← M.resolve qv
  let cs ← condStates vs qs
  M.conditionRest vs cs

/-- The list of `cvar_inds` is empty (`if cvar_inds:`, cpm.py:801). -/
def QVars.isNil : QVars K → Bool
  | .names l => l.isEmpty
  | .vars l => l.isEmpty

/-- `Cpm.get_prob_bnd` (cpm.py:795-811), with the zero denominators as in `Cpm.getProbBnd`. -/
def Cpm.getProbBndQ (M : Cpm K) (qv : QVars K) (qs : List QState) (flag : Bool)
    (cond : Option (QVars K × List QState × Bool)) : Except Err (ℚ × ℚ) := do
  let prob1 ← M.getProbQ qv qs flag
  let unk := 1 - M.p.sum
  match cond with
  | some (cv, cs, cflag) =>
    if cv.isNil then return (prob1, min 1 (prob1 + unk)) else do
    let prob2 ← M.getProbQ cv cs cflag
    if prob2 + unk = 0 ∨ prob2 = 0 then .error .value
    else return (prob1 / (prob2 + unk), min 1 ((prob1 + unk) / prob2))
  | none => return (prob1, min 1 (prob1 + unk))

end BNS
