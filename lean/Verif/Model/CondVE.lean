import Verif.Model.Operation

/-!
# Model of `cal_Msys_by_cond_VE` (operation.py:699-751)

The marginal distribution of a system event by conditioning on the rows of the conditioning
variables' joint CPM.  Dictionaries of CPMs are association lists in insertion order; CPMs carry no
samples.
-/

namespace BNS

set_option linter.unusedSectionVars false

section
variable {K : Type} [LinearOrder K]

/-- `d[k]` for a dictionary of CPMs or of variables: `KeyError` when absent.
As in operation.py:735-737. -/
def assocGet {α : Type} (d : List (K × α)) (k : K) : Except Err α :=
  match d.lookup k with
  | some a => .ok a
  | none => .error .key

/-- The loop over `c_jnt_names` (operation.py:735-737): the system CPM is multiplied by each of these
CPMs, which leave the dictionary. -/
def joinComps : List K → Cpm K → List (K × Cpm K) → Except Err (Cpm K × List (K × Cpm K))
  | [], S, d => .ok (S, d)
  | x :: xs, S, d => do
    let X ← assocGet d x
    let S ← S.product X
    joinComps xs S (d.filter fun km => km.1 ≠ x)

/-- One iteration of the loop over the rows (operation.py:729-746): `m_m1` for the row `cx` of
`M_cond`. -/
def condVERow (dInf : List (K × Cpm K)) (sys : K) (cElm cJnt condNames : List K)
    (veVars : List (Variable K)) (Mc : Cpm K) (cx : List ℕ) : Except Err (Cpm K) := do
  let m1 ← Mc.condition Mc.vars cx
  let c0 ← pyGet m1.C 0
  let l1 ← conditionAll (dInf.map Prod.snd) m1.vars c0
  let d1 := (dInf.map Prod.fst).zip l1
  let S0 ← assocGet d1 sys
  let (S, d2) ← joinComps cJnt S0 d1
  let comps ← variableElimList ((d2.filter fun km => km.1 ≠ sys).map Prod.snd) veVars
  let P ← prodMsysMcomps S comps
  let ev ← P.getVariables cElm
  let Q ← P.sum ev true
  let R ← Q.product m1
  let cv ← R.getVariables condNames
  R.sum cv true

/-- The loop over the rows of `M_cond` (operation.py:727-749).  `Msys` is unbound when there is no
row. -/
def condVELoop (row : List ℕ → Except Err (Cpm K)) :
    List (List ℕ) → Option (Cpm K) → Except Err (Cpm K)
  | [], none => .error .unbound
  | [], some M => .ok M
  | cx :: rest, acc => do
    let m ← row cx
    match acc with
    | none => condVELoop row rest (some m)
    | some M => do
      let (_, M') ← M.merge m
      condVELoop row rest (some M')

/-- The names of lines 712-716: `c_names` and, from `vars_inf`, `ve_names`, `c_jnt_names`,
`c_elm_names`.  operation.py:712-716. -/
def veNames (inf condNames veOrd cNames : List K) : List K :=
  inf.filter fun x => x ∈ veOrd ∧ x ∉ condNames ∧ x ∉ cNames
/-- `c_jnt_names` (operation.py:712-716). -/
def jntNames (veOrd cNames : List K) : List K := cNames.filter fun x => x ∉ veOrd
/-- `c_elm_names` (operation.py:712-716). -/
def elmNames (veOrd cNames : List K) : List K := cNames.filter fun x => x ∉ jntNames veOrd cNames

/-- `cal_Msys_by_cond_VE(cpms, varis, cond_names, ve_order, sys_name)` (operation.py:699-751), without
samples.  `sys_name` keeps its place in `cpms_inf` when it is already a key. -/
def calMsysByCondVE (cpms : List (K × Cpm K)) (varis : List (K × Variable K))
    (condNames veOrd : List K) (sys : K) : Except Err (Cpm K) := do
  let inf ← getInfVars cpms [sys] (some veOrd)
  let S ← assocGet cpms sys
  let cNames := (S.vars.drop S.noChild).map Variable.name
  let ve := veNames inf condNames veOrd cNames
  let veVars ← (ve.filter fun v => v ≠ sys).mapM (assocGet varis)
  let keys := firstOccOn id (ve ++ cNames ++ jntNames veOrd cNames ++ [sys])
  let l ← keys.mapM (assocGet cpms)
  let cond ← condNames.mapM (assocGet cpms)
  let Mc ← productList cond
  condVELoop (condVERow (keys.zip l) sys (elmNames veOrd cNames) (jntNames veOrd cNames) condNames
    veVars Mc) Mc.C none

end
end BNS
