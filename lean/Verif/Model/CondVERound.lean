import Verif.Model.CondVE
import Verif.Model.ElimCondRound

/-!
# Model of `prod_Msys_and_Mcomps` and `cal_Msys_by_cond_VE` with rounded arithmetic

The definitions follow those of `Model/Operation.lean` and `Model/CondVE.lean` line by line; products and
sums are those of an arithmetic, as in `Model/CpmRound.lean`.  The multiplication `p[j] * p_st` of
`prod_Msys_and_Mcomps` and `get_prod` of the other products are the same `Arith.mul`.
-/

namespace BNS

section Basic
variable {K : Type} [DecidableEq K]

/-- `p_st` (operation.py:620-625), see `compProb`: the probabilities of the states, added up from the
first to the last.  Python goes through the set in increasing order for small numbers. -/
def compProbR (A : Arith) (m : Cpm K) (c1 : List ℕ) (ks : List ℕ) : Except Err ℚ := do
  let xs ← ks.mapM fun k => do
    let i ← pyIndex c1 k
    pyGet m.p i
  return A.sum xs

/-- `prod_Msys_and_Mcomps(Msys, Mcomps_list)` (operation.py:562-626, 654), see `prodMsysMcomps`. -/
def prodMsysMcompsR (A : Arith) (S : Cpm K) (Mcomps : List (Cpm K)) : Except Err (Cpm K) := do
  pyAssert (∀ m ∈ Mcomps, m.noChild = 1)
  let compNames ← Mcomps.mapM fun m => do
    let v ← pyGet m.vars 0
    return v.name
  let (mult, pars) := splitParents compNames (S.vars.drop S.noChild)
  let ch := S.vars.take S.noChild ++ mult.map Prod.fst
  let cond ← condScope Mcomps
  if S.C.flatten = [] then .error .unbound else do
  let cols ← (ch ++ pars).mapM fun v => pyIndex S.getNames v.name
  let C ← takeCols S.C cols
  let extra := cond.filter fun vs => vs.1.name ∉ pars.map Variable.name
  let C' := C.map fun r => r ++ extra.map Prod.snd
  let p ← (C'.zip S.p).mapM fun rp => do
    let fs ← mult.zipIdx.mapM fun vij => do
      let m ← pyGet Mcomps vij.1.2
      let c1 ← m.C.mapM fun c => pyGet c 0
      let st ← pyGet rp.1 (S.noChild + vij.2)
      let v ← pyGet m.vars 0
      match v.B with
      | none => .error .type
      | some B => do
        let T ← pyGet B st
        compProbR A m c1 (T.sort (· ≤ ·))
    return fs.foldl A.mul rp.2
  Cpm.mk' { vars := ch ++ pars ++ extra.map Prod.fst, noChild := ch.length, C := C', p := p }

end Basic

section
variable {K : Type} [LinearOrder K]

/-- The loop over `c_jnt_names` (operation.py:735-737), see `joinComps`. -/
def joinCompsR (A : Arith) :
    List K → Cpm K → List (K × Cpm K) → Except Err (Cpm K × List (K × Cpm K))
  | [], S, d => .ok (S, d)
  | x :: xs, S, d => do
    let X ← assocGet d x
    let S ← S.productR A X
    joinCompsR A xs S (d.filter fun km => km.1 ≠ x)

/-- One iteration of the loop over the rows (operation.py:729-746), see `condVERow`. -/
def condVERowR (A : Arith) (dInf : List (K × Cpm K)) (sys : K) (cElm cJnt condNames : List K)
    (veVars : List (Variable K)) (Mc : Cpm K) (cx : List ℕ) : Except Err (Cpm K) := do
  let m1 ← Mc.condition Mc.vars cx
  let c0 ← pyGet m1.C 0
  let l1 ← conditionAll (dInf.map Prod.snd) m1.vars c0
  let d1 := (dInf.map Prod.fst).zip l1
  let S0 ← assocGet d1 sys
  let (S, d2) ← joinCompsR A cJnt S0 d1
  let comps ← variableElimListR A ((d2.filter fun km => km.1 ≠ sys).map Prod.snd) veVars
  let P ← prodMsysMcompsR A S comps
  let ev ← P.getVariables cElm
  let Q ← P.sumR A ev true
  let R ← Q.productR A m1
  let cv ← R.getVariables condNames
  R.sumR A cv true

/-- The loop over the rows of `M_cond` (operation.py:727-749), see `condVELoop`. -/
def condVELoopR (A : Arith) (row : List ℕ → Except Err (Cpm K)) :
    List (List ℕ) → Option (Cpm K) → Except Err (Cpm K)
  | [], none => .error .unbound
  | [], some M => .ok M
  | cx :: rest, acc => do
    let m ← row cx
    match acc with
    | none => condVELoopR A row rest (some m)
    | some M => do
      let (_, M') ← M.mergeR A m
      condVELoopR A row rest (some M')

/-- `cal_Msys_by_cond_VE(cpms, varis, cond_names, ve_order, sys_name)` (operation.py:699-751), see
`calMsysByCondVE`. -/
def calMsysByCondVER (A : Arith) (cpms : List (K × Cpm K)) (varis : List (K × Variable K))
    (condNames veOrd : List K) (sys : K) : Except Err (Cpm K) := do
  let inf ← getInfVars cpms [sys] (some veOrd)
  let S ← assocGet cpms sys
  let cNames := (S.vars.drop S.noChild).map Variable.name
  let ve := veNames inf condNames veOrd cNames
  let veVars ← (ve.filter fun v => v ≠ sys).mapM (assocGet varis)
  let keys := firstOccOn id (ve ++ cNames ++ jntNames veOrd cNames ++ [sys])
  let l ← keys.mapM (assocGet cpms)
  let cond ← condNames.mapM (assocGet cpms)
  let Mc ← productListR A cond
  condVELoopR A (condVERowR A (keys.zip l) sys (elmNames veOrd cNames) (jntNames veOrd cNames) condNames
    veVars Mc) Mc.C none

end

end BNS
