import Verif.Model.BrcRound
import Verif.Model.Operation

/-!
# Model of the CPM operations with rounded arithmetic

`Model/Cpm.lean` and `Model/Operation.lean` multiply and add probabilities exactly.  Here the
product and the sum are those of an arithmetic `Arith`, as in `Model/BrcRound.lean`; all definitions
follow the exact ones line by line.  `get_prod` (cpm.py:1105-1121) computes `exp(log |a| + log |b|)`
with the sign of `a * b`, so its relative error is larger than that of one multiplication: `Arith.mul`
stands for the whole of it.  Samples (`Cs`, `q`, `ps`) are not rounded; the theorems are about CPMs
without samples.
-/

namespace BNS

/-- The exponent of the last of 53 binary digits of a number near `x`.
Part of the floating-point numbers of the arrays `p` of cpm.py. -/
def ulp53 (x : ℚ) : ℤ := Int.log 2 |x| - 52

/-- Rounding to 53 binary digits, nearest, ties to even: double precision without underflow (and
without overflow).  Simplification of the floating-point numbers in the arrays `p` of cpm.py. -/
def float53 (x : ℚ) : ℚ := roundEven (x * 2 ^ (-ulp53 x)) * 2 ^ ulp53 x

section Basic
variable {K : Type} [DecidableEq K]

/-- The loop of `Cpm.sum` (cpm.py:484-500), see `sumLoop`. -/
def sumLoopR (A : Arith) : ℕ → Cpm K → Except Err (List (List ℕ) × List ℚ)
  | 0, M => if M.C.flatten = [] then .ok ([], []) else .error .fuel
  | fuel + 1, M =>
    if M.C.flatten = [] then .ok ([], [])
    else do
      let Mc ← M.getSubset [0] true
      let mask ← M.isCompatibleM Mc false
      let row ← pyGet M.C 0
      let M' ← M.getSubset (whereTrue mask) false
      let (Cs, ps) ← sumLoopR A fuel M'
      return (row :: Cs, (if M.p = [] then [] else [A.sum (maskRows mask M.p)]) ++ ps)

/-- `Cpm.sum` once the remaining children are known (cpm.py:467-519), see `sumBody`. -/
def sumBodyR (A : Arith) (M : Cpm K) (remVars : List (Variable K)) (remIdx : List ℕ) :
    Except Err (Cpm K) := do
  let scope := remVars ++ M.vars.drop M.noChild
  let remIdx := remIdx ++ List.range' M.noChild (M.vars.length - M.noChild)
  let vars' ← takeRows M.vars remIdx
  let C ← takeCols M.C remIdx
  let M0 ← Cpm.mk' { vars := vars', noChild := remIdx.length, C := C, p := M.p, q := M.q,
                     sampleIdx := M.sampleIdx }
  let (Csum, psum) ← sumLoopR A M0.C.length M0
  if vars' = [] then .error .value else do
  let Ms ← Cpm.mk' { vars := scope, noChild := remVars.length, C := Csum, p := psum }
  if M.Cs.flatten = [] then return Ms else do
  let res := ismemberOn Variable.name scope M.vars
  let Cs ← takeCols M.Cs (res.map fun o => o.getD 0)
  Cpm.mk' { Ms with Cs := Cs, q := M.q, ps := M.ps, sampleIdx := M.sampleIdx }

/-- `Cpm.sum(variables, flag)` (cpm.py:439-519), see `Cpm.sum`. -/
def Cpm.sumR (A : Arith) (M : Cpm K) (vars : List (Variable K)) (flag : Bool) :
    Except Err (Cpm K) :=
  sumBodyR A M (sumRemain M vars flag).1 (sumRemain M vars flag).2

/-- `Cpm.get_prob(var_inds, var_states, flag)` (cpm.py:522-557), see `Cpm.getProb`. -/
def Cpm.getProbR (A : Arith) (M : Cpm K) (vars : List (Variable K)) (states : List ℕ) (flag : Bool) :
    Except Err ℚ := do
  pyAssert (vars.length = states.length)
  let Mc ← Cpm.mk' { vars := vars, noChild := vars.length, C := [states], p := [0] }
  let mask ← M.isCompatibleM Mc true
  let Msub ← M.getSubset (whereTrue mask) flag
  return A.sum Msub.p

/-- `Cpm.get_prob_bnd(var_inds, var_states, flag)` without a condition (cpm.py:795-811), see
`Cpm.getProbBnd`.  The sum of two numbers is `A.sum` of both. -/
def Cpm.getProbBndR (A : Arith) (M : Cpm K) (vars : List (Variable K)) (states : List ℕ)
    (flag : Bool) : Except Err (ℚ × ℚ) := do
  let prob1 ← M.getProbR A vars states flag
  let unk := A.sub 1 (A.sum M.p)
  return (prob1, min 1 (A.sum [prob1, unk]))

/-- `Cpm.get_prob_bnd(var_inds, var_states, flag, cvar_inds, cvar_states, cflag)` with a condition
(cpm.py:795-811), see `Cpm.getProbBnd`; `div` is the rounded division. -/
def Cpm.getProbBndCondR (A : Arith) (div : ℚ → ℚ → ℚ) (M : Cpm K) (vars : List (Variable K))
    (states : List ℕ) (flag : Bool) (cv : List (Variable K)) (cs : List ℕ) (cflag : Bool) :
    Except Err (ℚ × ℚ) := do
  let prob1 ← M.getProbR A vars states flag
  let unk := A.sub 1 (A.sum M.p)
  if cv = [] then return (prob1, min 1 (A.sum [prob1, unk])) else do
  let prob2 ← M.getProbR A cv cs cflag
  if A.sum [prob2, unk] = 0 ∨ prob2 = 0 then .error .value
  else return (div prob1 (A.sum [prob2, unk]), min 1 (div (A.sum [prob1, unk]) prob2))

end Basic

section Product
variable {K : Type} [LinearOrder K]

/-- The row loop of `Cpm.product` (cpm.py:704-729), see `productRows`. -/
def productRowsR (A : Arith) (S M : Cpm K) (idxVars : List (Option ℕ)) (comVars : List (Variable K))
    (notCom idx2 : List ℕ) : Except Err (List (List ℕ) × List ℚ) :=
  if S.C.flatten = [] then .ok ([], []) else do
    let blocks ← (List.range S.C.length).mapM fun i => do
      let r ← pyGet S.C i
      let c1 ← getValueGivenCondn r idxVars
      let c1n ← notCom.mapM fun j => pyGet r j
      let Mc ← M.condition comVars c1
      let pi ← takeRowsOpt S.p [i]
      return (Mc.C.map (· ++ c1n), pi.map fun y => Mc.p.map fun x => A.mul x y)
    let C ← takeCols (blocks.flatMap fun b => b.1) idx2
    let pps := blocks.flatMap fun b => b.2
    if pps = [] then .error .value else .ok (C, pps.flatten)

/-- `Cpm.product` once `self` has at most as many columns as `M` (cpm.py:661-773), see
`productCore`.  The products of samples are not rounded. -/
def productCoreR (A : Arith) (S M : Cpm K) : Except Err (Cpm K) := do
  pyAssert (∀ v ∈ S.vars.take S.noChild, ∀ w ∈ M.vars.take M.noChild, v.name ≠ w.name)
  let Mp := if S.p ≠ [] ∧ M.p = [] then M.C.map (fun _ => (1 : ℚ)) else M.p
  let Sp := if S.p = [] ∧ M.p ≠ [] then S.C.map (fun _ => (1 : ℚ)) else S.p
  let M := { M with p := Mp }
  let S := { S with p := Sp }
  if S.C.flatten = [] ∧ S.Cs.flatten = [] then .error .unbound else do
  let idxVars := ismemberOn Variable.name S.vars M.vars
  let comVars ← getValueGivenCondn S.vars idxVars
  let notComVars ← getValueGivenCondn S.vars (flip idxVars)
  let notCom := (flip idxVars).zipIdx.filterMap fun x => if x.1.isSome then some x.2 else none
  let prodVars := M.vars ++ notComVars
  let newChild := sortVars (S.vars.take S.noChild ++ M.vars.take M.noChild)
  let newParent := (setdiffOn Variable.name
    (S.vars.drop S.noChild ++ M.vars.drop M.noChild) newChild).1
  let newVars := newChild ++ newParent
  let idx2 := (ismemberOn Variable.name newVars prodVars).map fun o => o.getD 0
  let (Cprod, pprod) ← productRowsR A S M idxVars comVars notCom idx2
  let Mprod ← Cpm.mk' { vars := newVars, noChild := newChild.length, C := Cprod, p := pprod }
  let Mprod ← Mprod.sort
  if S.Cs.flatten = [] ∨ M.Cs.flatten = [] then return Mprod else do
  let (Cs, q, ps) ← productSamples S M notCom idx2
  Cpm.mk' { Mprod with Cs := Cs, q := q, ps := ps, sampleIdx := S.sampleIdx }

/-- `Cpm.product` (cpm.py:649-773), see `Cpm.product`. -/
def Cpm.productR (A : Arith) (S M : Cpm K) : Except Err (Cpm K) :=
  if S.vars.length > M.vars.length then productCoreR A M S else productCoreR A S M

/-- Module-level `product(cpms)` (cpm.py:1085-1102), see `productList`. -/
def productListR (A : Arith) : List (Cpm K) → Except Err (Cpm K)
  | [] => .error .assertion
  | M :: Ms => Ms.foldlM (fun prod cx => prod.productR A cx) M

/-- One iteration of `variable_elim` (operation.py:439-448), see `elimStep`. -/
def elimStepR (A : Arith) (cpms : List (Cpm K)) (v : Variable K) : Except Err (List (Cpm K)) := do
  let isin := isInScope [v] cpms
  let mult ← productListR A (maskRows isin cpms)
  let mult ← mult.sumR A [v] true
  return mult :: maskRows (isin.map not) cpms

/-- `variable_elim(cpms, var_elim, prod=False)` (operation.py:426-453), see `variableElimList`. -/
def variableElimListR (A : Arith) (cpms : List (Cpm K)) (ve : List (Variable K)) :
    Except Err (List (Cpm K)) :=
  ve.foldlM (elimStepR A) cpms

/-- `variable_elim(cpms, var_elim)` (operation.py:426-453), see `variableElim`. -/
def variableElimR (A : Arith) (cpms : List (Cpm K)) (ve : List (Variable K)) :
    Except Err (Cpm K) := do
  let l ← variableElimListR A cpms ve
  productListR A l

end Product

end BNS
