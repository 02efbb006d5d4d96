import Verif.Model.CpmRound

/-!
# Model of `variable_elim_cond` with rounded arithmetic

The definitions follow `Cpm.merge` (`Model/Cpm.lean`) and `variableElimCond` (`Model/Operation.lean`) line
by line; products and sums are those of an arithmetic, as in `Model/CpmRound.lean`.
-/

namespace BNS

section Basic
variable {K : Type} [DecidableEq K]

/-- `Cpm.merge` (cpm.py:415-436), see `Cpm.merge`.  The sum of two numbers is `A.sum` of both. -/
def Cpm.mergeR (A : Arith) (X Y : Cpm K) : Except Err (Cpm K × Cpm K) := do
  pyAssert (X.getNames = Y.getNames)
  let p ← (Y.C.zip Y.p).foldlM (fun p cx => do
    let i ← pyIndex X.C cx.1
    let old ← pyGet p i
    return p.set i (A.sum [old, cx.2])) X.p
  if X.Cs = [] ∧ Y.Cs.flatten ≠ [] ∨ X.Cs.flatten ≠ [] ∧ Y.Cs = [] then .error .value else do
  checkCs X.vars (X.Cs ++ Y.Cs)
  pyAssert (X.q ++ Y.q = [] ∨ (X.Cs ++ Y.Cs).flatten = [] ∨
    (X.q ++ Y.q).length = (X.Cs ++ Y.Cs).length)
  pyAssert (X.ps ++ Y.ps = [] ∨ (X.Cs ++ Y.Cs).flatten = [] ∨
    (X.ps ++ Y.ps).length = (X.Cs ++ Y.Cs).length)
  pyAssert (X.sampleIdx ++ Y.sampleIdx = [] ∨ (X.Cs ++ Y.Cs).flatten = [] ∨
    (X.sampleIdx ++ Y.sampleIdx).length = (X.Cs ++ Y.Cs).length)
  return ({ X with p := p },
    { X with p := p, Cs := X.Cs ++ Y.Cs, q := X.q ++ Y.q, ps := X.ps ++ Y.ps,
             sampleIdx := X.sampleIdx ++ Y.sampleIdx })

end Basic

section Elim
variable {K : Type} [LinearOrder K]

/-- One row of `variable_elim_cond` (operation.py:484-499), see `elimCondRow`. -/
def elimCondRowR (A : Arith) (cpms : List (Cpm K)) (varis : List (Variable K)) (cNames : List K)
    (P : Cpm K) (idv : Option (List ℕ)) (cx : List ℕ) :
    Except Err (Option (Cpm K) × Option (List ℕ)) := do
  let P1 ← P.condition P.vars cx
  let cpms1 ← conditionAll cpms P.vars cx
  let E ← variableElimR A cpms1 varis
  let M ← E.productR A P1
  let idx ← M.getColInd cNames
  let idv := idv.getD ((List.range M.vars.length).filter fun i => i ∉ idx)
  if idv = [] then return (none, none) else do
  let vars' ← takeRows M.vars idv
  let C' ← takeCols M.C idv
  pyAssert (idx.length ≤ M.noChild)
  let cpm2 ← Cpm.mk' { vars := vars', noChild := M.noChild - idx.length, C := C', p := M.p }
  return (some cpm2, some idv)

/-- The loop of `variable_elim_cond` (operation.py:482-506), see `elimCondLoop`. -/
def elimCondLoopR (A : Arith) (cpms : List (Cpm K)) (varis : List (Variable K)) (cNames : List K)
    (P : Cpm K) :
    List (List ℕ) → Option (List ℕ) → Option (Cpm K) → Except Err (Option (Cpm K))
  | [], _, M => .ok M
  | cx :: rest, idv, M => do
    let (c2, idv) ← elimCondRowR A cpms varis cNames P idv cx
    match c2, M with
    | none, _ => elimCondLoopR A cpms varis cNames P rest idv M
    | some c2, none => elimCondLoopR A cpms varis cNames P rest idv (some c2)
    | some c2, some M => do
      let (_, M') ← M.mergeR A c2
      elimCondLoopR A cpms varis cNames P rest idv (some M')

/-- `variable_elim_cond(cpms, varis, cpms_cond)` (operation.py:456-511), see `variableElimCond`. -/
def variableElimCondR (A : Arith) (cpms : List (Cpm K)) (varis : List (Variable K))
    (cpmsCond : List (Cpm K)) : Except Err (Option (Cpm K)) := do
  let cNames := firstOccOn id (cpmsCond.flatMap fun M => M.getNames)
  let P ← productListR A cpmsCond
  elimCondLoopR A cpms varis cNames P P.C none none

end Elim

end BNS
