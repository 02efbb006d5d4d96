import Verif.Model.ByOd
import Verif.Model.Operation

/-!
# Model of the reliability block diagram demo (demos/rbd/batch.py:81-137)

`nodes` are the keys of `cfg.infra['nodes']`, `o` and `d` the pair `('source', 'sink')`, `sys` the
name `'sys'` and `x1` the name of the component asked about.
-/

namespace BNS

set_option linter.unusedSectionVars false

section
variable {K : Type} [LinearOrder K]

/-- `varis[k]` (rbd/batch.py:97, 109): two states; the labels `'f'`, `'s'` are shown as numbers. -/
def rbdVariable (k : K) : Variable K := .mk' k [0, 1] .dflt

/-- `list.remove` (rbd/batch.py:90, 131): `ValueError` if the name is not in the list. -/
def removeName (l : List K) (k : K) : Except Err (List K) :=
  if k ∈ l then .ok (l.erase k) else .error .value

/-- `cpms[k]` of a component (rbd/batch.py:99-100).  The event matrix has one dimension, which the
setter turns into a column (`C90_vector_one`). -/
def rbdComp (k : K) : Cpm K :=
  { vars := [rbdVariable k], noChild := 1, C := [[0], [1]], p := [1 / 10, 9 / 10] }

/-- The arguments of `brc.run` (rbd/batch.py:101-104): other probabilities than those of the CPMs. -/
def rbdCfg (lib : PathLib K) (G : NGraph K) (names : List K) (o d : K) (maxB : ℕ) : RunCfg K where
  vs := names.map fun k => (k, 2)
  probs := fun _ _ => 1 / 2
  sysFun := sysFunWrap lib G (.pair o d) (names.map fun k => (k, rbdVariable k)) none
    (names.map fun k => (k, 2))
  maxSf := maxB
  maxNb := maxB

/-- The conditional probability (rbd/batch.py:135-137): the rows with a 1 in the first column, and
those equal to `[1, 1]`.  `none` is `nan`, the quotient `0/0`.  A result that has not two columns
cannot occur; it is a `ValueError` here, without following the broadcasting of numpy. -/
def rbdRatio (P : Cpm K) : Except Err (Option ℚ) :=
  if ∃ r ∈ P.C, r.length ≠ 2 then .error .value else
  let a := (maskRows (P.C.map fun r => decide (r[0]? = some 1)) P.p).sum
  let b := (maskRows (P.C.map fun r => decide (r = [1, 1])) P.p).sum
  .ok (if a = 0 then none else some (b / a))

/-- The CPM of the system (rbd/batch.py:110-113). -/
def rbdSys (sys : K) (names : List K) (C : List (List ℕ)) : Except Err (Cpm K) :=
  Cpm.mk' { vars := (sys :: names).map rbdVariable, noChild := 1, C := C, p := C.map fun _ => 1 }

/-- The inference (rbd/batch.py:128-137).  A component called like the system is replaced by it in
the dictionary `cpms`. -/
def rbdInfer (sys x1 : K) (names : List K) (S : Cpm K) : Except Err (Option ℚ) := do
  let rest ← removeName names x1
  let P ← variableElim ((names ++ [sys]).map fun k => if k = sys then S else rbdComp k)
    (rest.map rbdVariable)
  rbdRatio P

/-- `main` of the demo (rbd/batch.py:81-137).  Without any evaluation the branches are `None`, a
`TypeError` in `get_csys`. -/
def rbdMain (lib : PathLib K) (G : NGraph K) (nodes : List K) (o d sys x1 : K) (maxB : ℕ) :
    Except Err (Option ℚ) := do
  let l ← removeName nodes o
  let names ← removeName l d
  let st ← run (rbdCfg lib G names o d maxB) { s := [], f := [] } none
  match st.brs with
  | none => .error .type
  | some bs => do
    let r ← getCsys names bs (fun k => if k ∈ names then some (rbdVariable k) else none) stBrToCs
    let S ← rbdSys sys names r.1
    rbdInfer sys x1 names S

end

end BNS
