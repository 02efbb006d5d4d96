import Verif.Model.Cpm

/-!
# Model of the attributes of `Cpm` objects after construction (cpm.py:47-186)

Source: /repo/BNS_JT/cpm.py.  Every attribute is a property whose setter checks the new value against
some of the other attributes; a setter that raises has not changed the object yet.
Simplifications: the type checks (`variables` a list of `Variable`, `no_child` an integer) are left
out; probability and weight vectors are vectors, not matrices; that a setter also reshapes the array
the caller handed over (`value.shape = ...`) is not modelled.
-/

namespace BNS

set_option linter.unusedSectionVars false

/-- What is assigned to `C` or `Cs`: a one-dimensional array or list of numbers, or a matrix.
cpm.py:71-88, 113-128. -/
inductive Arr where
  | vec (v : List ℕ)
  | mat (rows : List (List ℕ))
  deriving DecidableEq

/-- The array as it is stored: `value.shape = (len(value), 1)` for a vector (cpm.py:79-80, 119-120).
An empty vector keeps its shape `(0,)`, which has no rows either. -/
def Arr.rows : Arr → List (List ℕ)
  | .vec v => v.map fun x => [x]
  | .mat r => r

section
variable {K : Type}

/-- The check of a vector (cpm.py:77-86, 117-126): the number of columns is not compared with the
number of variables; `max_C <= max_var` compares the single maximum with the bound of every
variable (numpy broadcasting). -/
def checkVec (bound : Variable K → ℕ) (scope : List (Variable K)) (v : List ℕ) : Except Err Unit :=
  pyAssert (∀ x ∈ v, ∀ w ∈ scope, x ≤ bound w)

/-- The check of the setter of `C` (cpm.py:71-88). -/
def checkArrC (scope : List (Variable K)) : Arr → Except Err Unit
  | .vec v => checkVec (fun w => 2 ^ w.values.length - 1) scope v
  | .mat r => checkC scope r

/-- The check of the setter of `Cs` (cpm.py:113-128). -/
def checkArrCs (scope : List (Variable K)) : Arr → Except Err Unit
  | .vec v => checkVec (fun w => w.values.length) scope v
  | .mat r => checkCs scope r

/-- An assignment `M.attribute = value`.  cpm.py:51-186. -/
inductive CpmOp (K : Type) where
  | scope (vs : List (Variable K))
  | noChild (n : ℕ)
  | C (a : Arr)
  | p (p : List ℚ)
  | Cs (a : Arr)
  | q (q : List ℚ)
  | ps (ps : List ℚ)
  | sampleIdx (idx : List ℕ)

/-- The setters of `variables` (cpm.py:51-55), `no_child` (61-65), `C` (71-88), `p` (94-106), `Cs`
(113-128), `q` (134-147), `ps` (154-166) and `sample_idx` (173-185). -/
def Cpm.assign (M : Cpm K) : CpmOp K → Except Err (Cpm K)
  | .scope vs => .ok { M with vars := vs }
  | .noChild n => do
    pyAssert (n ≤ M.vars.length)
    return { M with noChild := n }
  | .C a => do
    checkArrC M.vars a
    return { M with C := a.rows }
  | .p p => do
    pyAssert (p = [] ∨ p.length = M.C.length)
    return { M with p := p }
  | .Cs a => do
    checkArrCs M.vars a
    return { M with Cs := a.rows }
  | .q q => do
    pyAssert (q = [] ∨ M.Cs.flatten = [] ∨ q.length = M.Cs.length)
    return { M with q := q }
  | .ps ps => do
    pyAssert (ps = [] ∨ M.Cs.flatten = [] ∨ ps.length = M.Cs.length)
    return { M with ps := ps }
  | .sampleIdx idx => do
    pyAssert (idx = [] ∨ M.Cs.flatten = [] ∨ idx.length = M.Cs.length)
    return { M with sampleIdx := idx }

/-- The object after an assignment that may have been refused.  cpm.py:51-186. -/
def Cpm.edit (M : Cpm K) (op : CpmOp K) : Cpm K :=
  match M.assign op with
  | .ok M' => M'
  | .error _ => M

/-- `Cpm.__init__` (cpm.py:36-45): the assignments in order, to an object that has no attributes yet;
every setter reads only attributes that have been set before. -/
def Cpm.initBy (vs : List (Variable K)) (noChild : ℕ) (C : Arr) (p : List ℚ) (Cs : Arr)
    (q ps : List ℚ) (idx : List ℕ) : Except Err (Cpm K) :=
  [.scope vs, .noChild noChild, .C C, .p p, .Cs Cs, .q q, .ps ps, .sampleIdx idx].foldlM
    Cpm.assign { vars := [], noChild := 0, C := [], p := [] }

end

end BNS
