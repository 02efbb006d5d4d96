import Verif.Model.Operation
import Verif.Model.Files

/-!
# Model of the samples of `prod_Msys_and_Mcomps` (operation.py:628-654)

Source: /repo/BNS_JT/operation.py.
-/

namespace BNS

set_option linter.unusedSectionVars false

section
variable {K : Type} [LinearOrder K]

/-- `v.C, v.p = np.empty((0, len(v.variables))), np.empty((0, 1))` (operation.py:638). -/
def dropTable (M : Cpm K) : Cpm K := { M with C := [], p := [] }

/-- One turn of the loop over the parents of the system (operation.py:632-636): a parent that is not
a conditioning variable needs a component CPM, the first one with it as first variable. -/
def samplesStep (comps : List (Cpm K)) (cond : List K) (d : List (K × Cpm K)) (v : Variable K) :
    Except Err (List (K × Cpm K)) :=
  if v.name ∈ cond then .ok d else
  match comps.find? (fun m => (m.vars.head?.map Variable.name) = some v.name) with
  | none => .error .assertion
  | some m => .ok (itemSet d v.name m)

/-- The product of the samples (operation.py:629-641): the system CPM and the component CPMs of its
parents, without their event matrices, multiplied in the order of the dictionary.  `Variable` hashes
and compares like its name, so the key `Msys.variables[0]` is that name. -/
def msysSamples (S : Cpm K) (comps : List (Cpm K)) (cond : List K) : Except Err (Cpm K) := do
  let v0 ← pyGet S.vars 0
  let d ← (S.vars.drop S.noChild).foldlM (samplesStep comps cond) [(v0.name, S)]
  productList (d.map fun kv => dropTable kv.2)

/-- `prod_Msys_and_Mcomps(Msys, Mcomps_list)` (operation.py:562-654), with its samples.  The samples
are kept only when the system and every component have some; their columns are put in the order of
the result.  Simplification: the event matrix of the result is checked by the constructor before the
samples are multiplied, in the code after; only which of two exceptions is raised can differ. -/
def prodMsysMcompsS (S : Cpm K) (comps : List (Cpm K)) : Except Err (Cpm K) := do
  let P ← prodMsysMcomps S comps
  if S.Cs.flatten ≠ [] ∧ ∀ m ∈ comps, m.Cs.flatten ≠ [] then do
    let cond ← condScope comps
    let Q ← msysSamples S comps (cond.map fun vs => vs.1.name)
    let idx ← Q.getColInd P.getNames
    let Cs ← takeCols Q.Cs idx
    Cpm.mk' { P with Cs := Cs, q := Q.q, ps := Q.ps, sampleIdx := Q.sampleIdx }
  else return P

end

end BNS
