import Verif.Model.Brc
import Verif.Model.Variable

/-!
# Model of the conversion of branches to an event matrix (`branch.py`, `brc.py`)

The dictionary `varis` is a partial function from names to variables; the code updates it in place
and returns it, the model returns the updated function.  `names` is `list(self.up.keys())`, the
components in dictionary order.  `st_br_to_cs` is a partial function on labels.
-/

namespace BNS

section
variable {K : Type} [DecidableEq K]

/-- `d[k]` for a dictionary given as a partial function: `KeyError` if the key is missing.
As in branch.py:236-247. -/
def dictGet {A B : Type} (d : A → Option B) (a : A) : Except Err B :=
  match d a with
  | some b => .ok b
  | none => .error .key

/-- The loop over the components in `Branch.get_c` (branch.py:236-247). -/
def getCLoop (b : Branch K) : List K → (K → Option (Variable K)) →
    Except Err ((K → Option (Variable K)) × List ℕ)
  | [], varis => .ok (varis, [])
  | x :: xs, varis =>
    if b.down x < b.up x then do
      let v ← dictGet varis x
      let vs ← getCompositeState v (List.range' (b.down x) (b.up x + 1 - b.down x))
      let rest ← getCLoop b xs (Function.update varis x (some vs.1))
      return (rest.1, vs.2 :: rest.2)
    else do
      let rest ← getCLoop b xs varis
      return (rest.1, b.up x :: rest.2)

/-- `Branch.get_c(varis, st_br_to_cs)` (branch.py:222-249). -/
def Branch.getC (b : Branch K) (names : List K) (varis : K → Option (Variable K))
    (lbl : St → Option ℕ) : Except Err ((K → Option (Variable K)) × List ℕ) := do
  let s ← dictGet lbl (if b.downState = b.upState then b.downState else .u)
  let r ← getCLoop b names varis
  return (r.1, s :: r.2)

/-- The loop of `get_csys` (brc.py:262-264). -/
def getCsysLoop (names : List K) (lbl : St → Option ℕ) : List (Branch K) →
    (K → Option (Variable K)) → Except Err (List (List ℕ) × (K → Option (Variable K)))
  | [], varis => .ok ([], varis)
  | b :: brs, varis => do
    let r ← b.getC names varis lbl
    let rest ← getCsysLoop names lbl brs r.1
    return (r.2 :: rest.1, rest.2)

/-- `get_csys(brs, varis, st_br_to_cs)` (brc.py:256-266); `brs[0]` of an empty list is an
`IndexError`. -/
def getCsys (names : List K) (brs : List (Branch K)) (varis : K → Option (Variable K))
    (lbl : St → Option ℕ) : Except Err (List (List ℕ) × (K → Option (Variable K))) :=
  if brs = [] then .error .index else getCsysLoop names lbl brs varis

end

end BNS
