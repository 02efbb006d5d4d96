import Verif.Model.Basic
import Mathlib.Data.Finset.Basic
import Mathlib.Data.Finset.Sort
import Mathlib.Data.Int.Notation

/-!
# Model of `BNS_JT/variable.py`
-/

namespace BNS

/-- `itertools.combinations(xs, k)`, in its documented lexicographic (positional) order.
variable.py:121-126, 153-163. -/
def combos {α : Type} : List α → ℕ → List (List α)
  | _, 0 => [[]]
  | [], _ + 1 => []
  | x :: xs, k + 1 => (combos xs k).map (x :: ·) ++ combos xs (k + 1)

/-- `B_flag` of `Variable`: `None`, `'store'` or `'fly'` (variable.py:111-119). -/
inductive BFlag where
  | dflt
  | store
  | fly
  deriving DecidableEq, Repr

/-- `class Variable` (variable.py:64-119).  `values` holds the descriptions of the basic states;
labels are modelled by rationals because the code only compares them (equality, and order in
`sys_max_val`).  `B = none` is Python's `B is None` (the table is not stored). -/
structure Variable (K : Type) where
  name : K
  values : List ℚ
  B : Option (List (Finset ℕ))
  deriving DecidableEq

/-- `Variable.gen_B` (variable.py:121-126). -/
def genB (n : ℕ) : List (Finset ℕ) :=
  ((List.range' 1 n).flatMap fun r => combos (List.range n) r).map List.toFinset

/-- The condition under which the table is stored (variable.py:87 and 276). -/
def storesB (n : ℕ) (flag : BFlag) : Bool :=
  decide (0 < n) && ((decide (n ≤ 6) && decide (flag ≠ .fly)) || decide (flag = .store))

/-- `Variable.__init__` (variable.py:76-88); the `isinstance` assertions hold by typing. -/
def Variable.mk' {K : Type} (name : K) (values : List ℚ) (flag : BFlag) : Variable K :=
  { name, values, B := if storesB values.length flag then some (genB values.length) else none }

/-- `sum(len(list(combinations(range(n), k))) for k in range(1, m))` (variable.py:153-154). -/
def offset (n m : ℕ) : ℕ :=
  ((List.range' 1 (m - 1)).map fun k => (combos (List.range n) k).length).sum

/-- The `else` branch of `Variable.get_state` (variable.py:144-168). -/
def getStateFly (n : ℕ) (S : Finset ℕ) : Except Err ℕ := do
  let i ← pyIndex (combos (List.range n) S.card) (S.sort (· ≤ ·))
  return offset n S.card + i

/-- `Variable.get_state` (variable.py:128-168). -/
def Variable.getState {K : Type} (v : Variable K) (S : Finset ℕ) : Except Err ℕ :=
  match v.B with
  | some B => pyIndex B S
  | none => getStateFly v.values.length S

/-- The `for k in range(1, n+1)` loop of `Variable.get_set` (variable.py:192-210);
`cur` is `current_state`. -/
def getSetLoop (n state : ℕ) : ℕ → List ℕ → Except Err (Finset ℕ)
  | _, [] => .error .index
  | cur, k :: ks =>
    if cur + (combos (List.range n) k).length > state then do
      let t ← pyGet (combos (List.range n) k) (state - cur)
      return t.toFinset
    else getSetLoop n state (cur + (combos (List.range n) k).length) ks

/-- `Variable.get_set` (variable.py:170-210), for a non-negative `state` (Python would let a
negative index count from the end of a stored table; that is not modelled). -/
def Variable.getSet {K : Type} (v : Variable K) (state : ℕ) : Except Err (Finset ℕ) :=
  match v.B with
  | some B => pyGet B state
  | none => getSetLoop v.values.length state 0 (List.range' 1 v.values.length)

/-- `[i for i, val in enumerate(vector) if val == 1]` (variable.py:239). -/
def onePositions (vec : List ℕ) : List ℕ :=
  (List.range vec.length).filter fun i => vec[i]? = some 1

/-- `Variable.find_state_from_vector` (variable.py:213-248); the table is not consulted. -/
def findStateFromVector (vec : List ℕ) : Except Err ℤ :=
  if vec.sum = 0 then .ok (-1)
  else do
    let i ← pyIndex (combos (List.range vec.length) vec.sum) (onePositions vec)
    return ((offset vec.length vec.sum + i : ℕ) : ℤ)

/-- `Variable.get_Bst_from_Bvec` (variable.py:250-269): the previous function along the last axis
of a 3-D array. -/
def getBstFromBvec (Bvec : List (List (List ℕ))) : Except Err (List (List ℤ)) :=
  Bvec.mapM fun m => m.mapM findStateFromVector

/-- `Variable.update_B` (variable.py:272-279). `val = none` (or an empty list, which is falsy)
regenerates the table. -/
def Variable.updateB {K : Type} (v : Variable K) (flag : BFlag)
    (val : Option (List (Finset ℕ))) : Variable K :=
  match val with
  | some (b :: bs) => { v with B := some (b :: bs) }
  | _ => { v with B := if storesB v.values.length flag then some (genB v.values.length) else none }

/-- `get_composite_state` (variable.py:320-338).  `added not in None` is a `TypeError`. -/
def getCompositeState {K : Type} (v : Variable K) (states : List ℕ) :
    Except Err (Variable K × ℕ) :=
  match v.B with
  | none => .error .type
  | some B =>
    let added := states.toFinset
    let B' := if added ∈ B then B else B ++ [added]
    do
      let cst ← pyIndex B' added
      return ({ v with B := some B' }, cst)

end BNS
