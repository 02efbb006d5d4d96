import Verif.Model.Bnb

/-!
# Model of the first version of the binary branch and bound (`branch.py`)

`branch_and_bound_org` (branch.py:647-721) and `get_arcs_given_bstar_nobreak` (branch.py:580-590).
-/

namespace BNS

section
variable {K : Type} [DecidableEq K]

/-- The first path whose arcs are all matched (branch.py:586, and the loop of branch.py:675-686). -/
def firstPath (matched : List K) (rows : List (PathRow K)) : Option (List K) :=
  (rows.find? fun r => r.path.all fun e => decide (e ∈ matched)).map PathRow.path

/-- `get_arcs_given_bstar_nobreak(bstar, path_time_idx, arc_cond)` (branch.py:580-590): without a path
it iterates over `None`. -/
def getArcsNobreak (b : BBranch K) (table : List (PathRow K)) (cond : ℕ) : Except Err (List K) :=
  match firstPath ((b.upper.filter fun kv => kv.2 = cond).map Prod.fst) table.tail with
  | some path => freeArcs b.lower b.upper path
  | none => .error .type

/-- The local variables of `branch_and_bound_org` that keep their values from one branch to the next:
`sb`, `lower`, `upper` and `fl`.  As in branch.py:688-710. -/
structure OrgSt (K : Type) where
  sb : List (BBranch K)
  lower : List (K × ℕ)
  upper : List (K × ℕ)
  fl : ℕ
  deriving DecidableEq

/-- The loop over the arcs of the path (branch.py:688-710); `none` is the state before the variables
are bound. -/
def orgArcs (table : List (PathRow K)) (cond : ℕ) (b : BBranch K) :
    List K → Option (OrgSt K) → Except Err (Option (OrgSt K))
  | [], st => .ok st
  | a :: as, st => do
    let u ← arcGet b.upper a
    let l ← arcGet b.lower a
    if l < u then
      match st with
      | none => .error .unbound
      | some s => do
        let upper := setArc a 0 s.upper
        let fu ← evalSysState table upper cond
        orgArcs table cond b as (some
          { sb := s.sb ++ [{ lower := s.lower, upper := upper, fl := s.fl, fu := fu }]
            lower := setArc a 1 s.lower
            upper := setArc a 1 upper
            fl := s.fl })
    else orgArcs table cond b as st

/-- `sb.append((lower, upper, c_fu, c_fu))` (branch.py:716). -/
def orgAppend (b : BBranch K) : Option (OrgSt K) → Except Err (Option (OrgSt K))
  | none => .error .unbound
  | some s => .ok (some { s with sb := s.sb ++ [{ lower := s.lower, upper := s.upper, fl := b.fu, fu := b.fu }] })

/-- The body of the loop over `bstars` (branch.py:670-716).  If no path is matched, `_path` is the last
path of the table and the other variables are those of the branch before; with no path in the table
`_path` is not bound. -/
def orgBranch (bstars : List (BBranch K)) (table : List (PathRow K)) (cond : ℕ)
    (st : Option (OrgSt K)) (b : BBranch K) : Except Err (Option (OrgSt K)) :=
  match firstPath ((b.upper.filter fun kv => kv.2 = cond).map Prod.fst) table.tail with
  | some path => do
    let st ← orgArcs table cond b path (some
      { sb := bstars.filter fun x => x ≠ b, lower := b.lower, upper := b.upper, fl := b.fl })
    orgAppend b st
  | none =>
    match table.tail.getLast? with
    | none => .error .unbound
    | some r => do
      let st ← orgArcs table cond b r.path st
      orgAppend b st

/-- The `while` loop (branch.py:666-719). -/
def orgLoop (table : List (PathRow K)) (cond : ℕ) :
    ℕ → List (BBranch K) → Option (OrgSt K) → List (BBranch K) → Except Err (List (BBranch K))
  | 0, _, _, _ => .error .fuel
  | n + 1, bstars, st, saved =>
    if bstars = [] then .ok saved
    else do
      let st ← bstars.foldlM (orgBranch bstars table cond) st
      match st with
      | none => .error .unbound
      | some s =>
        orgLoop table cond n (s.sb.filter fun x => x.fl ≠ x.fu) (some s)
          (saved ++ s.sb.filter fun x => x.fl = x.fu)

/-- `branch_and_bound_org(bstars, path_time_idx, arc_cond)` (branch.py:647-721).  The number of rounds
is at most the number of 0/1 vectors. -/
def branchAndBoundOrg (bstars : List (BBranch K)) (table : List (PathRow K)) (cond : ℕ) :
    Except Err (List (BBranch K)) :=
  orgLoop table cond (2 ^ (bstars.map fun b => b.upper.length).foldr max 0 + 1) bstars none []

end

end BNS
