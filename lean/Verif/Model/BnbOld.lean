import Verif.Model.Basic
import Verif.Model.Variable

/-!
# Model of the first branch and bound (`branch.py`: `Branch_old`, `run_bnb`, `get_cmat`; `bnb_fns.py`)

Component states are natural numbers, the lowest one being 1.  The callbacks of `run_bnb` are
functions; `info` is not passed to them, it is part of the function.  Type assertions are left out.
-/

namespace BNS

/-- `Branch_old` (branch.py:262-316).  `V` is the type of the values. -/
structure OldBranch (K V : Type) where
  down : List ℕ
  up : List ℕ
  names : List K
  complete : Bool
  downState : ℕ
  upState : ℕ
  downVal : Option V
  upVal : Option V
  deriving DecidableEq

/-- What a system function returns: (state, value, result) (bnb_fns.py:67). -/
structure SysOut (V R : Type) where
  state : ℕ
  val : V
  res : R
  deriving DecidableEq

section
variable {K V R : Type} [DecidableEq K]

/-- `Branch_old.__init__` with its length checks (branch.py:275-296); the states default to 1. -/
def OldBranch.new (down up : List ℕ) (names : List K) : Except Err (OldBranch K V) :=
  if down.length ≠ up.length then .error .assertion
  else if down.length ≠ names.length then .error .assertion
  else .ok { down := down, up := up, names := names, complete := false, downState := 1,
             upState := 1, downVal := none, upVal := none }

/-- `get_idx(x, flag)` (branch.py:389-393), the positions counted from `k`. -/
def getIdxFrom (k : ℕ) (brs : List (OldBranch K V)) (flag : Bool) : List ℕ :=
  ((brs.zipIdx k).filter fun x => x.1.complete = flag).map Prod.snd

/-- `[info['arcs'][i] for i, (x, y) in enumerate(zip(up, down)) if x > y]` (branch.py:441).  The
constructor has checked that the three lists have the same length. -/
def candComps (arcs : List K) (b : OldBranch K V) : List K :=
  ((arcs.zip (b.up.zip b.down)).filter fun x => x.2.2 < x.2.1).map Prod.fst

/-- `run_bnb`: the `while` loop (branch.py:420-465).  `del branches[i]` is `eraseIdx`. -/
def oldLoop (sysFn : List ℕ → Except Err (SysOut V R)) (nextComp : List K → R → R → Except Err K)
    (nextState : K → ℕ → ℕ → R → R → Except Err ℕ) (arcs : List K) :
    ℕ → List (OldBranch K V) → List ℕ → Except Err (List (OldBranch K V))
  | 0, _, _ => .error .fuel
  | _ + 1, brs, [] => .ok brs
  | n + 1, brs, i :: idx => do
    let b ← pyGet brs i
    let d ← sysFn b.down
    let u ← sysFn b.up
    if d.state = u.state then
      oldLoop sysFn nextComp nextState arcs n
        (brs.set i { b with complete := true, downState := d.state, upState := u.state,
                            downVal := some d.val, upVal := some u.val }) idx
    else do
      let c ← nextComp (candComps arcs b) d.res u.res
      let j ← pyIndex arcs c
      let lo ← pyGet b.down j
      let hi ← pyGet b.up j
      let s ← nextState c lo hi d.res u.res
      let brs := brs.eraseIdx i ++
        [{ b with up := b.up.set j s }, { b with down := b.down.set j (s + 1) }]
      oldLoop sysFn nextComp nextState arcs n brs (getIdxFrom 0 brs false)

/-- `run_bnb(sys_fn, next_comp_fn, next_state_fn, info, comp_max_states)` (branch.py:396-467). -/
def runBnb (sysFn : List ℕ → Except Err (SysOut V R)) (nextComp : List K → R → R → Except Err K)
    (nextState : K → ℕ → ℕ → R → R → Except Err ℕ) (arcs : List K) (maxStates : List ℕ) :
    Except Err (List (OldBranch K V)) := do
  let b ← OldBranch.new (List.replicate maxStates.length 1) maxStates arcs
  oldLoop sysFn nextComp nextState arcs (2 ^ (maxStates.sum + 1)) [b] (getIdxFrom 0 [b] false)

/-- One component column of `get_cmat` (branch.py:352-382).  Python's `down - 1` and
`no_state - up` are negative for a state below 1 or above the number of states; here they are 0. -/
def oldCol (v : Variable K) (down up : ℕ) (flag : Bool) : Except Err ℕ :=
  let ds := if flag then down - 1 else v.values.length - up
  let us := if flag then up - 1 else v.values.length - down
  if us = ds then .ok us
  else
    match v.B with
    | none => .error .type
    | some B =>
      let loc := (List.range' ds (us - ds)).map fun x => B.idxOf? {x}
      if loc.any fun o => decide (o ≠ none ∧ o ≠ some 0) then .ok ((loc.headD none).getD 0)
      else .ok v.values.length

/-- `get_cmat(branches, comp_var, flag)` (branch.py:318-386). -/
def oldCmat (brs : List (OldBranch K V)) (vars : List (Variable K)) (flag : Bool) :
    Except Err (List (List ℕ)) := do
  let cbrs := brs.filter fun b => b.complete
  let b0 ← pyGet cbrs 0
  cbrs.mapM fun b => do
    let cs ← (List.range b0.down.length).mapM fun j => do
      let down ← pyGet b.down j
      let up ← pyGet b.up j
      let v ← pyGet vars j
      oldCol v down up flag
    return b.upState :: cs

/-! ## `bnb_fns.py` -/

/-- The dictionary `info` of a path problem.  As in bnb_fns.py:6-67. -/
structure PathInfo (K : Type) where
  path : List (List K)
  time : List ℚ
  arcs : List K
  maxState : ℕ

/-- `x.argsort()` (bnb_fns.py:44), taken to be stable. -/
def argsort (t : List ℚ) : List ℕ :=
  (List.range t.length).insertionSort fun i j => t.getD i 0 ≤ t.getD j 0

/-- `bnb_sys(comp_states, info)` (bnb_fns.py:6-67).  `none` is `np.inf`. -/
def bnbSys (info : PathInfo K) (x : List ℕ) : Except Err (SysOut (Option ℚ) (List K)) := do
  let time := info.time.insertionSort (· ≤ ·)
  let sortIdx := argsort time
  let path ← sortIdx.mapM fun i => pyGet info.path i
  let surv ← (((x.zipIdx).filter fun a => a.1 = info.maxState).map Prod.snd).mapM fun i =>
    pyGet info.arcs i
  match path.findIdx? fun p => p.all fun e => decide (e ∈ surv) with
  | some k => do
    let s ← pyGet sortIdx k
    let v ← pyGet time k
    let p ← pyGet path k
    return { state := s, val := some v, res := p }
  | none => return { state := time.length, val := none, res := [] }

/-- `[l.append(x) for x in xs if x not in l]` (bnb_fns.py:104-107). -/
def appendNew (l xs : List K) : List K :=
  xs.foldl (fun l x => if x ∈ l then l else l ++ [x]) l

/-- `bnb_next_comp(cand_comps, down_res, up_res, info)` (bnb_fns.py:70-113). -/
def bnbNextComp (info : PathInfo K) (cand : List K) : Except Err K := do
  let order := info.path.foldl appendNew []
  let diff := info.arcs.foldl (fun l x => if x ∈ order then l else l ++ [x]) []
  let order := appendNew order diff
  match cand.findIdx? fun c => decide (c ∈ order) with
  | some k => pyGet cand k
  | none => .error .index

/-- `bnb_next_state(next_comp, bound, down_res, up_res, info)` (bnb_fns.py:116-120). -/
def bnbNextState : ℕ := 1

end

end BNS
