import Verif.Model.Brc
import Mathlib.Data.Int.Log
import Mathlib.Data.Rat.Floor

/-!
# Model of `run` with rounded arithmetic

`Model/Brc.lean` computes probabilities exactly.  Python computes them with floating-point numbers:
every sum, product and difference is rounded.  Here the three operations are a parameter; all
definitions follow those of `Model/Brc.lean` line by line, with the operations replaced.  Values
that are not numbers (`inf`, `nan`) are left out, as are overflows; the comparisons are exact, as
they are for floating-point numbers.
-/

namespace BNS

/-- The arithmetic of the interpreter: `sum` of a list of floats, `*` and `-`.
Used in branch.py:30-33, 150-159. -/
structure Arith where
  sum : List ℚ → ℚ
  mul : ℚ → ℚ → ℚ
  sub : ℚ → ℚ → ℚ

/-- No rounding at all.  Simplification: the numbers of branch.py:30-33, 150-159 as rationals. -/
def Arith.exact : Arith where
  sum := List.sum
  mul a b := a * b
  sub a b := a - b

/-- Every operation rounds its exact result; sums are formed from left to right, starting from 0
(`sum` up to Python 3.11; later versions compensate the errors).  For branch.py:30-33, 150-159. -/
def Arith.ofRound (fl : ℚ → ℚ) : Arith where
  sum l := l.foldl (fun a x => fl (a + x)) 0
  mul a b := fl (a * b)
  sub a b := fl (a - b)

/-- The nearest integer, ties to even.  Part of the floating-point numbers of branch.py:30-33, 150-159. -/
def roundEven (y : ℚ) : ℤ :=
  if y - ⌊y⌋ < 1 / 2 then ⌊y⌋
  else if 1 / 2 < y - ⌊y⌋ then ⌊y⌋ + 1
  else if ⌊y⌋ % 2 = 0 then ⌊y⌋ else ⌊y⌋ + 1

/-- The exponent of the last digit of a double-precision number near `x`: 53 binary digits, but
none below `2⁻¹⁰⁷⁴`.  Part of the floating-point numbers of branch.py:30-33, 150-159. -/
def ulpExp (x : ℚ) : ℤ := max (Int.log 2 |x| - 52) (-1074)

/-- Rounding to double precision (IEEE 754 binary64, nearest, ties to even, gradual underflow), the
arithmetic of `float`.  Overflow is left out: results beyond the largest number are not replaced
by `inf`.  For branch.py:30-33, 150-159 and the arrays `p` of cpm.py. -/
def float64 (x : ℚ) : ℚ := roundEven (x * 2 ^ (-ulpExp x)) * 2 ^ ulpExp x

/-- `p = 1.0` and then `p *= x` for every `x` (branch.py:30-33, 150-159). -/
def Arith.prod (A : Arith) (l : List ℚ) : ℚ := l.foldl A.mul 1

variable {K : Type}

/-- `sum([probs[k][x] for x in range(lo, hi + 1)])` (branch.py:32, 155, 159). -/
def rangeProbR (A : Arith) (q : ℕ → ℚ) (lo hi : ℕ) : ℚ :=
  A.sum ((List.range' lo (hi + 1 - lo)).map q)

/-- `approx_prob_by_comps(down, up, probs)` (branch.py:26-33). -/
def approxProbR (A : Arith) (vs : List (K × ℕ)) (probs : K → ℕ → ℚ) (down up : K → ℕ) : ℚ :=
  A.prod (vs.map fun kn => rangeProbR A (probs kn.1) (down kn.1) (up kn.1))

/-- `Branch.approx_joint_prob_compat_rule(rule, rule_st, probs)` (branch.py:148-161). -/
def Branch.jointProbR (A : Arith) (b : Branch K) (probs : K → ℕ → ℚ) (st : St) (r : Rule K) : ℚ :=
  match st with
  | .s => A.prod (r.map fun kv => rangeProbR A (probs kv.1) kv.2 (b.up kv.1))
  | .f => A.prod (r.map fun kv => rangeProbR A (probs kv.1) (b.down kv.1) kv.2)
  | .u => 1

variable [DecidableEq K]

/-- `Branch.get_decomp_comp_using_probs(rules, probs)` (branch.py:164-196). -/
def Branch.decompCompR (A : Arith) (b : Branch K) (cr : Rules K) (probs : K → ℕ → ℚ) :
    Option (K × ℕ) :=
  let rulesSt : List (St × Rule K) := cr.s.map (fun r => (.s, r)) ++ cr.f.map (fun r => (.f, r))
  let comps := mostCommon ((rulesSt.map fun sr => sr.2.map Prod.fst).flatten)
  let rulesSt := rulesSt.insertionSort fun a b' =>
    b.jointProbR A probs b'.1 b'.2 ≤ b.jointProbR A probs a.1 a.2
  rulesSt.findSome? fun sr => comps.findSome? fun c => b.tryComp sr c

/-- `Branch.get_new_branch(rules, probs, xd, xd_st, up_flag)` (branch.py:198-221). -/
def Branch.newBranchR (A : Arith) (vs : List (K × ℕ)) (b : Branch K) (rules : Rules K)
    (probs : K → ℕ → ℚ) (xd : K) (st : ℕ) (upFlag : Bool) : Branch K :=
  if upFlag then
    let up := Function.update b.up xd (st - 1)
    { down := b.down
      up := up
      downState := b.downState
      upState := getState up rules
      p := approxProbR A vs probs b.down up }
  else
    let down := Function.update b.down xd st
    { down := down
      up := b.up
      downState := getState down rules
      upState := b.upState
      p := approxProbR A vs probs down b.up }

/-- The `for` loop of one pass of `decomp_depth_first` (brc.py:409-436). -/
def decompPassR (A : Arith) (vs : List (K × ℕ)) (rules : Rules K) (probs : K → ℕ → ℚ)
    (maxNb total : ℕ) : List (Branch K × Rules K) → List (Branch K × Rules K) →
      Except Err (Bool × List (Branch K × Rules K))
  | [], acc => .ok (true, acc)
  | (b, cr) :: rest, acc =>
    let b := b.evalState rules
    if b.specified ∨ cr.count = 0 then
      decompPassR A vs rules probs maxNb total rest (acc ++ [(b, { s := [], f := [] })])
    else
      match b.decompCompR A cr probs with
      | none => .error .type
      | some (xd, st) =>
        let b1 := b.newBranchR A vs rules probs xd st true
        let b2 := b.newBranchR A vs rules probs xd st false
        let acc := acc ++ [(b1, b1.compatRules rules), (b2, b2.compatRules rules)]
        if maxNb < acc.length + total then .ok (false, acc ++ rest)
        else decompPassR A vs rules probs maxNb total rest acc

/-- The `while go` loop (brc.py:400-442) with fuel. -/
def decompLoopR (A : Arith) (vs : List (K × ℕ)) (rules : Rules K) (probs : K → ℕ → ℚ)
    (maxNb : ℕ) :
    ℕ → List (Branch K × Rules K) → Except Err (Bool × List (Branch K × Rules K))
  | 0, _ => .error .fuel
  | n + 1, bcs => do
    let sorted := bcs.insertionSort fun a b => b.1.p ≤ a.1.p
    let (go, new) ← decompPassR A vs rules probs maxNb sorted.length sorted []
    if go = false then return (true, new)
    else if (new.map fun bc => bc.2.count).sum = 0 then return (false, new)
    else decompLoopR A vs rules probs maxNb n new

/-- `decomp_depth_first(varis, rules, probs, max_nb, brs)` (brc.py:389-444).  The first component
tells whether the branch limit cut the decomposition short (not returned by the code). -/
def decompR (A : Arith) (vs : List (K × ℕ)) (rules : Rules K) (probs : K → ℕ → ℚ) (maxNb : ℕ)
    (brs : List (Branch K)) : Except Err (Bool × List (Branch K × Rules K)) := do
  checkKeys vs rules
  let brs := if brs.length < 1 then initBranch vs rules else brs
  let bcs := brs.map fun b => (b, b.compatRules rules)
  decompLoopR A vs rules probs maxNb ((brs.map fun b => b.size vs).sum + 1) bcs

/-- The loop of `get_comp_st` for `surv_first=False` (brc.py:475-484). -/
def compStLoopR (A : Arith) (vs : List (K × ℕ)) (probs : K → ℕ → ℚ) :
    List (Branch K) → Option ((K → ℕ) × ℚ) → List ((K → ℕ) × ℚ) →
      Except Err (List ((K → ℕ) × ℚ))
  | [], _, acc => .ok acc
  | b :: rest, brNew, acc =>
    let (brNew, acc) :=
      if b.upState = .u then
        let n := (b.up, approxProbR A vs probs b.up (topState vs))
        (some n, acc ++ [n])
      else (brNew, acc)
    if b.downState = .u then
      match brNew with
      | none => .error .unbound
      | some n => compStLoopR A vs probs rest brNew (acc ++ [n])
    else compStLoopR A vs probs rest brNew acc

/-- `get_comp_st(brs, surv_first, varis, probs)` (brc.py:447-494). -/
def getCompStR (A : Arith) (vs : List (K × ℕ)) (probs : K → ℕ → ℚ) (survFirst : Bool)
    (brs : List (Branch K)) : Except Err (Option (K → ℕ)) :=
  if survFirst then
    let sorted := brs.insertionSort fun a b => b.p ≤ a.p
    match sorted.find? fun b => b.upState = .u with
    | some b => .ok (some b.up)
    | none =>
      match sorted.find? fun b => b.downState = .u with
      | some b => .ok (some b.down)
      | none => .ok none
  else do
    let new ← compStLoopR A vs probs brs none []
    return ((new.insertionSort fun a b => b.2 ≤ a.2).head?).map Prod.fst

/-- The values `update_monitor(monitor, brs, rules, start)` appends (brc.py:158-207). -/
def monRowR (A : Arith) (brs : List (Branch K)) (rules : Rules K) : MonRow :=
  let prBf := A.sum ((brs.filter fun b => b.upState = .f).map fun b => b.p)
  let prBs := A.sum ((brs.filter fun b => b.downState = .s).map fun b => b.p)
  { monRow brs rules with
    pfLow := prBf
    pfUp := A.sub 1 prBs
    prBu := A.sub (A.sub 1 prBf) prBs }

/-- The `else` branch of an iteration (brc.py:94-109). -/
def runStepR (A : Arith) (c : RunCfg K) (st : RunState K) (brs : List (Branch K)) (x : K → ℕ)
    (last : Bool) : Except Err (RunState K) := do
  let rs := runSysFn c.vs c.sysFun x
  let rules ← updateRuleSet st.rules rs.1 rs.2
  let row := monRowR A brs rules
  return { brs := some brs
           rules := rules
           evals := st.evals ++ [x]
           mon := st.mon ++ [row]
           prBu := row.prBu
           pfLow := row.pfLow
           outFlag := if last then some .maxSf else none
           started := true }

/-- The `while` loop of `run` (brc.py:43-109). -/
def runLoopR (A : Arith) (c : RunCfg K) : ℕ → RunState K → Except Err (RunState K)
  | 0, st => .ok st
  | r + 1, st => do
    let (_, bcs) ← decompR A c.vs st.rules c.probs c.maxNb (c.startBrs st)
    let brs := bcs.map Prod.fst
    let xStar ← getCompStR A c.vs c.probs c.survFirst brs
    match xStar with
    | none => return { st with brs := some brs, outFlag := some .complete, started := true }
    | some x =>
      if c.maxNb ≤ brs.length then
        return { st with brs := some brs, outFlag := some .maxNb, started := true }
      else if st.prBu < A.mul st.pfLow c.pfBndWr then
        return { st with brs := some brs, outFlag := some .pfBnd, started := true }
      else if c.rulesFull st.rules then
        return { st with brs := some brs, outFlag := some .maxRules, started := true }
      else do
        let st' ← runStepR A c st brs x (r = 0)
        runLoopR A c r st'

/-- `run` (brc.py:17-123), as `BNS.run`, with rounded arithmetic. -/
def runR (A : Arith) (c : RunCfg K) (rules : Rules K) (brs : Option (List (Branch K))) :
    Except Err (RunState K) := do
  let st ← runLoopR A c c.maxSf { brs := brs, rules := rules }
  if st.started then
    return { st with mon := st.mon ++ [monRowR A (st.brs.getD []) st.rules] }
  else return st

end BNS
