import Verif.Model.Cpm
import Mathlib.Data.Rat.Defs
import Mathlib.Logic.Function.Basic

/-!
# Model of `BNS_JT/brc.py` and of class `Branch` of `BNS_JT/branch.py`

Conventions.  `vs : List (K × ℕ)` is the dictionary `varis` reduced to the name and the number of
values of each component, in dictionary order.  A component vector is a dictionary whose keys are
those of `varis`; it is modelled by a total function, of which only the values at those names
matter.  A rule is a dictionary, modelled by its list of items.  A rule that mentions an unknown
component makes the code raise `KeyError`; this is modelled at the entry of the decomposition
(`checkKeys`), the first place where the rules meet the branches.  `probs[k][x]` is the total
function `probs k x` (a missing entry would be a `KeyError`, not modelled).  Sharing of
dictionaries between branches is not modelled: the code never writes to a shared one.
Printing and timing are left out.
-/

namespace BNS

/-- The labels `'s'`, `'f'`, `'u'`.  branch.py:36-47, brc.py:269-303. -/
inductive St where
  | s
  | f
  | u
  deriving DecidableEq, Repr

/-- A rule: the items of a dictionary.  brc.py:283. -/
abbrev Rule (K : Type) := List (K × ℕ)

/-- `{'s': [...], 'f': [...]}`.  As in brc.py:269-303. -/
structure Rules (K : Type) where
  s : List (Rule K)
  f : List (Rule K)
  deriving DecidableEq, Repr

/-- `class Branch` (branch.py:36-47). -/
structure Branch (K : Type) where
  down : K → ℕ
  up : K → ℕ
  downState : St
  upState : St
  p : ℚ

section
variable {K : Type}

/-- `all([comp[k] >= v for k, v in rule.items()])` (brc.py:283). -/
def meetsS (x : K → ℕ) (r : Rule K) : Bool := r.all fun kv => kv.2 ≤ x kv.1

/-- `all([comp[k] <= v for k, v in rule.items()])` (brc.py:286). -/
def meetsF (x : K → ℕ) (r : Rule K) : Bool := r.all fun kv => x kv.1 ≤ kv.2

/-- `get_state(comp, rules)` (brc.py:269-303); the message about conflicting rules is left out. -/
def getState (x : K → ℕ) (rules : Rules K) : St :=
  let noS := rules.s.countP (meetsS x)
  let noF := rules.f.countP (meetsF x)
  if noS = 0 ∧ noF = 0 then .u
  else if noF ≤ noS then .s
  else .f

section
variable [DecidableEq K]

/-- `set(a).issubset(b) and all([b[k] >= v for k, v in a.items()])` (brc.py:323, 326). -/
def implS (a b : Rule K) : Bool :=
  a.all fun kv => match b.lookup kv.1 with
    | some w => decide (kv.2 ≤ w)
    | none => false

/-- `set(a).issubset(b) and all([b[k] <= v for k, v in a.items()])` (brc.py:334, 337). -/
def implF (a b : Rule K) : Bool :=
  a.all fun kv => match b.lookup kv.1 with
    | some w => decide (w ≤ kv.2)
    | none => false

/-- Equality of dictionaries.  brc.py:321-328, 332-339. -/
def dictEq (a b : Rule K) : Bool := a.all (· ∈ b) && b.all (· ∈ a)

/-- The loop of `update_rule_set` over a copy of the list (brc.py:321-328, 332-339): returns the
list after the removals and `add_rule`; `break` ends the loop. -/
def updateLoop (impl : Rule K → Rule K → Bool) (n : Rule K) :
    List (Rule K) → List (Rule K) → List (Rule K) × Bool
  | [], cur => (cur, true)
  | r :: rest, cur =>
    if impl n r then updateLoop impl n rest (cur.eraseP (dictEq r))
    else if impl r n then (cur, false)
    else updateLoop impl n rest cur

/-- `update_rule_set(rules, (n_rule, n_state))` (brc.py:306-344).  A state other than `'s'`/`'f'`
is a `KeyError` at line 342. -/
def updateRuleSet (rules : Rules K) (n : Rule K) (st : St) : Except Err (Rules K) :=
  match st with
  | .s => let (cur, add) := updateLoop implS n rules.s rules.s
          .ok { rules with s := if add then cur ++ [n] else cur }
  | .f => let (cur, add) := updateLoop implF n rules.f rules.f
          .ok { rules with f := if add then cur ++ [n] else cur }
  | .u => .error .key

/-- What a system function returns: a value (not used by the algorithm), a state and the minimal
component state (`None` and `{}` are both falsy: the empty rule).  brc.py:347-372. -/
structure SysRes (K : Type) where
  val : ℚ
  st : St
  min : Rule K

/-- `run_sys_fn(comp, sys_fun, varis)` (brc.py:347-372), without the data frame. -/
def runSysFn (vs : List (K × ℕ)) (sysFun : (K → ℕ) → SysRes K) (x : K → ℕ) : Rule K × St :=
  let r := sysFun x
  if r.min ≠ [] then (r.min, r.st)
  else if r.st = .s then
    (vs.filterMap fun kn => if x kn.1 ≠ 0 then some (kn.1, x kn.1) else none, r.st)
  else
    (vs.filterMap fun kn => if x kn.1 < kn.2 - 1 then some (kn.1, x kn.1) else none, r.st)

/-- `{k: len(v.values) - 1 for k, v in varis.items()}` (brc.py:381). -/
def topState (vs : List (K × ℕ)) (k : K) : ℕ :=
  match vs.lookup k with
  | some n => n - 1
  | none => 0

/-- `init_branch(varis, rules)` (brc.py:375-386). -/
def initBranch (vs : List (K × ℕ)) (rules : Rules K) : List (Branch K) :=
  [{ down := fun _ => 0
     up := topState vs
     downState := getState (fun _ => 0) rules
     upState := getState (topState vs) rules
     p := 1 }]

/-- `sum([probs[k][x] for x in range(lo, hi + 1)])` (branch.py:32, 155, 159). -/
def rangeProb (q : ℕ → ℚ) (lo hi : ℕ) : ℚ := ((List.range' lo (hi + 1 - lo)).map q).sum

/-- `approx_prob_by_comps(down, up, probs)` (branch.py:26-33). -/
def approxProb (vs : List (K × ℕ)) (probs : K → ℕ → ℚ) (down up : K → ℕ) : ℚ :=
  (vs.map fun kn => rangeProb (probs kn.1) (down kn.1) (up kn.1)).prod

/-- `Branch.get_compat_rules(rules)` (branch.py:75-102). -/
def Branch.compatRules (b : Branch K) (rules : Rules K) : Rules K where
  s := rules.s.filterMap fun r =>
    if meetsS b.up r then
      let c := r.filter fun kv => b.down kv.1 < kv.2
      if c = [] then none else some c
    else none
  f := rules.f.filterMap fun r =>
    if meetsF b.down r then
      let c := r.filter fun kv => kv.2 < b.up kv.1
      if c = [] then none else some c
    else none

/-- One of the four loops of `eval_state` (branch.py:117-145): keep the label when it is known,
else set it as soon as a rule applies. -/
def evalLoop (label : St) (meets : Rule K → Bool) : List (Rule K) → St → St
  | [], st => st
  | r :: rest, st => if st ≠ .u then st else evalLoop label meets rest (if meets r then label else st)

/-- `Branch.eval_state(rules)` (branch.py:104-145). -/
def Branch.evalState (b : Branch K) (rules : Rules K) : Branch K :=
  let up1 := evalLoop .s (meetsS b.up) rules.s b.upState
  let down1 := evalLoop .s (meetsS b.down) rules.s b.downState
  let up2 := evalLoop .f (meetsF b.up) rules.f up1
  let down2 := evalLoop .f (meetsF b.down) rules.f down1
  { b with upState := up2, downState := down2 }

/-- `Branch.approx_joint_prob_compat_rule(rule, rule_st, probs)` (branch.py:148-161). -/
def Branch.jointProb (b : Branch K) (probs : K → ℕ → ℚ) (st : St) (r : Rule K) : ℚ :=
  match st with
  | .s => (r.map fun kv => rangeProb (probs kv.1) kv.2 (b.up kv.1)).prod
  | .f => (r.map fun kv => rangeProb (probs kv.1) (b.down kv.1) kv.2).prod
  | .u => 1

/-- `[x[0] for x in Counter(l).most_common()]` (branch.py:175-176): the distinct elements by
decreasing count, equal counts in order of first occurrence. -/
def mostCommon (l : List K) : List K :=
  (firstOccOn id l).insertionSort fun a b => l.count b ≤ l.count a

/-- Lines 184-189: the cut proposed by a rule of kind `st` at a component with value `v`.
branch.py:184-189. -/
def cutState (st : St) (v : ℕ) : ℕ :=
  match st with
  | .s => v
  | _ => v + 1

/-- The body of the loop over the components (branch.py:184-195). -/
def Branch.tryComp (b : Branch K) (sr : St × Rule K) (c : K) : Option (K × ℕ) :=
  match sr.2.lookup c with
  | none => none
  | some v =>
    if b.down c < cutState sr.1 v ∧ cutState sr.1 v ≤ b.up c then some (c, cutState sr.1 v)
    else none

/-- `Branch.get_decomp_comp_using_probs(rules, probs)` (branch.py:164-196); `none` is Python's
`None`, returned when no component is found. -/
def Branch.decompComp (b : Branch K) (cr : Rules K) (probs : K → ℕ → ℚ) : Option (K × ℕ) :=
  let rulesSt : List (St × Rule K) := cr.s.map (fun r => (.s, r)) ++ cr.f.map (fun r => (.f, r))
  let comps := mostCommon ((rulesSt.map fun sr => sr.2.map Prod.fst).flatten)
  let rulesSt := rulesSt.insertionSort fun a b' =>
    b.jointProb probs b'.1 b'.2 ≤ b.jointProb probs a.1 a.2
  rulesSt.findSome? fun sr => comps.findSome? fun c => b.tryComp sr c

/-- `Branch.get_new_branch(rules, probs, xd, xd_st, up_flag)` (branch.py:198-221). -/
def Branch.newBranch (vs : List (K × ℕ)) (b : Branch K) (rules : Rules K) (probs : K → ℕ → ℚ)
    (xd : K) (st : ℕ) (upFlag : Bool) : Branch K :=
  if upFlag then
    let up := Function.update b.up xd (st - 1)
    { down := b.down
      up := up
      downState := b.downState
      upState := getState up rules
      p := approxProb vs probs b.down up }
  else
    let down := Function.update b.down xd st
    { down := down
      up := b.up
      downState := getState down rules
      upState := b.upState
      p := approxProb vs probs down b.up }

/-- `len(cr['f']) + len(cr['s'])`.  As in branch.py:175-176. -/
def Rules.count (cr : Rules K) : ℕ := cr.f.length + cr.s.length

/-- `(br.down_state == br.up_state) and (br.down_state != 'u')` (brc.py:414). -/
def Branch.specified (b : Branch K) : Bool := b.downState = b.upState ∧ b.downState ≠ .u

/-- The `for` loop of one pass of `decomp_depth_first` (brc.py:409-436): `total` is `len(brs)`;
the boolean is `go`. -/
def decompPass (vs : List (K × ℕ)) (rules : Rules K) (probs : K → ℕ → ℚ) (maxNb total : ℕ) :
    List (Branch K × Rules K) → List (Branch K × Rules K) →
      Except Err (Bool × List (Branch K × Rules K))
  | [], acc => .ok (true, acc)
  | (b, cr) :: rest, acc =>
    let b := b.evalState rules
    if b.specified ∨ cr.count = 0 then
      decompPass vs rules probs maxNb total rest (acc ++ [(b, { s := [], f := [] })])
    else
      match b.decompComp cr probs with
      | none => .error .type
      | some (xd, st) =>
        let b1 := b.newBranch vs rules probs xd st true
        let b2 := b.newBranch vs rules probs xd st false
        let acc := acc ++ [(b1, b1.compatRules rules), (b2, b2.compatRules rules)]
        if maxNb < acc.length + total then .ok (false, acc ++ rest)
        else decompPass vs rules probs maxNb total rest acc

/-- The `while go` loop (brc.py:400-442) with fuel; returns also whether the last pass was cut
short by the branch limit (not returned by the code). -/
def decompLoop (vs : List (K × ℕ)) (rules : Rules K) (probs : K → ℕ → ℚ) (maxNb : ℕ) :
    ℕ → List (Branch K × Rules K) → Except Err (Bool × List (Branch K × Rules K))
  | 0, _ => .error .fuel
  | n + 1, bcs => do
    let sorted := bcs.insertionSort fun a b => b.1.p ≤ a.1.p
    let (go, new) ← decompPass vs rules probs maxNb sorted.length sorted []
    if go = false then return (true, new)
    else if (new.map fun bc => bc.2.count).sum = 0 then return (false, new)
    else decompLoop vs rules probs maxNb n new

/-- Number of component vectors of a box: the fuel of the decomposition.  brc.py:389-444. -/
def Branch.size (vs : List (K × ℕ)) (b : Branch K) : ℕ :=
  (vs.map fun kn => b.up kn.1 + 1 - b.down kn.1).prod

/-- Looking up a component that is not in `varis` is a `KeyError` (brc.py:283, branch.py:91). -/
def checkKeys (vs : List (K × ℕ)) (rules : Rules K) : Except Err Unit :=
  if (rules.s ++ rules.f).all fun r => r.all fun kv => kv.1 ∈ vs.map Prod.fst then .ok ()
  else .error .key

/-- `decomp_depth_first(varis, rules, probs, max_nb, brs)` (brc.py:389-444).  The first component
tells whether the branch limit cut the decomposition short (not returned by the code). -/
def decomp (vs : List (K × ℕ)) (rules : Rules K) (probs : K → ℕ → ℚ) (maxNb : ℕ)
    (brs : List (Branch K)) : Except Err (Bool × List (Branch K × Rules K)) := do
  checkKeys vs rules
  let brs := if brs.length < 1 then initBranch vs rules else brs
  let bcs := brs.map fun b => (b, b.compatRules rules)
  decompLoop vs rules probs maxNb ((brs.map fun b => b.size vs).sum + 1) bcs

/-- The loop of `get_comp_st` for `surv_first=False` (brc.py:475-484).  Line 484 appends `br_new`
where `b_new` was meant: an unbound variable until a first branch with unknown upper state has been
met, after that the branch made for the latest such branch.  Only `(up vector, p)` of the branches
is kept: all of them have labels `'u'`, `'s'`, so line 492 returns their `down`, the vector `up` of
the original branch. -/
def compStLoop (vs : List (K × ℕ)) (probs : K → ℕ → ℚ) :
    List (Branch K) → Option ((K → ℕ) × ℚ) → List ((K → ℕ) × ℚ) →
      Except Err (List ((K → ℕ) × ℚ))
  | [], _, acc => .ok acc
  | b :: rest, brNew, acc =>
    let (brNew, acc) :=
      if b.upState = .u then
        let n := (b.up, approxProb vs probs b.up (topState vs))
        (some n, acc ++ [n])
      else (brNew, acc)
    if b.downState = .u then
      match brNew with
      | none => .error .unbound
      | some n => compStLoop vs probs rest brNew (acc ++ [n])
    else compStLoop vs probs rest brNew acc

/-- `get_comp_st(brs, surv_first, varis, probs)` (brc.py:447-494). -/
def getCompSt (vs : List (K × ℕ)) (probs : K → ℕ → ℚ) (survFirst : Bool)
    (brs : List (Branch K)) : Except Err (Option (K → ℕ)) :=
  if survFirst then
    let sorted := brs.insertionSort fun a b => b.p ≤ a.p
    match sorted.find? fun b => b.upState = .u with
    | some b => .ok (some b.up)
    | none =>
      match sorted.find? fun b => b.downState = .u with
      | some b => .ok (some b.down)
      | none => .ok none
  else do
    let new ← compStLoop vs probs brs none []
    return ((new.insertionSort fun a b => b.2 ≤ a.2).head?).map Prod.fst

/-! ## `run` -/

/-- `monitor['out_flag']`.  brc.py:45-123. -/
inductive OutFlag where
  | complete
  | maxNb
  | pfBnd
  | maxRules
  | maxSf
  deriving DecidableEq, Repr

/-- One entry of each list of `monitor` (brc.py:158-207); times and rule lengths are left out. -/
structure MonRow where
  pfLow : ℚ
  pfUp : ℚ
  prBu : ℚ
  noRf : ℕ
  noRs : ℕ
  noRa : ℕ
  noBr : ℕ
  noBf : ℕ
  noBs : ℕ
  noBu : ℤ
  deriving DecidableEq, Repr

/-- The values `update_monitor(monitor, brs, rules, start)` appends (brc.py:158-207). -/
def monRow (brs : List (Branch K)) (rules : Rules K) : MonRow :=
  let prBf := ((brs.filter fun b => b.upState = .f).map fun b => b.p).sum
  let prBs := ((brs.filter fun b => b.downState = .s).map fun b => b.p).sum
  let noBf := brs.countP fun b => b.upState = .f
  let noBs := brs.countP fun b => b.downState = .s
  { pfLow := prBf
    pfUp := 1 - prBs
    prBu := 1 - prBf - prBs
    noRf := rules.f.length
    noRs := rules.s.length
    noRa := rules.s.length + rules.f.length
    noBr := brs.length
    noBf := noBf
    noBs := noBs
    noBu := (brs.length : ℤ) - noBf - noBs }

/-- The inputs of `run` that stay fixed.  brc.py:17-33. -/
structure RunCfg (K : Type) where
  vs : List (K × ℕ)
  probs : K → ℕ → ℚ
  sysFun : (K → ℕ) → SysRes K
  maxSf : ℕ
  maxNb : ℕ
  pfBndWr : ℚ := 0
  maxRules : Option ℕ := none
  survFirst : Bool := true
  activeDecomp : Bool := true

/-- The variables of the loop of `run`, which are also its outputs.  `evals` is the column
`comp_st` of `sys_res`; `mon` the rows of `monitor`; `started` whether `start` is bound.
brc.py:35-123. -/
structure RunState (K : Type) where
  brs : Option (List (Branch K))
  rules : Rules K
  evals : List (K → ℕ) := []
  mon : List MonRow := []
  prBu : ℚ := 1
  pfLow : ℚ := 0
  outFlag : Option OutFlag := none
  started : Bool := false

/-- The branches handed to `decomp_depth_first` (brc.py:47-53): none when `active_decomp`, else the
branches of the previous iteration (or the given ones). -/
def RunCfg.startBrs (c : RunCfg K) (st : RunState K) : List (Branch K) :=
  if c.activeDecomp then [] else st.brs.getD []

/-- `len(rules['s']+rules['f']) >= max_rules` (brc.py:90); the default `np.inf` is `none`. -/
def RunCfg.rulesFull (c : RunCfg K) (rules : Rules K) : Bool :=
  match c.maxRules with
  | some m => decide (m ≤ (rules.s ++ rules.f).length)
  | none => false

/-- The `else` branch of an iteration (brc.py:94-109): evaluate the system function, update the
rules and the monitor; `last` says that this was evaluation number `max_sf`. -/
def runStep (c : RunCfg K) (st : RunState K) (brs : List (Branch K)) (x : K → ℕ) (last : Bool) :
    Except Err (RunState K) := do
  let rs := runSysFn c.vs c.sysFun x
  let rules ← updateRuleSet st.rules rs.1 rs.2
  let row := monRow brs rules
  return { brs := some brs
           rules := rules
           evals := st.evals ++ [x]
           mon := st.mon ++ [row]
           prBu := row.prBu
           pfLow := row.pfLow
           outFlag := if last then some .maxSf else none
           started := true }

/-- The `while` loop of `run` (brc.py:43-109), the argument being `max_sf - no_sf`. -/
def runLoop (c : RunCfg K) : ℕ → RunState K → Except Err (RunState K)
  | 0, st => .ok st
  | r + 1, st => do
    let (_, bcs) ← decomp c.vs st.rules c.probs c.maxNb (c.startBrs st)
    let brs := bcs.map Prod.fst
    let xStar ← getCompSt c.vs c.probs c.survFirst brs
    match xStar with
    | none => return { st with brs := some brs, outFlag := some .complete, started := true }
    | some x =>
      if c.maxNb ≤ brs.length then
        return { st with brs := some brs, outFlag := some .maxNb, started := true }
      else if st.prBu < st.pfLow * c.pfBndWr then
        return { st with brs := some brs, outFlag := some .pfBnd, started := true }
      else if c.rulesFull st.rules then
        return { st with brs := some brs, outFlag := some .maxRules, started := true }
      else do
        let st' ← runStep c st brs x (r = 0)
        runLoop c r st'

/-- `run(varis, probs, sys_fun, max_sf, max_nb, pf_bnd_wr, max_rules, surv_first, rules, brs, _,
active_decomp)` (brc.py:17-123).  The last call of `update_monitor` (line 115) is skipped when the
loop body was never entered (`start` is unbound, a `NameError`, caught at line 120). -/
def run (c : RunCfg K) (rules : Rules K) (brs : Option (List (Branch K))) :
    Except Err (RunState K) := do
  let st ← runLoop c c.maxSf { brs := brs, rules := rules }
  if st.started then
    return { st with mon := st.mon ++ [monRow (st.brs.getD []) st.rules] }
  else return st

/-- `eval_rules_prob(rules_list, s_or_f, probs)` (brc.py:525-548), `vs` giving the number of states
of the components (`max(probs[k].keys()) + 1`). -/
def evalRulesProb (vs : List (K × ℕ)) (probs : K → ℕ → ℚ) (rules : List (Rule K)) (st : St) :
    Except Err (List ℚ) :=
  match st with
  | .f => .ok (rules.map fun r =>
      (r.map fun kv => ((List.range kv.2).map (probs kv.1)).sum).prod)
  | .s => .ok (rules.map fun r =>
      (r.map fun kv => rangeProb (probs kv.1) kv.2 (topState vs kv.1)).prod)
  | .u => .error .value

end
end

end BNS
