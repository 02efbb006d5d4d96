import Verif.Model.Brc

/-!
# Model of `run` with its tables and its effects on the arguments

`Model/Brc.lean` keeps of `monitor` a list of rows and of `sys_res` the evaluated vectors.  Here
`monitor` is the dictionary of lists that `run` returns, `ctrl` and `sys_res` are as in the code, the
system function may raise, and the rules and branches of the caller are followed: `run` works on the
rules of the caller in place, and the first decomposition labels the branches of the caller.  Times
are left out.
-/

namespace BNS

section
variable {K : Type} [DecidableEq K]

/-- The lists of `monitor`, and its two entries that are not lists (brc.py:127-144). -/
structure Monitor where
  pfUp : List ℚ
  pfLow : List ℚ
  prBu : List ℚ
  noBr : List ℕ
  noBs : List ℕ
  noBf : List ℕ
  noBu : List ℤ
  noRs : List ℕ
  noRf : List ℕ
  noRa : List ℕ
  noSf : List ℕ
  minLenRf : List ℕ
  avgLenRf : List ℚ
  outFlag : Option OutFlag
  maxBu : ℕ

/-- `ctrl` (brc.py:148-152). -/
structure Ctrl where
  noSf : ℕ
  prBu : ℚ
  pfLow : ℚ
  noBu : ℤ

/-- `init_monitor()` (brc.py:127-154). -/
def initMonitor : Monitor × Ctrl :=
  ({ pfUp := [], pfLow := [], prBu := [], noBr := [], noBs := [], noBf := [], noBu := [], noRs := [],
     noRf := [], noRa := [], noSf := [0], minLenRf := [], avgLenRf := [], outFlag := none, maxBu := 0 },
   { noSf := 0, prBu := 1, pfLow := 0, noBu := 1 })

/-- `l[-1]`.  As in brc.py:158-207. -/
def lastOf {A : Type} (l : List A) : Except Err A :=
  match l.getLast? with
  | some a => .ok a
  | none => .error .index

/-- `min` and average of the lengths of the failure rules, 0 and 0 if there is none
(brc.py:187-192). -/
def rfLengths (rf : List (Rule K)) : ℕ × ℚ :=
  match (rf.map List.length).min? with
  | some m => (m, ((rf.map List.length).sum : ℚ) / rf.length)
  | none => (0, 0)

/-- `update_monitor(monitor, brs, rules, start)` (brc.py:158-207). -/
def updateMonitor (m : Monitor) (brs : List (Branch K)) (rules : Rules K) :
    Except Err (Monitor × Ctrl) := do
  let row := monRow brs rules
  let len := rfLengths rules.f
  let m' : Monitor :=
    { pfUp := m.pfUp ++ [row.pfUp], pfLow := m.pfLow ++ [row.pfLow], prBu := m.prBu ++ [row.prBu]
      noBr := m.noBr ++ [row.noBr], noBs := m.noBs ++ [row.noBs], noBf := m.noBf ++ [row.noBf]
      noBu := m.noBu ++ [row.noBu], noRs := m.noRs ++ [row.noRs], noRf := m.noRf ++ [row.noRf]
      noRa := m.noRa ++ [row.noRa], noSf := m.noSf
      minLenRf := m.minLenRf ++ [len.1], avgLenRf := m.avgLenRf ++ [len.2]
      outFlag := m.outFlag, maxBu := m.maxBu }
  let noSf ← lastOf m'.noSf
  let prBu ← lastOf m'.prBu
  let pfLow ← lastOf m'.pfLow
  let noBu ← lastOf m'.noBu
  return (m', { noSf := noSf, prBu := prBu, pfLow := pfLow, noBu := noBu })

/-- `display_msg(monitor)` (brc.py:210-221): prints the last entries; `out_flag` and `max_bu` are not
lists or texts and are taken as they are. -/
def displayMsg (m : Monitor) : Except Err Unit := do
  let _ ← lastOf m.pfUp
  let _ ← lastOf m.pfLow
  let _ ← lastOf m.prBu
  let _ ← lastOf m.noBr
  let _ ← lastOf m.noBs
  let _ ← lastOf m.noBf
  let _ ← lastOf m.noBu
  let _ ← lastOf m.noRs
  let _ ← lastOf m.noRf
  let _ ← lastOf m.noRa
  let _ ← lastOf m.noSf
  let _ ← lastOf m.minLenRf
  let _ ← lastOf m.avgLenRf
  return ()

/-- `plot_monitoring(monitor)` (brc.py:224-253): `ax.plot(x, y)` raises `ValueError` for lists of
different lengths. -/
def plotMonitoring (m : Monitor) : Except Err Unit :=
  if m.noBr.length = m.pfLow.length ∧ m.noBr.length = m.pfUp.length ∧
    m.noSf.length = m.pfLow.length ∧ m.noSf.length = m.pfUp.length ∧
    m.noRa.length = m.pfLow.length ∧ m.noRa.length = m.pfUp.length then .ok ()
  else .error .value

/-- One row of `sys_res` (brc.py:360). -/
structure SysRow (K : Type) where
  val : ℚ
  comp : K → ℕ
  min : Rule K

/-- The variables of `run`; `started` says that `start` is bound.  As in brc.py:94-106. -/
structure ObsState (K : Type) where
  brs : Option (List (Branch K))
  rules : Rules K
  sysRes : List (SysRow K)
  mon : Monitor
  ctrl : Ctrl
  started : Bool

/-- `monitor['no_sf'].append(n)` (brc.py:101). -/
def Monitor.addSf (m : Monitor) (n : ℕ) : Monitor := { m with noSf := m.noSf ++ [n] }

/-- `monitor['out_flag'] = flag`.  As in brc.py:94-106. -/
def Monitor.setFlag (m : Monitor) (flag : OutFlag) : Monitor := { m with outFlag := some flag }

/-- The message at every `display_freq`-th evaluation (brc.py:104-106); `display_freq = 0` is a
`ZeroDivisionError`, here `value`. -/
def displayEvery (freq n : ℕ) (m : Monitor) : Except Err Unit :=
  if freq = 0 then .error .value
  else if n % freq = 0 then displayMsg m
  else .ok ()

/-- `rule, sys_res_ = run_sys_fn(x_star, …)`, `update_rule_set`, the tables and the message
(brc.py:94-106), after the system function returned `r`.  The first component are the rules, which
`update_rule_set` has changed in place even if a later step raises. -/
def obsEval (c : RunCfg K) (freq : ℕ) (st : ObsState K) (brs : List (Branch K)) (x : K → ℕ)
    (r : SysRes K) : Rules K × Except Err (ObsState K) :=
  let rs := runSysFn c.vs (fun _ => r) x
  match updateRuleSet st.rules rs.1 rs.2 with
  | .error e => (st.rules, .error e)
  | .ok rules =>
    let noSf := st.ctrl.noSf + 1
    (rules, do
      let mc ← updateMonitor (st.mon.addSf noSf) brs rules
      displayEvery freq mc.2.noSf mc.1
      return { brs := some brs
               rules := rules
               sysRes := st.sysRes ++ [{ val := r.val, comp := x, min := r.min }]
               mon := if mc.2.noSf = c.maxSf then mc.1.setFlag .maxSf else mc.1
               ctrl := mc.2
               started := true })

/-- A stop of the loop with a flag (brc.py:78-92). -/
def ObsState.stop (st : ObsState K) (brs : List (Branch K)) (flag : OutFlag) : ObsState K :=
  { st with brs := some brs, mon := st.mon.setFlag flag, started := true }

/-- One round of the loop (brc.py:45-109); the boolean says whether to go on.  `f` is the system
function, which may raise. -/
def obsIter (c : RunCfg K) (f : (K → ℕ) → Except Err (SysRes K)) (freq : ℕ) (st : ObsState K) :
    Rules K × Except Err (ObsState K × Bool) :=
  match decomp c.vs st.rules c.probs c.maxNb (if c.activeDecomp then [] else st.brs.getD []) with
  | .error e => (st.rules, .error e)
  | .ok (_, bcs) =>
    let brs := bcs.map Prod.fst
    match getCompSt c.vs c.probs c.survFirst brs with
    | .error e => (st.rules, .error e)
    | .ok none => (st.rules, .ok (st.stop brs .complete, false))
    | .ok (some x) =>
      if c.maxNb ≤ brs.length then (st.rules, .ok (st.stop brs .maxNb, false))
      else if st.ctrl.prBu < st.ctrl.pfLow * c.pfBndWr then
        (st.rules, .ok (st.stop brs .pfBnd, false))
      else if c.rulesFull st.rules then (st.rules, .ok (st.stop brs .maxRules, false))
      else
        match f x with
        | .error e => (st.rules, .error e)
        | .ok r => ((obsEval c freq st brs x r).1, (obsEval c freq st brs x r).2.map fun s => (s, true))

/-- The `while` loop (brc.py:43-109) with fuel. -/
def obsLoop (c : RunCfg K) (f : (K → ℕ) → Except Err (SysRes K)) (freq : ℕ) :
    ℕ → ObsState K → Rules K × Except Err (ObsState K)
  | 0, st => (st.rules, .error .fuel)
  | n + 1, st =>
    if st.ctrl.noSf < c.maxSf then
      match obsIter c f freq st with
      | (rules, .error e) => (rules, .error e)
      | (rules, .ok (st', false)) => (rules, .ok st')
      | (_, .ok (st', true)) => obsLoop c f freq n st'
    else (st.rules, .ok st)

/-- How many branches the first pass of `decomp_depth_first` labels (brc.py:409-436); `n` is
`len(brs_new)`. -/
def passVisited (rules : Rules K) (probs : K → ℕ → ℚ) (maxNb total : ℕ) :
    List (Branch K × Rules K) → ℕ → ℕ
  | [], _ => 0
  | (b, cr) :: rest, n =>
    if (b.evalState rules).specified ∨ cr.count = 0 then
      1 + passVisited rules probs maxNb total rest (n + 1)
    else
      match (b.evalState rules).decompComp cr probs with
      | none => 1
      | some _ =>
        if maxNb < n + 2 + total then 1 else 1 + passVisited rules probs maxNb total rest (n + 2)

/-- The branches of the caller after the first call of `decomp_depth_first` (brc.py:389-411):
`br.eval_state(rules)` sets their labels; later passes work on copies (brc.py:438).  An object that
occurs twice in the list is not modelled. -/
def labelledBrs (c : RunCfg K) (rules : Rules K) (bs : List (Branch K)) : List (Branch K) :=
  match checkKeys c.vs rules with
  | .error _ => bs
  | .ok _ =>
    let tagged := bs.zipIdx.map fun bi => ((bi.1, bi.1.compatRules rules), bi.2)
    let sorted := tagged.insertionSort fun a b => b.1.1.p ≤ a.1.1.p
    let n := passVisited rules c.probs c.maxNb bs.length (sorted.map Prod.fst) 0
    let vis : List ℕ := (sorted.take n).map Prod.snd
    bs.zipIdx.map fun (bi : Branch K × ℕ) => if bi.2 ∈ vis then bi.1.evalState rules else bi.1

/-- What a call of `run` leaves: its result, and the rules and branches of the caller.
As in brc.py:17-123. -/
structure ObsOut (K : Type) where
  res : Except Err (ObsState K)
  rules : Option (Rules K)
  brs : Option (List (Branch K))

/-- The end of `run` (brc.py:114-123): the last `update_monitor`, skipped when `start` is unbound,
and the message. -/
def obsFinish (st : ObsState K) : Except Err (ObsState K) :=
  if st.started then do
    let mc ← updateMonitor st.mon (st.brs.getD []) st.rules
    displayMsg mc.1
    return { st with mon := mc.1, ctrl := mc.2 }
  else .ok st

/-- The variables before the loop (brc.py:33-41). -/
def obsInit (rules : Rules K) (brs : Option (List (Branch K))) : ObsState K where
  brs := brs
  rules := rules
  sysRes := []
  mon := initMonitor.1
  ctrl := initMonitor.2
  started := false

/-- `run(varis, probs, sys_fun, max_sf, max_nb, …, rules, brs, display_freq, active_decomp)`
(brc.py:17-123). -/
def obsRun (c : RunCfg K) (f : (K → ℕ) → Except Err (SysRes K)) (freq : ℕ)
    (rules : Option (Rules K)) (brs : Option (List (Branch K))) : ObsOut K :=
  let r0 := rules.getD { s := [], f := [] }
  let lo := obsLoop c f freq (c.maxSf + 1) (obsInit r0 brs)
  { res := lo.2 >>= obsFinish
    rules := rules.map fun _ => lo.1
    brs := if c.maxSf = 0 ∨ c.activeDecomp then brs else brs.map (labelledBrs c r0) }

end

end BNS
