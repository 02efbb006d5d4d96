import Verif.Model.Cpm
import Mathlib.Data.Rat.Defs

/-!
# Model of `BNS_JT/operation.py`

A dictionary of CPMs is a list of items where the keys matter (`get_inf_vars`,
`cal_Msys_by_cond_VE`) and the list of its values elsewhere.  `copy.deepcopy` of an immutable
model value is the value.  The translation of variable names and string labels at the head of
`condition` (operation.py:36-50) is left out: variables and integer states are given.
`rejection_sampling_sys` is in `Model/Reject`, `cal_Msys_by_cond_VE` in `Model/CondVE`, `max_flow` in
`Model/Flow`.
-/

namespace BNS

section
variable {K : Type} [DecidableEq K]

/-- `condition(cpms, cnd_vars, cnd_states)` (operation.py:17-58). -/
def conditionAll (cpms : List (Cpm K)) (vars : List (Variable K)) (states : List ℕ) :
    Except Err (List (Cpm K)) :=
  cpms.mapM fun M => M.condition vars states

/-- `get_var_idx(varis, names)` (operation.py:61-77). -/
def getVarIdx (varis : List (Variable K)) (names : List K) : Except Err (List ℕ) :=
  names.mapM fun v => do
    let ind := (List.range varis.length).filter fun i => (varis[i]?).map Variable.name = some v
    pyAssert (ind.length = 1)
    pyGet ind 0

/-- The `while i < len(remain)` loop of `get_variables` for one CPM (operation.py:528-535).
`remain.remove(remain[i])` removes the first equal element, which is the one at `i` because the
earlier ones are not in `names`.  Returns `(found, still to be found)`. -/
def collectVars (M : Cpm K) : List K → Except Err (List (Variable K) × List K)
  | [] => .ok ([], [])
  | k :: rest =>
    if k ∈ M.getNames then do
      let v ← M.getVariables [k]
      let (fs, rs) ← collectVars M rest
      return (v ++ fs, rs)
    else do
      let (fs, rs) ← collectVars M rest
      return (fs, k :: rs)

/-- The `for M in cpms` loop of `get_variables` (operation.py:526-535). -/
def collectAll : List (Cpm K) → List K → Except Err (List (Variable K))
  | [], _ => .ok []
  | M :: Ms, remain => do
    let (fs, rs) ← collectVars M remain
    let more ← collectAll Ms rs
    return fs ++ more

/-- `get_variables(cpms, variables)` (operation.py:514-539). -/
def getVariablesAll (cpms : List (Cpm K)) (names : List K) : Except Err (List (Variable K)) := do
  let res ← collectAll cpms names
  pyAssert (res.length = names.length)
  return res.insertionSort fun a b => names.idxOf a.name ≤ names.idxOf b.name

/-! ## Variable elimination -/

/-- `cpm.ismember([v], M.variables)[0]` of `isinscope` (operation.py:418-421), for one variable. -/
def inScope (v : Variable K) (M : Cpm K) : Bool :=
  (ismemberOn Variable.name [v] M.vars).all Option.isSome

/-- `isinscope(idx, cpms)` (operation.py:405-423). -/
def isInScope (idx : List (Variable K)) (cpms : List (Cpm K)) : List Bool :=
  idx.foldl (fun isin v => List.zipWith (· || ·) isin (cpms.map (inScope v)))
    (cpms.map fun _ => false)

/-! ## Relevant variables -/

/-- The `while varis_cp` loop of `get_inf_vars` (operation.py:682-691); the fuel is the number of
CPMs and of given names, proved enough. -/
def infLoop (cpms : List (K × Cpm K)) : ℕ → List K → List K → Except Err (List K)
  | _, [], inf => .ok inf
  | 0, _ :: _, _ => .error .fuel
  | n + 1, v :: cp, inf =>
    match cpms.lookup v with
    | none => .error .key
    | some M =>
      let inf := inf ++ [v]
      let scope := (M.vars.drop M.noChild).map Variable.name
      let cp := scope.foldl (fun cp p => if p ∉ inf ∧ p ∉ cp then cp ++ [p] else cp) cp
      infLoop cpms n cp inf

/-- `get_inf_vars(cpms, varis, ve_ord)` (operation.py:657-696).  `get_ord_inf` is `idxOf`: the
length of the list for an absent name. -/
def getInfVars (cpms : List (K × Cpm K)) (varis : List K) (veOrd : Option (List K)) :
    Except Err (List K) := do
  let inf ← infLoop cpms (cpms.length + varis.length) varis []
  match veOrd with
  | none => return inf
  | some o => return inf.insertionSort fun a b => o.idxOf a ≤ o.idxOf b

/-! ## Sampling order -/

/-- `get_prod_idx(cpms, varis)` (operation.py:80-108): the first CPM all of whose parents are in
`varis`; `none` is Python's `None` (after the message). -/
def getProdIdx (cpms : List (Cpm K)) (varis : List (Variable K)) : Option ℕ :=
  cpms.findIdx? fun x =>
    (x.vars.drop x.noChild).all fun v => v.name ∈ varis.map Variable.name

/-- What `get_sample_order` returns: `sample_order`, `sample_vars`, `var_add_order`.
As in operation.py:125-148. -/
structure SampleOrder (K : Type) where
  order : List ℕ
  vars : List (Variable K)
  addOrder : List ℕ
  deriving DecidableEq

/-- One iteration of `get_sample_order` (operation.py:125-148): `todo` pairs the CPMs left with
their index (`cpms_`, `cpms_idx`). -/
def sampleStep (i : ℕ) (todo : List (Cpm K × ℕ)) (so : SampleOrder K) :
    List (Cpm K × ℕ) × SampleOrder K :=
  match getProdIdx (todo.map Prod.fst) so.vars with
  | none => (todo, so)
  | some j =>
    match todo[j]? with
    | none => (todo, so)
    | some (M, idx) =>
      let vs := M.vars.take M.noChild
      (todo.eraseIdx j,
        { order := so.order ++ [idx]
          vars := if so.vars.any (fun v => v.name ∈ vs.map Variable.name) then so.vars
            else so.vars ++ vs
          addOrder := so.addOrder ++ vs.map fun _ => i })

/-- `get_sample_order(cpms)` (operation.py:111-150). -/
def getSampleOrder (cpms : List (Cpm K)) : SampleOrder K :=
  ((List.range cpms.length).foldl (fun st i => sampleStep i st.1 st.2)
    (cpms.zip (List.range cpms.length), { order := [], vars := [], addOrder := [] })).2

/-! ## Sampling -/

/-- `sample[var_add_order == i] = idx` (operation.py:247): numpy copies the values in order, or
repeats a single value; any other length is a `ValueError`.  A mask that is not as long as the sample is
an `IndexError`. -/
def assignAt (addOrder : List ℕ) (i : ℕ) (vals sample : List ℕ) : Except Err (List ℕ) :=
  if addOrder.length ≠ sample.length then .error .index else
  let pos := (List.range addOrder.length).filter fun j => addOrder[j]? = some i
  if pos.length = vals.length then
    .ok ((pos.zip vals).foldl (fun s jv => s.set jv.1 jv.2) sample)
  else match vals with
    | [v] => .ok (pos.foldl (fun s j => s.set j v) sample)
    | _ => .error .value

/-- One iteration of `single_sample` (operation.py:218-247) for the CPM `M`; `irow` is the row drawn
by `np.random.choice`, which returns a row of positive weight or raises `ValueError` when there is
none (a draw outside the support is rejected here with the same error).  Returns the sample and the
probability recorded. -/
def sampleOne (vars : List (Variable K)) (addOrder : List ℕ) (i : ℕ) (M : Cpm K) (irow : ℕ)
    (sample : List ℕ) : Except Err (List ℕ × ℚ) := do
  let cnd := (vars.zip sample).filter fun vs => 0 < vs.2
  let M ← M.condition (cnd.map Prod.fst) (sample.filter fun s => 0 < s)
  match M.p[irow]?, M.C[irow]? with
  | some p, some r =>
    if 0 < p then do
      let s ← assignAt addOrder i (r.take M.noChild) sample
      return (s, p)
    else .error .value
  | _, _ => .error .value

/-- The loop of `single_sample` (operation.py:218-247): `zip(sample_order, cpms)` pairs the order
with the CPMs in their original order. -/
def sampleLoop (vars : List (Variable K)) (addOrder : List ℕ) :
    ℕ → List (ℕ × Cpm K) → List ℕ → List ℕ → Except Err (List ℕ × List ℚ)
  | _, [], _, sample => .ok (sample, [])
  | i, (_, M) :: rest, draws, sample =>
    match draws with
    | [] => .error .value
    | d :: ds => do
      let (s, p) ← sampleOne vars addOrder i M d sample
      let (s, ps) ← sampleLoop vars addOrder (i + 1) rest ds s
      return (s, p :: ps)

/-- `single_sample(cpms, sample_order, sample_vars, var_add_order, _, _)` (operation.py:196-254);
the drawn rows are an argument.  Returns the sample and the list of the probabilities of the drawn
rows: with `is_scalar=True` the code returns their product (through `log` and `exp`), with
`is_scalar=False` the list. -/
def singleSample (cpms : List (Cpm K)) (so : SampleOrder K) (draws : List ℕ) :
    Except Err (List ℕ × List ℚ) :=
  sampleLoop so.vars so.addOrder 0 (so.order.zip cpms) draws (so.vars.map fun _ => 0)

/-- `mcs_product(cpms, nsample, is_scalar=True)` (operation.py:153-193); `draws` has one list of rows
per sample. -/
def mcsProduct (cpms : List (Cpm K)) (draws : List (List ℕ)) : Except Err (Cpm K) := do
  let so := getSampleOrder cpms
  let samples ← draws.mapM fun d => singleSample cpms so d
  Cpm.mk' { vars := so.vars.reverse, noChild := so.vars.length, C := [], p := []
            Cs := samples.map fun s => s.1.reverse
            q := samples.map fun s => s.2.prod
            sampleIdx := List.range draws.length }

/-- The arrays `Cs` and `q` that `mcs_product(cpms, nsample, is_scalar=False)` passes to the
constructor, for variables `sample_vars[::-1]`: the columns of `Cs` are reversed, those of `q` are
not (operation.py:184-193). -/
def mcsProductVec (cpms : List (Cpm K)) (draws : List (List ℕ)) :
    Except Err (List (Variable K) × List (List ℕ) × List (List ℚ)) := do
  let so := getSampleOrder cpms
  let samples ← draws.mapM fun d => singleSample cpms so d
  return (so.vars.reverse, samples.map fun s => s.1.reverse, samples.map fun s => s.2)

/-! ## System CPM times component CPMs -/

/-- `p_st` (operation.py:620-625): the probability that component `m` is in one of the states `S`.
The order in which Python iterates over a set does not matter for the sum. -/
def compProb (m : Cpm K) (c1 : List ℕ) : List ℕ → Except Err ℚ
  | [] => .ok 0
  | k :: ks => do
    let i ← pyIndex c1 k
    let x ← pyGet m.p i
    let rest ← compProb m c1 ks
    return x + rest

/-- Columns moved to the child side (operation.py:571-583): the variables found in `comp_names` with
the index of their CPM, and the others. -/
def splitParents (compNames : List K) (pars : List (Variable K)) :
    List (Variable K × ℕ) × List (Variable K) :=
  (pars.filterMap fun v => (compNames.idxOf? v.name).map fun i => (v, i),
    pars.filter fun v => (compNames.idxOf? v.name).isNone)

/-- The checks on conditional component CPMs (operation.py:585-593); returns `cond_vars`,
`cond_st`.  With two or more conditioning variables, `all(c[1:] == cond_st ...)` asks for the truth
value of an array: `ValueError` as soon as it is evaluated. -/
def condScope (Mcomps : List (Cpm K)) : Except Err (List (Variable K × ℕ)) :=
  match Mcomps with
  | [] => .error .index
  | m0 :: _ =>
    if m0.noChild < m0.vars.length then do
      let cv := m0.vars.drop m0.noChild
      pyAssert (∀ m ∈ Mcomps, (m.vars.drop 1).map Variable.name = cv.map Variable.name)
      let r0 ← pyGet m0.C 0
      let cs := r0.drop m0.noChild
      if 2 ≤ cs.length then .error .value else do
      pyAssert (∀ m ∈ Mcomps, ∀ c ∈ m.C, c.drop 1 = cs)
      return cv.zip cs
    else .ok []

/-- `prod_Msys_and_Mcomps(Msys, Mcomps_list)` (operation.py:562-626, 654), its event matrix; the
samples are in Model/MsysSamples.lean.  An empty
system matrix leaves `C` unbound. -/
def prodMsysMcomps (S : Cpm K) (Mcomps : List (Cpm K)) : Except Err (Cpm K) := do
  pyAssert (∀ m ∈ Mcomps, m.noChild = 1)
  let compNames ← Mcomps.mapM fun m => do
    let v ← pyGet m.vars 0
    return v.name
  let (mult, pars) := splitParents compNames (S.vars.drop S.noChild)
  let ch := S.vars.take S.noChild ++ mult.map Prod.fst
  let cond ← condScope Mcomps
  if S.C.flatten = [] then .error .unbound else do
  let cols ← (ch ++ pars).mapM fun v => pyIndex S.getNames v.name
  let C ← takeCols S.C cols
  let extra := cond.filter fun vs => vs.1.name ∉ pars.map Variable.name
  let C' := C.map fun r => r ++ extra.map Prod.snd
  let p ← (C'.zip S.p).mapM fun rp => do
    let fs ← mult.zipIdx.mapM fun vij => do
      let m ← pyGet Mcomps vij.1.2
      let c1 ← m.C.mapM fun c => pyGet c 0
      let st ← pyGet rp.1 (S.noChild + vij.2)
      let v ← pyGet m.vars 0
      match v.B with
      | none => .error .type
      | some B => do
        let T ← pyGet B st
        compProb m c1 (T.sort (· ≤ ·))
    return fs.foldl (· * ·) rp.2
  Cpm.mk' { vars := ch ++ pars ++ extra.map Prod.fst, noChild := ch.length, C := C', p := p }

/-! ## Maximum and minimum systems -/

/-- The set `{y for y, z in enumerate(p2.values) if z < v}` and its three variants
(operation.py:791, 794, 856, 859). -/
def valueSet (test : ℚ → Bool) (values : List ℚ) : Finset ℕ :=
  ((List.range values.length).filter fun y => (values[y]?).any test).toFinset

/-- The inner loop over the other variables (operation.py:784-803): the states of the other
variables in row `(i, v)`, or `none` when the row is not added.  `vs` are the sorted variables with
their positions among them. -/
def sysRow (tBefore tAfter : ℚ → ℚ → Bool) (i : ℕ) (v : ℚ) :
    List (Variable K × ℕ) → Except Err (Option (List (K × ℕ)))
  | [] => .ok (some [])
  | (p2, i2) :: rest =>
    if i = i2 then do
      let st ← pyIndex p2.values v
      let r ← sysRow tBefore tAfter i v rest
      return r.map fun l => (p2.name, st) :: l
    else do
      let S := valueSet (fun z => if i2 < i then tBefore z v else tAfter z v) p2.values
      if S.card < 1 then return none else do
      match p2.B with
      | none => .error .attribute
      | some B => do
        let st ← pyIndex B S
        let r ← sysRow tBefore tAfter i v rest
        return r.map fun l => (p2.name, st) :: l

/-- The rows made for one variable (operation.py:778-809): the values already met and the rows, each
with the index of its value among them. -/
def sysRowsOf (tBefore tAfter : ℚ → ℚ → Bool) (sorted : List (Variable K × ℕ)) (i : ℕ) :
    List ℚ → List ℚ → Except Err (List ℚ × List (ℕ × List (K × ℕ)))
  | [], vals => .ok (vals, [])
  | v :: rest, vals => do
    let r ← sysRow tBefore tAfter i v sorted
    match r with
    | none => sysRowsOf tBefore tAfter sorted i rest vals
    | some l => do
      let vals := if v ∈ vals then vals else vals ++ [v]
      let (vals', rows) ← sysRowsOf tBefore tAfter sorted i rest vals
      return (vals', (vals.idxOf v, l) :: rows)

/-- The loop over the sorted variables (operation.py:776-809). -/
def sysRowsAll (tBefore tAfter : ℚ → ℚ → Bool) (sorted : List (Variable K × ℕ)) :
    List (Variable K × ℕ) → List ℚ → Except Err (List ℚ × List (ℕ × List (K × ℕ)))
  | [], vals => .ok (vals, [])
  | (p, i) :: rest, vals => do
    let (vals, rows) ← sysRowsOf tBefore tAfter sorted i (p.values.insertionSort (· ≤ ·)) vals
    let (vals, more) ← sysRowsAll tBefore tAfter sorted rest vals
    return (vals, rows ++ more)

/-- The body shared by `sys_max_val` and `sys_min_val` (operation.py:755-817, 820-884), `key` being
`get_mv`.  The system state written in a row is the position of its value in `vals_new` at that
moment; `vals_new` is sorted afterwards (lines 811, 878). -/
def sysVal (tBefore tAfter : ℚ → ℚ → Bool) (key : Variable K → ℚ) (name : K)
    (varsP : List (Variable K)) : Except Err (Cpm K × Variable K) := do
  let sorted := (varsP.insertionSort fun a b => key a ≤ key b).zipIdx
  let (vals, rows) ← sysRowsAll tBefore tAfter sorted sorted []
  let varNew := Variable.mk' name (vals.insertionSort (· ≤ ·)) .store
  let C := rows.map fun r => r.1 :: varsP.map fun p => (r.2.lookup p.name).getD 0
  let M ← Cpm.mk' { vars := varNew :: varsP, noChild := 1, C := C, p := rows.map fun _ => 1 }
  return (M, varNew)

/-- `sys_max_val(name, vars_p)` (operation.py:755-817).  `min` of no value is a `ValueError`. -/
def sysMaxVal (name : K) (varsP : List (Variable K)) : Except Err (Cpm K × Variable K) :=
  if ∃ v ∈ varsP, v.values = [] then .error .value else
  sysVal (fun z v => z < v) (fun z v => z ≤ v) (fun p => (p.values.min?).getD 0) name varsP

/-- `sys_min_val(name, vars_p)` (operation.py:820-884). -/
def sysMinVal (name : K) (varsP : List (Variable K)) : Except Err (Cpm K × Variable K) :=
  if ∃ v ∈ varsP, v.values = [] then .error .value else
  sysVal (fun z v => v < z) (fun z v => v ≤ z) (fun p => (p.values.max?).getD 0) name varsP

end

section Elim
variable {K : Type} [LinearOrder K]

/-- One iteration of `variable_elim` (operation.py:439-448). -/
def elimStep (cpms : List (Cpm K)) (v : Variable K) : Except Err (List (Cpm K)) := do
  let isin := isInScope [v] cpms
  let mult ← productList (maskRows isin cpms)
  let mult ← mult.sum [v] true
  return mult :: maskRows (isin.map not) cpms

/-- `variable_elim(cpms, var_elim, prod=False)` (operation.py:426-453). -/
def variableElimList (cpms : List (Cpm K)) (ve : List (Variable K)) :
    Except Err (List (Cpm K)) :=
  ve.foldlM elimStep cpms

/-- `variable_elim(cpms, var_elim)` (operation.py:426-453). -/
def variableElim (cpms : List (Cpm K)) (ve : List (Variable K)) : Except Err (Cpm K) := do
  let l ← variableElimList cpms ve
  productList l

/-- One row of `variable_elim_cond` (operation.py:484-499): the CPM `cpm2` for the conditioning row
`cx`, `none` when no column is left (`idv` empty). `idv` is what earlier rows computed. -/
def elimCondRow (cpms : List (Cpm K)) (varis : List (Variable K)) (cNames : List K) (P : Cpm K)
    (idv : Option (List ℕ)) (cx : List ℕ) : Except Err (Option (Cpm K) × Option (List ℕ)) := do
  let P1 ← P.condition P.vars cx
  let cpms1 ← conditionAll cpms P.vars cx
  let E ← variableElim cpms1 varis
  let M ← E.product P1
  let idx ← M.getColInd cNames
  let idv := idv.getD ((List.range M.vars.length).filter fun i => i ∉ idx)
  if idv = [] then return (none, none) else do
  let vars' ← takeRows M.vars idv
  let C' ← takeCols M.C idv
  pyAssert (idx.length ≤ M.noChild)
  let cpm2 ← Cpm.mk' { vars := vars', noChild := M.noChild - idx.length, C := C', p := M.p }
  return (some cpm2, some idv)

/-- The loop of `variable_elim_cond` (operation.py:482-506). -/
def elimCondLoop (cpms : List (Cpm K)) (varis : List (Variable K)) (cNames : List K) (P : Cpm K) :
    List (List ℕ) → Option (List ℕ) → Option (Cpm K) → Except Err (Option (Cpm K))
  | [], _, M => .ok M
  | cx :: rest, idv, M => do
    let (c2, idv) ← elimCondRow cpms varis cNames P idv cx
    match c2, M with
    | none, _ => elimCondLoop cpms varis cNames P rest idv M
    | some c2, none => elimCondLoop cpms varis cNames P rest idv (some c2)
    | some c2, some M => do
      let (_, M') ← M.merge c2
      elimCondLoop cpms varis cNames P rest idv (some M')

/-- `variable_elim_cond(cpms, varis, cpms_cond)` (operation.py:456-511); `None` when no row leaves a
column.  A `no_child` smaller than the number of conditioning variables would become negative, which the
constructor accepts; the model has no such CPM and reports a failed assertion instead. -/
def variableElimCond (cpms : List (Cpm K)) (varis : List (Variable K)) (cpmsCond : List (Cpm K)) :
    Except Err (Option (Cpm K)) := do
  let cNames := firstOccOn id (cpmsCond.flatMap fun M => M.getNames)
  let P ← productList cpmsCond
  elimCondLoop cpms varis cNames P P.C none none

end Elim

end BNS
