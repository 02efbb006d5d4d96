import Verif.Model.Operation

/-!
# Model of `rejection_sampling_sys` (`BNS_JT/operation.py`)

The rows drawn by `np.random.choice` are an argument: `draws t` for the `t`-th sample (see
`singleSample`).  A dictionary of CPMs is a list of pairs with distinct keys.

Simplifications.  Numbers are rationals; `cov` is a square root, the model keeps its square and
compares squares (`0 ≤ known_prob ≤ 1` and `0 ≤ sys_st_prob`, so that `cov` is not negative).
Printing and the seed are left out.  `NameError` is `Err.unbound`.
-/

namespace BNS

section
variable {K : Type} [DecidableEq K]

/-- The arguments besides the CPMs (operation.py:257).  `target` is `nsamp_cov`: an integer is a
number of samples, a float a coefficient of variation. -/
structure RejCfg (K : Type) where
  sysFun : (K → ℕ) → ℕ × ℕ
  target : ℤ ⊕ ℚ
  monitor : Option ℕ := none
  knownProb : ℚ := 0
  sysStProb : ℚ := 0

/-- The CPMs that are sampled: those that define a variable of the system's CPM
(operation.py:292-295). -/
def cpmsNoSys (cpms : List (K × Cpm K)) (sys : K) (S : Cpm K) : List (K × Cpm K) :=
  cpms.filter fun km => km.1 ≠ sys ∧
    ∃ v ∈ km.2.vars.take km.2.noChild, v.name ∈ S.vars.map Variable.name

/-- The variables of the loop.  operation.py:320. -/
structure RejState where
  nsamp : ℕ := 0
  nfail : ℕ := 0
  pf : ℚ := 0
  cov2 : ℚ := 1
  samples : List (List ℕ) := []
  sysSt : List ℕ := []
  probs : List (List ℚ) := []
  vals : List ℕ := []

/-- The condition of the `while` loop (operation.py:320): the stopping value is the number of
samples, or the coefficient of variation from the tenth sample on. -/
def rejGoOn (target : ℤ ⊕ ℚ) (st : RejState) : Bool :=
  match target with
  | .inl n => decide ((st.nsamp : ℤ) < n)
  | .inr t => decide (st.nsamp ≤ 9 ∨ t < 0 ∨ t ^ 2 < st.cov2)

/-- The update after an accepted sample (operation.py:331-363); note that the *value* of the system
is compared with the monitored state. -/
def rejAccept (c : RejCfg K) (s : List ℕ) (ps : List ℚ) (vs : ℕ × ℕ) (st : RejState) : RejState :=
  let st := { st with nsamp := st.nsamp + 1, samples := st.samples ++ [s], sysSt := st.sysSt ++ [vs.2]
                      probs := st.probs ++ [ps], vals := st.vals ++ [vs.1] }
  match c.target with
  | .inl _ => st
  | .inr _ =>
    let nfail := if some vs.1 = c.monitor then st.nfail + 1 else st.nfail
    if 9 < st.nsamp then
      let a := 1 / 100 + (nfail : ℚ)
      let b := 1 / 100 + ((st.nsamp : ℚ) - nfail)
      let pfS := a / (a + b)
      let varS := a * b / (a + b) ^ 2 / (a + b + 1)
      let pf := c.sysStProb + (1 - c.knownProb) * pfS
      { st with nfail := nfail, pf := pf, cov2 := (1 - c.knownProb) ^ 2 * varS / pf ^ 2 }
    else { st with nfail := nfail }

/-- One iteration (operation.py:322-367).  `loc` are the positions of the system's components in the
sample; `np.vstack` refuses a row of probabilities whose length is not the number of sampled
variables (`None`, when no CPM was sampled, counts as one number). -/
def rejIter (c : RejCfg K) (ms : List (Cpm K)) (so : SampleOrder K) (compVars : List (Variable K))
    (loc : List ℕ) (Crej : List (List ℕ)) (draws : List ℕ) (st : RejState) : Except Err RejState := do
  let sp ← singleSample ms so draws
  let comp ← loc.mapM fun j => pyGet sp.1 j
  let names := compVars.map Variable.name
  let cpt ← isCompatible Crej compVars (names.flatMap fun y => compVars.filter fun x => x.name = y) comp
  if cpt.all (fun b => !b) then
    if (if sp.2 = [] then 1 else sp.2.length) ≠ so.vars.length then .error .value
    else
      pure (rejAccept c sp.1 sp.2 (c.sysFun fun k => comp.getD (names.idxOf k) 0) st)
  else pure st

/-- The `while` loop with fuel (operation.py:320-367). -/
def rejLoop (c : RejCfg K) (ms : List (Cpm K)) (so : SampleOrder K) (compVars : List (Variable K))
    (loc : List ℕ) (Crej : List (List ℕ)) (draws : ℕ → List ℕ) :
    ℕ → ℕ → RejState → Except Err RejState
  | 0, _, st => if rejGoOn c.target st then .error .fuel else .ok st
  | n + 1, t, st =>
    if rejGoOn c.target st then do
      let st' ← rejIter c ms so compVars loc Crej (draws t) st
      rejLoop c ms so compVars loc Crej draws n (t + 1) st'
    else .ok st

/-- `comp_vars_loc` and whether `cpms_v_idxs` is bound (operation.py:299-306): `get_var_ind`, called
once for each sampled CPM when all components were found, is defined nowhere (`NameError`). -/
def rejLoc (ms : List (K × Cpm K)) (so : SampleOrder K) (names : List K) :
    Except Err (List ℕ × Bool) :=
  match names.mapM fun n => pyIndex (so.vars.map Variable.name) n with
  | .error _ => .ok ([], false)
  | .ok loc => if ms = [] then .ok (loc, true) else .error .unbound

/-- `rejection_sampling_sys` (operation.py:257-402): the CPMs and the result (`pf`, `cov ** 2`,
`nsamp`, `sys_vals`).  The allocation to the sampled CPMs (operation.py:370-387) reads
`cpms_v_idxs`: it is unbound (`NameError`), or there is no such CPM. -/
def rejectionSamplingSys (c : RejCfg K) (cpms : List (K × Cpm K)) (sys : K) (draws : ℕ → List ℕ)
    (fuel : ℕ) : Except Err (List (K × Cpm K) × ℚ × ℚ × ℕ × List ℕ) :=
  match cpms.lookup sys with
  | none => .error .key
  | some S => do
    let compVars := S.vars.drop S.noChild
    let ms := cpmsNoSys cpms sys S
    let so := getSampleOrder (ms.map Prod.snd)
    let lb ← rejLoc ms so (compVars.map Variable.name)
    let st ← rejLoop c (ms.map Prod.snd) so compVars lb.1 (S.C.map fun r => r.drop S.noChild) draws
      fuel 0 {}
    if ms ≠ [] then .error .unbound
    else do
      let M2 ← Cpm.mk' { vars := S.vars, noChild := S.noChild, C := S.C, p := S.p
                         Cs := (st.sysSt.zip st.samples).map fun xs =>
                           xs.1 :: lb.1.map fun j => xs.2.getD j 0
                         q := List.replicate st.nsamp 1, sampleIdx := List.range st.nsamp }
      pure (cpms.map (fun km => if km.1 = sys then (sys, M2) else km), st.pf, st.cov2, st.nsamp, st.vals)

end

end BNS
