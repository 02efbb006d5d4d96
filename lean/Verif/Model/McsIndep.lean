import Verif.Model.Mcs

/-!
# Model of `run_MCS_indep_comps` (`BNS_JT/brc.py`)

Randomness as in `Verif.Model.Mcs`: `r i j` is the uniform number that draws the `j`-th component in
iteration `i`.

Simplifications.  Numbers are rationals; `cov` is a square root, the model keeps its square and
compares squares.  Printing is left out, but not the `UnboundLocalError` it raises: `pf` is bound
only after the first failing sample.
-/

namespace BNS

section
variable {K : Type} [DecidableEq K]

/-- The arguments (brc.py:497).  `probs` is a dictionary of dictionaries: `names` its keys in order,
`keys e` the keys of `probs[e]` in order, `prob e` its values. -/
structure IndepCfg (K : Type) where
  names : List K
  keys : K → List ℕ
  prob : K → ℕ → ℚ
  sysFun : (K → ℕ) → SysRes K
  covT : ℚ

/-- The sample of one iteration (brc.py:504-507). -/
def indepDraw (c : IndepCfg K) (r : ℕ → ℚ) : Except Err (List ℕ) :=
  c.names.zipIdx.mapM fun ej =>
    npChoice (c.keys ej.1) ((c.keys ej.1).map (c.prob ej.1)) (r ej.2)

/-- The variables of the loop (brc.py:498-499): `pf = none` before it is bound, `cov2` the square of
`cov`; `samples` records each drawn vector with "the system failed" (the code does not keep them). -/
structure IndepState where
  nsamp : ℕ := 0
  nfail : ℕ := 0
  pf : Option ℚ := none
  cov2 : ℚ := 1
  samples : List (List ℕ × Bool) := []
  deriving DecidableEq

/-- The update after a sample (brc.py:510-518). -/
def indepUpdate (st : IndepState) (row : List ℕ) (failed : Bool) : IndepState :=
  let nsamp := st.nsamp + 1
  let samples := st.samples ++ [(row, failed)]
  if failed then
    let nfail := st.nfail + 1
    let pf : ℚ := nfail / nsamp
    { nsamp := nsamp, nfail := nfail, pf := some pf
      cov2 := if 5 < nfail then pf * (1 - pf) / nsamp / pf ^ 2 else st.cov2
      samples := samples }
  else { nsamp := nsamp, nfail := st.nfail, pf := st.pf, cov2 := st.cov2, samples := samples }

/-- One iteration (brc.py:502-521); the report at every 20000-th sample reads `pf`. -/
def indepStep (c : IndepCfg K) (r : ℕ → ℚ) (st : IndepState) : Except Err IndepState := do
  let row ← indepDraw c r
  let st' := indepUpdate st row (decide ((c.sysFun (sampleFn c.names row)).st = .f))
  if st'.nsamp % 20000 = 0 ∧ st'.pf = none then .error .unbound else pure st'

/-- The `while` loop with fuel (brc.py:500-521). -/
def indepLoop (c : IndepCfg K) (r : ℕ → ℕ → ℚ) : ℕ → IndepState → Except Err IndepState
  | 0, st => if mcsGoOn c.covT st.cov2 then .error .fuel else .ok st
  | n + 1, st =>
    if mcsGoOn c.covT st.cov2 then do
      let st' ← indepStep c (r st.nsamp) st
      indepLoop c r n st'
    else .ok st

/-- `run_MCS_indep_comps` (brc.py:497-523): `pf`, `cov ** 2`, `nsamp`. -/
def runMcsIndep (c : IndepCfg K) (r : ℕ → ℕ → ℚ) (fuel : ℕ) : Except Err (ℚ × ℚ × ℕ) := do
  let st ← indepLoop c r fuel {}
  match st.pf with
  | none => .error .unbound
  | some pf => pure (pf, st.cov2, st.nsamp)

end

end BNS
