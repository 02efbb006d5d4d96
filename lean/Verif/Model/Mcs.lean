import Verif.Model.Brc

/-!
# Model of `mcs_unknown_simple` and `mcs_unknown_using_cpms` (`BNS_JT/branch.py`)

Randomness.  `np.random.choice(xs, p=p)` is modelled as numpy implements it: one uniform number `u`
in [0,1) and a search in the cumulative sums of `p`.  The uniform numbers are an argument
`r : ℕ → ℕ → ℚ`: `r i 0` selects the branch of iteration `i` and `r i (j + 1)` the state of the
`j`-th component in it.  The seed is therefore left out.

Simplifications.  Numbers are rationals.  `cov` is a square root; the model keeps its square and
compares squares.  The tolerance of numpy's check that `p` adds up to one is left out.  The
confidence interval (`beta.ppf`) is left out, but not the `UnboundLocalError` its absence causes
(`cint` is bound only after ten samples).  `probs[e][d]` is the total function `probs`.  The keys of
`br.down` are the components `names`, in order.  Printing is left out.
-/

namespace BNS

/-- Index found by `cdf.searchsorted(u, side='right')`, `cdf` the cumulative sums of `p`.
As used in branch.py:794, 802, 898, 906. -/
def searchRight (p : List ℚ) (u : ℚ) : ℕ :=
  (List.range p.length).countP fun i => (p.take (i + 1)).sum ≤ u

/-- `np.random.choice(xs, p=p)`: `ValueError` for an empty array, a wrong number of probabilities,
a negative one, or a sum other than one.  branch.py:794, 802, 898, 906. -/
def npChoice (xs : List ℕ) (p : List ℚ) (u : ℚ) : Except Err ℕ :=
  if xs = [] then .error .value
  else if p.length ≠ xs.length then .error .value
  else if p.any (· < 0) then .error .value
  else if p.sum ≠ 1 then .error .value
  else pyGet xs (searchRight p u)

section
variable {K : Type} [DecidableEq K]

/-- The arguments shared by the two functions (branch.py:751, 862). -/
structure McsCfg (K : Type) where
  names : List K
  brs : List (Branch K)
  probs : K → ℕ → ℚ
  sysFun : (K → ℕ) → SysRes K
  covT : ℚ

/-- `[b for b in brs if b.down_state == 'u' or b.up_state == 'u']` (branch.py:769, 879). -/
def McsCfg.brsU (c : McsCfg K) : List (Branch K) :=
  c.brs.filter fun b => b.downState = .u ∨ b.upState = .u

/-- `pf_low` (branch.py:770, 880). -/
def McsCfg.pfLow (c : McsCfg K) : ℚ :=
  ((c.brs.filter fun b => b.upState = .f).map fun b => b.p).sum

/-- `brs_u_prob` (branch.py:777, 887). -/
def McsCfg.pU (c : McsCfg K) : ℚ := (c.brsU.map fun b => b.p).sum

/-- The state of one component (branch.py:798-804, 902-908). -/
def drawComp (probs : K → ℕ → ℚ) (b : Branch K) (e : K) (u : ℚ) : Except Err ℕ :=
  if b.down e < b.up e then
    npChoice (List.range' (b.down e) (b.up e + 1 - b.down e))
      [probs e (b.down e), probs e (b.up e)] u
  else .ok (b.down e)

/-- The branch and the component vector of one iteration (branch.py:793-806, 897-910).  Dividing by
a zero total gives `nan` (refused by numpy with `ValueError`) or, for Python floats,
`ZeroDivisionError`; both are `ValueError` here. -/
def drawSample (c : McsCfg K) (r : ℕ → ℚ) : Except Err (List ℕ) := do
  let br ← npChoice (List.range c.brsU.length) (c.brsU.map fun b => b.p / c.pU) (r 0)
  let b ← pyGet c.brsU br
  c.names.zipIdx.mapM fun ej => drawComp c.probs b ej.1 (r (ej.2 + 1))

/-- The dictionary `sample1` as a function.  As in branch.py:786-837, 892-933. -/
def sampleFn (names : List K) (row : List ℕ) (k : K) : ℕ := row.getD (names.idxOf k) 0

/-- The variables of the loop; `samples` holds each drawn vector with "the system failed".  `pf` and
`cov2` are the estimate and the square of its coefficient of variation.  branch.py:786-837, 892-933. -/
structure McsState where
  nsamp : ℕ := 0
  nfail : ℕ := 0
  pf : ℚ := 0
  cov2 : ℚ := 1
  samples : List (List ℕ × Bool) := []
  deriving DecidableEq

/-- The estimate after `nsamp` samples (branch.py:822-832, 918-928): `pf` and `cov ** 2`. -/
def mcsEstimate (pfLow pU : ℚ) (nsamp nfail : ℕ) : ℚ × ℚ :=
  let a := 1 / 100 + (nfail : ℚ)
  let b := 1 / 100 + ((nsamp : ℚ) - nfail)
  let pfS := a / (a + b)
  let varS := a * b / (a + b) ^ 2 / (a + b + 1)
  let pf := pfLow + pU * pfS
  (pf, pU ^ 2 * varS / pf ^ 2)

/-- One iteration of the loop (branch.py:786-837, 892-933). -/
def mcsStep (c : McsCfg K) (r : ℕ → ℚ) (st : McsState) : Except Err McsState := do
  let row ← drawSample c r
  let failed := decide ((c.sysFun (sampleFn c.names row)).st = .f)
  let nsamp := st.nsamp + 1
  let nfail := if failed then st.nfail + 1 else st.nfail
  let samples := st.samples ++ [(row, failed)]
  if 9 < nsamp then
    let e := mcsEstimate c.pfLow c.pU nsamp nfail
    pure { nsamp := nsamp, nfail := nfail, pf := e.1, cov2 := e.2, samples := samples }
  else pure { nsamp := nsamp, nfail := nfail, pf := st.pf, cov2 := st.cov2, samples := samples }

/-- `cov > cov_t`, by squares (`cov` is never negative).  branch.py:786, 892. -/
def mcsGoOn (covT cov2 : ℚ) : Bool := decide (covT < 0 ∨ covT ^ 2 < cov2)

/-- The `while` loop with fuel.  branch.py:786, 892. -/
def mcsLoop (c : McsCfg K) (r : ℕ → ℕ → ℚ) : ℕ → McsState → Except Err McsState
  | 0, st => if mcsGoOn c.covT st.cov2 then .error .fuel else .ok st
  | n + 1, st =>
    if mcsGoOn c.covT st.cov2 then do
      let st' ← mcsStep c (r st.nsamp) st
      mcsLoop c r n st'
    else .ok st

/-- The loop and the reading of `cint` in the result (branch.py:858, 939): `cint` is unbound when
the loop stopped before the tenth sample. -/
def mcsRun (c : McsCfg K) (r : ℕ → ℕ → ℚ) (fuel : ℕ) : Except Err McsState := do
  let st ← mcsLoop c r fuel {}
  if st.nsamp ≤ 9 then .error .unbound else pure st

/-- `mcs_unknown_simple` (branch.py:862-941): `pf`, `cov ** 2`, `nsamp`. -/
def mcsUnknownSimple (c : McsCfg K) (r : ℕ → ℕ → ℚ) (fuel : ℕ) : Except Err (ℚ × ℚ × ℕ) := do
  let st ← mcsRun c r fuel
  pure (st.pf, st.cov2, st.nsamp)

/-! ## Samples written into CPMs -/

/-- `cpm.Cs = Cv; cpm.q = qv; cpm.sample_idx = arange(n)` with one-dimensional arrays
(branch.py:847-850 and the setters cpm.py:113-186): `Cs` is reshaped to one column, whatever the
number of variables, and its maximum is compared with the number of values of each variable. -/
def setColumn (M : Cpm K) (states : List ℕ) (q : List ℚ) : Except Err (Cpm K) := do
  pyAssert (states = [] ∨ ∀ v ∈ M.vars, ∀ s ∈ states, s ≤ v.values.length)
  pyAssert (q = [] ∨ states = [] ∨ q.length = states.length)
  pure { M with Cs := states.map fun s => [s], q := q, sampleIdx := List.range states.length }

/-- The loop over the components of the system's CPM (branch.py:846-852).  `cpms` is a dictionary;
`cols` the columns written into `Csys` so far, at most `nprobs` (`IndexError`). -/
def allocLoop (names : List K) (probs : K → ℕ → ℚ) (samples : List (List ℕ)) (nprobs : ℕ) :
    List K → (K → Option (Cpm K)) → List (List ℕ) → Except Err ((K → Option (Cpm K)) × List (List ℕ))
  | [], cpms, cols => .ok (cpms, cols)
  | v :: rest, cpms, cols =>
    if v ∉ names then .error .key
    else
      match cpms v with
      | none => .error .key
      | some M => do
        let states := samples.map fun s => sampleFn names s v
        let M' ← setColumn M states (states.map (probs v))
        if nprobs ≤ cols.length then .error .index
        else
          allocLoop names probs samples nprobs rest (Function.update cpms v (some M'))
            (cols ++ [states])

/-- The rows of `Csys` (branch.py:843-852): the system's state, the written columns, zeros in the
columns that are not written. -/
def csysRows (sys : List ℕ) (cols : List (List ℕ)) (nprobs : ℕ) : List (List ℕ) :=
  sys.zipIdx.map fun si =>
    si.1 :: (cols.map fun col => col.getD si.2 0) ++ List.replicate (nprobs - cols.length) 0

/-- `mcs_unknown_using_cpms` (branch.py:751-860): the dictionary of CPMs with the samples, and `pf`,
`cov ** 2`, `nsamp`.  `len(probs)` is the number of components. -/
def mcsUnknownUsingCpms (c : McsCfg K) (r : ℕ → ℕ → ℚ) (fuel : ℕ) (cpms : K → Option (Cpm K))
    (sys : K) : Except Err ((K → Option (Cpm K)) × ℚ × ℚ × ℕ) := do
  let st ← mcsLoop c r fuel {}
  match cpms sys with
  | none => .error .key
  | some S => do
    let out ← allocLoop c.names c.probs (st.samples.map Prod.fst) c.names.length
      ((S.vars.drop 1).map Variable.name) cpms []
    let rows := csysRows (st.samples.map fun sf => if sf.2 then 0 else 1) out.2 c.names.length
    match out.1 sys with
    | none => .error .key
    | some S' => do
      checkCs S'.vars rows
      let S'' := { S' with Cs := rows, q := List.replicate st.nsamp 1
                           sampleIdx := List.range st.nsamp }
      if st.nsamp ≤ 9 then .error .unbound
      else pure (Function.update out.1 sys (some S''), st.pf, st.cov2, st.nsamp)

end

end BNS
