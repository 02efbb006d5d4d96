import Verif.Model.Cpm
import Mathlib.Data.Rat.Floor

/-!
# Model of the estimators of `BNS_JT/cpm.py` and `BNS_JT/utils.py`

`Cpm.get_prob_and_cov`, `Cpm.get_prob_and_cov_cond`, `utils.get_rat_dist`, `utils.all_equal` and
`branch.split`.

Simplifications.  Numbers are rationals.  The coefficient of variation is a square root over the
estimate; the model returns the variance under the root.  The confidence intervals of
`get_prob_and_cov` use `norm.pdf` and `beta.ppf` and are not modelled.  The draws of
`np.random.beta` are arguments.  `std_rat` (`np.std`) is not modelled.
-/

namespace BNS

section
variable {K : Type} [DecidableEq K]

/-- `n_round`, `nsamp` (cpm.py:820-826, 903-909).  `nsample_repeat` is a natural number. -/
def estRounds (n nsr : ℕ) : Except Err (ℕ × ℕ) :=
  if nsr = 0 then .ok (1, n)
  else do
    pyAssert (n % nsr = 0)
    pure (n / nsr, nsr)

/-- `range(i*nsamp, (i + 1)*nsamp)` (cpm.py:832, 912). -/
def rowRange (i nsamp : ℕ) : List ℕ := (List.range nsamp).map (i * nsamp + ·)

/-- `self.Cs[row_range,:]` (cpm.py:833): without samples `Cs` is the one-dimensional `np.array([])`
and the index raises `IndexError`. -/
def sampleRows (M : Cpm K) (i nsamp : ℕ) : Except Err (List (List ℕ)) :=
  if M.Cs = [] then .error .index else takeRows M.Cs (rowRange i nsamp)

/-- `try: ps[row_range] / q[row_range]; except IndexError: np.ones_like(q)` (cpm.py:835-838,
914-917).  A zero `q` gives `inf` or `nan` in numpy and zero here; the theorems exclude it. -/
def roundWeights (M : Cpm K) (i nsamp : ℕ) : List ℚ :=
  match takeRows M.ps (rowRange i nsamp), takeRows M.q (rowRange i nsamp) with
  | .ok p, .ok q => List.zipWith (· / ·) p q
  | _, _ => List.replicate M.q.length 1

/-- `w[mask] = 0` (cpm.py:841-844, 921, 925): a mask of another length raises `IndexError`. -/
def zeroAt (w : List ℚ) (mask : List Bool) : Except Err (List ℚ) :=
  if mask.length = w.length then
    .ok (List.zipWith (fun x m => if m then 0 else x) w mask)
  else .error .index

/-- `np.allclose(w_ori, w_ori[0], atol=1e-4)` (cpm.py:850), with the default `rtol=1e-5`. -/
def allclose (w : List ℚ) (w0 : ℚ) : Bool :=
  w.all fun x => |x - w0| ≤ 1 / 10000 + 1 / 100000 * |w0|

/-- The weights of one round before and after the compatibility check (cpm.py:832-844). -/
def estWeights (M : Cpm K) (cv : List (Variable K)) (cs : List ℕ) (flag : Bool) (nsamp i : ℕ) :
    Except Err (List ℚ × List ℚ) := do
  let rows ← sampleRows M i nsamp
  let isCmp ← isCompatible rows M.vars cv cs
  let w := roundWeights M i nsamp
  let w' ← zeroAt w (if flag then isCmp.map (!·) else isCmp)
  pure (w, w')

/-- One round of the maximum likelihood estimate (cpm.py:846-855): `prob_Cs` and `var`. -/
def mleRound (M : Cpm K) (cv : List (Variable K)) (cs : List ℕ) (flag : Bool) (nsamp : ℕ)
    (acc : ℚ × ℚ) (i : ℕ) : Except Err (ℚ × ℚ) := do
  let ww ← estWeights M cv cs flag nsamp i
  let mean := ww.2.sum / nsamp
  let w0 ← pyGet ww.1 0
  let v := if allclose ww.1 w0 then w0 ^ 2 * (1 - mean) * mean / nsamp
    else (ww.2.map fun x => ((x - mean) / nsamp) ^ 2).sum
  pure (acc.1 + mean, acc.2 + v)

/-- `get_prob_and_cov(method='MLE')` (cpm.py:814-881, 895): the estimate `prob` and the variance `var`
under the root of `cov = (1 - p.sum()) * sqrt(var) / prob`. -/
def Cpm.estimateMle (M : Cpm K) (cv : List (Variable K)) (cs : List ℕ) (flag : Bool) (nsr : ℕ) :
    Except Err (ℚ × ℚ) := do
  let probC ← M.getProb cv cs flag
  let rn ← estRounds M.Cs.length nsr
  let acc ← (List.range rn.1).foldlM (mleRound M cv cs flag rn.2) (0, 0)
  pure (probC + (1 - M.p.sum) * acc.1, acc.2)

/-- `neff` (cpm.py:858, 927): the effective sample size; `nan` (no weight at all) is replaced by
zero in `get_prob_and_cov`. -/
def nEff (w : List ℚ) : ℚ :=
  w.length * (w.sum / w.length) ^ 2 / ((w.map (· ^ 2)).sum / w.length)

/-- `nTrue` (cpm.py:859-866, 929-933). -/
def nTrue (w wOri : List ℚ) : ℚ := (w.map fun x => x / wOri.sum * nEff wOri).sum

/-- One round of the Bayesian estimate (cpm.py:857-872); `none` is the state in which `a`, `b` are
not yet bound (`NameError`, so the prior is used). -/
def bayesRound (M : Cpm K) (cv : List (Variable K)) (cs : List ℕ) (flag : Bool) (nsamp : ℕ)
    (acc : Option (ℚ × ℚ)) (i : ℕ) : Except Err (Option (ℚ × ℚ)) := do
  let ww ← estWeights M cv cs flag nsamp i
  let t := nTrue ww.2 ww.1
  let ab := acc.getD (1 / 100, 1 / 100)
  pure (some (ab.1 + t, ab.2 + (nEff ww.1 - t)))

/-- `get_prob_and_cov(method='Bayesian')` (cpm.py:814-872, 883-895): the estimate and the variance under the
root of `cov`.  Without any round `a` is unbound. -/
def Cpm.estimateBayes (M : Cpm K) (cv : List (Variable K)) (cs : List ℕ) (flag : Bool) (nsr : ℕ) :
    Except Err (ℚ × ℚ) := do
  let probC ← M.getProb cv cs flag
  let rn ← estRounds M.Cs.length nsr
  let acc ← (List.range rn.1).foldlM (bayesRound M cv cs flag rn.2) none
  match acc with
  | none => .error .unbound
  | some (a, b) =>
    pure (probC + (1 - M.p.sum) * (a / (a + b)), a * b / (a + b) ^ 2 / (a + b + 1))

end

/-! ## The ratio of two estimates -/

/-- `np.percentile(xs, 100 * t)` with numpy's default linear interpolation (utils.py:54-55);
`IndexError` on an empty array. -/
def percentile (xs : List ℚ) (t : ℚ) : Except Err ℚ := do
  let s := xs.insertionSort (· ≤ ·)
  let pos := t * ((xs.length : ℚ) - 1)
  let i := ⌊pos⌋₊
  let lo ← pyGet s i
  let hi := s.getD (i + 1) lo
  pure (lo + (pos - i) * (hi - lo))

/-- One element of `ratio` (utils.py:49). -/
def ratio (k1 k2 q : ℚ) (x : ℚ × ℚ) : ℚ := (q * x.1 + k1) / (q * (x.1 + x.2) + k1 + k2)

/-- `get_rat_dist` (utils.py:24-57): the mean and the interval; `draws` are the pairs
`(x1[i], x2[i])` returned by `np.random.beta`, which refuses a parameter that is not positive
(`ValueError`).  The number of draws is that of the list instead of a million. -/
def getRatDist (draws : List (ℚ × ℚ)) (k1 k2 q a1 a2 b1 b2 p : ℚ) :
    Except Err (ℚ × ℚ × ℚ) := do
  if ¬ ([k1, k2, a1, a2, b1, b2].all (0 ≤ ·)) then .error .value
  else if ¬ (0 < p ∧ p < 1) then .error .value
  else if ¬ (0 < a1 ∧ 0 < b1 ∧ 0 < a2 ∧ 0 < b2) then .error .value
  else
    let rat := draws.map (ratio k1 k2 q)
    let mean := rat.sum / rat.length
    let lo ← percentile rat (1 / 2 * (1 - p))
    let hi ← percentile rat (1 - 1 / 2 * (1 - p))
    pure (mean, lo, hi)

section
variable {K : Type} [DecidableEq K]

/-- One round of `get_prob_and_cov_cond` (cpm.py:911-942): `(a1, b1, a2, b2)`.  Weights summing to
zero give `nan` in numpy and zero here; the theorems exclude it. -/
def condRound (M : Cpm K) (cv1 : List (Variable K)) (cs1 : List ℕ) (cv2 : List (Variable K))
    (cs2 : List ℕ) (nsamp : ℕ) (acc : Option (ℚ × ℚ × ℚ × ℚ)) (i : ℕ) :
    Except Err (Option (ℚ × ℚ × ℚ × ℚ)) := do
  let w1 ← estWeights M cv1 cs1 true nsamp i
  let w2 ← estWeights M cv2 cs2 true nsamp i
  let n := nEff w1.1
  let t1 := nTrue w1.2 w1.1
  let t2 := nTrue w2.2 w1.1
  let ab := acc.getD (1 / 100, 1 / 100, 1 / 100, 1 / 100)
  pure (some (ab.1 + t1, ab.2.1 + (n - t1), ab.2.2.1 + (t2 - t1), ab.2.2.2 + (n - (t2 - t1))))

/-- `get_prob_and_cov_cond` (cpm.py:898-950): the estimate and the interval. -/
def Cpm.estimateCond (M : Cpm K) (draws : List (ℚ × ℚ)) (cv1 : List (Variable K)) (cs1 : List ℕ)
    (cv2 : List (Variable K)) (cs2 : List ℕ) (nsr : ℕ) (p : ℚ) : Except Err (ℚ × ℚ × ℚ) := do
  let rn ← estRounds M.Cs.length nsr
  let acc ← (List.range rn.1).foldlM (condRound M cv1 cs1 cv2 cs2 rn.2) none
  let probC ← M.getProb cv1 cs1 true
  let probCc ← M.getProb cv2 cs2 true
  match acc with
  | none => .error .unbound
  | some (a1, b1, a2, b2) =>
    getRatDist draws probC (probCc - probC) (1 - M.p.sum) a1 a2 b1 b2 p

end

/-! ## Small helpers -/

/-- `split` (branch.py:510-513): `range` refuses a zero step (`ValueError`) and is empty for a
negative one. -/
def pySplit {α : Type} (l : List α) (chunk : ℤ) : Except Err (List (List α)) :=
  if chunk = 0 then .error .value
  else if chunk < 0 then .ok []
  else
    let n := chunk.toNat
    .ok ((List.range ((l.length + n - 1) / n)).map fun j => (l.drop (j * n)).take n)

/-- `all_equal` (utils.py:11-14): `groupby` yields a second group iff some element differs from the
first one. -/
def allEqual {α : Type} [DecidableEq α] (l : List α) : Bool :=
  match l with
  | [] => true
  | a :: t => (t.dropWhile (· = a)).isEmpty

end BNS
