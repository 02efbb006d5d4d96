import Mathlib.Analysis.SpecialFunctions.Log.ENNRealLogExp
import Mathlib.Data.Sign.Basic

/-!
# Model of `get_prod` (cpm.py:1105-1121)

Over the reals.  `np.log(0)` is `-inf`, `np.exp(-inf)` is `0`: the logarithm and the exponential
are the extended-real ones of Mathlib.  Rounding is not modelled.
-/

namespace BNS

/-- One entry of `np.exp(np.log(np.abs(A)) + np.log(np.abs(B)))` (cpm.py:1119). -/
noncomputable def logProdVal (a b : ℝ) : ℝ :=
  (EReal.exp (ENNReal.log (ENNReal.ofReal |a|) + ENNReal.log (ENNReal.ofReal |b|))).toReal

/-- One entry of `get_prod` (cpm.py:1118-1121). -/
noncomputable def getProdEntry (a b : ℝ) : ℝ := (SignType.sign (a * b) : ℝ) * logProdVal a b

/-- `get_prod(A, B)` for a matrix `A` and a vector `B` that numpy broadcasts over its rows
(cpm.py:1105-1121); `none` when the assertion of line 1116 fails. -/
noncomputable def getProd (A : List (List ℝ)) (B : List ℝ) : Option (List (List ℝ)) :=
  if ∀ r ∈ A, r.length = B.length then some (A.map fun r => List.zipWith getProdEntry r B)
  else none

end BNS
