import Mathlib.Probability.Distributions.Gaussian.Multivariate
import Verif.Model.Variable

/-!
# What the post-processing of the pf_map demo should compute

The roads have safety margins with a joint normal distribution; a road fails when its margin is not
positive.
-/

namespace BNS

open ProbabilityTheory (multivariateGaussian)
open MeasureTheory WithLp

/-- `multivariate_normal.cdf(0, mean, cov)`: the probability that no coordinate of a normal vector with
this mean and this covariance matrix is positive. -/
noncomputable def mvnCdf (m : List ℝ) (c : List (List ℝ)) : ℝ :=
  (multivariateGaussian (toLp 2 fun i : Fin m.length => m.getD i 0)
    (Matrix.of fun i j : Fin m.length => (c.getD i []).getD j 0)).real {y | ∀ i, y i ≤ 0}

/-- The margins of `n` roads with given means and covariances. -/
noncomputable def margins (n : ℕ) (m : ℕ → ℝ) (S : ℕ → ℕ → ℝ) : Measure (EuclideanSpace ℝ (Fin n)) :=
  multivariateGaussian (toLp 2 fun i => m i) (Matrix.of fun i j : Fin n => S i j)

/-- The event that the roads are in the given states: 0 failed, 1 surviving, other states undecided. -/
def roadEvent (n : ℕ) (st : ℕ → ℕ) : Set (EuclideanSpace ℝ (Fin n)) :=
  {x | ∀ i : Fin n, (st i = 0 → x i ≤ 0) ∧ (st i = 1 → 0 < x i)}

/-- `mean` and `cov` describe the margins of the roads `arcs`: means `m`, covariances `S`, none of the
margins constant. -/
structure RoadData {K : Type} [DecidableEq K] (arcs : List K) (mean : List (K × ℝ)) (cov : List (List ℝ))
    (m : ℕ → ℝ) (S : ℕ → ℕ → ℝ) : Prop where
  mean : ∀ j k, arcs[j]? = some k → mean.lookup k = some (m j)
  cov : ∀ i < arcs.length, ∀ j < arcs.length, ∃ r, cov[i]? = some r ∧ r[j]? = some (S i j)
  psd : (Matrix.of fun i j : Fin arcs.length => S i j).PosSemidef
  pos : ∀ i < arcs.length, 0 < S i i

/-- The row `c` over the variables `scope` has the state `st j` for the `j`-th road: failed, surviving or
undecided, and some road is decided. -/
structure RoadRow {K : Type} (scope : List (Variable K)) (arcs : List K) (c : List ℕ) (st : ℕ → ℕ) :
    Prop where
  nodup : (scope.map (·.name)).Nodup
  col : ∀ j k, arcs[j]? = some k → ∃ (i : ℕ) (v : Variable K), scope[i]? = some v ∧ v.name = k ∧ c[i]? = some (st j)
  state : ∀ j < arcs.length, st j ≤ 2
  decided : ∃ j < arcs.length, st j ≠ 2

end BNS
