import Mathlib.Analysis.SpecialFunctions.Sqrt

/-!
# Specification vocabulary: distances from a road
-/

namespace BNS

/-- The distances of the point `(x0, y0)` from the points of the straight road from `(x1, y1)` to
`(x2, y2)`. -/
def roadDists (x1 y1 x2 y2 x0 y0 : ℝ) : Set ℝ :=
  {d | ∃ t, 0 ≤ t ∧ t ≤ 1 ∧
    d = √((x0 - (x1 + t * (x2 - x1))) ^ 2 + (y0 - (y1 + t * (y2 - y1))) ^ 2)}

end BNS
