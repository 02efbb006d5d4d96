import Verif.Spec.SysNet

/-!
# Specification vocabulary: system probabilities computed with rounded arithmetic
-/

namespace BNS

variable {K : Type}

/-- Number of roundings in a system probability computed from `n` branches: two per table, and for
every component, and once for the query, the product of the numbers of rows of all tables. -/
def netRoundings (vs : List (K × ℕ)) (n : ℕ) : ℕ :=
  2 * (vs.length + 1) + (vs.length + 1) * ((vs.map Prod.snd).prod * n)

end BNS
