import Verif.Model.Operation

/-!
# Number of roundings of `cal_Msys_by_cond_VE`
-/

namespace BNS

variable {K : Type} [DecidableEq K]

/-- Relative errors in the result of `cal_Msys_by_cond_VE`, read off the network `d` (whose tables have
`k` each): `D` tables, `W` columns in all, `n` the product of the numbers of rows, `c` that of the
conditioning tables. -/
def condVERoundings (k : ℕ) (d : List (K × Cpm K)) (cond : List K) : ℕ :=
  let D := d.length
  let W := (d.map fun km => km.2.vars.length).sum
  let n := (d.map fun km => max 1 km.2.C.length).prod
  let c := (cond.map fun x => max 1 (((d.lookup x).map fun M => M.C.length).getD 0)).prod
  (D + cond.length + 1) * (k + 1) + 2 * W * (D * (k + 1) + D * n + n + 1) + n * n + n * n * c +
    c * (2 * (n * n * c))

end BNS
