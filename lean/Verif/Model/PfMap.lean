import Mathlib.Analysis.SpecialFunctions.Log.Basic
import Mathlib.Analysis.Real.Sqrt
import Verif.Model.Trans

/-!
# Model of the road failure probabilities of `BNS_JT/demos/pf_map/batch.py`

`shortest_distance`, `gmpe_cam03`, `cal_edge_dist` and `cal_edge_dist_output`.  Dictionaries are their
lists of items.  Numbers are real, `np.log`, `np.exp` and `np.sqrt` the real functions; the logarithm
of a median that is not positive (`-inf` or `nan` in numpy) is not modelled.  `interpolate.bisplrep` and
`bisplev` are an argument `bis`: it gets the flattened arrays of the two coordinates and of the values
and the point to evaluate.  `norm.cdf(x, mean, std)` is an argument `cdf`.
-/

namespace BNS

set_option linter.unusedSectionVars false

section
variable {F : Type} [Field F] [LinearOrder F]

/-- `shortest_distance(line_pt1, line_pt2, pt)` (pf_map/batch.py:130-159).  The points are unpacked
(`ValueError` for other than two numbers); equal end points divide by zero (`ZeroDivisionError`, here
`value`). -/
def shortestDistance (sqrt : F → F) (p1 p2 pt : List F) : Except Err F :=
  match p1, p2, pt with
  | [x1, y1], [x2, y2], [x0, y0] =>
    if (x2 - x1) ^ 2 + (y2 - y1) ^ 2 = 0 then .error .value
    else
      let dot1 := ((x0 - x1) * (x2 - x1) + (y0 - y1) * (y2 - y1)) / ((x2 - x1) ^ 2 + (y2 - y1) ^ 2)
      let dot2 := ((x0 - x2) * (x1 - x2) + (y0 - y2) * (y1 - y2)) / ((x1 - x2) ^ 2 + (y1 - y2) ^ 2)
      if dot1 < 0 then .ok (sqrt ((x0 - x1) ^ 2 + (y0 - y1) ^ 2))
      else if dot2 < 0 then .ok (sqrt ((x0 - x2) ^ 2 + (y0 - y2) ^ 2))
      else
        let num := (y2 - y1) * x0 - (x2 - x1) * y0 + x2 * y1 - y2 * x1
        .ok ((if num < 0 then -num else num) / sqrt ((y2 - y1) ^ 2 + (x2 - x1) ^ 2))
  | _, _, _ => .error .value

end

/-! ## The ground motion model -/

/-- `std_eps_Mw` (pf_map/batch.py:182). -/
def epsMw : List ℚ := [5, 54 / 10, 58 / 10, 62 / 10, 66 / 10, 7, 74 / 10, 78 / 10, 82 / 10]

/-- `std_eps_rrup` (pf_map/batch.py:183). -/
def epsRrup : List ℚ := [1, 2, 3, 5, 7, 10, 20, 30, 40, 50, 70]

/-- `std_eps_val` (pf_map/batch.py:184-192), in hundredths: a row for each magnitude. -/
def epsVal : List (List ℕ) :=
  [[24, 25, 25, 21, 18, 13, 6, 10, 14, 17, 23],
   [22, 23, 23, 22, 19, 16, 10, 11, 14, 18, 23],
   [19, 20, 21, 20, 19, 17, 14, 15, 18, 21, 27],
   [15, 15, 16, 16, 17, 16, 14, 15, 18, 21, 27],
   [12, 13, 13, 13, 14, 14, 13, 15, 18, 21, 27],
   [13, 13, 13, 13, 14, 14, 14, 15, 17, 20, 27],
   [14, 13, 13, 14, 15, 16, 16, 16, 18, 21, 27],
   [15, 15, 14, 15, 15, 17, 18, 18, 20, 22, 28],
   [17, 17, 16, 16, 17, 18, 20, 21, 22, 23, 29]]

/-- `Mw_grid, rrup_grid = np.meshgrid(std_eps_Mw, std_eps_rrup)` (pf_map/batch.py:194), flattened: a
row for each distance. -/
def epsGrid : List (ℚ × ℚ) := epsRrup.flatMap fun r => epsMw.map fun m => (m, r)

/-- `interpolate.bisplrep(Mw_grid, rrup_grid, std_eps_val, s=0)` and `bisplev` (pf_map/batch.py:195,
219): scipy flattens the three arrays. -/
noncomputable def epsStd (bis : List ℝ → List ℝ → List ℝ → ℝ → ℝ → ℝ) (m r : ℝ) : ℝ :=
  bis (epsGrid.map fun g => (g.1 : ℝ)) (epsGrid.map fun g => (g.2 : ℝ))
    (epsVal.flatten.map fun v : ℕ => (v : ℝ) / 100) m r

/-- The mean of the logarithm of Sa at distance `r` (pf_map/batch.py:201-214). -/
noncomputable def gmpeLnSa (Mw r : ℝ) : ℝ :=
  let c1 := -0.6104
  let c2 := 0.451
  let c3 := -0.2090
  let c4 := -1.158
  let c5 := -0.00255
  let c6 := 0.000141
  let c7 := 0.299
  let c8 := 0.503
  let f1 := c2 * Mw + c3 * (8.5 - Mw) ^ 2
  let R := √(r ^ 2 + (c7 * Real.exp (c8 * Mw)) ^ 2)
  let f2 := c4 * Real.log R + (c5 + c6 * Mw) * r
  let f3 := if r ≤ 70 then 0
    else if r ≤ 130 then c7 * Real.log (r / 70)
    else c7 * Real.log (r / 70) + c8 * Real.log (r / 130)
  c1 + f1 + f2 + f3

/-- `std_al` (pf_map/batch.py:222-225). -/
noncomputable def gmpeStdAl (Mw : ℝ) : ℝ := if Mw < 7.16 then 1.110 + -0.0793 else 0.543

/-- `np.clip(x, a, b)`.  As in pf_map/batch.py:162-227. -/
noncomputable def npClip (x a b : ℝ) : ℝ := min (max x a) b

section
variable {K : Type} [DecidableEq K]

/-- `gmpe_cam03(Mw, Rrup)` (pf_map/batch.py:162-227). -/
noncomputable def gmpeCam03 (bis : List ℝ → List ℝ → List ℝ → ℝ → ℝ → ℝ) (Mw : ℝ)
    (rrup : List (K × ℝ)) : Except Err (List (K × ℝ) × ℝ × List (K × ℝ)) :=
  open Classical in
  if 6 ≤ Mw ∧ Mw ≤ 8.5 then
    .ok (rrup.map fun e => (e.1, gmpeLnSa Mw e.2), gmpeStdAl Mw,
      rrup.map fun e => (e.1, epsStd bis (npClip Mw 5 8.2) (npClip e.2 1 70)))
  else .error .assertion

/-! ## Roads -/

/-- An entry of `cfg.infra['edges']`, as far as it is used.  As in pf_map/batch.py:65-82, 108-125. -/
structure RoadEdge (K : Type) where
  origin : K
  dest : K
  frag : K

/-- The part of `cfg.infra` that is read: the coordinates of the nodes as `.values()` lists them, the
medians `Sa_g` and the dispersion of the fragility types, epicentre and magnitude of the earthquakes.
As in pf_map/batch.py:45-52, 87-94. -/
structure RoadCfg (K : Type) where
  edges : List (K × RoadEdge K)
  nodes : List (K × List ℝ)
  frag : List (K × List ℝ × ℝ)
  eq : List (K × List ℝ × ℝ)

/-- `Rrup` (pf_map/batch.py:45-52, 87-94). -/
noncomputable def roadRrup (c : RoadCfg K) (epi : List ℝ) : Except Err (List (K × ℝ)) :=
  c.edges.mapM fun e => do
    let org ← itemsGet c.nodes e.2.origin
    let dest ← itemsGet c.nodes e.2.dest
    let d ← shortestDistance Real.sqrt org dest epi
    return (e.1, d)

/-- What the loop computes for one road (pf_map/batch.py:65-82, 108-125): the variance, the mean and
the failure probability.  `dmg_st` is 2. -/
noncomputable def roadDist (cdf : ℝ → ℝ → ℝ → ℝ) (c : RoadCfg K) (lnSa : List (K × ℝ)) (stdAl : ℝ)
    (stdEp : List (K × ℝ)) (e : K × RoadEdge K) : Except Err (ℝ × ℝ × ℝ) := do
  let fr ← itemsGet c.frag e.2.frag
  let med ← pyGet fr.1 2
  let ep ← itemsGet stdEp e.1
  let ls ← itemsGet lnSa e.1
  let var := stdAl ^ 2 + ep ^ 2 + fr.2 ^ 2
  let mean := Real.log med - ls
  return (var, mean, cdf 0 mean (√var))

/-- The covariance matrix (pf_map/batch.py:72-77, 115-120): `vars` are the variances in the order of
the edges, whose names are keys and so distinct. -/
noncomputable def roadCov (stdAl : ℝ) (vars : List ℝ) : List (List ℝ) :=
  vars.zipIdx.map fun v1 => vars.zipIdx.map fun v2 => if v1.2 = v2.2 then v1.1 else stdAl ^ 2

/-- What `cal_edge_dist_output` returns.  As in pf_map/batch.py:85-127. -/
structure RoadOut (K : Type) where
  pf : List (K × ℝ)
  mean : List (K × ℝ)
  cov : List (List ℝ)
  lnSa : List (K × ℝ)

/-- `cal_edge_dist_output(cfg, eq_name)` (pf_map/batch.py:85-127); `cal_edge_dist` (pf_map/batch.py:43-82) computes the
same and writes mean and failure probability into the entries of `edges`. -/
noncomputable def calEdgeDistOutput (bis : List ℝ → List ℝ → List ℝ → ℝ → ℝ → ℝ)
    (cdf : ℝ → ℝ → ℝ → ℝ) (c : RoadCfg K) (eqName : K) : Except Err (RoadOut K) := do
  let eq ← itemsGet c.eq eqName
  let rrup ← roadRrup c eq.1
  let g ← gmpeCam03 bis eq.2 rrup
  let ds ← c.edges.mapM fun e => do
    let d ← roadDist cdf c g.1 g.2.1 g.2.2 e
    return (e.1, d)
  return { pf := ds.map fun d => (d.1, d.2.2.2)
           mean := ds.map fun d => (d.1, d.2.2.1)
           cov := roadCov g.2.1 (ds.map fun d => d.2.1)
           lnSa := g.1 }

end

end BNS
