import Verif.Model.PfMain
import Verif.Spec.PfNode
import Verif.Spec.RoadModel
import Verif.Spec.RoadDist
import Verif.Spec.McsIndep

/-!
# Specification vocabulary of the pf_map demo: its files
-/

namespace BNS

variable {K : Type} [DecidableEq K]

/-- Where a node is. -/
def placeOf (m : NetJson K) (n : K) : ℚ × ℚ := (m.comps.lookup n).getD (0, 0)

/-- The hours it takes from `a` to `b` at 100 km/h, rounded. -/
noncomputable def roadHours (N : PfNum) (a b : ℚ × ℚ) : ℚ :=
  N.rnd (√(((a.1 : ℝ) - b.1) ^ 2 + ((a.2 : ℝ) - b.2) ^ 2) / 100)

/-- A configuration file and a model file with all entries the demo reads, without a scenario file:
`mb`, `w`, `sf` and `cov` are the entries `MAX_BRANCHES`, `SYS_BND_WIDTH_RATIO`, `MAX_SYS_FUN` and
`MCS_COV`, `q` is the output directory.  The network is undirected, no two roads connect the same nodes,
every road has its ends at two different places in the list of nodes; no node is called like a road;
there are origins, which are nodes. -/
structure PfFileOK (nSf nWr nCov : K) (files : K → Option (FileC K)) (ext : K → PfExt K)
    (data : List (CfgKey K × CfgVal K)) (p q : K) (m : NetJson K) (mb w : ℚ) (sf cov : CfgVal K) :
    Prop where
  model : data.lookup .modelName = some (.text p)
  file : files p = some (.model m)
  scen : ∃ v, data.lookup .scenarioName = some v ∧ (v = .empty ∨ v = .null ∨ v = .num 0)
  id : ∃ key, data.lookup .configurationId = some key
  branches : data.lookup .maxBranches = some (.num mb)
  out : data.lookup .outputPath = some (.text q)
  sf : data.lookup (.other nSf) = some sf
  wr : data.lookup (.other nWr) = some (.num w)
  cov : data.lookup (.other nCov) = some cov
  gtype : m.gtype = none ∨ m.gtype = some .graph
  noParallel : NoParallel false m.conns
  names : (m.conns.map Prod.fst).Nodup
  ne : m.conns ≠ []
  nodes : (m.comps.map Prod.fst).Nodup
  ends : ∀ c ∈ m.conns, c.2.1 ∈ m.comps.map Prod.fst ∧ c.2.2.1 ∈ m.comps.map Prod.fst ∧
    placeOf m c.2.1 ≠ placeOf m c.2.2.1
  apart : ∀ n ∈ m.comps.map Prod.fst, n ∉ m.conns.map Prod.fst
  frags : ∀ c ∈ m.conns, ∃ f meds disp, (ext p).frags.lookup c.1 = some f ∧
    (ext p).frag.lookup f = some (meds, disp) ∧ 3 ≤ meds.length
  origins : (ext p).origins ≠ []
  originNodes : ∀ e ∈ (ext p).origins, e.2 ∈ m.comps.map Prod.fst
  thres : 0 < (ext p).thres

/-- What is needed of the numerical functions: probabilities stay probabilities, travel times are
positive and not above the number that stands for infinity. -/
structure PfNumOK (N : PfNum) (m : NetJson K) : Prop where
  cdf : ∀ x μ σ, 0 ≤ N.cdf x μ σ ∧ N.cdf x μ σ ≤ 1
  rnd : ∀ x, 0 ≤ x → x ≤ 1 → 0 ≤ N.rnd x ∧ N.rnd x ≤ 1
  times : ∀ c ∈ m.conns, 0 < roadHours N (placeOf m c.2.1) (placeOf m c.2.2.1) ∧
    roadHours N (placeOf m c.2.1) (placeOf m c.2.2.1) ≤ N.far

/-- The failure probability of the road `c` in an earthquake of magnitude `Mw` at `(x0, y0)`: that of the
ground motion model at the nearest point of the road, for extensive damage. -/
def RoadProb (N : PfNum) (m : NetJson K) (e : PfExt K) (x0 y0 Mw : ℝ) (c : K × K × K × ℚ) (pr : ℝ) :
    Prop :=
  ∃ r f meds disp med,
    IsLeast (roadDists (placeOf m c.2.1).1 (placeOf m c.2.1).2 (placeOf m c.2.2.1).1
      (placeOf m c.2.2.1).2 x0 y0) r ∧
    e.frags.lookup c.1 = some f ∧ e.frag.lookup f = some (meds, disp) ∧ meds[2]? = some med ∧
    pr = N.cdf 0 (Real.log med - gmpeLnSa Mw r)
      (√(gmpeStdAl Mw ^ 2 + epsStd N.bis (npClip Mw 5 8.2) (npClip r 1 70) ^ 2 + disp ^ 2))

/-- The roads of the model file, with probability `pf` of failure: the input of the analysis. -/
noncomputable def pfCfgOf (N : PfNum) (m : NetJson K) (e : PfExt K) (pf : K → ℝ) (maxSf maxNb : ℕ) (w : ℚ) :
    PfCfg K where
  G := fileGraph m
  dests := e.dests
  thres := e.thres
  varis := m.conns.map fun c =>
    (c.1, Variable.mk' c.1 [N.far, roadHours N (placeOf m c.2.1) (placeOf m c.2.2.1)] .dflt)
  probs := fun k s => if s = 0 then N.rnd (pf k) else 1 - N.rnd (pf k)
  maxSf := maxSf
  maxNb := maxNb
  wr := w

/-- The same roads as components to draw from; the system function and the target do not matter for
that. -/
noncomputable def pfDraws (N : PfNum) (m : NetJson K) (pf : K → ℝ) : IndepCfg K where
  names := m.conns.map Prod.fst
  keys := fun _ => [0, 1]
  prob := fun k s => if s = 0 then N.rnd (pf k) else 1 - N.rnd (pf k)
  sysFun := fun _ => { val := 0, st := .s, min := [] }
  covT := 0

/-- How many of the first `n` vectors of road states leave the node without a destination in time. -/
noncomputable def nCut (S : PfCfg K) (node : K) (th : ℚ) (xs : ℕ → K → ℕ) (n : ℕ) : ℕ :=
  open Classical in (List.range n).countP fun i => ¬ Reaches S node th (xs i)

/-- The simulation may stop after `n` vectors: the last one cuts the node off, more than five did, and
the squared coefficient of variation is at most `0.01 ^ 2`. -/
def CutStop (S : PfCfg K) (node : K) (th : ℚ) (xs : ℕ → K → ℕ) (n : ℕ) : Prop :=
  ∃ m, n = m + 1 ∧ ¬ Reaches S node th (xs m) ∧ 5 < nCut S node th xs n ∧
    (1 - (nCut S node th xs n : ℚ) / n) / nCut S node th xs n ≤ (1 / 100) ^ 2

/-- The roads as `main` has stored them in the output directory `d`. -/
def RoadsStored (N : PfNum) (m : NetJson K) (d : PfDir K) : Prop :=
  ∃ vs, d.varis = some vs ∧ ∀ c ∈ m.conns, vs.lookup c.1 =
    some (Variable.mk' c.1 [N.far, roadHours N (placeOf m c.2.1) (placeOf m c.2.2.1)] .dflt)

end BNS
