import Verif.Model.PfMap
import Verif.Model.PfNode
import Verif.Model.CpmEdit

/-!
# Model of the post-processing of the pf_map demo

`cal_prob_dep`, `eval_pfs_dep`, `update_pf1` and `update_pfs` of demos/pf_map/post.py, for arrays over
any field; `scipy.stats.multivariate_normal.cdf` at the origin is a parameter, with the mean and the
rows of the covariance matrix as arguments.  Reading the pickled files is left out: their contents are
arguments.
-/

namespace BNS

set_option linter.unusedSectionVars false

section
variable {K : Type} [DecidableEq K] {F : Type} [Field F]

/-- What has been collected for one row: `mean_`, `cov_` and `arcs_idx_` (pf_map/post.py:45-47). -/
structure DepArgs (F : Type) where
  mean : List F := []
  cov : List (List F) := []
  idx : List ℕ := []

/-- `COV[i, j]`.  As in pf_map/post.py:49-66. -/
def covGet (cov : List (List F)) (i j : ℕ) : Except Err F := do
  let r ← pyGet cov i
  pyGet r j

/-- The update of `mean_` (pf_map/post.py:54-57); other states leave it as it is. -/
def depMean (mean : List (K × F)) (k : K) (s : ℕ) (ms : List F) : Except Err (List F) :=
  if s = 1 then do
    let m ← itemsGet mean k
    return ms ++ [-m]
  else if s = 0 then do
    let m ← itemsGet mean k
    return ms ++ [m]
  else .ok ms

/-- `cov_` with one more column and one more row (pf_map/post.py:62-64). -/
def depCov (cov : List (List F)) (col : List F) (d : F) : List (List F) :=
  List.zipWith (fun r x => r ++ [x]) cov col ++ [col ++ [d]]

/-- One pass of the loop over the roads (pf_map/post.py:49-66) for the row `c`.  For a road that is no variable
`c_idx` is `None`: `c[None]` is the whole row as a matrix, whose comparison with 2 has no truth value
(`ValueError`, if there are at least two columns). -/
def depStep (scope : List (Variable K)) (c : List ℕ) (mean : List (K × F)) (cov : List (List F))
    (st : DepArgs F) (a : K × ℕ) : Except Err (DepArgs F) :=
  match scope.findIdx? (fun v => v.name = a.1) with
  | none => .error .value
  | some i => do
    let s ← pyGet c i
    if s = 2 then return st
    else do
      let ms ← depMean mean a.1 s st.mean
      let col ← st.idx.mapM fun i => covGet cov i a.2
      let d ← covGet cov a.2 a.2
      return { mean := ms, cov := depCov st.cov col d, idx := st.idx ++ [a.2] }

/-- Mean and covariance for one row (pf_map/post.py:45-68). -/
def depArgs (scope : List (Variable K)) (arcs : List K) (mean : List (K × F)) (cov : List (List F))
    (c : List ℕ) : Except Err (DepArgs F) :=
  arcs.zipIdx.foldlM (depStep scope c mean cov) {}

/-- The probability of one row before the normalisation (pf_map/post.py:69).  `multivariate_normal.cdf` refuses
a mean whose size is not that of the covariance matrix. -/
def depRow (cdf : List F → List (List F) → F) (scope : List (Variable K)) (arcs : List K)
    (mean : List (K × F)) (cov : List (List F)) (c : List ℕ) : Except Err F := do
  let a ← depArgs scope arcs mean cov c
  if a.mean.length = a.idx.length then return cdf a.mean a.cov else .error .value

/-- `p_node` (pf_map/post.py:41-72): an array of the size of `p`, so that without probabilities the assignment
to an entry is an `IndexError`.  If the sum is zero numpy gives `nan` with a warning. -/
def depWeights (cdf : List F → List (List F) → F) (M : Cpm K) (arcs : List K)
    (mean : List (K × F)) (cov : List (List F)) : Except Err (List F) := do
  let ws ← M.C.zipIdx.mapM fun c => do
    let w ← depRow cdf M.vars arcs mean cov c.1
    if c.2 < M.p.length then return w else .error .index
  return ws.map fun w => w / ws.sum

/-- `cpm.get_prob(…)`, `cpm.get_prob_and_cov(…)` and `cpm.prod_Msys_and_Mcomps(…)` (pf_map/post.py:77, 120,
193, 200, 206): the module cpm.py has no functions of these names, they are methods of `Cpm` or of
another name: `AttributeError`. -/
def noSuchFunction {α : Type} : Except Err α := .error .attribute

/-- What is removed from a CPM with samples (pf_map/post.py:84-86, 196-198): the rows with state 2 of the given
variable. -/
def dropUnknown (M : Cpm K) (v : Variable K) : Except Err (Cpm K) := do
  let one ← Cpm.mk' { vars := [v], noChild := 1, C := [[2]], p := [1] }
  let mask ← M.isCompatibleM one true
  M.getSubset (whereTrue (mask.map (!·))) true

/-- `cal_prob_dep(node, cfg, eq_name, arcs, output_path)` (pf_map/post.py:25-132) given the output of
`cal_edge_dist_output` and the pickled CPMs.  The densities of the samples (pf_map/post.py:88-118) are left out;
the call behind them raises in any case.  Returned are `pf`, `pf_bnd` and `cov`. -/
def calProbDep (cdf : List F → List (List F) → F) (cpms : List (K × Cpm K)) (arcs : List K)
    (mean : List (K × F)) (cov : List (List F)) (node : K) : Except Err (F × F × F) := do
  let M ← itemsGet cpms node
  let w ← depWeights cdf M arcs mean cov
  pyAssert (w = [] ∨ w.length = M.C.length)
  if M.Cs = [] then do
    let low : F ← noSuchFunction
    let unk : F ← noSuchFunction
    return (low, unk, 0)
  else do
    let v ← pyGet M.vars 0
    let _ ← dropUnknown M v
    noSuchFunction

/-- The new probabilities of the roads (pf_map/post.py:186-187). -/
def updateArcs (newProbs : List (K × ℚ × ℚ)) (cpms : List (K × Cpm K)) (arcs : List K) :
    Except Err (List (K × Cpm K)) :=
  arcs.foldlM (fun d k => do
    let p ← itemsGet newProbs k
    let M ← itemsGet d k
    let M' ← M.assign (.p [p.1, p.2])
    return itemSet d k M') cpms

/-- `update_pf1(node, arcs, varis, new_probs)` (pf_map/post.py:178-216) given the pickled CPMs.  `cpms[k]` in
the lines 191-194 is that of the last road; without roads `k` has no value. -/
def updatePf1 (cpms : List (K × Cpm K)) (arcs : List K) (varis : List (K × Variable K))
    (newProbs : List (K × ℚ × ℚ)) (node : K) : Except Err (ℚ × ℚ × ℚ) := do
  let cpms ← updateArcs newProbs cpms arcs
  let M ← itemsGet cpms node
  if M.Cs = [] then noSuchFunction
  else
    match arcs.getLast? with
    | none => .error .unbound
    | some k => do
      let Mk ← itemsGet cpms k
      let _ ← Mk.q.mapM fun _ => (noSuchFunction : Except Err ℚ)
      let v ← itemsGet varis node
      let _ ← dropUnknown M v
      noSuchFunction

/-- `eval_pfs_dep` (pf_map/post.py:136-176) and `update_pfs` (pf_map/post.py:218-262) after the input was read: `f` is
what is submitted for each node, `done` the order in which the nodes are completed; then a line for each
node but the epicentre and the origins. -/
def postMap {R : Type} (f : K → Except Err R) (nodes : List K) (epi : K) (origins : List K)
    (done : List K) : Except Err (List (K × R)) := do
  let rows ← done.mapM fun n => do
    let r ← f n
    return (n, r)
  (nodes.filter fun n => n ≠ epi ∧ n ∉ origins).mapM fun n => do
    let r ← itemsGet rows n
    return (n, r)

end

end BNS
