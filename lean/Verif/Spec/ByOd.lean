import Verif.Spec.RoadModel
import Verif.Spec.Csys

/-!
# Specification vocabulary: a road network whose connections are delayed
-/

namespace BNS

variable {K : Type} [DecidableEq K]

/-- Travel time over connection `k` in state `s`. -/
def delayTime (scen : List (K × List ℚ)) (k : K) (s : ℕ) : ℚ :=
  (((scen.lookup k).getD [])[s]?).getD 0

/-- Travel time of a route when the connections are in the states `x`. -/
def delayOf (scen : List (K × List ℚ)) (x : K → ℕ) (es : List (NEdge K)) : ℚ :=
  (es.map fun e => delayTime scen e.label (x e.label)).sum

/-- The connections and their numbers of states. -/
def delayVs (m : NetJson K) (scen : List (K × List ℚ)) : List (K × ℕ) :=
  m.conns.map fun c => (c.1, ((scen.lookup c.1).getD []).length)

/-- Every connection in its best state. -/
def allIntact (scen : List (K × List ℚ)) (k : K) : ℕ := ((scen.lookup k).getD []).length - 1

/-- `t` is the shortest travel time from `o` to `d` in the states `x`. -/
def ShortestTime (m : NetJson K) (scen : List (K × List ℚ)) (o d : K) (x : K → ℕ) (t : ℚ) : Prop :=
  (∃ es ns, Route (fileGraph m) o es ns d ∧ delayOf scen x es = t) ∧
  ∀ es ns, Route (fileGraph m) o es ns d → t ≤ delayOf scen x es

/-- Some route from `o` to `d` takes at most `th` in the states `x`. -/
def Reachable (m : NetJson K) (scen : List (K × List ℚ)) (o d : K) (th : ℚ) (x : K → ℕ) : Prop :=
  ∃ es ns, Route (fileGraph m) o es ns d ∧ delayOf scen x es ≤ th

/-- A model file and a scenario for which `get_branches_by_od` works: no parallel connections and not
a multigraph; one to six positive travel times for each connection, shorter in better states; every
origin is connected to its destination, a different node. -/
structure DelayModelOK (m : NetJson K) (scen : List (K × List ℚ)) : Prop where
  gtype : m.gtype ≠ some .other
  simple : m.gtype ≠ some .multigraph ∧ m.gtype ≠ some .multidigraph
  noParallel : NoParallel (m.gtype = some .digraph) m.conns
  names : (m.conns.map Prod.fst).Nodup
  times : ∀ c ∈ m.conns, ∃ ts, scen.lookup c.1 = some ts ∧ ts ≠ [] ∧ ts.length ≤ 6 ∧
    (∀ t ∈ ts, 0 < t) ∧ ts.Pairwise (· ≥ ·)
  ods : ∀ od ∈ m.ods, od.2.1 ≠ od.2.2 ∧ ∃ es ns, Route (fileGraph m) od.2.1 es ns od.2.2

end BNS
