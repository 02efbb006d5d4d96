import Mathlib.Logic.Relation
import Verif.Spec.Ema

/-!
# Specification vocabulary: tables of nodes and arcs, and the files written for them
-/

namespace BNS

/-- Every node is in one row, and both ends of every arc are in the table. -/
structure TablesOKFor (nodes : List (ℕ × ℚ × ℚ)) (edges : List (ℕ × ℕ)) : Prop where
  once : (nodes.map Prod.fst).Nodup
  ends : ∀ e ∈ edges, e.1 ∈ nodes.map Prod.fst ∧ e.2 ∈ nodes.map Prod.fst

/-- A table of roads: in addition no road begins and ends at the same place, and there is at most one road
between two nodes. -/
structure RoadTables (nodes : List (ℕ × ℚ × ℚ)) (edges : List (ℕ × ℕ)) : Prop extends
    TablesOKFor nodes edges where
  apart : ∀ e ∈ edges, ∀ p q, (e.1, p) ∈ nodes → (e.2, q) ∈ nodes → p ≠ q
  single : edges.Pairwise fun a b => ¬ (a = b ∨ a = (b.2, b.1))

/-- There is a way from `o` to `d` over the arcs, in any direction. -/
def Joined (edges : List (ℕ × ℕ)) (o d : ℕ) : Prop :=
  Relation.ReflTransGen (fun u v => (u, v) ∈ edges ∨ (v, u) ∈ edges) o d

/-- The places of the nodes of the road demo. -/
def roadPlaces : List (ℕ × ℚ × ℚ) := [(1, -2, 3), (2, -2, -3), (3, 2, -2), (4, 1, 1), (5, 0, 0)]

/-- The roads of the road demo. -/
def roadPairs : List (ℕ × ℕ) := [(1, 2), (1, 5), (2, 5), (3, 4), (3, 5), (4, 5)]

/-- Travel speeds in the road demo, by the number of the arc. -/
def roadSpeed (i : ℕ) : ℚ := [0, 40, 40, 40, 30, 30, 20].getD i 0

section
variable {K : Type} [DecidableEq K]

/-- The files `pm` and `ps` contain the model `m` and the only scenario `s1`, with three damage states, in
which a connection takes ten times, twice and once its weight; everything else is as before. -/
structure DelayFiles (disk disk' : Disk K) (pm ps s1 : K) (m : NetJson K) (scen : List (K × List ℚ)) :
    Prop where
  dirs : disk'.dirs = disk.dirs
  others : ∀ k, k ≠ pm → k ≠ ps → disk'.files k = disk.files k
  model : disk'.files pm = some (.model m)
  scenFile : ∃ sc ds, disk'.files ps = some (.scen sc) ∧ sc.damage = some ds ∧ ds.length = 3 ∧
    sc.scenarios = [(s1, scen)]
  times : scen = m.conns.map fun c => (c.1, [10 * c.2.2.2, 2 * c.2.2.2, c.2.2.2])

/-- The model of the tables: the nodes with their places, the arcs in the order of the table with the time
that the straight line takes at the given speed, undirected and without parallel connections. -/
structure ModelOf (sqrt : ℚ → ℚ) (nd eg : ℕ → K) (nodes : List (ℕ × ℚ × ℚ)) (edges : List (ℕ × ℕ))
    (speed : ℕ → ℚ) (ods : List (K × K × K)) (m : NetJson K) : Prop where
  comps : m.comps = nodes.map fun r => (nd r.1, r.2)
  number : m.conns.length = edges.length
  conns : ∀ (i o d : ℕ), edges[i]? = some (o, d) → ∃ p q, (o, p) ∈ nodes ∧ (d, q) ∈ nodes ∧
    m.conns[i]? = some (eg (i + 1), nd o, nd d,
      sqrt ((p.1 - q.1) ^ 2 + (p.2 - q.2) ^ 2) / speed (i + 1))
  ods : m.ods = ods
  gtype : m.gtype = none

end

end BNS
