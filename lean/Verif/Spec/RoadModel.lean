import Verif.Spec.Paths
import Verif.Spec.ModelPy
import Verif.Model.Paths

/-!
# Specification vocabulary: a model file with one origin and destination
-/

namespace BNS

variable {K : Type} [DecidableEq K]

/-- The graph of a model file with no parallel connections, as a user draws it: the ends of the
connections and the entries of the component list are nodes, every connection is an edge. -/
def fileGraph (m : NetJson K) : NGraph K where
  directed := m.gtype = some .digraph
  multi := false
  nodes := (m.comps.map Prod.fst ++ m.conns.flatMap fun c => [c.2.1, c.2.2.1]).dedup
  edges := m.conns.map fun c =>
    { src := c.2.1, dst := c.2.2.1, key := .inl 0, label := c.1, weight := c.2.2.2 }

/-- A model file for which the whole path-based computation works: a graph without parallel
connections, weights that are not negative, one pair of different nodes that are connected by one to
five simple routes, whose weights are equal or differ by more than the tolerance; two damage states;
in every scenario two probabilities for each connection. -/
structure RoadModelOK (m : NetJson K) (damage : List ℚ) (scens : List (K × List (K × List ℚ)))
    (od o d : K) : Prop where
  gtype : m.gtype ≠ some .other
  noParallel : NoParallel (m.gtype = some .digraph) m.conns
  simple : m.gtype ≠ some .multigraph ∧ m.gtype ≠ some .multidigraph
  names : (m.conns.map Prod.fst).Nodup
  weights : ∀ c ∈ m.conns, 0 ≤ c.2.2.2
  ods : m.ods = [(od, o, d)]
  odNew : od ∉ m.conns.map Prod.fst
  differ : o ≠ d
  connected : ∃ es, SimpleRoute (fileGraph m) o d es
  few : ∀ rs : List (List (NEdge K)), rs.Nodup → (∀ es ∈ rs, SimpleRoute (fileGraph m) o d es) → rs.length ≤ 5
  apart : ∀ es es', SimpleRoute (fileGraph m) o d es → SimpleRoute (fileGraph m) o d es' →
    TimesApart (some (es.map NEdge.weight).sum) (some (es'.map NEdge.weight).sum)
  two : damage.length = 2
  scen : ∀ s ∈ scens, (s.2.map Prod.fst).Perm (m.conns.map Prod.fst) ∧ ∀ kv ∈ s.2, kv.2.length = 2

end BNS
