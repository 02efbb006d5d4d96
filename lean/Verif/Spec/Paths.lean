import Verif.Spec.Net
import Verif.Spec.Bnb

/-!
# Specification vocabulary: simple paths and fastest routes
-/

namespace BNS

variable {K : Type}

/-- The contract of `networkx.all_simple_paths` for two different nodes: all paths that visit no node
twice, each once unless there are parallel edges; an exception if the source is not a node. -/
structure SimplePathLibOK (lib : NGraph K → K → K → Except Err (List (List K))) : Prop where
  paths : ∀ G o d, o ∈ G.nodes → d ∈ G.nodes → o ≠ d → ∃ ps, lib G o d = .ok ps ∧
    (G.multi = false → ps.Nodup) ∧ ∀ p, p ∈ ps ↔ IsWalk G o d p ∧ p.Nodup
  source : ∀ G o d, o ∉ G.nodes → lib G o d = .error .graph

/-- A route that visits no node twice, by its edges. -/
def SimpleRoute (G : NGraph K) (o d : K) (es : List (NEdge K)) : Prop :=
  ∃ ns, Route G o es ns d ∧ ns.Nodup

/-- Labels and total weight of a list of edges. -/
def routeEntry (es : List (NEdge K)) : List K × ℚ := (es.map NEdge.label, (es.map NEdge.weight).sum)

/-- The route can be used when the arcs are in the states `x`: all of its arcs are in state `1`. -/
def Open (x : K → ℕ) (es : List (NEdge K)) : Prop := ∀ e ∈ es, x e.label = 1

/-- `t` is the least total weight of a route from `o` to `d` all of whose arcs are in state `1`,
infinity (`none`) if there is no such route.  Routes may visit a node more than once. -/
def FastestRoute (G : NGraph K) (x : K → ℕ) (o d : K) (t : Option ℚ) : Prop :=
  (t = none ↔ ∀ es ns, Route G o es ns d → ¬ Open x es) ∧
  (∀ c, t = some c → (∃ es ns, Route G o es ns d ∧ Open x es ∧ (es.map NEdge.weight).sum = c) ∧
    ∀ es ns, Route G o es ns d → Open x es → c ≤ (es.map NEdge.weight).sum)

/-- A connection of a model file (name, origin, destination, weight) leads from `u` to `v`. -/
def ConnLinks (directed : Bool) (c : K × K × K × ℚ) (u v : K) : Prop :=
  (c.2.1 = u ∧ c.2.2.1 = v) ∨ (directed = false ∧ c.2.1 = v ∧ c.2.2.1 = u)

instance [DecidableEq K] (b : Bool) (c : K × K × K × ℚ) (u v : K) : Decidable (ConnLinks b c u v) := by
  unfold ConnLinks; infer_instance

/-- No two connections between the same nodes. -/
def NoParallel (directed : Bool) (conns : List (K × K × K × ℚ)) : Prop :=
  conns.Pairwise fun c c' => ∀ u v, ConnLinks directed c u v → ¬ ConnLinks directed c' u v

/-- The graph a model file describes: a node for every end of a connection and every entry of the
component list, an edge for every connection. -/
structure Describes (directed multi : Bool) (comps : List K) (conns : List (K × K × K × ℚ))
    (G : NGraph K) : Prop where
  directed : G.directed = directed
  multi : G.multi = multi
  nodes : ∀ n, n ∈ G.nodes ↔ n ∈ comps ∨ ∃ c ∈ conns, n = c.2.1 ∨ n = c.2.2.1
  nodupNodes : G.nodes.Nodup
  edges : G.edges.map (fun e => (e.label, e.src, e.dst, e.weight)) = conns

end BNS
