import Verif.Model.Brc

/-!
# Specification vocabulary: networks, routes and walks

The data type of networks and what a user means by a route.  No operation of the model is used.
-/

namespace BNS

variable {K : Type}

/-- An edge of a networkx graph with its attributes `label` and `weight`; `key` is the key of a
multigraph edge (a number by default, or the one given to `add_edge`) and has no meaning
otherwise. -/
structure NEdge (K : Type) where
  src : K
  dst : K
  key : ℕ ⊕ K
  label : K
  weight : ℚ

/-- A `networkx.Graph`, `DiGraph`, `MultiGraph` or `MultiDiGraph`. -/
structure NGraph (K : Type) where
  directed : Bool
  multi : Bool
  nodes : List K
  edges : List (NEdge K)

/-- The edge can be used to go from `u` to `v`. -/
def Links (directed : Bool) (e : NEdge K) (u v : K) : Prop :=
  (e.src = u ∧ e.dst = v) ∨ (directed = false ∧ e.src = v ∧ e.dst = u)

instance [DecidableEq K] (b : Bool) (e : NEdge K) (u v : K) : Decidable (Links b e u v) := by
  unfold Links; infer_instance

/-- A route from `u` to `v`: the edges used and the nodes visited. -/
inductive Route (G : NGraph K) : K → List (NEdge K) → List K → K → Prop
  | nil {u : K} : u ∈ G.nodes → Route G u [] [u] u
  | cons {u m v : K} {e : NEdge K} {es : List (NEdge K)} {ns : List K} :
      u ∈ G.nodes → e ∈ G.edges → Links G.directed e u m → Route G m es ns v →
      Route G u (e :: es) (u :: ns) v

/-- The time over an edge labelled `k` in state `s`: entry `s` of the values of the variable `k`. -/
def timeOf [DecidableEq K] (varis : List (K × Variable K)) (k : K) (s : ℕ) : ℚ :=
  match varis.lookup k with
  | some v => (v.values[s]?).getD 0
  | none => 0

/-- Time over a sequence of edges when the components are in the states `x`. -/
def routeTime [DecidableEq K] (varis : List (K × Variable K)) (x : K → ℕ) (es : List (NEdge K)) : ℚ :=
  (es.map fun e => timeOf varis e.label (x e.label)).sum

/-- The destination can be reached within `th`. -/
def InTime [DecidableEq K] (G : NGraph K) (varis : List (K × Variable K)) (o d : K) (th : ℚ)
    (x : K → ℕ) : Prop := ∃ es ns, Route G o es ns d ∧ routeTime varis x es ≤ th

/-- The variables of a travel-time network: a dictionary with an entry for every edge; times are not
negative and get shorter with better states. -/
structure TimesOK (G : NGraph K) (varis : List (K × Variable K)) : Prop where
  nodup : (varis.map Prod.fst).Nodup
  states : ∀ kv ∈ varis, 0 < kv.2.values.length
  label : ∀ e ∈ G.edges, e.label ∈ varis.map Prod.fst
  nonneg : ∀ kv ∈ varis, ∀ w ∈ kv.2.values, 0 ≤ w
  faster : ∀ kv ∈ varis, kv.2.values.Pairwise (· ≥ ·)

/-- Names and numbers of states. -/
def statesOf (varis : List (K × Variable K)) : List (K × ℕ) :=
  varis.map fun kv => (kv.1, kv.2.values.length)

/-- The component vector `x` as a dictionary over the components. -/
def compsOf (vs : List (K × ℕ)) (x : K → ℕ) : List (K × ℕ) := vs.map fun kn => (kn.1, x kn.1)

/-- An edge or node that is not a component never fails; a component has failed in state `0`. -/
def Works (vs : List (K × ℕ)) (x : K → ℕ) (k : K) : Prop := k ∈ vs.map Prod.fst → x k ≠ 0

/-- There is a route over edges and nodes that have not failed. -/
def Connected (G : NGraph K) (vs : List (K × ℕ)) (o d : K) (x : K → ℕ) : Prop :=
  ∃ es ns, Route G o es ns d ∧ (∀ e ∈ es, Works vs x e.label) ∧ ∀ n ∈ ns, Works vs x n

/-- What networkx guarantees of every graph: the ends of the edges are nodes, only a multigraph has
two edges between the same nodes, and these have different keys. -/
structure GraphOK (G : NGraph K) : Prop where
  ends : ∀ e ∈ G.edges, e.src ∈ G.nodes ∧ e.dst ∈ G.nodes
  simple : G.multi = false → G.edges.Pairwise fun e e' =>
    ∀ u v, Links G.directed e u v → ¬ Links G.directed e' u v
  keys : G.multi = true → G.edges.Pairwise fun e e' =>
    ∀ u v, Links G.directed e u v → Links G.directed e' u v → e.key ≠ e'.key

/-- A walk, as networkx returns it: the list of its nodes. -/
def IsWalk (G : NGraph K) (s t : K) (p : List K) : Prop :=
  p.head? = some s ∧ p.getLast? = some t ∧ (∀ x ∈ p, x ∈ G.nodes) ∧
  p.IsChain fun u v => ∃ e ∈ G.edges, Links G.directed e u v

/-- `c` is the length of the walk when every step uses the lightest edge. -/
def WalkCost (G : NGraph K) (wt : NEdge K → ℚ) : List K → ℚ → Prop
  | u :: v :: p, c => ∃ e ∈ G.edges, Links G.directed e u v ∧
      (∀ e' ∈ G.edges, Links G.directed e' u v → wt e ≤ wt e') ∧ WalkCost G wt (v :: p) (c - wt e)
  | _, c => c = 0

/-- The contract of the shortest-path functions of networkx (`shortest_path` and
`shortest_path_length` with one source, `multi_source_dijkstra`), given as one function of the graph,
the edge lengths, the sources and the target: a walk of least length from one of the sources;
`NetworkXNoPath` if there is none; some other exception if a source or the target is not a node. -/
structure PathLibOK (lib : NGraph K → (NEdge K → ℚ) → List K → K → Except Err (ℚ × List K)) :
    Prop where
  least : ∀ G wt ss t d p, (∀ e ∈ G.edges, 0 ≤ wt e) → lib G wt ss t = .ok (d, p) →
    (∃ s ∈ ss, IsWalk G s t p) ∧ WalkCost G wt p d ∧
    ∀ s ∈ ss, ∀ p' d', IsWalk G s t p' → WalkCost G wt p' d' → d ≤ d'
  found : ∀ G wt ss t, (∀ e ∈ G.edges, 0 ≤ wt e) → (∀ s ∈ ss, s ∈ G.nodes) →
    (∃ s ∈ ss, ∃ p, IsWalk G s t p) → ∃ r, lib G wt ss t = .ok r
  noPath : ∀ G wt ss t, (∀ e ∈ G.edges, 0 ≤ wt e) → (∀ s ∈ ss, s ∈ G.nodes) → t ∈ G.nodes →
    ss ≠ [] → (∀ s ∈ ss, ∀ p, ¬ IsWalk G s t p) → lib G wt ss t = .error .noPath
  unknown : ∀ G wt ss t, ss ≠ [] → (¬ (∀ s ∈ ss, s ∈ G.nodes) ∨ t ∉ G.nodes) →
    lib G wt ss t = .error .noPath ∨ lib G wt ss t = .error .graph

end BNS
