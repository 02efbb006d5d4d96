import Mathlib.Logic.Relation
import Verif.Spec.Flow

/-!
# Specification vocabulary: connection by working arcs

No operation of the model is used.
-/

namespace BNS

variable {K N : Type} [DecidableEq N]

/-- The graph has an edge between `u` and `v`. -/
def JoinedIn (G : CapGraph N) (u v : N) : Prop := ∃ e ∈ G, Joins e u v

/-- A walk in the graph, given by its nodes. -/
def WalkIn (G : CapGraph N) (s t : N) (p : List N) : Prop :=
  p.head? = some s ∧ p.getLast? = some t ∧ p.IsChain (JoinedIn G)

/-- The contract of `networkx.shortest_path` without weights on an undirected graph: a walk with the
fewest nodes, `NetworkXNoPath` if there is none, another exception if an end is not a node. -/
structure WalkLibOK (lib : CapGraph N → N → N → Except Err (List N)) : Prop where
  least : ∀ G s t, s ∈ nodesOf G → t ∈ nodesOf G → (∃ p, WalkIn G s t p) →
    ∃ p, lib G s t = .ok p ∧ WalkIn G s t p ∧ ∀ q, WalkIn G s t q → p.length ≤ q.length
  noPath : ∀ G s t, s ∈ nodesOf G → t ∈ nodesOf G → (¬ ∃ p, WalkIn G s t p) →
    lib G s t = .error .noPath
  unknown : ∀ G s t, s ∉ nodesOf G ∨ t ∉ nodesOf G → lib G s t = .error .graph

/-- An arc that works leads from `u` to `v`, in either of its directions. -/
def UsableArc (vs : List (K × ℕ)) (ends : K → N × N) (x : K → ℕ) (u v : N) : Prop :=
  ∃ kn ∈ vs, 0 < x kn.1 ∧ (ends kn.1 = (u, v) ∨ ends kn.1 = (v, u))

/-- The nodes are connected by working arcs. -/
def LinkedBy (vs : List (K × ℕ)) (ends : K → N × N) (o d : N) (x : K → ℕ) : Prop :=
  Relation.ReflTransGen (UsableArc vs ends x) o d

/-- Working arcs carry up to one unit, failed ones nothing. -/
def unitCap (x : K → ℕ) (k : K) : ℚ := if 0 < x k then 1 else 0

/-- No two arcs between the same nodes. -/
def NoParallelArcs (vs : List (K × ℕ)) (ends : K → N × N) : Prop :=
  vs.Pairwise fun a b => ¬ (ends a.1 = ends b.1 ∨ ends a.1 = (ends b.1).swap)

end BNS
