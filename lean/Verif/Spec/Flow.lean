import Mathlib.Algebra.BigOperators.Group.Finset.Basic
import Mathlib.Algebra.Order.Group.Unbundled.Abs
import Mathlib.Data.Rat.Defs
import Mathlib.Algebra.Order.Ring.Rat
import Verif.Model.Variable
import Verif.Spec.Net

/-!
# Specification vocabulary: flows in undirected networks

No operation of the model is used.
-/

namespace BNS

variable {K N : Type} [DecidableEq N]

/-- An undirected networkx graph with edge attribute `capacity`: its edges, at most one between two
nodes. -/
abbrev CapGraph (N : Type) := List (N × N × ℚ)

/-- The edge joins `u` and `v`. -/
def Joins (e : N × N × ℚ) (u v : N) : Prop := (e.1 = u ∧ e.2.1 = v) ∨ (e.1 = v ∧ e.2.1 = u)

instance (e : N × N × ℚ) (u v : N) : Decidable (Joins e u v) := by unfold Joins; infer_instance

/-- The capacity between two nodes. -/
def capOf (G : CapGraph N) (u v : N) : ℚ :=
  match G.find? fun e => decide (Joins e u v) with
  | some e => e.2.2
  | none => 0

/-- The nodes of a graph. -/
def nodesOf (G : CapGraph N) : Finset N := (G.flatMap fun e => [e.1, e.2.1]).toFinset

/-- `g u v` is the net flow from `u` to `v`; it obeys the capacities, is conserved at every node but
`s` and `t`, and `val` leaves `s`. -/
structure IsFlow (nodes : Finset N) (c : N → N → ℚ) (s t : N) (g : N → N → ℚ) (val : ℚ) : Prop where
  anti : ∀ u v, g u v = - g v u
  cap : ∀ u v, g u v ≤ c u v
  cons : ∀ u ∈ nodes, u ≠ s → u ≠ t → ∑ v ∈ nodes, g u v = 0
  out : ∑ v ∈ nodes, g s v = val

/-- The contract of `networkx.maximum_flow` on an undirected graph: the value of a flow that no other
flow exceeds, and the flow itself, of which only the positive direction is reported; an exception of
networkx if an end is not a node or both are the same. -/
structure FlowLibOK (lib : CapGraph N → N → N → Except Err (ℚ × (N → N → ℚ))) : Prop where
  best : ∀ G s t, (∀ e ∈ G, 0 ≤ e.2.2) → s ∈ nodesOf G → t ∈ nodesOf G → s ≠ t →
    ∃ val g, lib G s t = .ok (val, fun u v => max (g u v) 0) ∧
      IsFlow (nodesOf G) (capOf G) s t g val ∧
      ∀ g' val', IsFlow (nodesOf G) (capOf G) s t g' val' → val' ≤ val
  raises : ∀ G s t, s ∉ nodesOf G ∨ t ∉ nodesOf G ∨ s = t → lib G s t = .error .graph

/-- Net flow out of node `n` when component `k` carries `φ k` from its first to its second end. -/
def netOut (ks : List K) (ends : K → N × N) (φ : K → ℚ) (n : N) : ℚ :=
  (ks.map fun k => (if (ends k).1 = n then φ k else 0) - (if (ends k).2 = n then φ k else 0)).sum

/-- The components, each carrying at most `cap k` in either direction, can send `F` from `o`
to `d`. -/
def Supports (ks : List K) (ends : K → N × N) (cap : K → ℚ) (o d : N) (F : ℚ) : Prop :=
  ∃ φ : K → ℚ, (∀ k ∈ ks, |φ k| ≤ cap k) ∧
    (∀ n, n ≠ o → n ≠ d → netOut ks ends φ n = 0) ∧ F ≤ netOut ks ends φ o

/-- The capacity of component `k` in state `s`: entry `s` of its values (a state above the last, which
no component has, counts as the last). -/
def capAt [DecidableEq K] (varis : List (K × Variable K)) (k : K) (s : ℕ) : ℚ :=
  match varis.lookup k with
  | some v => (v.values[s]?).getD (v.values.getLast?.getD 0)
  | none => 0

/-- The component vector `x` can send `F` from `o` to `d`. -/
def CanSend [DecidableEq K] (vs : List (K × ℕ)) (ends : K → N × N) (varis : List (K × Variable K))
    (o d : N) (F : ℚ) (x : K → ℕ) : Prop :=
  Supports (vs.map Prod.fst) ends (fun k => capAt varis k (x k)) o d F

/-- A flow network without parallel components: every component of `vs` has its ends and its
capacities, which are not negative and grow with the state; `newT` is the name of no node. -/
structure FlowNetOK [DecidableEq K] (vs : List (K × ℕ)) (edges : List (K × N × N))
    (ends : K → N × N) (varis : List (K × Variable K)) (o d newT : N) : Prop where
  nodup : (vs.map Prod.fst).Nodup
  dict : ∀ kn ∈ vs, edges.lookup kn.1 = some (ends kn.1)
  values : ∀ kn ∈ vs, ∃ v, varis.lookup kn.1 = some v ∧ v.values.length = kn.2 ∧
    (∀ w ∈ v.values, 0 ≤ w) ∧ v.values.Pairwise (· ≤ ·)
  single : vs.Pairwise fun a b => ¬ (ends a.1 = ends b.1 ∨ ends a.1 = (ends b.1).swap)
  fresh : ∀ kn ∈ vs, (ends kn.1).1 ≠ newT ∧ (ends kn.1).2 ≠ newT
  origin : ∃ kn ∈ vs, (ends kn.1).1 = o ∨ (ends kn.1).2 = o
  od : o ≠ d
  dest : d ≠ newT

end BNS
