import Verif.Spec.Flow

/-!
# Specification vocabulary: flows in networks whose edges have one or two directions

No operation of the model is used.
-/

namespace BNS

variable {K N : Type} [DecidableEq N]

/-- The capacity from one node to another: `bi` says that the edges have both directions. -/
def capIn (bi : Bool) (G : CapGraph N) (u v : N) : ℚ :=
  if bi then capOf G u v
  else match G.find? fun e => decide (e.1 = u ∧ e.2.1 = v) with
    | some e => e.2.2
    | none => 0

/-- The contract of `networkx.maximum_flow`, for a `Graph` (`true`) and a `DiGraph` (`false`): the
value of a flow that no other flow exceeds, and the flow itself, of which only the positive direction is
reported; an exception if an end is not a node or both are the same. -/
structure FlowDirLibOK (lib : Bool → CapGraph N → N → N → Except Err (ℚ × (N → N → ℚ))) : Prop where
  best : ∀ bi G s t, (∀ e ∈ G, 0 ≤ e.2.2) → s ∈ nodesOf G → t ∈ nodesOf G → s ≠ t →
    ∃ val g, lib bi G s t = .ok (val, fun u v => max (g u v) 0) ∧
      IsFlow (nodesOf G) (capIn bi G) s t g val ∧
      ∀ g' val', IsFlow (nodesOf G) (capIn bi G) s t g' val' → val' ≤ val
  raises : ∀ bi G s t, s ∉ nodesOf G ∨ t ∉ nodesOf G ∨ s = t → lib bi G s t = .error .graph

/-- The amount `a` fits through a component of capacity `c`: in either direction, or forwards only. -/
def Fits (bi : Bool) (a c : ℚ) : Prop := if bi then |a| ≤ c else 0 ≤ a ∧ a ≤ c

/-- The components, each carrying an amount that fits its capacity, can send `F` from `o` to `d`. -/
def SupportsIn (bi : Bool) (ks : List K) (ends : K → N × N) (cap : K → ℚ) (o d : N) (F : ℚ) : Prop :=
  ∃ φ : K → ℚ, (∀ k ∈ ks, Fits bi (φ k) (cap k)) ∧
    (∀ n, n ≠ o → n ≠ d → netOut ks ends φ n = 0) ∧ F ≤ netOut ks ends φ o

/-- The component vector `x` can send `F` from `o` to `d`. -/
def CanSendIn [DecidableEq K] (bi : Bool) (vs : List (K × ℕ)) (ends : K → N × N)
    (varis : List (K × Variable K)) (o d : N) (F : ℚ) (x : K → ℕ) : Prop :=
  SupportsIn bi (vs.map Prod.fst) ends (fun k => capAt varis k (x k)) o d F

/-- A flow network without parallel components (with directions: without two from the same node to the
same node): every component has its capacities, which are not negative and grow with the state;
`newT` is the name of no node. -/
structure DirNetOK [DecidableEq K] (bi : Bool) (vs : List (K × ℕ)) (ends : K → N × N)
    (varis : List (K × Variable K)) (o d newT : N) : Prop where
  nodup : (vs.map Prod.fst).Nodup
  values : ∀ kn ∈ vs, ∃ v, varis.lookup kn.1 = some v ∧ v.values.length = kn.2 ∧
    (∀ w ∈ v.values, 0 ≤ w) ∧ v.values.Pairwise (· ≤ ·)
  single : vs.Pairwise fun a b => ends a.1 ≠ ends b.1 ∧ (bi = true → ends a.1 ≠ (ends b.1).swap)
  fresh : ∀ kn ∈ vs, (ends kn.1).1 ≠ newT ∧ (ends kn.1).2 ≠ newT
  origin : ∃ kn ∈ vs, (ends kn.1).1 = o ∨ (ends kn.1).2 = o
  od : o ≠ d
  dest : d ≠ newT

end BNS
