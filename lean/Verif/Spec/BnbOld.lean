import Verif.Model.BnbOld
import Mathlib.Algebra.Order.Ring.Rat

/-!
# Specification vocabulary: boxes of component vectors, admissible callbacks
-/

namespace BNS

/-- The component vector lies between the two bounds, in every component. -/
def Between (down up x : List ℕ) : Prop :=
  x.length = down.length ∧ ∀ i < down.length, down.getD i 0 ≤ x.getD i 0 ∧ x.getD i 0 ≤ up.getD i 0

instance (down up x : List ℕ) : Decidable (Between down up x) := by
  unfold Between; infer_instance

/-- Number of branches whose box contains the vector. -/
def ohits {K V : Type} (brs : List (OldBranch K V)) (x : List ℕ) : ℕ :=
  brs.countP fun b => decide (Between b.down b.up x)

/-- `sys_fn` computes the state `f` on all component vectors. -/
def Computes {V R : Type} (sysFn : List ℕ → Except Err (SysOut V R)) (maxStates : List ℕ)
    (f : List ℕ → ℕ) : Prop :=
  ∀ x, Between (List.replicate maxStates.length 1) maxStates x →
    ∃ v r, sysFn x = .ok ⟨f x, v, r⟩

/-- `f` is monotone or antitone on the component vectors. -/
def BnbCoherent (maxStates : List ℕ) (f : List ℕ → ℕ) : Prop :=
  (∀ x y, Between (List.replicate maxStates.length 1) maxStates y →
      Between (List.replicate maxStates.length 1) y x → f x ≤ f y) ∨
  (∀ x y, Between (List.replicate maxStates.length 1) maxStates y →
      Between (List.replicate maxStates.length 1) y x → f y ≤ f x)

/-- The callbacks choose one of the given components, and a cut strictly below its upper bound. -/
structure Admissible {K R : Type} [DecidableEq K] (arcs : List K) (maxStates : List ℕ)
    (nextComp : List K → R → R → Except Err K)
    (nextState : K → ℕ → ℕ → R → R → Except Err ℕ) : Prop where
  comp : ∀ cand r1 r2, cand ≠ [] → (∀ c ∈ cand, c ∈ arcs) → ∃ c ∈ cand, nextComp cand r1 r2 = .ok c
  state : ∀ (i : ℕ) c m, arcs[i]? = some c → maxStates[i]? = some m → ∀ lo hi r1 r2, 1 ≤ lo → lo < hi →
    hi ≤ m → ∃ s, nextState c lo hi r1 r2 = .ok s ∧ lo ≤ s ∧ s < hi

/-- The component vector as a function of the arcs. -/
def arcState {K : Type} [DecidableEq K] (arcs : List K) (x : List ℕ) (k : K) : ℕ :=
  x.getD (arcs.idxOf k) 0

section
variable {K V : Type} [DecidableEq K]

/-- All arcs of the path are at the top state. -/
def pathUp (info : PathInfo K) (x : List ℕ) (p : List K) : Bool :=
  p.all fun e => decide (arcState info.arcs x e = info.maxState)

/-- What `bnb_sys` needs of its input. -/
structure InfoOK (info : PathInfo K) : Prop where
  nodup : info.arcs.Nodup
  len : info.path.length = info.time.length
  path : ∀ p ∈ info.path, ∀ e ∈ p, e ∈ info.arcs

/-- The branch-and-bound state of a component whose state in the network is `i`: shifted by one, or
counted from the other end. -/
def bnbStateOf (flag : Bool) (n i : ℕ) : ℕ := if flag then i + 1 else n - i

/-- What a column can encode: a branch over these variables, each interval a single state unless the
variable has two states. -/
structure OldEncodable (vars : List (Variable K)) (b : OldBranch K V) : Prop where
  down : b.down.length = vars.length
  up : b.up.length = vars.length
  le : ∀ i v, vars[i]? = some v → 1 ≤ b.down.getD i 0 ∧ b.down.getD i 0 ≤ b.up.getD i 0 ∧
    b.up.getD i 0 ≤ v.values.length ∧ (v.values.length = 2 ∨ b.down.getD i 0 = b.up.getD i 0)

end

end BNS
