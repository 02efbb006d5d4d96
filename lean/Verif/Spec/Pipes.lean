import Verif.Spec.Flow

/-!
# Specification vocabulary: pipe systems

Flows that run from the origins to the destinations and stop at depots on the way.  No operation of
the model is used.
-/

namespace BNS

variable {E K : Type} [DecidableEq E] [DecidableEq K]

/-- The fixed data of a pipe system: the arcs with their ends, the component of every arc, the groups of
depots (the first are the origins), and the nodes and arcs of every subsystem. -/
structure PipeSys (E K : Type) where
  edges : List (E × K × K)
  e2c : List (E × K)
  depots : List (List K)
  subNodes : List (List K)
  subEdges : List (List E)
  varis : List (K × Variable K)

/-- Flow out of a node over the given arcs. -/
def outOver (L : List (E × K × K)) (f : E → ℕ) (n : K) : ℕ :=
  ((L.filter fun ep => decide (ep.2.1 = n)).map fun ep => f ep.1).sum

/-- Flow into a node over the given arcs. -/
def inOver (L : List (E × K × K)) (f : E → ℕ) (n : K) : ℕ :=
  ((L.filter fun ep => decide (ep.2.2 = n)).map fun ep => f ep.1).sum

/-- The arcs of subsystem `m`. -/
def PipeSys.sub (S : PipeSys E K) (m : ℕ) : List (E × K × K) :=
  S.edges.filter fun ep => decide (ep.1 ∈ S.subEdges.getD m [])

/-- Depots of group `m`; group `0` are the origins. -/
def PipeSys.depot (S : PipeSys E K) (m : ℕ) : List K := S.depots.getD m []

/-- Whole units `f` flow over the arcs and `u` leave the origins: the capacities are kept, flow is
conserved inside every subsystem and at every depot between two subsystems, and in every subsystem the
next depots receive everything that leaves the origins. -/
structure PipeFlow (S : PipeSys E K) (cap : E × K × K → ℚ) (f : E → ℕ) (u : K → ℕ) : Prop where
  cap : ∀ ep ∈ S.edges, (f ep.1 : ℚ) ≤ cap ep
  supply : ∀ o ∈ S.depot 0, outOver S.edges f o = u o
  through : ∀ m, ∀ n ∈ S.subNodes.getD m [], n ∉ S.depot m → n ∉ S.depot (m + 1) →
    outOver (S.sub m) f n = inOver (S.sub m) f n
  arrive : ∀ m < S.subNodes.length,
    (((S.sub m).filter fun ep => decide (ep.2.2 ∈ S.depot (m + 1))).map fun ep => f ep.1).sum =
      ((S.depot 0).map u).sum
  stop : ∀ m, 1 ≤ m → m < S.subNodes.length → ∀ n ∈ S.depot m,
    outOver S.edges f n = inOver S.edges f n

/-- The capacity of an arc: none if one of its ends has failed, else that of its component. -/
def pipeCap (S : PipeSys E K) (compOf : E → K) (x : K → ℕ) (ep : E × K × K) : ℚ :=
  if x ep.2.1 = 0 ∨ x ep.2.2 = 0 then 0 else capAt S.varis (compOf ep.1) (x (compOf ep.1))

/-- The component vector `x` lets `F` flow from the origins over the depots to the destinations. -/
def Delivers (S : PipeSys E K) (compOf : E → K) (F : ℚ) (x : K → ℕ) : Prop :=
  ∃ f u, PipeFlow S (pipeCap S compOf x) f u ∧ F ≤ ((((S.depot 0).map u).sum : ℕ) : ℚ)

/-- A mixed-integer program in the form in which scipy is called: costs, and rows with their lower and
upper bounds. -/
abbrev LinRow := List ℚ × ℚ × ℚ

/-- Scalar product. -/
def dot (a b : List ℚ) : ℚ := (List.zipWith (· * ·) a b).sum

/-- A point with whole entries that are not negative and keep the constraints. -/
structure LinFeasible (c : List ℚ) (rows : List LinRow) (x : List ℚ) : Prop where
  length : x.length = c.length
  whole : ∀ v ∈ x, ∃ n : ℕ, v = n
  rows : ∀ r ∈ rows, r.2.1 ≤ dot r.1 x ∧ dot r.1 x ≤ r.2.2

/-- A feasible point with least costs. -/
def LinOptimal (c : List ℚ) (rows : List LinRow) (x : List ℚ) : Prop :=
  LinFeasible c rows x ∧ ∀ y, LinFeasible c rows y → dot c x ≤ dot c y

/-- Result of `scipy.optimize.milp`: `x` and `fun` if it succeeded. -/
abbrev MilpRes := Option (ℚ × List ℚ)

/-- The contract of `scipy.optimize.milp` with all variables integral and the default bounds: a least
cost and a point that attains it if there is one, no success otherwise. -/
structure MilpLibOK (lib : List ℚ → List LinRow → MilpRes) : Prop where
  best : ∀ c rows, (∃ x, LinOptimal c rows x) → ∃ x, LinOptimal c rows x ∧ lib c rows = some (dot c x, x)
  none : ∀ c rows, (¬ ∃ x, LinOptimal c rows x) → lib c rows = none

/-- A well-formed pipe system: dictionaries with the entries that are read, no arc from a node to
itself, one group of depots more than there are subsystems, different origins, and capacities that are
not negative and grow with the state. -/
structure PipesOK (S : PipeSys E K) (compOf : E → K) (vs : List (K × ℕ)) : Prop where
  names : (vs.map Prod.fst).Nodup
  nodup : (S.edges.map Prod.fst).Nodup
  loops : ∀ ep ∈ S.edges, ep.2.1 ≠ ep.2.2
  comp : ∀ ep ∈ S.edges, S.e2c.lookup ep.1 = some (compOf ep.1)
  ends : ∀ ep ∈ S.edges, ep.2.1 ∈ vs.map Prod.fst ∧ ep.2.2 ∈ vs.map Prod.fst
  values : ∀ ep ∈ S.edges, ∃ v, S.varis.lookup (compOf ep.1) = some v ∧
    (compOf ep.1, v.values.length) ∈ vs ∧ (∀ w ∈ v.values, 0 ≤ w) ∧ v.values.Pairwise (· ≤ ·)
  depots : S.depots.length = S.subNodes.length + 1
  origins : (S.depot 0).Nodup
  subs : S.subNodes.length ≤ S.subEdges.length
  arcs : ∀ es ∈ S.subEdges, ∀ e ∈ es, e ∈ S.edges.map Prod.fst

/-- A route of one unit from the node `v` in subsystem `m` to a destination: it follows arcs of the
subsystem until it enters one of the next depots, and goes on from there in the next subsystem. -/
inductive PipeRoute (S : PipeSys E K) : ℕ → K → List E → Prop
  | done {m : ℕ} {v : K} : m = S.subNodes.length → v ∈ S.depot m → PipeRoute S m v []
  | go {m : ℕ} {e : E} {v w : K} {p : List E} : m < S.subNodes.length → (e, v, w) ∈ S.edges →
      e ∈ S.subEdges.getD m [] → w ∉ S.depot (m + 1) → PipeRoute S m w p → PipeRoute S m v (e :: p)
  | stop {m : ℕ} {e : E} {v w : K} {p : List E} : m < S.subNodes.length → (e, v, w) ∈ S.edges →
      e ∈ S.subEdges.getD m [] → w ∈ S.depot (m + 1) → PipeRoute S (m + 1) w p → PipeRoute S m v (e :: p)

/-- The capacities are enough for `k` routes from origins. -/
def HasRoutes (S : PipeSys E K) (cap : E × K × K → ℚ) (k : ℕ) : Prop :=
  ∃ rs : List (List E), rs.length = k ∧ (∀ p ∈ rs, ∃ o ∈ S.depot 0, PipeRoute S 0 o p) ∧
    ∀ ep ∈ S.edges, (rs.flatten.count ep.1 : ℚ) ≤ cap ep

/-- The subsystems come one after another: every arc belongs to one of them, and a depot is only entered
from the subsystem before it and only left in the subsystem behind it. -/
structure PhasesOK (S : PipeSys E K) : Prop where
  pos : 0 < S.subNodes.length
  ex : ∀ ep ∈ S.edges, ∃ m, m < S.subNodes.length ∧ ep.1 ∈ S.subEdges.getD m []
  one : ∀ e m m', m < S.subNodes.length → m' < S.subNodes.length → e ∈ S.subEdges.getD m [] →
    e ∈ S.subEdges.getD m' [] → m = m'
  src : ∀ ep ∈ S.edges, ∀ m < S.subNodes.length, ep.1 ∈ S.subEdges.getD m [] →
    ∀ j < S.depots.length, ep.2.1 ∈ S.depot j → j = m
  dst : ∀ ep ∈ S.edges, ∀ m < S.subNodes.length, ep.1 ∈ S.subEdges.getD m [] →
    ∀ j < S.depots.length, ep.2.2 ∈ S.depot j → j = m + 1
  inside : ∀ ep ∈ S.edges, ∀ m < S.subNodes.length, ep.1 ∈ S.subEdges.getD m [] →
    ep.2.1 ∈ S.subNodes.getD m [] ∧ ep.2.2 ∈ S.subNodes.getD m []

end BNS
