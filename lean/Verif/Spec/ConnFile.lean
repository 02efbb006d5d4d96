import Mathlib.Logic.Relation
import Verif.Spec.Paths
import Verif.Spec.SysNet
import Verif.Model.Config

/-!
# Specification vocabulary of the connectivity demos
-/

namespace BNS

variable {K : Type} [DecidableEq K]

/-- A connection that works leads from `u` to `v`. -/
def WorkingConn (directed : Bool) (conns : List (K × K × K × ℚ)) (x : K → ℕ) (u v : K) : Prop :=
  ∃ c ∈ conns, x c.1 ≠ 0 ∧ ConnLinks directed c u v

/-- One can get from `o` to `d` over working connections. -/
def LinkedIn (directed : Bool) (conns : List (K × K × K × ℚ)) (o d : K) (x : K → ℕ) : Prop :=
  Relation.ReflTransGen (WorkingConn directed conns x) o d

/-- A configuration file and the files it names: a model file of any of the four types of graph — without
two connections between the same nodes unless it is a multigraph — and a scenario file or none.  No node is
called like a connection. -/
structure ConnFileOK (files : K → Option (FileC K)) (data : List (CfgKey K × CfgVal K)) (p q : K)
    (m : NetJson K) (directed multi : Bool) (mb : CfgVal K) : Prop where
  model : data.lookup .modelName = some (.text p)
  file : files p = some (.model m)
  scen : (∃ v, data.lookup .scenarioName = some v ∧ (v = .empty ∨ v = .null ∨ v = .num 0)) ∨
    ∃ s sc ds, data.lookup .scenarioName = some (.text s) ∧ files s = some (.scen sc) ∧
      sc.damage = some ds
  id : ∃ key, data.lookup .configurationId = some key
  branches : data.lookup .maxBranches = some mb
  out : data.lookup .outputPath = some (.text q)
  gtype : m.gtype = none ∧ directed = false ∧ multi = false ∨
    m.gtype = some .graph ∧ directed = false ∧ multi = false ∨
    m.gtype = some .digraph ∧ directed = true ∧ multi = false ∨
    m.gtype = some .multigraph ∧ directed = false ∧ multi = true ∨
    m.gtype = some .multidigraph ∧ directed = true ∧ multi = true
  noParallel : multi = false → NoParallel directed m.conns
  names : (m.conns.map Prod.fst).Nodup
  apart : ∀ c ∈ m.conns, c.2.1 ∉ m.conns.map Prod.fst ∧ c.2.2.1 ∉ m.conns.map Prod.fst
  apartNodes : ∀ n ∈ m.comps.map Prod.fst, n ∉ m.conns.map Prod.fst

/-- The connections as components with two states. -/
def connVs (m : NetJson K) : List (K × ℕ) := m.conns.map fun c => (c.1, 2)

/-- The event matrix decides every vector of connection states that it should: exactly one row covers it;
if this says failure there is no way from `o` to `d`, if it says survival there is one, and it says
unknown only if `enough` is false. -/
def DecidesLinks (m : NetJson K) (directed : Bool) (o d : K) (U : K → Variable K) (enough : Prop)
    (C : List (List ℕ)) : Prop :=
  ∀ x, InSpace (connVs m) x → ∃ (j s : ℕ) (cs : List ℕ), C[j]? = some (s :: cs) ∧
    RowMatches (m.conns.map fun c => U c.1) cs x ∧
    (∀ (j' s' : ℕ) (cs' : List ℕ), C[j']? = some (s' :: cs') →
      RowMatches (m.conns.map fun c => U c.1) cs' x → j' = j) ∧
    s < 3 ∧ (s = 0 → ¬ LinkedIn directed m.conns o d x) ∧ (s = 1 → LinkedIn directed m.conns o d x) ∧
    (enough → s ≠ 2)

end BNS
