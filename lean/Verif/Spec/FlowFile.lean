import Verif.Model.FlowMain

/-!
# The files of the max_flow demo
-/

namespace BNS

variable {K : Type} [DecidableEq K]

/-- A configuration file and a model file with all entries the demo reads, without a scenario file:
`mb`, `w` and `sf` are the entries `MAX_BRANCHES`, `SYS_BND_WIDTH_RATIO` and `MAX_SYS_FUN`, `caps k` and
`probs k` the capacities and the probabilities of connection `k`. -/
structure FlowFileOK (nSf nWr : K) (files : K → Option (FileC K)) (ext : K → FlowExt K)
    (data : List (CfgKey K × CfgVal K)) (p : K) (m : NetJson K) (mb w : ℚ) (sf : CfgVal K)
    (caps probs : K → List ℚ) : Prop where
  model : data.lookup .modelName = some (.text p)
  file : files p = some (.model m)
  gtype : m.gtype ≠ some .other
  scen : ∃ v, data.lookup .scenarioName = some v ∧ (v = .empty ∨ v = .null ∨ v = .num 0)
  id : ∃ key, data.lookup .configurationId = some key
  branches : data.lookup .maxBranches = some (.num mb)
  out : ∃ q, data.lookup .outputPath = some (.text q)
  sf : data.lookup (.other nSf) = some sf
  wr : data.lookup (.other nWr) = some (.num w)
  caps : ∀ c ∈ m.conns, (ext p).caps.lookup c.1 = some (caps c.1)
  probs : ∀ c ∈ m.conns, (ext p).probs.lookup c.1 = some (probs c.1)
  setup : ∀ e ∈ m.ods, ∃ s, (ext p).setup.lookup e.1 = some s

/-- The variables of the demo. -/
def flowVarisOf (m : NetJson K) (caps : K → List ℚ) : List (K × Variable K) :=
  m.conns.map fun c => (c.1, Variable.mk' c.1 (caps c.1) .dflt)

/-- The components and their numbers of states. -/
def flowStates (m : NetJson K) (caps : K → List ℚ) : List (K × ℕ) :=
  m.conns.map fun c => (c.1, (caps c.1).length)

end BNS
