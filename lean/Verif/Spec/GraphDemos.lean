import Verif.Model.Config

/-!
# Specification vocabulary: the networks of the routine and rbd demos
-/

namespace BNS

variable {K : Type} [DecidableEq K]

/-- A configuration file as in the demos: the model file `pm`, no scenario file, output directory `q`, limit
`mb` of branches. -/
structure DemoConfig (data : List (CfgKey K × CfgVal K)) (pm q : K) (mb : CfgVal K) : Prop where
  model : data.lookup .modelName = some (.text pm)
  scen : data.lookup .scenarioName = some .null
  id : ∃ key, data.lookup .configurationId = some key
  branches : data.lookup .maxBranches = some mb
  out : data.lookup .outputPath = some (.text q)

/-- The model of the routine demo. -/
def RoutineModel (nd eg : ℕ → K) (od1 : K) (m : NetJson K) : Prop :=
  m.comps = [(nd 1, 0, 0), (nd 2, 1, 1), (nd 3, 1, -1), (nd 4, 2, 0)] ∧
  m.conns = [(eg 1, nd 1, nd 2, 1), (eg 2, nd 1, nd 3, 1), (eg 3, nd 2, nd 3, 1), (eg 4, nd 2, nd 4, 1),
    (eg 5, nd 3, nd 4, 1)] ∧
  m.ods = [(od1, nd 1, nd 4)] ∧ m.gtype = none

/-- The model of the rbd demo. -/
def RbdModel (xb eg : ℕ → K) (src snk od1 : K) (m : NetJson K) : Prop :=
  m.comps = [(src, -2, 0), (xb 1, 0, 1 / 2), (xb 2, 0, 1 / 4), (xb 3, 0, 0), (xb 4, -1, -1 / 2),
    (xb 5, 0, -1 / 2), (xb 6, 1, -1 / 2), (xb 7, 2, 0), (xb 8, 3, 0), (snk, 4, 0)] ∧
  m.conns = [(eg 1, src, xb 1, 1), (eg 2, src, xb 2, 1), (eg 3, src, xb 3, 1), (eg 4, src, xb 4, 1),
    (eg 5, xb 4, xb 5, 1), (eg 6, xb 5, xb 6, 1), (eg 7, xb 6, xb 7, 1), (eg 8, xb 7, xb 8, 1),
    (eg 9, xb 8, snk, 1), (eg 10, xb 1, xb 7, 1), (eg 11, xb 2, xb 7, 1), (eg 12, xb 3, xb 7, 1)] ∧
  m.ods = [(od1, src, snk)] ∧ m.gtype = none

/-- The names of the routine demo are different texts. -/
def RoutineNames (nd eg : ℕ → K) : Prop :=
  [nd 1, nd 2, nd 3, nd 4, eg 1, eg 2, eg 3, eg 4, eg 5].Nodup

/-- The names of the rbd demo are different texts. -/
def RbdNames (xb eg : ℕ → K) (src snk : K) : Prop :=
  [src, xb 1, xb 2, xb 3, xb 4, xb 5, xb 6, xb 7, xb 8, snk, eg 1, eg 2, eg 3, eg 4, eg 5, eg 6, eg 7,
    eg 8, eg 9, eg 10, eg 11, eg 12].Nodup

end BNS
