import Verif.Spec.ByOd
import Verif.Spec.SysNet
import Verif.Model.Config

/-!
# Specification vocabulary of the EMA demo
-/

namespace BNS

variable {K : Type} [DecidableEq K]

/-- The three sets of probabilities of the demo, worst state first. -/
def emaTable : List (List ℚ) :=
  [[1 / 100, 4 / 100, 95 / 100], [3 / 100, 12 / 100, 85 / 100], [6 / 100, 24 / 100, 70 / 100]]

/-- A configuration file and the files it names: a model file and a scenario file with three positive
travel times for every connection in scenario `s1`, shorter in better states. -/
structure EmaFileOK (files : K → Option (FileC K)) (data : List (CfgKey K × CfgVal K)) (p s q s1 : K)
    (m : NetJson K) (scen : List (K × List ℚ)) : Prop where
  model : data.lookup .modelName = some (.text p)
  file : files p = some (.model m)
  scenName : data.lookup .scenarioName = some (.text s)
  scenFile : ∃ sc ds, files s = some (.scen sc) ∧ sc.damage = some ds ∧ sc.scenarios.lookup s1 = some scen
  id : ∃ key, data.lookup .configurationId = some key
  branches : ∃ mb, data.lookup .maxBranches = some mb
  out : data.lookup .outputPath = some (.text q)
  delay : DelayModelOK m scen
  three : ∀ c ∈ m.conns, ((scen.lookup c.1).getD []).length = 3

/-- An event matrix over the components `vs` with variables `vars` that decides every vector it should:
exactly one row covers it; the row says failure only if the system is not good, survival only if it is,
and unknown only if `enough` is false. -/
def DecidesSystem (vs : List (K × ℕ)) (vars : List (Variable K)) (good : (K → ℕ) → Prop) (enough : Prop)
    (C : List (List ℕ)) : Prop :=
  ∀ x, InSpace vs x → ∃ (j s : ℕ) (cs : List ℕ), C[j]? = some (s :: cs) ∧ RowMatches vars cs x ∧
    (∀ (j' s' : ℕ) (cs' : List ℕ), C[j']? = some (s' :: cs') → RowMatches vars cs' x → j' = j) ∧
    s < 3 ∧ (s = 0 → ¬ good x) ∧ (s = 1 → good x) ∧ (enough → s ≠ 2)

/-- The variables stored by the demo: three states `[0, 1, 2]` for the system, the travel times for a
connection. -/
def emaVar (scen : List (K × List ℚ)) (sys k : K) : Variable K :=
  .mk' k (if k = sys then [0, 1, 2] else (scen.lookup k).getD []) .dflt

end BNS
