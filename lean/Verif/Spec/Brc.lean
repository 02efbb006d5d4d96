import Verif.Model.Brc
import Verif.Spec.Dist

/-!
# Specification vocabulary: component vectors, boxes, coherent systems

Only the data types of the model are used here, none of its operations.
-/

namespace BNS

variable {K : Type}

/-- The components: distinct names, at least one state each. -/
structure VarisOK (vs : List (K × ℕ)) : Prop where
  nodup : (vs.map Prod.fst).Nodup
  pos : ∀ kn ∈ vs, 0 < kn.2

/-- `x` is a component vector. -/
def InSpace (vs : List (K × ℕ)) (x : K → ℕ) : Prop := ∀ kn ∈ vs, x kn.1 < kn.2

/-- `x` lies in the box of the branch. -/
def InBox (vs : List (K × ℕ)) (b : Branch K) (x : K → ℕ) : Prop :=
  ∀ kn ∈ vs, b.down kn.1 ≤ x kn.1 ∧ x kn.1 ≤ b.up kn.1

/-- The box is non-empty and contains component vectors only. -/
def BoxOK (vs : List (K × ℕ)) (b : Branch K) : Prop :=
  ∀ kn ∈ vs, b.down kn.1 ≤ b.up kn.1 ∧ b.up kn.1 < kn.2

instance (vs : List (K × ℕ)) (x : K → ℕ) : Decidable (InSpace vs x) := by
  unfold InSpace; infer_instance
instance (vs : List (K × ℕ)) (b : Branch K) (x : K → ℕ) : Decidable (InBox vs b x) := by
  unfold InBox; infer_instance
instance (vs : List (K × ℕ)) (b : Branch K) : Decidable (BoxOK vs b) := by
  unfold BoxOK; infer_instance

/-- Non-empty boxes, every component vector in exactly one of them. -/
def Partition (vs : List (K × ℕ)) (brs : List (Branch K)) : Prop :=
  (∀ b ∈ brs, BoxOK vs b) ∧
  ∀ x, InSpace vs x → brs.countP (fun b => decide (InBox vs b x)) = 1

/-- Probability of one component vector, the components being independent. -/
def weight (vs : List (K × ℕ)) (probs : K → ℕ → ℚ) (x : K → ℕ) : ℚ :=
  (vs.map fun kn => probs kn.1 (x kn.1)).prod

/-- Probability of an event. -/
def probOf [DecidableEq K] (vs : List (K × ℕ)) (probs : K → ℕ → ℚ) (E : (K → ℕ) → Prop)
    [DecidablePred E] : ℚ :=
  sumOver vs (fun x => if E x then weight vs probs x else 0) (fun _ => 0)

/-- Every component has a probability distribution over its states. -/
structure ProbOK (vs : List (K × ℕ)) (probs : K → ℕ → ℚ) : Prop where
  nonneg : ∀ kn ∈ vs, ∀ i < kn.2, 0 ≤ probs kn.1 i
  total : ∀ kn ∈ vs, ∑ i ∈ Finset.range kn.2, probs kn.1 i = 1

/-- The system survives more easily when components get better. -/
def Coherent (vs : List (K × ℕ)) (Φ : (K → ℕ) → Bool) : Prop :=
  ∀ x y, (∀ kn ∈ vs, x kn.1 ≤ y kn.1) → Φ x = true → Φ y = true

/-- The rule applies to `x`. -/
def AppliesS (r : Rule K) (x : K → ℕ) : Prop := ∀ kv ∈ r, kv.2 ≤ x kv.1
def AppliesF (r : Rule K) (x : K → ℕ) : Prop := ∀ kv ∈ r, x kv.1 ≤ kv.2

instance (r : Rule K) (x : K → ℕ) : Decidable (AppliesS r x) := by
  unfold AppliesS; infer_instance
instance (r : Rule K) (x : K → ℕ) : Decidable (AppliesF r x) := by
  unfold AppliesF; infer_instance

/-- Valid survival / failure rules of the system. -/
def ValidS (vs : List (K × ℕ)) (Φ : (K → ℕ) → Bool) (r : Rule K) : Prop :=
  ∀ x, InSpace vs x → AppliesS r x → Φ x = true
def ValidF (vs : List (K × ℕ)) (Φ : (K → ℕ) → Bool) (r : Rule K) : Prop :=
  ∀ x, InSpace vs x → AppliesF r x → Φ x = false

/-- A dictionary over known components. -/
structure RuleOK (vs : List (K × ℕ)) (r : Rule K) : Prop where
  nodup : (r.map Prod.fst).Nodup
  known : ∀ kv ∈ r, kv.1 ∈ vs.map Prod.fst

/-- Every rule is a dictionary over known components. -/
def RulesDict (vs : List (K × ℕ)) (rules : Rules K) : Prop :=
  ∀ r ∈ rules.s ++ rules.f, RuleOK vs r

/-- Every rule is valid for the system. -/
structure RulesValid (vs : List (K × ℕ)) (Φ : (K → ℕ) → Bool) (rules : Rules K) : Prop where
  s : ∀ r ∈ rules.s, ValidS vs Φ r
  f : ∀ r ∈ rules.f, ValidF vs Φ r

/-- Some survival / failure rule applies to `x`. -/
def CoveredS (rules : Rules K) (x : K → ℕ) : Prop := ∃ r ∈ rules.s, AppliesS r x
def CoveredF (rules : Rules K) (x : K → ℕ) : Prop := ∃ r ∈ rules.f, AppliesF r x

instance (rules : Rules K) (x : K → ℕ) : Decidable (CoveredS rules x) := by
  unfold CoveredS; infer_instance
instance (rules : Rules K) (x : K → ℕ) : Decidable (CoveredF rules x) := by
  unfold CoveredF; infer_instance

/-- A label is right about the vector it is attached to (`'u'` says nothing). -/
def LabelOK (Φ : (K → ℕ) → Bool) (st : St) (x : K → ℕ) : Prop :=
  (st = .s → Φ x = true) ∧ (st = .f → Φ x = false)

/-- Both labels of a branch are right. -/
def LabelsOK (Φ : (K → ℕ) → Bool) (b : Branch K) : Prop :=
  LabelOK Φ b.downState b.down ∧ LabelOK Φ b.upState b.up

/-- Branches a run may be continued from: none, or a partition with exact probabilities and right
labels. -/
structure GoodBrs [DecidableEq K] (vs : List (K × ℕ)) (Φ : (K → ℕ) → Bool) (probs : K → ℕ → ℚ)
    (brs : List (Branch K)) : Prop where
  part : brs = [] ∨ Partition vs brs
  p : ∀ b ∈ brs, b.p = probOf vs probs (InBox vs b)
  labels : ∀ b ∈ brs, LabelsOK Φ b

/-- A system function for `Φ`: it tells the state of the system and, if it offers a minimal
component state, that one is a dictionary over the components, a valid rule, and applies to the
evaluated vector. -/
structure SysOK (vs : List (K × ℕ)) (Φ : (K → ℕ) → Bool) (sysFun : (K → ℕ) → SysRes K) :
    Prop where
  st : ∀ x, InSpace vs x → (sysFun x).st = if Φ x then .s else .f
  dict : ∀ x, InSpace vs x → (sysFun x).min ≠ [] → RuleOK vs (sysFun x).min
  minS : ∀ x, InSpace vs x → (sysFun x).min ≠ [] → Φ x = true →
    ValidS vs Φ (sysFun x).min ∧ AppliesS (sysFun x).min x
  minF : ∀ x, InSpace vs x → (sysFun x).min ≠ [] → Φ x = false →
    ValidF vs Φ (sysFun x).min ∧ AppliesF (sysFun x).min x

/-- What `run` needs of its fixed inputs. -/
structure CfgOK (c : RunCfg K) (Φ : (K → ℕ) → Bool) : Prop where
  vs : VarisOK c.vs
  coh : Coherent c.vs Φ
  probs : ProbOK c.vs c.probs
  sys : SysOK c.vs Φ c.sysFun

/-- What `run` needs of the rules and branches handed in. -/
structure StartOK [DecidableEq K] (c : RunCfg K) (Φ : (K → ℕ) → Bool) (rules : Rules K)
    (brs : Option (List (Branch K))) : Prop where
  dict : RulesDict c.vs rules
  valid : RulesValid c.vs Φ rules
  good : ∀ bs, brs = some bs → GoodBrs c.vs Φ c.probs bs

/-- A known label is confirmed by the rules. -/
def LabelsCov (rules : Rules K) (b : Branch K) : Prop :=
  ((b.downState = .s → CoveredS rules b.down) ∧ (b.downState = .f → CoveredF rules b.down)) ∧
  ((b.upState = .s → CoveredS rules b.up) ∧ (b.upState = .f → CoveredF rules b.up))

/-- The labels of the two ends agree with the order. -/
def MonoLab (b : Branch K) : Prop :=
  (b.upState = .f → b.downState = .f) ∧ (b.downState = .s → b.upState = .s)

/-- Branches handed in that will be decomposed further carry labels that the rules confirm and that
agree with the order: what a run returns (`C61_resumable`). -/
def ResumeOK (c : RunCfg K) (rules : Rules K) (brs : Option (List (Branch K))) : Prop :=
  c.activeDecomp = false → ∀ bs, brs = some bs → ∀ b ∈ bs, LabelsCov rules b ∧ MonoLab b

/-- Two dictionaries over the components are different. -/
def Differ (vs : List (K × ℕ)) (x y : K → ℕ) : Prop := ∃ kn ∈ vs, x kn.1 ≠ y kn.1

/-- Probability of failure. -/
abbrev pFail [DecidableEq K] (vs : List (K × ℕ)) (probs : K → ℕ → ℚ) (Φ : (K → ℕ) → Bool) : ℚ :=
  probOf vs probs (fun x => Φ x = false)

/-- Number of component vectors. -/
def spaceSize (vs : List (K × ℕ)) : ℕ := (vs.map Prod.snd).prod

end BNS
