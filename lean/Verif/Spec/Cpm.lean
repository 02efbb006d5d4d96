import Verif.Model.Cpm
import Verif.Spec.Dist

/-!
# Specification vocabulary: the distribution a CPM denotes

Only the data type `Cpm` of the model is used here, none of its operations.
-/

namespace BNS

variable {K : Type}

/-- The set of basic states that state index `s` stands for. -/
def stateSet (v : Variable K) (s : ℕ) : Finset ℕ :=
  match v.B with
  | some B => B.getD s ∅
  | none => ∅

/-- A row of the event matrix covers the assignment `x` when, in each column, the basic state of
that variable belongs to the (composite) state written there. -/
def RowMatches (vars : List (Variable K)) (row : List ℕ) (x : K → ℕ) : Prop :=
  ∀ vs ∈ vars.zip row, x vs.1.name ∈ stateSet vs.1 vs.2

instance (vars : List (Variable K)) (row : List ℕ) (x : K → ℕ) :
    Decidable (RowMatches vars row x) := by unfold RowMatches; infer_instance

/-- The probability a CPM assigns to `x`: the sum over the rows covering `x`. -/
def dens (M : Cpm K) (x : K → ℕ) : ℚ :=
  ((M.C.zip M.p).map fun cp => if RowMatches M.vars cp.1 x then cp.2 else 0).sum

/-- Some row of the event matrix covers `x`. -/
def Covers (M : Cpm K) (x : K → ℕ) : Prop := ∃ r ∈ M.C, RowMatches M.vars r x

/-- Well-formed CPM over the named variables `U`: the variables are those of `U` with their
complete stored table and at least one value, no name is repeated, the event matrix is rectangular with valid state
indices, there is one probability per row, and no samples. -/
structure WF (U : K → Variable K) (M : Cpm K) : Prop where
  env : ∀ v ∈ M.vars, U v.name = v
  table : ∀ v ∈ M.vars, v.B = some (genB v.values.length)
  nodup : (M.vars.map Variable.name).Nodup
  rowLen : ∀ r ∈ M.C, r.length = M.vars.length
  entry : ∀ r ∈ M.C, ∀ vs ∈ M.vars.zip r, vs.2 + 1 < 2 ^ vs.1.values.length
  pLen : M.p.length = M.C.length
  child : M.noChild ≤ M.vars.length
  noCs : M.Cs = [] ∧ M.q = [] ∧ M.ps = [] ∧ M.sampleIdx = []

instance [DecidableEq K] (U : K → Variable K) (M : Cpm K) : Decidable (WF U M) :=
  decidable_of_iff
    ((∀ v ∈ M.vars, U v.name = v) ∧ (∀ v ∈ M.vars, v.B = some (genB v.values.length)) ∧
      (M.vars.map Variable.name).Nodup ∧ (∀ r ∈ M.C, r.length = M.vars.length) ∧
      (∀ r ∈ M.C, ∀ vs ∈ M.vars.zip r, vs.2 + 1 < 2 ^ vs.1.values.length) ∧
      M.p.length = M.C.length ∧ M.noChild ≤ M.vars.length ∧
      (M.Cs = [] ∧ M.q = [] ∧ M.ps = [] ∧ M.sampleIdx = []))
    ⟨fun ⟨a, b, c, d, e, f, g, h⟩ => ⟨a, b, c, d, e, f, g, h⟩,
     fun ⟨a, b, c, d, e, f, g, h⟩ => ⟨a, b, c, d, e, f, g, h⟩⟩

instance (M : Cpm K) (x : K → ℕ) : Decidable (Covers M x) := by unfold Covers; infer_instance

/-- The child columns hold basic states (a composite state in a child column would have no meaning
as a distribution over that child). -/
def ChildBasic (M : Cpm K) : Prop :=
  ∀ r ∈ M.C, ∀ vs ∈ (M.vars.take M.noChild).zip r, vs.2 < vs.1.values.length

instance (M : Cpm K) : Decidable (ChildBasic M) := by unfold ChildBasic; infer_instance

/-- Names of the children / of the parents. -/
def childNames (M : Cpm K) : List K := (M.vars.take M.noChild).map Variable.name
def parentNames (M : Cpm K) : List K := (M.vars.drop M.noChild).map Variable.name

/-- No two CPMs of the list share a child. -/
def ChildDisjoint (l : List (Cpm K)) : Prop :=
  l.Pairwise fun A B => ∀ k ∈ childNames A, k ∉ childNames B

instance [DecidableEq K] (l : List (Cpm K)) : Decidable (ChildDisjoint l) := by
  unfold ChildDisjoint; infer_instance

/-- Evidence on variables of `U` with valid (composite) states. -/
structure EvidenceOK (U : K → Variable K) (names : List K) (cv : List (Variable K))
    (cs : List ℕ) : Prop where
  len : cs.length = cv.length
  env : ∀ p ∈ cv.zip cs, p.1.name ∈ names → U p.1.name = p.1
  state : ∀ p ∈ cv.zip cs, p.1.name ∈ names → p.2 + 1 < 2 ^ p.1.values.length

/-- A query of `get_prob`: at least one variable, valid states. -/
structure QueryOK (U : K → Variable K) (names : List K) (cv : List (Variable K))
    (cs : List ℕ) : Prop where
  ev : EvidenceOK U names cv cs
  ne : cv ≠ []
  all : ∀ p ∈ cv.zip cs, p.2 + 1 < 2 ^ p.1.values.length
  nodup : (cv.map Variable.name).Nodup

/-- `x` is consistent with the evidence on the variables in `names`. -/
def Consistent (names : List K) (cv : List (Variable K)) (cs : List ℕ) (x : K → ℕ) : Prop :=
  ∀ p ∈ cv.zip cs, p.1.name ∈ names → x p.1.name ∈ stateSet p.1 p.2

instance [DecidableEq K] (names : List K) (cv : List (Variable K)) (cs : List ℕ) (x : K → ℕ) :
    Decidable (Consistent names cv cs x) := by unfold Consistent; infer_instance

/-- A row and some evidence have an assignment in common. -/
def Compatible (M : Cpm K) (cv : List (Variable K)) (cs : List ℕ) (r : List ℕ) : Prop :=
  ∃ x, Consistent (M.vars.map Variable.name) cv cs x ∧ RowMatches M.vars r x

/-- Every column holds basic states. -/
def AllBasic (M : Cpm K) : Prop :=
  ∀ r ∈ M.C, ∀ vs ∈ M.vars.zip r, vs.2 < vs.1.values.length

/-- No assignment is covered by two rows. -/
def RowsDisjoint (M : Cpm K) : Prop :=
  M.C.Pairwise fun r r' => ∀ x, ¬ (RowMatches M.vars r x ∧ RowMatches M.vars r' x)

end BNS
