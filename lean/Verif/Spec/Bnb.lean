import Verif.Model.Bnb

/-!
# Specification vocabulary: path tables and binary boxes
-/

namespace BNS

variable {K : Type} [DecidableEq K]

/-- All arcs of a (non-empty) path are in the surviving state. -/
def Surv (x : K → ℕ) (cond : ℕ) (path : List K) : Prop := path ≠ [] ∧ ∀ e ∈ path, x e = cond

instance (x : K → ℕ) (cond : ℕ) (path : List K) : Decidable (Surv x cond path) := by
  unfold Surv; infer_instance

/-- The largest state among the surviving paths, `s0` if there is none (or all are smaller). -/
def bestState (s0 : ℕ) (rows : List (List K × ℕ)) (x : K → ℕ) (cond : ℕ) : ℕ :=
  ((rows.filter fun r => Surv x cond r.1).map Prod.snd).foldr max s0

/-- The paths and states of a table. -/
def rowsOf (table : List (PathRow K)) : List (List K × ℕ) := table.map fun r => (r.path, r.state)

/-- A dictionary with the given keys, as a function. -/
def dictFn (d : List (K × ℕ)) (k : K) : ℕ := ((d.find? fun kv => kv.1 = k).map Prod.snd).getD 0

/-- The system state of a table: the best surviving path, the state of the first row if none. -/
def tableState (table : List (PathRow K)) (x : K → ℕ) : ℕ :=
  bestState ((table.head?.map PathRow.state).getD 0) (rowsOf table.tail) x 1

/-- What `branch_and_bound` needs of its table: a first row without path for "no path", then the
paths from the largest state down; every path is non-empty, without repetition, over the arcs. -/
structure TableOK (keys : List K) (table : List (PathRow K)) : Prop where
  head : ∃ s0 t0, table.head? = some { path := [], time := t0, state := s0 } ∧
    ∀ r ∈ table.tail, s0 ≤ r.state
  sorted : table.tail.Pairwise fun a b => b.state ≤ a.state
  path : ∀ r ∈ table.tail, r.path ≠ [] ∧ r.path.Nodup ∧ ∀ e ∈ r.path, e ∈ keys

/-- The arc vector lies in the box of the branch. -/
def InBBox (keys : List K) (b : BBranch K) (x : K → ℕ) : Prop :=
  ∀ k ∈ keys, dictFn b.lower k ≤ x k ∧ x k ≤ dictFn b.upper k

instance (keys : List K) (b : BBranch K) (x : K → ℕ) : Decidable (InBBox keys b x) := by
  unfold InBBox; infer_instance

/-- A branch: both dictionaries have the arcs as keys, in the same order; a non-empty box of 0/1
vectors. -/
structure BBoxOK (keys : List K) (b : BBranch K) : Prop where
  lower : b.lower.map Prod.fst = keys
  upper : b.upper.map Prod.fst = keys
  le : ∀ k ∈ keys, dictFn b.lower k ≤ dictFn b.upper k
  bin : ∀ k ∈ keys, dictFn b.upper k ≤ 1

/-- The labels: the upper one is the system state at the upper end, the lower one is at most the
system state at the lower end. -/
def BLabelsOK (table : List (PathRow K)) (b : BBranch K) : Prop :=
  b.fu = tableState table (dictFn b.upper) ∧ b.fl ≤ tableState table (dictFn b.lower)

/-- Number of branches that contain the vector. -/
def bhits (keys : List K) (brs : List (BBranch K)) (x : K → ℕ) : ℕ :=
  brs.countP fun b => decide (InBBox keys b x)

/-- The branches a run starts from: boxes with right labels, none of them decided, no two with a
common vector. -/
structure StarsOK (keys : List K) (table : List (PathRow K)) (bstars : List (BBranch K)) : Prop where
  box : ∀ b ∈ bstars, BBoxOK keys b
  labels : ∀ b ∈ bstars, BLabelsOK table b
  undecided : ∀ b ∈ bstars, b.fl ≠ b.fu
  disjoint : ∀ x, bhits keys bstars x ≤ 1

/-- The paths with the index of their time, paths with unknown times dropped. -/
def pathStates (pathTime : List (List K × Option ℚ)) (values : List (Option ℚ)) :
    List (List K × ℕ) :=
  pathTime.filterMap fun x => (timeIdx values x.2).map fun i => (x.1, i)

/-- Order of travel times, `none` being infinity. -/
def timeLe : Option ℚ → Option ℚ → Prop
  | _, none => True
  | none, some _ => False
  | some a, some b => a ≤ b

instance (a b : Option ℚ) : Decidable (timeLe a b) := by
  cases a <;> cases b <;> unfold timeLe <;> infer_instance

/-- `t` is the time of the fastest path that survives in `x`, infinity if there is none. -/
def TravelTime (pathTime : List (List K × Option ℚ)) (x : K → ℕ) (cond : ℕ) (t : Option ℚ) : Prop :=
  (t = none ↔ ∀ p ∈ pathTime, ¬ Surv x cond p.1) ∧
    (t ≠ none → ∃ p ∈ pathTime, Surv x cond p.1 ∧ p.2 = t) ∧
    ∀ p ∈ pathTime, Surv x cond p.1 → timeLe t p.2

instance (pathTime : List (List K × Option ℚ)) (x : K → ℕ) (cond : ℕ) (t : Option ℚ) :
    Decidable (TravelTime pathTime x cond t) := by unfold TravelTime; infer_instance

/-- Two times are equal or differ by more than the tolerance: one part in 10⁵, plus 10⁻⁸. -/
def TimesApart : Option ℚ → Option ℚ → Prop
  | some a, some b => a = b ∨ 1 / 100000000 + |b| / 100000 < |a - b|
  | _, _ => True

instance (a b : Option ℚ) : Decidable (TimesApart a b) := by
  cases a <;> cases b <;> unfold TimesApart <;> infer_instance

/-- The values of the travel-time variable as `get_branches` builds them: infinity, then the times
in decreasing order; a value is the time of a path or differs from it by more than the tolerance. -/
structure ValuesOK (pathTime : List (List K × Option ℚ)) (values : List (Option ℚ)) : Prop where
  head : values.head? = some none
  sorted : values.Pairwise fun a b => timeLe b a
  known : ∀ x ∈ pathTime, x.2 ≠ none ∧ x.2 ∈ values
  apart : ∀ x ∈ pathTime, ∀ y ∈ values, TimesApart x.2 y

end BNS
