import Verif.Proofs.CpmEdit

/-!
# Property C90: CPMs edited after construction
-/

namespace BNS

set_option linter.unusedSectionVars false

section
variable {K : Type}

/-- The constructor accepts exactly the arguments that fit together, given as matrices. -/
theorem C90_constructor (vs : List (Variable K)) (n : ℕ) (C Cs : List (List ℕ)) (p q ps : List ℚ)
    (idx : List ℕ) (M : Cpm K) :
    Cpm.initBy vs n (.mat C) p (.mat Cs) q ps idx = .ok M ↔
      M = ⟨vs, n, C, p, Cs, q, ps, idx⟩ ∧ FieldsFit M := by
  have key : Cpm.initBy vs n (.mat C) p (.mat Cs) q ps idx =
      Cpm.mk' ⟨vs, n, C, p, Cs, q, ps, idx⟩ := by
    unfold Cpm.initBy Cpm.mk'
    simp only [List.foldlM_cons, List.foldlM_nil, Cpm.assign, checkArrC, checkArrCs, Arr.rows,
      bind_assoc, pure_bind, ok_bind]
  rw [key]
  unfold Cpm.mk'
  simp only [bind_ok]
  constructor
  · rintro ⟨_, h1, _, h2, _, h3, _, h4, _, h5, _, h6, _, h7, h8⟩
    cases h8
    refine ⟨rfl, ⟨pyAssert_iff.1 h1, (checkC_iff _ _).1 h2, by
        simpa only [PerRow] using pyAssert_iff.1 h3,
      (checkCs_iff _ _).1 h4, ?_, ?_, ?_⟩⟩
    · have := pyAssert_iff.1 h5
      unfold PerRow; tauto
    · have := pyAssert_iff.1 h6
      unfold PerRow; tauto
    · have := pyAssert_iff.1 h7
      unfold PerRow; tauto
  · rintro ⟨rfl, h⟩
    refine ⟨(), pyAssert_iff.2 h.child, (), (checkC_iff _ _).2 h.mat, (),
      pyAssert_iff.2 (by simpa only [PerRow] using h.prob), (),
      (checkCs_iff _ _).2 h.samples, (), pyAssert_iff.2 ?_, (), pyAssert_iff.2 ?_, (),
      pyAssert_iff.2 ?_, rfl⟩
    · have := h.weights
      unfold PerRow at this; tauto
    · have := h.probs
      unfold PerRow at this; tauto
    · have := h.numbers
      unfold PerRow at this; tauto

/-- A coherent CPM stays coherent under every sequence of assignments, refused ones included,
that keep the number of rows as long as something belongs to the rows and replace variables by
variables with as many states. -/
theorem C90_edits_partial (ops : List (CpmOp K)) (M : Cpm K) (hM : FieldsFit M)
    (hs : ∀ pre op, pre ++ [op] <+: ops → Safe (pre.foldl Cpm.edit M) op) :
    FieldsFit (ops.foldl Cpm.edit M) := by
  induction ops generalizing M with
  | nil => exact hM
  | cons op ops ih =>
    refine ih (M.edit op) ?_ fun pre op' h => ?_
    · rcases edit_cases M op with h | h
      · rw [h]; exact hM
      · exact assign_safe hM (hs [] op (by simp)) h
    · exact hs (op :: pre) op' (by simpa using h)

/-- Replacing the table of a coherent CPM by assigning `C` and then `p` is accepted just when the
new table fits, and gives the CPM with the new table. -/
theorem C90_new_table (M : Cpm K) (hM : FieldsFit M) (C : List (List ℕ)) (p : List ℚ) (M' : Cpm K) :
    [CpmOp.C (.mat C), .p p].foldlM Cpm.assign M = .ok M' ↔
      M' = { M with C := C, p := p } ∧ FieldsFit M' := by
  simp only [List.foldlM_cons, List.foldlM_nil, bind_ok]
  simp only [Cpm.assign, check_then, checkArrC, checkC_iff, pyAssert_iff]
  constructor
  · rintro ⟨M1, ⟨h1, rfl⟩, M2, ⟨h2, rfl⟩, h3⟩
    cases h3
    exact ⟨rfl, hM.child, h1, h2, hM.samples, hM.weights, hM.probs, hM.numbers⟩
  · rintro ⟨rfl, h⟩
    exact ⟨_, ⟨h.mat, rfl⟩, _, ⟨h.prob, rfl⟩, rfl⟩

/-- New samples, first the matrix and then whatever belongs to its rows, replace the old ones, whatever
they were. -/
theorem C90_new_samples (M : Cpm K) (hM : FieldsFit M) (Cs : List (List ℕ)) (hCs : Cs.flatten ≠ [])
    (q ps : List ℚ) (idx : List ℕ) (M' : Cpm K) :
    [CpmOp.Cs (.mat Cs), .q q, .ps ps, .sampleIdx idx].foldlM Cpm.assign M = .ok M' ↔
      M' = { M with Cs := Cs, q := q, ps := ps, sampleIdx := idx } ∧ FieldsFit M' := by
  simp only [List.foldlM_cons, List.foldlM_nil, bind_ok]
  simp only [Cpm.assign, check_then, checkArrCs, checkCs_iff, pyAssert_iff]
  constructor
  · rintro ⟨M1, ⟨h1, rfl⟩, M2, ⟨h2, rfl⟩, M3, ⟨h3, rfl⟩, M4, ⟨h4, rfl⟩, h5⟩
    cases h5
    refine ⟨rfl, hM.child, hM.mat, hM.prob, h1, .inr ?_, .inr ?_, .inr ?_⟩ <;>
      simp only [Arr.rows] at h2 h3 h4 <;> unfold PerRow <;> simp only [Arr.rows] <;> tauto
  · rintro ⟨rfl, h⟩
    have h5 := h.weights.resolve_left hCs
    have h6 := h.probs.resolve_left hCs
    have h7 := h.numbers.resolve_left hCs
    unfold PerRow at h5 h6 h7
    exact ⟨_, ⟨h.samples, rfl⟩, _, ⟨by simp only [Arr.rows]; tauto, rfl⟩, _,
      ⟨by simp only [Arr.rows]; tauto, rfl⟩, _, ⟨by simp only [Arr.rows]; tauto, rfl⟩, rfl⟩

/-- For one variable a vector is the same as a column. -/
theorem C90_vector_one (M : Cpm K) (v : Variable K) (hv : M.vars = [v]) (x : List ℕ) :
    M.assign (.C (.vec x)) = M.assign (.C (.mat (x.map fun i => [i]))) ∧
      M.assign (.Cs (.vec x)) = M.assign (.Cs (.mat (x.map fun i => [i]))) := by
  have key : ∀ bound : Variable K → ℕ, checkVec bound M.vars x = .ok () ↔
      MatOK bound M.vars (x.map fun i => [i]) := by
    intro bound
    unfold checkVec MatOK
    rw [pyAssert_iff, hv]
    constructor
    · intro h
      refine .inr fun r hr => ?_
      obtain ⟨i, hi, rfl⟩ := List.mem_map.1 hr
      refine ⟨rfl, fun j w y hw hy => ?_⟩
      have h1 := List.mem_of_getElem? hw
      have h2 := List.mem_of_getElem? hy
      rw [List.mem_singleton] at h1 h2
      subst h1 h2
      exact h _ hi _ (by simp)
    · rintro (h | h) i hi w hw
      · simp only [List.flatten_eq_nil_iff, List.mem_map, forall_exists_index, and_imp] at h
        exact absurd (h [i] i hi rfl) (by simp)
      · rw [List.mem_singleton] at hw
        subst hw
        exact (h [i] (List.mem_map.2 ⟨i, hi, rfl⟩)).2 0 w i rfl rfl
  have side : ∀ {a b : Except Err Unit}, (a = .ok () ↔ b = .ok ()) →
      (∀ e, a = .error e → e = .assertion) → (∀ e, b = .error e → e = .assertion) → a = b := by
    intro a b h1 h2 h3
    cases a with
    | ok u => exact (h1.1 rfl).symm
    | error e =>
      cases b with
      | ok u => exact absurd (h1.2 rfl) (by simp)
      | error e' => rw [h2 e rfl, h3 e' rfl]
  have hpw : (x.map fun i => [i]).Pairwise (fun a b => a.length = b.length) := by
    rw [List.pairwise_map]
    exact List.pairwise_of_forall fun _ _ => rfl
  have hvec : ∀ bound : Variable K → ℕ, ∀ e, checkVec bound M.vars x = .error e → e = .assertion := by
    intro bound e h
    unfold checkVec pyAssert at h
    split at h
    · cases h
    · cases h; rfl
  refine ⟨?_, ?_⟩
  · have : checkArrC M.vars (.vec x) = checkArrC M.vars (.mat (x.map fun i => [i])) := by
      refine side ?_ (hvec _) fun e h => ?_
      · exact (key _).trans (checkC_iff _ _).symm
      · simp only [checkArrC, checkC] at h
        rw [if_neg (not_not.2 hpw)] at h
        split at h
        · cases h
        · split at h
          · cases h
          · cases h; rfl
    simp only [Cpm.assign, this, Arr.rows]
  · have : checkArrCs M.vars (.vec x) = checkArrCs M.vars (.mat (x.map fun i => [i])) := by
      refine side ?_ (hvec _) fun e h => ?_
      · exact (key _).trans (checkCs_iff _ _).symm
      · simp only [checkArrCs, checkCs] at h
        rw [if_neg (not_not.2 hpw)] at h
        split at h
        · cases h
        · split at h
          · cases h
          · cases h; rfl
    simp only [Cpm.assign, this, Arr.rows]

/-- Not so for several variables: every vector of states that all the variables have is accepted as
event matrix, and leaves a CPM whose rows are one entry long. -/
theorem C90_not_vector (M : Cpm K) (h2 : 2 ≤ M.vars.length) (x : List ℕ) (hx : x ≠ [])
    (hb : ∀ i ∈ x, ∀ v ∈ M.vars, i < 2 ^ v.values.length) :
    ∃ M', M.assign (.C (.vec x)) = .ok M' ∧ M'.vars = M.vars ∧ (∀ r ∈ M'.C, r.length = 1) ∧
      M'.C ≠ [] ∧ ¬ FieldsFit M' := by
  refine ⟨{ M with C := x.map fun i => [i] }, ?_, rfl, ?_, by simpa using hx, ?_⟩
  · rw [Cpm.assign, check_then]
    refine ⟨?_, rfl⟩
    unfold checkArrC checkVec
    rw [pyAssert_iff]
    intro i hi v hv
    have := hb i hi v hv
    simp only
    omega
  · intro r hr
    obtain ⟨i, _, rfl⟩ := List.mem_map.1 hr
    rfl
  · intro h
    obtain ⟨i, hi⟩ := List.exists_mem_of_ne_nil x hx
    rcases h.mat with h | h
    · simp only [List.flatten_eq_nil_iff, List.mem_map, forall_exists_index, and_imp] at h
      exact absurd (h [i] i hi rfl) (by simp)
    · have := (h [i] (List.mem_map.2 ⟨i, hi, rfl⟩)).1
      simp only [List.length_cons, List.length_nil] at this
      omega

end

/-! ## Failing cases -/

namespace CpmEditEx

def x : Variable String := .mk' "x" [0, 1] .dflt
def y : Variable String := .mk' "y" [0, 1] .dflt
def M : Cpm String := { vars := [x], noChild := 1, C := [[0], [1]], p := [1 / 10, 9 / 10] }
def N : Cpm String := { vars := [x, y], noChild := 2, C := [[0, 0], [1, 1]], p := [1 / 10, 9 / 10] }

end CpmEditEx

open CpmEditEx in
/-- Assigning an event matrix with fewer rows is accepted although the probabilities are those of the
old rows; the CPM then gives state 1 the probability of state 0. -/
theorem C90_not_rows : ∃ M', M.assign (.C (.mat [[1]])) = .ok M' ∧ FieldsFit M ∧ ¬ FieldsFit M' ∧
    M.getProb [x] [1] true = .ok (9 / 10) ∧ M'.getProb [x] [1] true = .ok (1 / 10) := by
  refine ⟨_, rfl, ?_, ?_, by decide +kernel, by decide +kernel⟩
  · exact ((C90_constructor [x] 1 [[0], [1]] [] [1 / 10, 9 / 10] [] [] [] M).1
      (by decide +kernel)).2
  · intro h
    have := h.prob
    revert this
    unfold PerRow
    decide

open CpmEditEx in
/-- Variables are replaced without any check: fewer than there are columns, and fewer than
`no_child`. -/
theorem C90_not_variables : ∃ M', N.assign (.scope [x]) = .ok M' ∧ FieldsFit N ∧
    M'.vars.length < M'.noChild ∧ ¬ FieldsFit M' := by
  refine ⟨_, rfl, ?_, by decide, fun h => ?_⟩
  · exact ((C90_constructor [x, y] 2 [[0, 0], [1, 1]] [] [1 / 10, 9 / 10] [] [] [] N).1
      (by decide +kernel)).2
  · have := h.child
    revert this
    decide

open CpmEditEx in
/-- Weights assigned before the samples are never compared with them. -/
theorem C90_not_weights_first : ∃ M', [CpmOp.q [1, 1, 1], .Cs (.mat [[0]])].foldlM Cpm.assign M = .ok M' ∧
    ¬ FieldsFit M' ∧ ([CpmOp.Cs (.mat [[0]]), .q [1, 1, 1]].foldlM Cpm.assign M = .error .assertion) := by
  refine ⟨_, rfl, fun h => ?_, by decide +kernel⟩
  have := h.weights
  revert this
  unfold PerRow
  decide

open CpmEditEx in
/-- A vector as event matrix of two variables: the mistake shows up when the CPM is queried, as a failed
assertion for the first variable and as `IndexError` for the second. -/
theorem C90_vector_query : ∃ M', N.assign (.C (.vec [0, 1])) = .ok M' ∧
    M'.getProb [x] [1] true = .error .assertion ∧ M'.getProb [y] [1] true = .error .index :=
  ⟨_, rfl, by decide +kernel, by decide +kernel⟩

/-! ## The hypotheses can be met -/

open CpmEditEx in
example : FieldsFit N ∧ (∀ pre op, pre ++ [op] <+:
      [CpmOp.p [], .C (.mat [[0, 2]]), .p [(1 : ℚ)], .noChild 1, .scope [y, x], .noChild 5] →
      Safe (pre.foldl Cpm.edit N) op) ∧
    2 ≤ N.vars.length := by
  refine ⟨((C90_constructor [x, y] 2 [[0, 0], [1, 1]] [] [1 / 10, 9 / 10] [] [] [] N).1
      (by decide +kernel)).2, ?_, by decide⟩
  intro pre op h
  obtain ⟨t, ht⟩ := h
  match pre, ht with
  | [], ht => cases ht; trivial
  | [a], ht => cases ht; exact ⟨⟨_, rfl⟩, .inl (by decide +kernel)⟩
  | [a, b], ht => cases ht; trivial
  | [a, b, c], ht => cases ht; trivial
  | [a, b, c, d], ht => cases ht; show _ = _; decide +kernel
  | [a, b, c, d, e], ht => cases ht; trivial
  | a :: b :: c :: d :: e :: f :: g, ht =>
    have := congrArg List.length ht
    simp at this

end BNS
