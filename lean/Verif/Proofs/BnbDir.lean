import Verif.Proofs.BnbLoop

/-!
# Lemmas on the output directory and on the path table
-/

namespace BNS

set_option linter.unusedSectionVars false

variable {K : Type} [DecidableEq K]

/-! ## The directory -/

theorem dumpName_inj {key : List Char} {i j : ℕ} (h : dumpName key i = dumpName key j) : i = j := by
  unfold dumpName at h
  have h1 := List.append_cancel_right (List.append_cancel_left h)
  rw [← Nat.ofDigitChars_ten_toDigits (n := i), ← Nat.ofDigitChars_ten_toDigits (n := j), h1]

theorem globMatch_dumpName (key : List Char) (i : ℕ) : globMatch key (dumpName key i) = true := by
  unfold globMatch dumpName
  rw [List.drop_left, Bool.and_eq_true, decide_eq_true_eq, decide_eq_true_eq]
  exact ⟨List.prefix_append _ _, List.suffix_append _ _⟩

/-- The files of one run. -/
def runFiles (key : List Char) : ℕ → List (List (BBranch K)) → Dir K
  | _, [] => []
  | i, d :: ds => (dumpName key i, d) :: runFiles key (i + 1) ds

theorem writeAll_eq (key : List Char) (dumps : List (List (BBranch K))) : ∀ (i : ℕ) (dir : Dir K),
    Dir.writeAll dir key i dumps =
      dir.filter (fun f => decide (∀ j < dumps.length, f.1 ≠ dumpName key (i + j))) ++
        runFiles key i dumps := by
  induction dumps with
  | nil =>
    intro i dir
    unfold Dir.writeAll runFiles
    simp
  | cons d ds ih =>
    intro i dir
    unfold Dir.writeAll runFiles
    rw [ih, Dir.write, List.filter_append, List.append_assoc, List.filter_filter]
    have h1 : List.filter (fun f : List Char × List (BBranch K) =>
        decide (∀ j < ds.length, f.1 ≠ dumpName key (i + 1 + j))) [(dumpName key i, d)] =
        [(dumpName key i, d)] := by
      rw [List.filter_eq_self]
      intro f hf
      rw [List.mem_singleton] at hf
      subst hf
      simp only [decide_eq_true_eq]
      intro j _ e
      have := dumpName_inj e
      omega
    rw [h1]
    refine congrArg₂ (· ++ ·) (List.filter_congr fun f _ => ?_) rfl
    rw [← Bool.decide_and, decide_eq_decide]
    constructor
    · rintro ⟨h1, h2⟩ j hj
      cases j with
      | zero => exact h2
      | succ j =>
        have := h1 j (by simpa using hj)
        rwa [Nat.add_assoc, Nat.add_comm 1 j] at this
    · intro h
      refine ⟨fun j hj => ?_, h 0 (by simp)⟩
      rw [Nat.add_assoc, Nat.add_comm 1 j]
      exact h (j + 1) (by simpa using hj)

theorem sbSaved_append (a b : Dir K) (key : List Char) :
    sbSaved (a ++ b) key = sbSaved a key ++ sbSaved b key := by
  unfold sbSaved
  rw [List.filter_append, List.flatMap_append]

theorem sbSaved_runFiles (key : List Char) (dumps : List (List (BBranch K))) (i : ℕ) :
    sbSaved (runFiles key i dumps) key = dumps.flatten.filter fun c => decide (c.fl = c.fu) := by
  induction dumps generalizing i with
  | nil => rfl
  | cons d ds ih =>
    have h := ih (i + 1)
    unfold sbSaved at h ⊢
    unfold runFiles
    rw [List.filter_cons_of_pos (by simpa using globMatch_dumpName key i), List.flatMap_cons, h,
      List.flatten_cons, List.filter_append]

theorem sbSaved_writeAll (key : List Char) (dumps : List (List (BBranch K))) (i : ℕ) (dir : Dir K) :
    sbSaved (Dir.writeAll dir key i dumps) key =
      sbSaved (dir.filter fun f => decide (∀ j < dumps.length, f.1 ≠ dumpName key (i + j))) key ++
        dumps.flatten.filter fun c => decide (c.fl = c.fu) := by
  rw [writeAll_eq, sbSaved_append, sbSaved_runFiles]

theorem sbSaved_nil_of_noMatch {dir : Dir K} {key : List Char}
    (h : ∀ f ∈ dir, globMatch key f.1 = false) : sbSaved dir key = [] := by
  unfold sbSaved
  have : (dir.filter fun f => globMatch key f.1) = [] := by
    rw [List.filter_eq_nil_iff]
    intro f hf
    rw [h f hf]
    simp
  rw [this]
  rfl

/-! ## The path table -/

theorem bestState_perm {s0 : ℕ} {r1 r2 : List (List K × ℕ)} (h : r1.Perm r2) (x : K → ℕ)
    (cond : ℕ) : bestState s0 r1 x cond = bestState s0 r2 x cond := by
  refine le_antisymm (bestState_le (le_bestState _ _ _ _) fun r hr hs => ?_)
    (bestState_le (le_bestState _ _ _ _) fun r hr hs => ?_)
  · exact bestState_ge (h.mem_iff.1 hr) hs
  · exact bestState_ge (h.mem_iff.2 hr) hs

/-- The rows before sorting. -/
def pathRows (pathTime : List (List K × Option ℚ)) (values : List (Option ℚ)) : List (PathRow K) :=
  pathTime.filterMap fun x =>
    (timeIdx values x.2).map fun i => { path := x.1, time := x.2, state := i }

theorem rowsOf_pathRows (pathTime : List (List K × Option ℚ)) (values : List (Option ℚ)) :
    rowsOf (pathRows pathTime values) = pathStates pathTime values := by
  unfold rowsOf pathRows pathStates
  rw [List.map_filterMap]
  congr 1
  funext x
  rw [Option.map_map]
  rfl

theorem mem_pathRows {pathTime : List (List K × Option ℚ)} {values : List (Option ℚ)}
    {r : PathRow K} (h : r ∈ pathRows pathTime values) :
    (r.path, r.time) ∈ pathTime ∧ timeIdx values r.time = some r.state := by
  obtain ⟨x, hx, h⟩ := List.mem_filterMap.1 h
  obtain ⟨i, hi, rfl⟩ := Option.map_eq_some_iff.1 h
  exact ⟨hx, hi⟩

theorem getPathTimeIdx_eq {pathTime : List (List K × Option ℚ)} (values : List (Option ℚ))
    (h : ∀ x ∈ pathTime, x.2 ≠ none) :
    getPathTimeIdx pathTime values = { path := [], time := none, state := 0 } ::
      (pathRows pathTime values).insertionSort fun a b => b.state ≤ a.state := by
  unfold getPathTimeIdx
  rw [if_neg]
  · rfl
  · rw [List.any_eq_true]
    rintro ⟨x, hx, e⟩
    exact h x hx (by simpa using e)

instance : Std.Total fun (a b : PathRow K) => b.state ≤ a.state :=
  ⟨fun a b => le_total b.state a.state⟩

instance : IsTrans (PathRow K) fun a b => b.state ≤ a.state :=
  ⟨fun _ _ _ h1 h2 => le_trans h2 h1⟩

theorem sorted_rows (rows : List (PathRow K)) :
    (rows.insertionSort fun a b => b.state ≤ a.state).Pairwise fun a b => b.state ≤ a.state :=
  List.pairwise_insertionSort _ _

theorem evalSysState_table {pathTime : List (List K × Option ℚ)} {values : List (Option ℚ)}
    (hinf : ∀ x ∈ pathTime, x.2 ≠ none) {d : List (K × ℕ)}
    (hd : ∀ x ∈ pathTime, ∀ e ∈ x.1, e ∈ d.map Prod.fst) (cond : ℕ) :
    evalSysState (getPathTimeIdx pathTime values) d cond =
      .ok (bestState 0 (pathStates pathTime values) (dictFn d) cond) := by
  rw [getPathTimeIdx_eq values hinf]
  unfold evalSysState
  show evalPaths d cond 0 (_ :: _) = _
  unfold evalPaths
  have : pathSurvives d cond ([] : List K) = .ok false := rfl
  rw [this, ok_bind]
  simp only [Bool.false_eq_true, if_false]
  rw [evalPaths_ok cond _ (fun _ _ => Nat.zero_le _) (sorted_rows _)]
  · rw [← rowsOf_pathRows]
    congr 1
    exact bestState_perm ((List.perm_insertionSort _ _).map _) _ _
  · intro r hr e he
    have := (mem_pathRows ((List.perm_insertionSort _ _).mem_iff.1 hr)).1
    exact hd _ this e he

theorem tableOK_getPathTimeIdx {pathTime : List (List K × Option ℚ)} (values : List (Option ℚ))
    (hinf : ∀ x ∈ pathTime, x.2 ≠ none) {keys : List K}
    (hp : ∀ x ∈ pathTime, x.1 ≠ [] ∧ x.1.Nodup ∧ ∀ e ∈ x.1, e ∈ keys) :
    TableOK keys (getPathTimeIdx pathTime values) := by
  rw [getPathTimeIdx_eq values hinf]
  refine ⟨⟨0, none, rfl, fun _ _ => Nat.zero_le _⟩, sorted_rows _, fun r hr => ?_⟩
  have := (mem_pathRows ((List.perm_insertionSort _ _).mem_iff.1 hr)).1
  exact hp _ this

theorem tableState_getPathTimeIdx {pathTime : List (List K × Option ℚ)} (values : List (Option ℚ))
    (hinf : ∀ x ∈ pathTime, x.2 ≠ none) (x : K → ℕ) :
    tableState (getPathTimeIdx pathTime values) x =
      bestState 0 (pathStates pathTime values) x 1 := by
  rw [getPathTimeIdx_eq values hinf, ← rowsOf_pathRows]
  exact bestState_perm ((List.perm_insertionSort _ _).map _) _ _

theorem arcGet_error {d : List (K × ℕ)} {k : K} (h : k ∉ d.map Prod.fst) :
    arcGet d k = .error .key := by
  have : d.find? (fun q => q.1 = k) = none := by
    rw [List.find?_eq_none]
    intro q hq e
    exact h ((by simpa using e : q.1 = k) ▸ List.mem_map_of_mem hq)
  unfold arcGet
  rw [this]

theorem pathSurvives_error {d : List (K × ℕ)} (cond : ℕ) {path : List K}
    (h : ∃ e ∈ path, e ∉ d.map Prod.fst) : pathSurvives d cond path = .error .key := by
  have hm : (path.mapM fun i => do
      let v ← arcGet d i
      return decide (v = cond)) = Except.error .key := by
    induction path with
    | nil => simp at h
    | cons a l ih =>
      rw [List.mapM_cons]
      by_cases ha : a ∈ d.map Prod.fst
      · rw [arcGet_ok ha, ok_bind, pure_ok, ok_bind, ih, error_bind]
        obtain ⟨e, he, hne⟩ := h
        rcases List.mem_cons.1 he with rfl | he
        · exact absurd ha hne
        · exact ⟨e, he, hne⟩
      · rw [arcGet_error ha, error_bind, error_bind]
  unfold pathSurvives
  rw [hm]
  rfl

end BNS
