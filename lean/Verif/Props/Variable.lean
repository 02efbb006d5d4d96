import Verif.Proofs.Variable

/-!
# Properties C01–C05: the composite-state numbering of `Variable`

`Variable.mk' name values flag` is any variable the constructor can build.
-/

namespace BNS

variable {K : Type}

theorem mk'_getSet (name : K) (values : List ℚ) (flag : BFlag) (s : ℕ) :
    (Variable.mk' name values flag).getSet s = pyGet (genB values.length) s := by
  unfold Variable.getSet Variable.mk'
  by_cases h : storesB values.length flag = true
  · simp [h]
  · simp [h, getSet_fly]

theorem mk'_getState (name : K) (values : List ℚ) (flag : BFlag) (S : Finset ℕ)
    (hS : S.Nonempty) :
    (Variable.mk' name values flag).getState S = pyIndex (genB values.length) S := by
  unfold Variable.getState Variable.mk'
  by_cases h : storesB values.length flag = true
  · simp [h]
  · simp [h, getStateFly_eq _ S hS]

/-! ## C01 -/

/-- `get_set(s)` is defined exactly for `s ≤ 2^n - 2`, and otherwise raises `IndexError`. -/
theorem C01_get_set_defined (name : K) (values : List ℚ) (flag : BFlag) (s : ℕ) :
    ((∃ S, (Variable.mk' name values flag).getSet s = .ok S) ↔ s + 1 < 2 ^ values.length) ∧
    (2 ^ values.length ≤ s + 1 → (Variable.mk' name values flag).getSet s = .error .index) := by
  rw [mk'_getSet]
  have hl := length_genB values.length
  constructor
  · simp only [pyGet_eq_ok]
    constructor
    · rintro ⟨S, hS⟩
      obtain ⟨h, -⟩ := List.getElem?_eq_some_iff.1 hS
      omega
    · intro h
      exact ⟨_, List.getElem?_eq_getElem (by omega)⟩
  · intro h
    unfold pyGet
    rw [List.getElem?_eq_none (by omega)]

/-- Whatever `get_set(s)` returns is a non-empty set of basic states and `get_state` maps it
back to `s`. -/
theorem C01_get_state_get_set (name : K) (values : List ℚ) (flag : BFlag) (s : ℕ)
    (S : Finset ℕ) (h : (Variable.mk' name values flag).getSet s = .ok S) :
    S.Nonempty ∧ (∀ i ∈ S, i < values.length) ∧
      (Variable.mk' name values flag).getState S = .ok s := by
  rw [mk'_getSet, pyGet_eq_ok] at h
  have hm := mem_genB.1 (List.mem_of_getElem? h)
  refine ⟨hm.1, hm.2, ?_⟩
  rw [mk'_getState _ _ _ _ hm.1]
  exact pyIndex_of_getElem? (nodup_genB _) h

/-- Every non-empty set of basic states has a state index, and `get_set` maps it back; a set with
an element that is not a basic state is refused with `ValueError`. -/
theorem C01_get_set_get_state (name : K) (values : List ℚ) (flag : BFlag) (S : Finset ℕ)
    (hS : S.Nonempty) :
    ((∀ i ∈ S, i < values.length) →
      ∃ s, (Variable.mk' name values flag).getState S = .ok s ∧
        (Variable.mk' name values flag).getSet s = .ok S) ∧
    ((¬ ∀ i ∈ S, i < values.length) →
      (Variable.mk' name values flag).getState S = .error .value) := by
  rw [mk'_getState _ _ _ _ hS]
  constructor
  · intro h
    have hm : S ∈ genB values.length := mem_genB.2 ⟨hS, h⟩
    have he : pyIndex (genB values.length) S = .ok ((genB values.length).idxOf S) := by
      rw [pyIndex_eq, if_pos hm]
    exact ⟨_, he, by rw [mk'_getSet, pyGet_eq_ok]; exact pyIndex_ok he⟩
  · intro h
    rw [pyIndex_eq, if_neg (fun hm => h (mem_genB.1 hm).2)]

/-- Non-vacuity: a variable with 7 values (hence not stored) and a 3-element set. -/
example : (Variable.mk' "x" [0, 1, 2, 3, 4, 5, 6] .dflt).B = none ∧
    (Variable.mk' "x" [0, 1, 2, 3, 4, 5, 6] .dflt).getState {1, 4, 6} = .ok 51 ∧
    (Variable.mk' "x" [0, 1, 2, 3, 4, 5, 6] .dflt).getSet 51 = .ok {1, 4, 6} := by
  rw [mk'_getState _ _ _ _ (by simp)]
  decide +kernel

/-! ## C02 -/

/-- `get_state` and `get_set` give the same answer in every storage mode (including the same
error), for every non-empty set of states and every index.

The only disagreement is the empty set, see `C02_empty_set_disagrees`. -/
theorem C02_storage_modes_agree_partial (name : K) (values : List ℚ) (flag flag' : BFlag) :
    (∀ s, (Variable.mk' name values flag).getSet s = (Variable.mk' name values flag').getSet s) ∧
    (∀ S : Finset ℕ, S.Nonempty →
      (Variable.mk' name values flag).getState S =
        (Variable.mk' name values flag').getState S) := by
  refine ⟨fun s => by rw [mk'_getSet, mk'_getSet], fun S hS => ?_⟩
  rw [mk'_getState _ _ _ _ hS, mk'_getState _ _ _ _ hS]

/-- The constructor stores the table exactly when documented. -/
theorem C02_when_stored (name : K) (values : List ℚ) (flag : BFlag) :
    (Variable.mk' name values flag).B.isSome ↔
      0 < values.length ∧ ((values.length ≤ 6 ∧ flag ≠ .fly) ∨ flag = .store) := by
  unfold Variable.mk'
  by_cases h : storesB values.length flag = true
  · simp only [h, if_true]
    simpa [storesB] using h
  · simp only [h]
    simpa [storesB] using h

/-- Defect: on the empty set the on-the-fly algorithm answers `0` (the index of `{0}`), while the
stored table raises `ValueError`. -/
theorem C02_empty_set_disagrees (name : K) (values : List ℚ) (h : values ≠ []) :
    (Variable.mk' name values .fly).getState ∅ = .ok 0 ∧
    (Variable.mk' name values .store).getState ∅ = .error .value := by
  have hl : 0 < values.length := List.length_pos_iff.2 h
  constructor
  · have : storesB values.length .fly = false := by simp [storesB]
    simp only [Variable.getState, Variable.mk', this]
    simp [getStateFly, pyIndex_eq, combos, offset, ok_bind, pure_ok]
  · have : storesB values.length .store = true := by simp [storesB, hl]
    simp only [Variable.getState, Variable.mk', this, if_true]
    rw [pyIndex_eq, if_neg (fun hm => by simpa using (mem_genB.1 hm).1)]

example : (Variable.mk' "x" [0, 1, 2] .store).B.isSome ∧ (Variable.mk' "x" [0, 1, 2] .fly).B = none ∧
    (Variable.mk' "x" [0, 1, 2] .store).getState {0, 2} = .ok 4 ∧
    (Variable.mk' "x" [0, 1, 2] .fly).getState {0, 2} = .ok 4 := by
  rw [mk'_getState _ _ _ _ (by simp), mk'_getState _ _ _ _ (by simp)]
  decide +kernel

/-! ## C03 -/

/-- The generated table lists every non-empty subset of the basic states exactly once, has
`2^n - 1` entries, and starts with the `n` singletons in order. -/
theorem C03_table_complete (n : ℕ) :
    (∀ S : Finset ℕ, S ∈ genB n ↔ (S.Nonempty ∧ S ⊆ Finset.range n)) ∧
    (∀ S ∈ genB n, (genB n).count S = 1) ∧
    (genB n).length = 2 ^ n - 1 ∧
    (∀ i < n, (genB n)[i]? = some {i}) := by
  refine ⟨fun S => ?_, fun S hS => ?_, length_genB n, genB_getElem_lt n⟩
  · rw [mem_genB]; simp [Finset.subset_iff]
  · exact List.count_eq_one_of_mem (nodup_genB n) hS

/-- In every storage mode, a state index below `n` denotes that single basic state. -/
theorem C03_basic_states_first (name : K) (values : List ℚ) (flag : BFlag) (i : ℕ)
    (h : i < values.length) :
    (Variable.mk' name values flag).getSet i = .ok {i} ∧
    (Variable.mk' name values flag).getState {i} = .ok i := by
  rw [mk'_getSet, mk'_getState _ _ _ _ (by simp), pyGet_eq_ok]
  exact ⟨genB_getElem_lt _ _ h, pyIndex_of_getElem? (nodup_genB _) (genB_getElem_lt _ _ h)⟩

/-- The table orders sets by size: a composite state never precedes a smaller one. -/
theorem C03_ordered_by_size (n i j : ℕ) (S T : Finset ℕ) (hi : (genB n)[i]? = some S)
    (hj : (genB n)[j]? = some T) (hij : i ≤ j) : S.card ≤ T.card := by
  have hp : (combosAll n).Pairwise (fun a b => a.length ≤ b.length) := by
    unfold combosAll
    rw [List.pairwise_flatMap]
    refine ⟨fun k _ => ?_, ?_⟩
    · rw [List.pairwise_iff_getElem]
      intro i j hi hj _
      have ha := (mem_combos _ _ _).1 (List.getElem_mem hi)
      have hb := (mem_combos _ _ _).1 (List.getElem_mem hj)
      omega
    · refine (List.pairwise_lt_range' (s := 1) (n := n)).imp ?_
      intro a b hab x hx y hy
      rw [mem_combos] at hx hy; omega
  rw [genB_eq, List.getElem?_map] at hi hj
  obtain ⟨a, ha, rfl⟩ := Option.map_eq_some_iff.1 hi
  obtain ⟨b, hb, rfl⟩ := Option.map_eq_some_iff.1 hj
  have hna := sorted_of_sublist_range (mem_combosAll.1 (List.mem_of_getElem? ha)).1
  have hnb := sorted_of_sublist_range (mem_combosAll.1 (List.mem_of_getElem? hb)).1
  rw [List.toFinset_card_of_nodup (hna.imp (fun h => ne_of_lt h)),
    List.toFinset_card_of_nodup (hnb.imp (fun h => ne_of_lt h))]
  rcases Nat.eq_or_lt_of_le hij with rfl | hlt
  · rw [ha] at hb; cases hb; exact le_rfl
  · obtain ⟨h1, rfl⟩ := List.getElem?_eq_some_iff.1 ha
    obtain ⟨h2, rfl⟩ := List.getElem?_eq_some_iff.1 hb
    exact (List.pairwise_iff_getElem.1 hp) i j h1 h2 hlt

example : genB 3 = [{0}, {1}, {2}, {0, 1}, {0, 2}, {1, 2}, {0, 1, 2}] := by decide +kernel

/-! ## C04 -/

/-- `find_state_from_vector(v)` is `-1` for the zero vector, and otherwise the `get_state` index
of the set of positions holding 1, for every variable with as many values as the vector has
entries. -/
theorem C04_vector_lookup (name : K) (values : List ℚ) (flag : BFlag) (v : List ℕ)
    (h01 : ∀ b ∈ v, b = 0 ∨ b = 1) (hlen : v.length = values.length) :
    ((∀ b ∈ v, b = 0) → findStateFromVector v = .ok (-1)) ∧
    ((∃ b ∈ v, b ≠ 0) → ∃ s : ℕ,
      (Variable.mk' name values flag).getState
        ((Finset.range v.length).filter fun i => v[i]? = some 1) = .ok s ∧
      findStateFromVector v = .ok (s : ℤ)) := by
  constructor
  · intro h
    have : v.sum = 0 := List.sum_eq_zero h
    simp [findStateFromVector, this]
  · rintro ⟨b, hb, hb0⟩
    have hsum : v.sum ≠ 0 := by
      intro h
      have hz : ∀ (l : List ℕ), l.sum = 0 → ∀ b ∈ l, b = 0 := by
        intro l
        induction l with
        | nil => simp
        | cons a l ih =>
          intro hs b hb
          rw [List.sum_cons] at hs
          rcases List.mem_cons.1 hb with rfl | hb
          · omega
          · exact ih (by omega) b hb
      exact hb0 (hz v h b hb)
    have hsub := onePositions_sublist v
    have hlen1 := length_onePositions v h01
    have hS : ((Finset.range v.length).filter fun i => v[i]? = some 1) =
        (onePositions v).toFinset := by
      ext i; simp [onePositions]
    have hne : onePositions v ≠ [] := by
      intro h; rw [h] at hlen1; simp at hlen1; omega
    have hmem : onePositions v ∈ combosAll v.length := mem_combosAll.2 ⟨hsub, hne⟩
    have hneS : (onePositions v).toFinset.Nonempty := by
      simpa [Finset.nonempty_iff_ne_empty] using hne
    rw [hS, mk'_getState _ _ _ _ hneS, ← hlen, genB_eq,
      pyIndex_map_on _ _ (nodup_combosAll _) (toFinset_injOn _) _ hmem,
      pyIndex_combosAll _ _ hne, hlen1]
    have hm2 : onePositions v ∈ combos (List.range v.length) v.sum :=
      (mem_combos _ _ _).2 ⟨hsub, hlen1⟩
    unfold findStateFromVector
    rw [if_neg hsum, pyIndex_eq, if_pos hm2]
    exact ⟨_, rfl, rfl⟩

example : findStateFromVector [1, 0, 1] = .ok 4 ∧
    (Variable.mk' "x" [0, 1, 2] .dflt).getState
      ((Finset.range 3).filter fun i => [1, 0, 1][i]? = some 1) = .ok 4 := by decide +kernel

/-- `get_Bst_from_Bvec` applies the vector look-up to every cell. -/
theorem C04_Bvec (Bvec : List (List (List ℕ))) (out : List (List ℤ))
    (h : getBstFromBvec Bvec = .ok out) :
    List.Forall₂ (List.Forall₂ fun v s => findStateFromVector v = .ok s) Bvec out := by
  have key : ∀ {α β : Type} (f : α → Except Err β) (xs : List α) (ys : List β),
      xs.mapM f = .ok ys → List.Forall₂ (fun x y => f x = .ok y) xs ys := by
    intro α β f xs
    induction xs with
    | nil =>
      intro ys h
      rw [List.mapM_nil] at h
      cases h; exact .nil
    | cons x xs ih =>
      intro ys h
      rw [List.mapM_cons] at h
      cases hx : f x with
      | error e => rw [hx] at h; cases h
      | ok y =>
        rw [hx] at h
        cases hxs : xs.mapM f with
        | error e => rw [hxs] at h; cases h
        | ok zs =>
          rw [hxs] at h
          cases h
          exact .cons hx (ih _ hxs)
  exact (key _ _ _ h).imp fun _ _ h2 => key _ _ _ h2

/-! ## C05 -/

/-- One call of `get_composite_state` on a variable with a stored table `B` (complete or not):
the answer's table entry is exactly the requested set, the old table is a prefix of the new one
(so no index is renumbered), nothing changes if the set was already present, and the name and
values are untouched.  Asking again returns the same index and the same variable. -/
theorem C05_never_renumbers (v : Variable K) (B : List (Finset ℕ)) (hB : v.B = some B)
    (states : List ℕ) :
    ∃ B' cst, getCompositeState v states = .ok ({ v with B := some B' }, cst) ∧
      B'[cst]? = some states.toFinset ∧ B <+: B' ∧
      (states.toFinset ∈ B → B' = B) ∧
      (states.toFinset ∉ B → B' = B ++ [states.toFinset]) ∧
      getCompositeState { v with B := some B' } states = .ok ({ v with B := some B' }, cst) := by
  by_cases h : states.toFinset ∈ B
  · have he : pyIndex B states.toFinset = .ok (B.idxOf states.toFinset) := by
      rw [pyIndex_eq, if_pos h]
    refine ⟨B, B.idxOf states.toFinset, ?_, pyIndex_ok he, List.prefix_rfl, fun _ => rfl,
      fun hn => absurd h hn, ?_⟩ <;>
    · simp only [getCompositeState, hB, h, if_true, he]; rfl
  · have hm : states.toFinset ∈ B ++ [states.toFinset] := by simp
    have he : pyIndex (B ++ [states.toFinset]) states.toFinset =
        .ok ((B ++ [states.toFinset]).idxOf states.toFinset) := by
      rw [pyIndex_eq, if_pos hm]
    refine ⟨B ++ [states.toFinset], _, ?_, pyIndex_ok he, List.prefix_append _ _,
      fun hn => absurd hn h, fun _ => rfl, ?_⟩
    · simp only [getCompositeState, hB, h, if_false, he]; rfl
    · simp only [getCompositeState, hm, if_true, he]; rfl

/-- A sequence of calls, collecting the indices returned. -/
def compositeCalls {K : Type} (v : Variable K) : List (List ℕ) → Except Err (Variable K × List ℕ)
  | [] => .ok (v, [])
  | st :: sts => do
    let (v', c) ← getCompositeState v st
    let (v'', cs) ← compositeCalls v' sts
    return (v'', c :: cs)

/-- After any sequence of calls, every index handed out during the sequence still denotes the set
it was handed out for in the final table, and all original indices keep their meaning. -/
theorem C05_history (v : Variable K) (B : List (Finset ℕ)) (hB : v.B = some B)
    (reqs : List (List ℕ)) :
    ∃ B' cs, compositeCalls v reqs = .ok ({ v with B := some B' }, cs) ∧ B <+: B' ∧
      List.Forall₂ (fun st c => B'[c]? = some (List.toFinset st)) reqs cs := by
  induction reqs generalizing v B with
  | nil => exact ⟨B, [], by simp [compositeCalls, ← hB], List.prefix_rfl, .nil⟩
  | cons st sts ih =>
    obtain ⟨B1, c, h1, h2, h3, -⟩ := C05_never_renumbers v B hB st
    obtain ⟨B2, cs, h4, h5, h6⟩ := ih { v with B := some B1 } B1 rfl
    refine ⟨B2, c :: cs, ?_, h3.trans h5, .cons ?_ h6⟩
    · simp only [compositeCalls, h1]
      rw [ok_bind]
      simp only [h4]; rfl
    · obtain ⟨t, rfl⟩ := h5
      rw [List.getElem?_append_left]
      · exact h2
      · exact (List.getElem?_eq_some_iff.1 h2).1

/-- A freshly built table is complete: no valid request ever changes the variable, and the index is
the `get_state` index. -/
theorem C05_complete_unchanged (name : K) (values : List ℚ) (flag : BFlag)
    (hB : (Variable.mk' name values flag).B.isSome) (states : List ℕ) (hne : states ≠ [])
    (hlt : ∀ i ∈ states, i < values.length) :
    ∃ s, (Variable.mk' name values flag).getState states.toFinset = .ok s ∧
      getCompositeState (Variable.mk' name values flag) states =
        .ok (Variable.mk' name values flag, s) := by
  have hS : states.toFinset.Nonempty := by simpa [Finset.nonempty_iff_ne_empty] using hne
  have hm : states.toFinset ∈ genB values.length := mem_genB.2 ⟨hS, by simpa using hlt⟩
  have hB' : (Variable.mk' name values flag).B = some (genB values.length) := by
    unfold Variable.mk' at hB ⊢
    by_cases h : storesB values.length flag = true
    · simp [h]
    · simp [h] at hB
  rw [mk'_getState _ _ _ _ hS, pyIndex_eq, if_pos hm]
  refine ⟨_, rfl, ?_⟩
  simp only [getCompositeState, hB', hm, if_true, pyIndex_eq]
  rw [← hB', ok_bind]
  rfl

/-- Defect: when the table is not stored (more than 6 values, or `B_flag='fly'`) the call raises
`TypeError` instead of answering. -/
theorem C05_not_stored_raises (v : Variable K) (hB : v.B = none) (states : List ℕ) :
    getCompositeState v states = .error .type := by
  simp [getCompositeState, hB]

/-- Non-vacuity: an incomplete table is extended at the end. -/
example : compositeCalls ({ name := "x", values := [0, 1, 2], B := some [{0}, {1}, {2}] })
      [[0, 2], [1], [2, 0], [1, 2]] =
    .ok ({ name := "x", values := [0, 1, 2], B := some [{0}, {1}, {2}, {0, 2}, {1, 2}] },
      [3, 1, 3, 4]) := by decide +kernel

end BNS
