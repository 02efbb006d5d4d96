import Verif.Proofs.CpmProb
import Verif.Proofs.CpmProdList
import Verif.Model.LogProd
import Verif.Examples.Cpm

/-!
# Properties C17, C54, C55 and C56: set helpers, construction checks, column helpers, log product
-/

namespace BNS

set_option linter.unusedSectionVars false

variable {K : Type} [DecidableEq K] {U : K → Variable K}

/-! ## C17 -/

/-- `ismember(A, B)`: one answer per element of `A`; a number is the first position of that
element in `B`, and there is one exactly when the element occurs in `B`. -/
theorem C17_ismember {α κ : Type} [DecidableEq κ] (key : α → κ) (A B : List α) :
    (ismemberOn key A B).length = A.length ∧
    ∀ i (hi : i < A.length),
      ((ismemberOn key A B)[i]? = some none ↔ key A[i] ∉ B.map key) ∧
      ∀ j, (ismemberOn key A B)[i]? = some (some j) ↔
        ∃ hj : j < B.length, key B[j] = key A[i] ∧ ∀ j' (h : j' < j), key B[j'] ≠ key A[i] := by
  refine ⟨by simp [ismemberOn], fun i hi => ?_⟩
  have he : (ismemberOn key A B)[i]? = some ((B.map key).idxOf? (key A[i])) := by
    simp [ismemberOn, hi]
  rw [he, idxOf?_eq]
  by_cases hm : key A[i] ∈ B.map key
  · rw [if_pos hm]
    refine ⟨by simp [hm], fun j => ?_⟩
    have hlt : (B.map key).idxOf (key A[i]) < B.length := by
      simpa using List.idxOf_lt_length_iff.2 hm
    have hget : key (B[(B.map key).idxOf (key A[i])]) = key A[i] := by
      have := List.getElem_idxOf (List.idxOf_lt_length_iff.2 hm)
      rw [List.getElem_map] at this
      exact this
    have hfirst : ∀ j' (h : j' < (B.map key).idxOf (key A[i])),
        key (B[j']'(by omega)) ≠ key A[i] := by
      intro j' h
      have := List.not_of_lt_findIdx h
      simpa using this
    simp only [Option.some.injEq]
    constructor
    · rintro rfl; exact ⟨hlt, hget, hfirst⟩
    · rintro ⟨hj, h1, h2⟩
      rcases Nat.lt_trichotomy ((B.map key).idxOf (key A[i])) j with h | h | h
      · exact absurd hget (h2 _ h)
      · exact h
      · exact absurd h1 (hfirst j h)
  · rw [if_neg hm]
    refine ⟨by simp [hm], fun j => ?_⟩
    simp only [Option.some.injEq, reduceCtorEq, false_iff]
    rintro ⟨hj, h1, -⟩
    exact hm (h1 ▸ List.mem_map_of_mem (List.getElem_mem hj))

/-- `setdiff(A, B)`: a sublist of `A` (so in order) without repetition, holding exactly the
elements of `A` that are not in `B`; and the positions it returns point to them in `A` (with its
repetitions removed). -/
theorem C17_setdiff {α κ : Type} [DecidableEq κ] (key : α → κ) (A B : List α) :
    ((setdiffOn key A B).1).Sublist A ∧ ((setdiffOn key A B).1.map key).Nodup ∧
    (∀ k, k ∈ (setdiffOn key A B).1.map key ↔ k ∈ A.map key ∧ k ∉ B.map key) ∧
    (setdiffOn key A B).2.length = (setdiffOn key A B).1.length ∧
    ((A.map key).Nodup → ∀ i (h : i < (setdiffOn key A B).1.length), ∃ j,
      (setdiffOn key A B).2[i]? = some j ∧ A[j]? = some (setdiffOn key A B).1[i]) := by
  refine ⟨setdiffOn_fst_sublist key A B, setdiffOn_fst_nodup key A B,
    mem_setdiffOn_key key A B, by simp [setdiffOn], fun hn i h => ?_⟩
  have hfirst := firstOccOn_of_nodup key A hn
  have hmem : (setdiffOn key A B).1[i] ∈ A :=
    (setdiffOn_fst_sublist key A B).subset (List.getElem_mem h)
  obtain ⟨j, hj, hje⟩ := List.getElem_of_mem hmem
  refine ⟨j, ?_, by rw [List.getElem?_eq_getElem hj, hje]⟩
  have h2 : (setdiffOn key A B).2[i]? =
      some ((A.map key).idxOf (key (setdiffOn key A B).1[i])) := by
    have hh : i < (setdiffOn key A B).1.length := h
    simp only [setdiffOn, hfirst] at hh ⊢
    rw [List.getElem?_map, List.getElem?_eq_getElem hh]
    rfl
  rw [h2, ← hje]
  congr 1
  have := hn.idxOf_getElem j (by simpa using hj)
  rw [List.getElem_map] at this
  exact this

/-- `argsort(seq)`: a permutation of the positions, along which the keys increase, equal keys
keeping their original order. -/
theorem C17_argsort {α κ : Type} [LinearOrder κ] (key : α → κ) (d : κ) (seq : List α) :
    (argsortOn key d seq).Perm (List.range seq.length) ∧
    (argsortOn key d seq).Pairwise (fun i j => ∀ a ∈ seq[i]?, ∀ b ∈ seq[j]?,
      key a < key b ∨ (key a = key b ∧ i < j)) := by
  have hp := argsortOn_perm key d seq
  refine ⟨hp, ?_⟩
  -- sorting by the pair (key, position) gives the same list
  let f : ℕ → κ := fun i => (seq.map key).getD i d
  have hstab : ∀ l : List ℕ, l.Pairwise (· < ·) →
      (l.insertionSort fun i j => f i ≤ f j).Pairwise
        fun i j => f i < f j ∨ (f i = f j ∧ i < j) := by
    intro l
    induction l with
    | nil => simp
    | cons a l ih =>
      intro hl
      rw [List.pairwise_cons] at hl
      have ih := ih hl.2
      rw [List.insertionSort_cons]
      have hins : ∀ m : List ℕ, (∀ j ∈ m, a < j) →
          m.Pairwise (fun i j => f i < f j ∨ (f i = f j ∧ i < j)) →
          (m.orderedInsert (fun i j => f i ≤ f j) a).Pairwise
            (fun i j => f i < f j ∨ (f i = f j ∧ i < j)) := by
        intro m
        induction m with
        | nil => intro _ _; simp
        | cons b m ihm =>
          intro hlt hpw
          rw [List.orderedInsert_cons]
          rw [List.pairwise_cons] at hpw
          split
          · rename_i hab
            rw [List.pairwise_cons]
            refine ⟨?_, List.pairwise_cons.2 hpw⟩
            intro j hj
            have hfa : f a ≤ f j := by
              rcases List.mem_cons.1 hj with rfl | hj
              · exact hab
              · rcases hpw.1 j hj with h | h
                · exact hab.trans h.le
                · exact h.1 ▸ hab
            rcases lt_or_eq_of_le hfa with h | h
            · exact .inl h
            · exact .inr ⟨h, hlt j hj⟩
          · rename_i hab
            rw [List.pairwise_cons]
            refine ⟨?_, ihm (fun j hj => hlt j (by simp [hj])) hpw.2⟩
            intro j hj
            rw [List.mem_orderedInsert] at hj
            rcases hj with rfl | hj
            · exact .inl (lt_of_not_ge hab)
            · exact hpw.1 j hj
      refine hins _ ?_ ih
      intro j hj
      exact hl.1 j ((List.mem_insertionSort _).1 hj)
  have := hstab (List.range seq.length) List.pairwise_lt_range
  refine this.imp ?_
  intro i j hij a ha b hb
  have ea : f i = key a := by
    simp only [f, List.getD_eq_getElem?_getD, List.getElem?_map]
    rw [Option.mem_def.1 ha]; rfl
  have eb : f j = key b := by
    simp only [f, List.getD_eq_getElem?_getD, List.getElem?_map]
    rw [Option.mem_def.1 hb]; rfl
  rw [← ea, ← eb]
  exact hij

example : ismemberOn id [3, 5, 3] [5, 3, 3] = [some 1, some 0, some 1] ∧
    setdiffOn id [4, 1, 4, 2] [1] = ([4, 2], [0, 2]) ∧
    argsortOn id 0 [2, 1, 2, 0] = [3, 1, 0, 2] := by decide +kernel

/-! ## C54 -/

/-- What the constructor checks: rectangular event matrix with one column per variable, state
indices at most `2^n - 1`, a probability per row or none at all.  Missing for the full claim: the
largest accepted index denotes nothing (`C54_accepts_invalid_state`), and `p` may be absent. -/
theorem C54_constructor_partial (M N : Cpm K) (h : M.mk' = .ok N) (hne : M.C.flatten ≠ []) :
    N = M ∧ M.noChild ≤ M.vars.length ∧ (∀ r ∈ M.C, r.length = M.vars.length) ∧
    (∀ r ∈ M.C, ∀ vs ∈ M.vars.zip r, vs.2 ≤ 2 ^ vs.1.values.length - 1) ∧
    (M.p = [] ∨ M.p.length = M.C.length) := by
  unfold Cpm.mk' at h
  by_cases h1 : M.noChild ≤ M.vars.length
  · rw [pyAssert_true h1, ok_bind] at h
    by_cases hc : checkC M.vars M.C = .ok ()
    · rw [hc, ok_bind] at h
      by_cases hp : M.p = [] ∨ M.p.length = M.C.length
      · rw [pyAssert_true hp, ok_bind] at h
        refine ⟨?_, h1, ?_, ?_, hp⟩
        · cases h2 : checkCs M.vars M.Cs with
          | error e => rw [h2] at h; cases h
          | ok u =>
            rw [h2, ok_bind] at h
            unfold pyAssert at h
            split at h
            · rw [ok_bind] at h
              split at h
              · rw [ok_bind] at h
                split at h
                · rw [ok_bind] at h; cases h; rfl
                · cases h
              · cases h
            · cases h
        all_goals
          unfold checkC at hc
          rw [if_neg hne] at hc
          split at hc
          · cases hc
          · split at hc
            · rename_i hall
              rw [Bool.and_eq_true, List.all_eq_true, List.all_eq_true] at hall
              first
              | exact fun r hr => by simpa using hall.1 r hr
              | exact fun r hr vs hvs => by
                  have := hall.2 r hr
                  rw [List.all_eq_true] at this
                  simpa using this vs hvs
            · cases hc
      · rw [pyAssert_false hp] at h; cases h
    · cases h2 : checkC M.vars M.C with
      | error e => rw [h2] at h; cases h
      | ok u => exact absurd h2 hc
  · rw [pyAssert_false h1] at h; cases h

/-- The check is off by one: state index 3 of a two-state variable is accepted although it denotes
no set of states. -/
theorem C54_accepts_invalid_state :
    ∃ M : Cpm ℕ, M.mk' = .ok M ∧ M.vars = [Ex.U 0] ∧ M.C = [[3]] ∧
      (Ex.U 0).getSet 3 = .error .index :=
  ⟨{ vars := [Ex.U 0], noChild := 1, C := [[3]], p := [1] }, by decide +kernel, rfl, rfl,
    by decide +kernel⟩

/-- Invalid tables of the kinds the constructor does catch are refused. -/
theorem C54_rejects (M : Cpm K) (h1 : M.noChild ≤ M.vars.length) (hne : M.C.flatten ≠ [])
    (hrect : M.C.Pairwise fun a b => a.length = b.length)
    (hbad : (∃ r ∈ M.C, r.length ≠ M.vars.length) ∨
      ∃ r ∈ M.C, ∃ vs ∈ M.vars.zip r, 2 ^ vs.1.values.length - 1 < vs.2) :
    M.mk' = .error .assertion := by
  unfold Cpm.mk'
  rw [pyAssert_true h1, ok_bind]
  have : checkC M.vars M.C = .error .assertion := by
    unfold checkC
    rw [if_neg hne, if_neg (by simpa using hrect), if_neg]
    rw [Bool.and_eq_true, List.all_eq_true, List.all_eq_true]
    rintro ⟨ha, hb⟩
    rcases hbad with ⟨r, hr, h⟩ | ⟨r, hr, vs, hvs, h⟩
    · exact h (by simpa using ha r hr)
    · have := hb r hr
      rw [List.all_eq_true] at this
      have := this vs hvs
      simp at this
      omega
  rw [this]
  rfl

/-! ## C55 -/

/-- `get_col_ind`: for each requested name, in order, the column carrying that name; duplicates
and unknown names are refused. -/
theorem C55_get_col_ind (M : Cpm K) (names : List K) :
    (¬ names.Nodup → M.getColInd names = .error .assertion) ∧
    (names.Nodup → (∃ k ∈ names, k ∉ M.getNames) → M.getColInd names = .error .value) ∧
    (names.Nodup → (∀ k ∈ names, k ∈ M.getNames) → ∃ idx, M.getColInd names = .ok idx ∧
      idx.map (fun i => M.getNames[i]?) = names.map some) := by
  refine ⟨fun h => ?_, fun h hu => ?_, fun h ha => ?_⟩
  · unfold Cpm.getColInd; rw [pyAssert_false h]; rfl
  · unfold Cpm.getColInd
    rw [pyAssert_true h, ok_bind]
    refine mapM_error ?_ ?_
    · obtain ⟨k, hk, hn⟩ := hu
      exact ⟨k, hk, by rw [pyIndex_eq, if_neg hn]⟩
    · intro k _ e' he
      rw [pyIndex_eq] at he
      split at he
      · cases he
      · injection he with he; exact he.symm
  · unfold Cpm.getColInd
    rw [pyAssert_true h, ok_bind]
    refine ⟨names.map fun k => M.getNames.idxOf k, mapM_ok fun k hk => by
      rw [pyIndex_eq, if_pos (ha k hk)], ?_⟩
    rw [List.map_map]
    refine List.map_congr_left fun k hk => ?_
    have := List.idxOf_lt_length_iff.2 (ha k hk)
    simp only [Function.comp, List.getElem?_eq_getElem this, List.getElem_idxOf]

/-- `get_col`: each row restricted to the requested names, in the requested order. -/
theorem C55_get_col (M : Cpm K) (h : WF U M) (names : List K) (hn : names.Nodup)
    (ha : ∀ k ∈ names, k ∈ M.getNames) :
    ∃ C', M.getCol names = .ok C' ∧ C'.length = M.C.length ∧
      ∀ i (hi : i < M.C.length), ∃ row : List ℕ, C'[i]? = some row ∧ row.length = names.length ∧
        ∀ j (hj : j < names.length), ∃ c : ℕ, M.getNames[c]? = some names[j] ∧
          row[j]? = (M.C[i])[c]? := by
  obtain ⟨idx, h1, h2⟩ := (C55_get_col_ind M names).2.2 hn ha
  have hlen : idx.length = names.length := by
    have := congrArg List.length h2; simpa using this
  have hget : ∀ j (hj : j < names.length),
      M.getNames[idx[j]'(by omega)]? = some names[j] := by
    intro j hj
    have := congrArg (fun l => l[j]?) h2
    have hj' : j < idx.length := by omega
    simpa [hj, hj'] using this
  have hlt : ∀ i ∈ idx, i < M.vars.length := by
    intro i hi
    obtain ⟨j, hj, rfl⟩ := List.getElem_of_mem hi
    have := hget j (by omega)
    obtain ⟨hh, -⟩ := List.getElem?_eq_some_iff.1 this
    simpa [Cpm.getNames] using hh
  refine ⟨M.C.map fun r => idx.map fun i => r.getD i 0, ?_, by simp, ?_⟩
  · unfold Cpm.getCol
    rw [h1, ok_bind]
    exact takeCols_ok fun r hr i hi => by rw [h.rowLen r hr]; exact hlt i hi
  · intro i hi
    refine ⟨idx.map fun c => (M.C[i]).getD c 0, by simp [hi], by simpa using hlen, ?_⟩
    intro j hj
    refine ⟨idx[j]'(by omega), hget j hj, ?_⟩
    have hj' : j < idx.length := by omega
    have hc := hlt (idx[j]) (List.getElem_mem hj')
    have hrl := h.rowLen M.C[i] (List.getElem_mem hi)
    simp [hj', hrl, hc]

/-- `get_means`: per requested name, in order, the probability-weighted sum of its column. -/
theorem C55_get_means (M : Cpm K) (h : WF U M) (names : List K) (hn : names.Nodup)
    (ha : ∀ k ∈ names, k ∈ M.getNames) :
    ∃ ms, M.getMeans names = .ok ms ∧ ms.length = names.length ∧
      ∀ j (hj : j < names.length), ∃ c : ℕ, M.getNames[c]? = some names[j] ∧
        ms[j]? = some ((M.C.zip M.p).map fun cp => ((cp.1.getD c 0 : ℕ) : ℚ) * cp.2).sum := by
  obtain ⟨idx, h1, h2⟩ := (C55_get_col_ind M names).2.2 hn ha
  have hlen : idx.length = names.length := by
    have := congrArg List.length h2; simpa using this
  have hget : ∀ j (hj : j < names.length),
      M.getNames[idx[j]'(by omega)]? = some names[j] := by
    intro j hj
    have := congrArg (fun l => l[j]?) h2
    have hj' : j < idx.length := by omega
    simpa [hj, hj'] using this
  have hlt : ∀ i ∈ idx, i < M.vars.length := by
    intro i hi
    obtain ⟨j, hj, rfl⟩ := List.getElem_of_mem hi
    have := hget j (by omega)
    obtain ⟨hh, -⟩ := List.getElem?_eq_some_iff.1 this
    simpa [Cpm.getNames] using hh
  have h1' := h1
  unfold Cpm.getColInd at h1'
  rw [pyAssert_true hn, ok_bind] at h1'
  refine ⟨idx.map fun c => ((M.C.zip M.p).map fun cp => ((cp.1.getD c 0 : ℕ) : ℚ) * cp.2).sum,
    ?_, by simpa using hlen, ?_⟩
  · unfold Cpm.getMeans
    rw [pyAssert_true hn, ok_bind, h1', ok_bind]
    refine mapM_ok fun i hi => ?_
    rw [column_ok fun r hr => by rw [h.rowLen r hr]; exact hlt i hi, ok_bind, if_neg (by
      rintro ⟨h0, h2⟩
      have := h.pLen
      rw [h0] at this
      simp at this
      omega)]
    congr 2
    generalize M.C = C
    generalize M.p = p
    induction C generalizing p with
    | nil => simp
    | cons c C ih =>
      cases p with
      | nil => simp
      | cons q p => simp only [List.map_cons, List.zipWith_cons_cons, List.zip_cons_cons, ih]
  · intro j hj
    have hj' : j < idx.length := by omega
    exact ⟨idx[j], hget j hj, by simp [hj']⟩

/-- `get_means` of a CPM with several rows and no probabilities raises `ValueError`. -/
theorem C55_means_without_probabilities (M : Cpm K) (hp : M.p = []) (hC : 1 < M.C.length)
    (hr : ∀ r ∈ M.C, r.length = M.vars.length) (names : List K) (hn : names.Nodup)
    (ha : ∀ k ∈ names, k ∈ M.getNames) (h0 : names ≠ []) : M.getMeans names = .error .value := by
  obtain ⟨idx, h1, h2⟩ := (C55_get_col_ind M names).2.2 hn ha
  unfold Cpm.getColInd at h1
  rw [pyAssert_true hn, ok_bind] at h1
  unfold Cpm.getMeans
  rw [pyAssert_true hn, ok_bind, h1, ok_bind]
  cases idx with
  | nil => exact absurd (by simpa using h2.symm) h0
  | cons i t =>
    have hi : i < M.vars.length := by
      obtain ⟨k, t', rfl⟩ := List.exists_cons_of_ne_nil h0
      have : M.getNames[i]? = some k := by simpa using congrArg List.head? h2
      obtain ⟨hh, -⟩ := List.getElem?_eq_some_iff.1 this
      simpa [Cpm.getNames] using hh
    rw [List.mapM_cons, column_ok fun r hr' => by rw [hr r hr']; exact hi, ok_bind, if_pos ⟨hp, hC⟩]
    rfl

/-- `get_variables`: the object of each requested name, in order; an unknown name raises
`IndexError`. -/
theorem C55_get_variables (M : Cpm K) (names : List K) :
    ((∀ k ∈ names, k ∈ M.getNames) → ∃ vs, M.getVariables names = .ok vs ∧
      (∀ v ∈ vs, v ∈ M.vars) ∧ vs.map Variable.name = names) ∧
    ((∃ k ∈ names, k ∉ M.getNames) → M.getVariables names = .error .index) := by
  have hone : ∀ k ∈ M.getNames, ∃ v ∈ M.vars, v.name = k ∧
      pyGet (M.vars.filter fun v => v.name = k) 0 = .ok v := by
    intro k hk
    obtain ⟨v, hv, rfl⟩ := List.mem_map.1 hk
    have hm : v ∈ M.vars.filter fun w => w.name = v.name := List.mem_filter.2 ⟨hv, by simp⟩
    cases hf : M.vars.filter fun w => w.name = v.name with
    | nil => rw [hf] at hm; simp at hm
    | cons w ws =>
      have hw : w ∈ M.vars.filter fun u => u.name = v.name := by rw [hf]; simp
      have := List.mem_filter.1 hw
      exact ⟨w, this.1, by simpa using this.2, rfl⟩
  constructor
  · intro ha
    classical
    choose f hf using hone
    refine ⟨names.attach.map fun k => f k.1 (ha k.1 k.2), ?_, ?_, ?_⟩
    · unfold Cpm.getVariables
      have : names.mapM (fun n => pyGet (M.vars.filter fun v => v.name = n) 0) =
          names.attach.mapM (fun n => pyGet (M.vars.filter fun v => v.name = n.1) 0) := by
        conv_lhs => rw [← List.attach_map_subtype_val names]
        rw [List.mapM_map]
        rfl
      rw [this]
      exact mapM_ok fun k _ => (hf k.1 (ha k.1 k.2)).2.2
    · intro v hv
      obtain ⟨k, -, rfl⟩ := List.mem_map.1 hv
      exact (hf k.1 (ha k.1 k.2)).1
    · rw [List.map_map]
      conv_rhs => rw [← List.attach_map_subtype_val names]
      exact List.map_congr_left fun k _ => (hf k.1 (ha k.1 k.2)).2.1
  · intro hu
    refine mapM_error ?_ ?_
    · obtain ⟨k, hk, hn⟩ := hu
      refine ⟨k, hk, ?_⟩
      have : (M.vars.filter fun v => v.name = k) = [] := by
        rw [List.filter_eq_nil_iff]
        intro v hv he
        exact hn (List.mem_map.2 ⟨v, hv, by simpa using he⟩)
      rw [this]; rfl
    · intro k _ e' he
      cases hf : M.vars.filter fun v => v.name = k with
      | nil => rw [hf] at he; injection he with he; exact he.symm
      | cons w ws => rw [hf] at he; cases he

example : WF Ex.U Ex.D ∧ [0, 2].Nodup ∧ (∀ k ∈ [0, 2], k ∈ Ex.D.getNames) := by decide +kernel

example : 1 < Ex.D.C.length ∧ (∀ r ∈ Ex.D.C, r.length = Ex.D.vars.length) ∧
    ({ Ex.D with p := [] } : Cpm ℕ).getMeans [0, 2] = .error .value := by decide +kernel

example : Ex.D.getColInd [0, 2] = .ok [2, 1] ∧ Ex.D.getColInd [0, 0] = .error .assertion ∧
    Ex.D.getColInd [9] = .error .value := by decide +kernel

/-! ## C56 -/

/-- The log-space product of two reals is their product, zeros and negative numbers included. -/
theorem C56_log_product (a b : ℝ) : getProdEntry a b = a * b := by
  unfold getProdEntry logProdVal
  rw [EReal.exp_add, ENNReal.exp_log, ENNReal.exp_log, ENNReal.toReal_mul,
    ENNReal.toReal_ofReal (abs_nonneg a), ENNReal.toReal_ofReal (abs_nonneg b), ← abs_mul]
  exact sign_mul_abs (a * b)

/-- `get_prod` multiplies every column by the corresponding factor. -/
theorem C56_log_product_matrix (A : List (List ℝ)) (B : List ℝ)
    (h : ∀ r ∈ A, r.length = B.length) :
    getProd A B = some (A.map fun r => List.zipWith (· * ·) r B) := by
  unfold getProd
  rw [if_pos h]
  congr 1
  refine List.map_congr_left fun r _ => ?_
  congr 1
  funext a b
  exact C56_log_product a b

end BNS
