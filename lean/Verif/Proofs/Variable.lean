import Verif.Model.Variable
import Mathlib.Data.List.Basic
import Mathlib.Data.List.Range
import Mathlib.Data.List.Perm.Basic
import Mathlib.Data.List.Perm.Subperm
import Mathlib.Data.List.Nodup
import Mathlib.Data.Finset.Card
import Mathlib.Data.Finset.Powerset
import Mathlib.Data.Fintype.Powerset

/-! Helper lemmas for the composite-state numbering. -/

namespace BNS

open List

theorem mem_combos {α : Type} (l xs : List α) (k : ℕ) :
    l ∈ combos xs k ↔ l <+ xs ∧ l.length = k := by
  fun_induction combos xs k generalizing l with
  | case1 xs => 
    simp [List.length_eq_zero_iff]
    rintro rfl; simp
  | case2 k => simp; intro h; simp [h]
  | case3 x xs k ih1 ih2 =>
    simp only [mem_append, mem_map, ih1, ih2]
    constructor
    · rintro (⟨a, ⟨h1, h2⟩, rfl⟩ | ⟨h1, h2⟩)
      · exact ⟨h1.cons_cons _, by simp [h2]⟩
      · exact ⟨h1.cons _, h2⟩
    · rintro ⟨h1, h2⟩
      cases h1 with
      | cons _ h => exact .inr ⟨h, h2⟩
      | cons_cons _ h => exact .inl ⟨_, ⟨h, by simpa using h2⟩, rfl⟩

theorem nodup_combos {α : Type} (xs : List α) (k : ℕ) (h : xs.Nodup) : (combos xs k).Nodup := by
  fun_induction combos xs k with
  | case1 => simp
  | case2 => simp
  | case3 x xs k ih1 ih2 =>
    rw [nodup_cons] at h
    rw [nodup_append]
    refine ⟨(ih1 h.2).map (by intro a b; simp), ih2 h.2, ?_⟩
    rintro a ha b hb rfl
    obtain ⟨t, ht, rfl⟩ := mem_map.1 ha
    have := (mem_combos _ _ _).1 hb
    exact h.1 (this.1.subset (by simp))

/-- All non-empty subsets as sorted lists, in table order. -/
def combosAll (n : ℕ) : List (List ℕ) := (List.range' 1 n).flatMap fun r => combos (List.range n) r

theorem genB_eq (n : ℕ) : genB n = (combosAll n).map List.toFinset := rfl

theorem mem_combosAll {n : ℕ} {l : List ℕ} : l ∈ combosAll n ↔ l <+ List.range n ∧ l ≠ [] := by
  unfold combosAll
  simp only [mem_flatMap, mem_combos, mem_range'_1]
  constructor
  · rintro ⟨a, ⟨h1, h2⟩, h3, h4⟩
    refine ⟨h3, ?_⟩
    rintro rfl; simp at h4; omega
  · rintro ⟨h1, h2⟩
    have := h1.length_le
    have h3 : 0 < l.length := List.length_pos_iff.2 h2
    exact ⟨l.length, ⟨by omega, by simp at this; omega⟩, h1, rfl⟩

theorem nodup_combosAll (n : ℕ) : (combosAll n).Nodup := by
  unfold combosAll
  rw [nodup_flatMap]
  refine ⟨fun x _ => nodup_combos _ _ nodup_range, ?_⟩
  refine (nodup_range' (step := 1) |>.pairwise_of_forall_ne ?_)
  intro a _ b _ hab l h1 h2
  rw [mem_combos] at h1 h2
  exact hab (h1.2.symm.trans h2.2)

theorem sorted_of_sublist_range {n : ℕ} {l : List ℕ} (h : l <+ List.range n) :
    l.Pairwise (· < ·) := (List.pairwise_lt_range (n := n)).sublist h

theorem sort_toFinset_of_sorted {l : List ℕ} (h : l.Pairwise (· < ·)) :
    l.toFinset.sort (· ≤ ·) = l := by
  have hn : l.Nodup := h.imp (fun hab => ne_of_lt hab)
  exact List.toFinset_sort (· ≤ ·) hn |>.2 (h.imp le_of_lt)

theorem sort_sublist_range {n : ℕ} {S : Finset ℕ} (h : ∀ i ∈ S, i < n) :
    S.sort (· ≤ ·) <+ List.range n := by
  refine sublist_of_subperm_of_pairwise (r := (· ≤ ·)) ?_ (Finset.pairwise_sort _ _) ?_
  · exact List.subperm_of_subset (Finset.sort_nodup _ _) (fun i hi => by
      simpa using h i (by simpa using hi))
  · exact (List.pairwise_lt_range (n := n)).imp le_of_lt

theorem toFinset_injOn (n : ℕ) : ∀ a ∈ combosAll n, ∀ b ∈ combosAll n,
    a.toFinset = b.toFinset → a = b := by
  intro a ha b hb h
  rw [← sort_toFinset_of_sorted (sorted_of_sublist_range (mem_combosAll.1 ha).1),
    ← sort_toFinset_of_sorted (sorted_of_sublist_range (mem_combosAll.1 hb).1), h]

theorem nodup_genB (n : ℕ) : (genB n).Nodup := by
  rw [genB_eq]
  exact (nodup_combosAll n).map_on (fun a ha b hb => toFinset_injOn n a ha b hb)

theorem mem_genB {n : ℕ} {S : Finset ℕ} : S ∈ genB n ↔ S.Nonempty ∧ ∀ i ∈ S, i < n := by
  rw [genB_eq, mem_map]
  constructor
  · rintro ⟨l, hl, rfl⟩
    obtain ⟨h1, h2⟩ := mem_combosAll.1 hl
    refine ⟨by simpa [Finset.nonempty_iff_ne_empty] using h2, ?_⟩
    intro i hi
    simpa using h1.subset (by simpa using hi)
  · rintro ⟨h1, h2⟩
    refine ⟨S.sort (· ≤ ·), mem_combosAll.2 ⟨sort_sublist_range h2, ?_⟩, by simp⟩
    intro h
    have := congrArg List.toFinset h
    simp at this
    exact h1.ne_empty this

theorem pyIndex_eq {α : Type} [DecidableEq α] (xs : List α) (x : α) :
    pyIndex xs x = if x ∈ xs then .ok (xs.idxOf x) else .error .value := by
  unfold pyIndex
  by_cases h : x ∈ xs
  · have h2 : xs.idxOf? x = some (xs.idxOf x) := by
      rw [List.idxOf?_eq_some_iff]
      refine ⟨List.idxOf_lt_length_iff.2 h, ?_, ?_⟩
      · simp
      · intro j hj hj2
        have := List.not_of_lt_findIdx (xs := xs) (p := (· == x)) (i := j) hj
        simp at this
        exact this hj2
    rw [h2]; simp [h]
  · have h2 : xs.idxOf? x = none := by simpa using h
    rw [h2]; simp [h]

theorem pyIndex_getElem {α : Type} [DecidableEq α] {xs : List α} (h : xs.Nodup) (i : ℕ)
    (hi : i < xs.length) : pyIndex xs xs[i] = .ok i := by
  rw [pyIndex_eq]; simp [h.idxOf_getElem]

theorem pyIndex_ok {α : Type} [DecidableEq α] {xs : List α} {x : α} {i : ℕ}
    (h : pyIndex xs x = .ok i) : xs[i]? = some x := by
  rw [pyIndex_eq] at h
  split at h
  · rename_i hm
    injection h with h
    subst h
    rw [List.getElem?_eq_getElem (List.idxOf_lt_length_iff.2 hm)]
    simp
  · cases h

theorem pyIndex_of_getElem? {α : Type} [DecidableEq α] {xs : List α} {x : α} {i : ℕ}
    (hn : xs.Nodup) (h : xs[i]? = some x) : pyIndex xs x = .ok i := by
  obtain ⟨hi, rfl⟩ := List.getElem?_eq_some_iff.1 h
  exact pyIndex_getElem hn i hi

theorem pyGet_eq_ok {α : Type} {xs : List α} {x : α} {i : ℕ} :
    pyGet xs i = .ok x ↔ xs[i]? = some x := by
  unfold pyGet
  split <;> simp_all

/-- The loop of `get_set` walks the concatenation of the remaining blocks. -/
theorem getSetLoop_eq (n state : ℕ) (ks : List ℕ) (cur : ℕ) (h : cur ≤ state) :
    getSetLoop n state cur ks =
      pyGet ((ks.flatMap fun r => combos (List.range n) r).map List.toFinset) (state - cur) := by
  induction ks generalizing cur with
  | nil => simp [getSetLoop, pyGet]
  | cons k ks ih =>
    unfold getSetLoop
    split
    · rename_i hlt
      have h1 : state - cur < (combos (List.range n) k).length := by omega
      have h2 : pyGet (combos (List.range n) k) (state - cur) =
        .ok ((combos (List.range n) k)[state - cur]) := by simp [pyGet, h1]
      rw [h2]
      simp only [List.flatMap_cons, List.map_append]
      symm
      refine Eq.trans (b := Except.ok ((combos (List.range n) k)[state - cur]).toFinset) ?_ rfl
      rw [pyGet_eq_ok, List.getElem?_append_left (by simpa using h1)]
      simp [h1]
    · rename_i hlt
      rw [ih _ (by omega)]
      simp only [List.flatMap_cons, List.map_append]
      unfold pyGet
      rw [List.getElem?_append_right (by simp; omega)]
      simp only [List.length_map]
      rw [Nat.sub_add_eq]

theorem getSet_fly (n state : ℕ) : getSetLoop n state 0 (List.range' 1 n) = pyGet (genB n) state := by
  rw [getSetLoop_eq _ _ _ _ (Nat.zero_le _)]; rfl

theorem offset_eq (n m : ℕ) : offset n m =
    ((List.range' 1 (m - 1)).flatMap fun r => combos (List.range n) r).length := by
  simp [offset, List.length_flatMap]

theorem combos_nil_of_lt {α : Type} (xs : List α) (k : ℕ) (h : xs.length < k) :
    combos xs k = [] := by
  rw [List.eq_nil_iff_forall_not_mem]
  intro l hl
  have := (mem_combos _ _ _).1 hl
  have := this.1.length_le
  omega

/-- Index of a sorted list in the whole table = number of smaller subsets + index in its block. -/
theorem pyIndex_combosAll (n : ℕ) (l : List ℕ) (hl : l ≠ []) :
    pyIndex (combosAll n) l =
      (do let i ← pyIndex (combos (List.range n) l.length) l
          return offset n l.length + i) := by
  have hpos : 0 < l.length := List.length_pos_iff.2 hl
  by_cases hs : l <+ List.range n
  · have hle : l.length ≤ n := by simpa using hs.length_le
    have hm : l ∈ combos (List.range n) l.length := (mem_combos _ _ _).2 ⟨hs, rfl⟩
    have hsplit : List.range' 1 n = List.range' 1 (l.length - 1) ++
        (l.length :: List.range' (l.length + 1) (n - l.length)) := by
      have e1 : l.length :: List.range' (l.length + 1) (n - l.length) =
          List.range' (1 + 1 * (l.length - 1)) (n - l.length + 1) := by
        rw [List.range'_succ]; congr 1 <;> first | omega | (congr 1; omega)
      rw [e1, List.range'_append]; congr 1; omega
    have h1 : combosAll n =
        ((List.range' 1 (l.length - 1)).flatMap fun r => combos (List.range n) r) ++
        (combos (List.range n) l.length ++
          (List.range' (l.length + 1) (n - l.length)).flatMap fun r => combos (List.range n) r) := by
      unfold combosAll; rw [hsplit]; simp
    have hnot : l ∉ (List.range' 1 (l.length - 1)).flatMap fun r => combos (List.range n) r := by
      rw [mem_flatMap]
      rintro ⟨a, ha, hla⟩
      have := (mem_combos _ _ _).1 hla
      rw [mem_range'_1] at ha
      omega
    obtain ⟨i, hi⟩ : ∃ i, pyIndex (combos (List.range n) l.length) l = .ok i :=
      ⟨_, by rw [pyIndex_eq, if_pos hm]⟩
    rw [hi]
    have hi2 := pyIndex_ok hi
    have hlt : i < (combos (List.range n) l.length).length := by
      by_contra hc
      rw [List.getElem?_eq_none (by omega)] at hi2
      cases hi2
    refine pyIndex_of_getElem? (nodup_combosAll n) ?_
    rw [h1, offset_eq, List.getElem?_append_right (by omega), Nat.add_sub_cancel_left,
      List.getElem?_append_left hlt, hi2]
  · rw [pyIndex_eq, pyIndex_eq, if_neg (fun h => hs (mem_combosAll.1 h).1),
      if_neg (fun h => hs ((mem_combos _ _ _).1 h).1)]
    rfl

theorem pyIndex_map_on {α β : Type} [DecidableEq α] [DecidableEq β] (f : α → β) (xs : List α)
    (hn : xs.Nodup) (hf : ∀ a ∈ xs, ∀ b ∈ xs, f a = f b → a = b) (x : α) (hx : x ∈ xs) :
    pyIndex (xs.map f) (f x) = pyIndex xs x := by
  have h1 : pyIndex xs x = .ok (xs.idxOf x) := by rw [pyIndex_eq, if_pos hx]
  rw [h1]
  apply pyIndex_of_getElem? (hn.map_on hf)
  rw [List.getElem?_map, pyIndex_ok h1]; rfl

theorem getStateFly_eq (n : ℕ) (S : Finset ℕ) (hS : S.Nonempty) :
    getStateFly n S = pyIndex (genB n) S := by
  have hne : S.sort (· ≤ ·) ≠ [] := by
    intro h
    have := congrArg List.toFinset h
    simp at this
    exact hS.ne_empty this
  have h1 := pyIndex_combosAll n (S.sort (· ≤ ·)) hne
  rw [Finset.length_sort] at h1
  unfold getStateFly
  rw [← h1]
  by_cases hm : ∀ i ∈ S, i < n
  · have hmem : S.sort (· ≤ ·) ∈ combosAll n := mem_combosAll.2 ⟨sort_sublist_range hm, hne⟩
    have h2 := pyIndex_map_on List.toFinset (combosAll n) (nodup_combosAll n) (toFinset_injOn n)
      _ hmem
    rw [← h2, Finset.sort_toFinset, genB_eq]
  · rw [pyIndex_eq, pyIndex_eq, if_neg, if_neg]
    · intro h; exact hm (mem_genB.1 h).2
    · intro h
      have := (mem_combosAll.1 h).1
      exact hm fun i hi => by simpa using this.subset ((Finset.mem_sort _).2 hi)

theorem toFinset_genB (n : ℕ) : (genB n).toFinset = (Finset.range n).powerset.erase ∅ := by
  ext S
  simp only [List.mem_toFinset, mem_genB, Finset.mem_erase, Finset.mem_powerset,
    Finset.nonempty_iff_ne_empty, Finset.subset_iff, Finset.mem_range]

theorem length_genB (n : ℕ) : (genB n).length = 2 ^ n - 1 := by
  rw [← List.toFinset_card_of_nodup (nodup_genB n), toFinset_genB, Finset.card_erase_of_mem]
  · simp
  · simp

theorem combos_one {α : Type} (xs : List α) : combos xs 1 = xs.map fun x => [x] := by
  induction xs with
  | nil => rfl
  | cons x xs ih => simp [combos, ih]

theorem genB_getElem_lt (n i : ℕ) (h : i < n) : (genB n)[i]? = some {i} := by
  obtain ⟨m, rfl⟩ : ∃ m, n = m + 1 := ⟨n - 1, by omega⟩
  unfold genB
  rw [List.range'_succ, List.flatMap_cons, combos_one, List.map_append,
    List.getElem?_append_left (by simpa using h)]
  simp [h]

theorem onePositions_sublist (v : List ℕ) : onePositions v <+ List.range v.length :=
  List.filter_sublist

theorem length_onePositions (v : List ℕ) (h : ∀ b ∈ v, b = 0 ∨ b = 1) :
    (onePositions v).length = v.sum := by
  unfold onePositions
  induction v with
  | nil => rfl
  | cons a v ih =>
    have ih := ih (fun b hb => h b (by simp [hb]))
    simp only [List.length_cons, List.range_succ_eq_map, List.filter_cons, List.filter_map,
      List.sum_cons]
    rw [← ih]
    rcases h a (by simp) with rfl | rfl
    · simp [Function.comp_def]
    · simp [Function.comp_def]; omega

end BNS
