import Verif.Spec.SysVal
import Verif.Model.Operation
import Verif.Proofs.CpmBasic
import Verif.Proofs.CpmCond
import Verif.Proofs.CpmProd
import Mathlib.Data.List.GetD

/-! Helper lemmas for `sys_max_val` and `sys_min_val`. -/

namespace BNS

set_option linter.unusedSectionVars false

variable {K : Type} [DecidableEq K]

section
variable (tB tA : ℚ → ℚ → Bool)

/-- The states allowed for the variable `p2` at position `i2` in row `(i, v)`. -/
def rowSet (i : ℕ) (v : ℚ) (pi : Variable K × ℕ) : Finset ℕ :=
  if i = pi.2 then {pi.1.values.idxOf v}
  else valueSet (fun z => if pi.2 < i then tB z v else tA z v) pi.1.values

/-- The row `(i, v)` is added. -/
def rowGood (L : List (Variable K × ℕ)) (i : ℕ) (v : ℚ) : Prop :=
  ∀ pi ∈ L, (rowSet tB tA i v pi).Nonempty

instance (L : List (Variable K × ℕ)) (i : ℕ) (v : ℚ) : Decidable (rowGood tB tA L i v) := by
  unfold rowGood; infer_instance

/-- The states written in row `(i, v)`. -/
def rowStates (L : List (Variable K × ℕ)) (i : ℕ) (v : ℚ) : List (K × ℕ) :=
  L.map fun pi => (pi.1.name, (genB pi.1.values.length).idxOf (rowSet tB tA i v pi))

theorem mem_valueSet {test : ℚ → Bool} {values : List ℚ} {y : ℕ} :
    y ∈ valueSet test values ↔ ∃ z, values[y]? = some z ∧ test z = true := by
  unfold valueSet
  rw [List.mem_toFinset, List.mem_filter, List.mem_range]
  constructor
  · rintro ⟨h, ht⟩
    rw [List.getElem?_eq_getElem h] at ht
    exact ⟨_, List.getElem?_eq_getElem h, by simpa using ht⟩
  · rintro ⟨z, hz, ht⟩
    refine ⟨(List.getElem?_eq_some_iff.1 hz).1, ?_⟩
    rw [hz]; simpa using ht

theorem genB_idxOf_singleton {n b : ℕ} (h : b < n) : (genB n).idxOf {b} = b := by
  have h1 := genB_getElem_lt n b h
  have hl := (List.getElem?_eq_some_iff.1 h1).1
  have h2 := (List.getElem?_eq_some_iff.1 h1).2
  have := (nodup_genB n).idxOf_getElem b hl
  rw [h2] at this
  exact this

theorem sysRow_eq {i : ℕ} {v : ℚ} (L : List (Variable K × ℕ))
    (ht : ∀ pi ∈ L, pi.1.B = some (genB pi.1.values.length))
    (hv : ∀ pi ∈ L, pi.2 = i → v ∈ pi.1.values) :
    sysRow tB tA i v L =
      .ok (if rowGood tB tA L i v then some (rowStates tB tA L i v) else none) := by
  induction L with
  | nil => simp [sysRow, rowGood, rowStates]
  | cons pi L ih =>
    obtain ⟨p2, i2⟩ := pi
    have ih := ih (fun q hq => ht q (by simp [hq])) (fun q hq => hv q (by simp [hq]))
    rw [sysRow]
    by_cases hi : i = i2
    · rw [if_pos hi]
      have hm := hv (p2, i2) (by simp) hi.symm
      simp only at hm
      have hlt := List.idxOf_lt_length_iff.2 hm
      have hS : rowSet tB tA i v (p2, i2) = {p2.values.idxOf v} := by
        unfold rowSet; rw [if_pos hi]
      unfold pyIndex
      rw [idxOf?_eq, if_pos hm]
      simp only
      rw [ok_bind, ih, ok_bind, pure_ok]
      congr 1
      by_cases hg : rowGood tB tA L i v
      · have hg' : rowGood tB tA ((p2, i2) :: L) i v := by
          intro q hq
          rcases List.mem_cons.1 hq with rfl | hq
          · rw [hS]; simp
          · exact hg q hq
        have hr : rowStates tB tA ((p2, i2) :: L) i v =
            (p2.name, (genB p2.values.length).idxOf (rowSet tB tA i v (p2, i2))) ::
              rowStates tB tA L i v := rfl
        rw [if_pos hg, if_pos hg', Option.map_some, hr, hS, genB_idxOf_singleton hlt]
      · have hg' : ¬ rowGood tB tA ((p2, i2) :: L) i v :=
          fun h => hg fun q hq => h q (by simp [hq])
        rw [if_neg hg, if_neg hg', Option.map_none]
    · rw [if_neg hi]
      have hS : rowSet tB tA i v (p2, i2) =
          valueSet (fun z => if i2 < i then tB z v else tA z v) p2.values := by
        unfold rowSet; rw [if_neg hi]
      simp only [← hS]
      by_cases hc : (rowSet tB tA i v (p2, i2)).card < 1
      · rw [if_pos hc, pure_ok]
        have hg' : ¬ rowGood tB tA ((p2, i2) :: L) i v := by
          intro h
          have := h _ (List.mem_cons_self)
          rw [← Finset.card_pos] at this
          omega
        rw [if_neg hg']
      · rw [if_neg hc]
        have hne : (rowSet tB tA i v (p2, i2)).Nonempty := by
          rw [← Finset.card_pos]; omega
        have hB := ht (p2, i2) (by simp)
        simp only at hB
        rw [hB]
        simp only
        have hm : rowSet tB tA i v (p2, i2) ∈ genB p2.values.length := by
          rw [mem_genB]
          refine ⟨hne, fun y hy => ?_⟩
          rw [hS, mem_valueSet] at hy
          obtain ⟨z, hz, -⟩ := hy
          exact (List.getElem?_eq_some_iff.1 hz).1
        unfold pyIndex
        rw [idxOf?_eq, if_pos hm]
        simp only
        rw [ok_bind, ih, ok_bind, pure_ok]
        congr 1
        by_cases hg : rowGood tB tA L i v
        · have hg' : rowGood tB tA ((p2, i2) :: L) i v := by
            intro q hq
            rcases List.mem_cons.1 hq with rfl | hq
            · exact hne
            · exact hg q hq
          rw [if_pos hg, if_pos hg', Option.map_some]
          rfl
        · have hg' : ¬ rowGood tB tA ((p2, i2) :: L) i v :=
            fun h => hg fun q hq => h q (by simp [hq])
          rw [if_neg hg, if_neg hg', Option.map_none]

/-- `vals_new` after the values `vs` have been met. -/
def addVals (vs vals : List ℚ) : List ℚ :=
  vs.foldl (fun vals v => if v ∈ vals then vals else vals ++ [v]) vals

theorem addVals_cons (v : ℚ) (vs vals : List ℚ) :
    addVals (v :: vs) vals = addVals vs (if v ∈ vals then vals else vals ++ [v]) := rfl

theorem addVals_append (us vs vals : List ℚ) :
    addVals (us ++ vs) vals = addVals vs (addVals us vals) := List.foldl_append

theorem addVals_prefix (vs vals : List ℚ) : vals <+: addVals vs vals := by
  induction vs generalizing vals with
  | nil => exact List.prefix_rfl
  | cons v vs ih =>
    rw [addVals_cons]
    refine List.IsPrefix.trans ?_ (ih _)
    split
    · exact List.prefix_rfl
    · exact List.prefix_append _ _

theorem mem_addVals (vs vals : List ℚ) (z : ℚ) : z ∈ addVals vs vals ↔ z ∈ vals ∨ z ∈ vs := by
  induction vs generalizing vals with
  | nil => simp [addVals]
  | cons v vs ih =>
    rw [addVals_cons, ih]
    by_cases h : v ∈ vals
    · rw [if_pos h, List.mem_cons]
      constructor
      · rintro (h | h)
        · exact .inl h
        · exact .inr (.inr h)
      · rintro (h | rfl | h')
        · exact .inl h
        · exact .inl h
        · exact .inr h'
    · rw [if_neg h, List.mem_append, List.mem_singleton, List.mem_cons, or_assoc]

theorem nodup_addVals (vs vals : List ℚ) (h : vals.Nodup) : (addVals vs vals).Nodup := by
  induction vs generalizing vals with
  | nil => exact h
  | cons v vs ih =>
    rw [addVals_cons]
    refine ih _ ?_
    split
    · exact h
    · rename_i hv
      refine List.nodup_append.2 ⟨h, by simp, ?_⟩
      rintro a ha b hb rfl
      exact hv (by rw [List.mem_singleton.1 hb] at ha; exact ha)

theorem idxOf_prefix {l l' : List ℚ} (h : l <+: l') {v : ℚ} (hv : v ∈ l) :
    l'.idxOf v = l.idxOf v := by
  obtain ⟨t, rfl⟩ := h
  exact List.idxOf_append_of_mem hv

theorem sysRowsOf_eq {sorted : List (Variable K × ℕ)} {i : ℕ}
    (ht : ∀ pi ∈ sorted, pi.1.B = some (genB pi.1.values.length)) (vs : List ℚ)
    (hv : ∀ v ∈ vs, ∀ pi ∈ sorted, pi.2 = i → v ∈ pi.1.values) (vals : List ℚ) :
    sysRowsOf tB tA sorted i vs vals =
      .ok (addVals (vs.filter fun v => rowGood tB tA sorted i v) vals,
        (vs.filter fun v => rowGood tB tA sorted i v).map fun v =>
          ((addVals (vs.filter fun v => rowGood tB tA sorted i v) vals).idxOf v,
            rowStates tB tA sorted i v)) := by
  induction vs generalizing vals with
  | nil => rfl
  | cons v vs ih =>
    have hv' : ∀ w ∈ vs, ∀ pi ∈ sorted, pi.2 = i → w ∈ pi.1.values :=
      fun w hw => hv w (by simp [hw])
    rw [sysRowsOf, sysRow_eq tB tA sorted ht (hv v (by simp)), ok_bind]
    by_cases hg : rowGood tB tA sorted i v
    · rw [if_pos hg]
      simp only
      rw [ih hv', ok_bind, pure_ok, List.filter_cons_of_pos (by simpa using hg), addVals_cons,
        List.map_cons]
      congr 3
      have hm : v ∈ (if v ∈ vals then vals else vals ++ [v]) := by
        split
        · assumption
        · simp
      rw [idxOf_prefix (addVals_prefix _ _) hm]
    · rw [if_neg hg]
      simp only
      rw [ih hv', List.filter_cons_of_neg (by simpa using hg)]

/-- The rows `(i, v)` made for the variables of `L`. -/
def sysKeys (sorted L : List (Variable K × ℕ)) : List (ℕ × ℚ) :=
  L.flatMap fun pi => ((pi.1.values.insertionSort (· ≤ ·)).filter fun v =>
    rowGood tB tA sorted pi.2 v).map fun v => (pi.2, v)

theorem sysRowsAll_eq {sorted : List (Variable K × ℕ)}
    (ht : ∀ pi ∈ sorted, pi.1.B = some (genB pi.1.values.length))
    (hinj : ∀ pi ∈ sorted, ∀ qi ∈ sorted, pi.2 = qi.2 → pi = qi)
    (L : List (Variable K × ℕ)) (hL : ∀ pi ∈ L, pi ∈ sorted) (vals : List ℚ) :
    sysRowsAll tB tA sorted L vals =
      .ok (addVals ((sysKeys tB tA sorted L).map Prod.snd) vals,
        (sysKeys tB tA sorted L).map fun iv =>
          ((addVals ((sysKeys tB tA sorted L).map Prod.snd) vals).idxOf iv.2,
            rowStates tB tA sorted iv.1 iv.2)) := by
  induction L generalizing vals with
  | nil => rfl
  | cons pi L ih =>
    obtain ⟨p, i⟩ := pi
    rw [sysRowsAll, sysRowsOf_eq tB tA ht _ (by
      intro v hv qi hqi hi
      have := hinj qi hqi (p, i) (hL _ (by simp)) hi
      rw [this]
      exact (List.perm_insertionSort (· ≤ ·) p.values).mem_iff.1 hv), ok_bind]
    simp only
    rw [ih fun q hq => hL q (by simp [hq]), ok_bind, pure_ok]
    have hk : sysKeys tB tA sorted ((p, i) :: L) =
        ((p.values.insertionSort (· ≤ ·)).filter fun v =>
          rowGood tB tA sorted i v).map (fun v => (i, v)) ++ sysKeys tB tA sorted L := rfl
    rw [hk, List.map_append, addVals_append, List.map_map, List.map_append, List.map_map]
    have hid : (Prod.snd ∘ fun v : ℚ => (i, v)) = id := rfl
    rw [hid, List.map_id]
    congr 3
    refine List.map_congr_left fun v hv => ?_
    simp only [Function.comp]
    congr 1
    exact (idxOf_prefix (addVals_prefix _ _) ((mem_addVals _ _ _).2 (.inr hv))).symm

/-- `tA z v`: `z` is not better than `v`, a total order; `tB z v`: `z` is worse than `v`. -/
structure Sel : Prop where
  total : ∀ a b, tA a b = true ∨ tA b a = true
  trans : ∀ a b c, tA a b = true → tA b c = true → tA a c = true
  antisymm : ∀ a b, tA a b = true → tA b a = true → a = b
  before : ∀ z v, tB z v = true ↔ ¬ tA v z = true

/-- Position `i` holds the first best value of `ys`. -/
def Wins (ys : List ℚ) (i : ℕ) (v : ℚ) : Prop :=
  ys[i]? = some v ∧ ∀ j y, ys[j]? = some y → (j < i → tB y v = true) ∧ (i < j → tA y v = true)

variable {tB tA}

theorem wins_best (hs : Sel tB tA) {ys : List ℚ} {i : ℕ} {v : ℚ} (h : Wins tB tA ys i v) :
    ∀ y ∈ ys, tA y v = true := by
  intro y hy
  obtain ⟨j, hj⟩ := List.mem_iff_getElem?.1 hy
  rcases Nat.lt_trichotomy j i with hlt | rfl | hlt
  · have := (h.2 j y hj).1 hlt
    rw [hs.before] at this
    exact (hs.total y v).resolve_right this
  · rw [h.1] at hj
    cases hj
    exact (hs.total v v).elim id id
  · exact (h.2 j y hj).2 hlt

theorem exists_wins (hs : Sel tB tA) : ∀ {ys : List ℚ}, ys ≠ [] → ∃ i v, Wins tB tA ys i v
  | [y], _ => ⟨0, y, rfl, fun j z hz => by
      match j with
      | 0 => exact ⟨fun h => by omega, fun h => by omega⟩
      | j + 1 => simp at hz⟩
  | y :: y' :: ys, _ => by
    obtain ⟨i, v, hw⟩ := exists_wins hs (ys := y' :: ys) (by simp)
    by_cases hv : tA v y = true
    · refine ⟨0, y, rfl, fun j z hz => ⟨fun h => by omega, fun h => ?_⟩⟩
      match j, h with
      | j + 1, _ =>
        rw [List.getElem?_cons_succ] at hz
        exact hs.trans _ _ _ (wins_best hs hw z (List.mem_of_getElem? hz)) hv
    · refine ⟨i + 1, v, by rw [List.getElem?_cons_succ]; exact hw.1, fun j z hz => ?_⟩
      match j with
      | 0 =>
        rw [List.getElem?_cons_zero] at hz
        cases hz
        exact ⟨fun _ => (hs.before _ _).2 hv, fun h => by omega⟩
      | j + 1 =>
        rw [List.getElem?_cons_succ] at hz
        exact ⟨fun h => (hw.2 j z hz).1 (by omega), fun h => (hw.2 j z hz).2 (by omega)⟩

theorem wins_unique (hs : Sel tB tA) {ys : List ℚ} {i i' : ℕ} {v v' : ℚ}
    (h : Wins tB tA ys i v) (h' : Wins tB tA ys i' v') : i = i' ∧ v = v' := by
  have hi : i = i' := by
    rcases Nat.lt_trichotomy i i' with hlt | he | hlt
    · exact absurd ((h.2 _ _ h'.1).2 hlt) ((hs.before _ _).1 ((h'.2 _ _ h.1).1 hlt))
    · exact he
    · exact absurd ((h'.2 _ _ h.1).2 hlt) ((hs.before _ _).1 ((h.2 _ _ h'.1).1 hlt))
  subst hi
  have := h.1
  rw [h'.1] at this
  exact ⟨rfl, (Option.some.inj this).symm⟩

theorem rowMatches_map {vs : List (Variable K)} (f : Variable K → ℕ) (x : K → ℕ) :
    RowMatches vs (vs.map f) x ↔ ∀ p ∈ vs, x p.name ∈ stateSet p (f p) := by
  unfold RowMatches
  induction vs with
  | nil => simp
  | cons v vs ih => simp only [List.map_cons, List.zip_cons_cons, List.forall_mem_cons, ih]

theorem lookup_rowStates {L : List (Variable K × ℕ)}
    (hn : (L.map fun pi => pi.1.name).Nodup) {pi : Variable K × ℕ} (h : pi ∈ L) (i : ℕ) (v : ℚ) :
    (rowStates tB tA L i v).lookup pi.1.name =
      some ((genB pi.1.values.length).idxOf (rowSet tB tA i v pi)) := by
  unfold rowStates
  induction L with
  | nil => simp at h
  | cons q L ih =>
    rw [List.map_cons, List.nodup_cons] at hn
    rw [List.map_cons, List.lookup_cons]
    rcases List.mem_cons.1 h with rfl | h
    · simp
    · have : (pi.1.name == q.1.name) = false := by
        rw [beq_eq_false_iff_ne]
        intro e
        exact hn.1 (e ▸ List.mem_map_of_mem (f := fun pi : Variable K × ℕ => pi.1.name) h)
      rw [this]
      exact ih hn.2 h

/-- The list of values of the variables at `x`, and the values of one of them. -/
def valsAt (vs : List (Variable K)) (x : K → ℕ) : List ℚ := vs.map fun p => p.values.getD (x p.name) 0

theorem getD_some {l : List ℚ} {i : ℕ} (h : i < l.length) : l[i]? = some (l.getD i 0) := by
  simp [List.getElem?_eq_getElem h]

/-- The assignments a row stands for: those at which its variable is the first best one, with its
value. -/
theorem rowSet_wins {vs : List (Variable K)} {x : K → ℕ} (hx : ValidAt vs x)
    (hd : ∀ p ∈ vs, p.values.Nodup) {i : ℕ} {v : ℚ}
    (hiv : ∃ p, vs[i]? = some p ∧ v ∈ p.values) :
    (∀ pi ∈ vs.zipIdx, x pi.1.name ∈ rowSet tB tA i v pi) ↔ Wins tB tA (valsAt vs x) i v := by
  have hget : ∀ (j : ℕ) (p : Variable K), vs[j]? = some p → (valsAt vs x)[j]? = some (p.values.getD (x p.name) 0) := by
    intro j p hj
    simp [valsAt, hj]
  obtain ⟨p0, hp0, hv0⟩ := hiv
  have hp0m := List.mem_of_getElem? hp0
  constructor
  · intro h
    have h0 := h (p0, i) (List.mem_zipIdx_iff_getElem?.2 hp0)
    unfold rowSet at h0
    rw [if_pos rfl, Finset.mem_singleton] at h0
    simp only at h0
    refine ⟨?_, fun j y hy => ?_⟩
    · rw [hget i p0 hp0, h0]
      have := getD_some (List.idxOf_lt_length_iff.2 hv0)
      rw [List.getElem?_eq_getElem (List.idxOf_lt_length_iff.2 hv0), List.getElem_idxOf] at this
      rw [← this]
    · have hj : ∃ p, vs[j]? = some p := by
        have := (List.getElem?_eq_some_iff.1 hy).1
        rw [valsAt, List.length_map] at this
        exact ⟨_, List.getElem?_eq_getElem this⟩
      obtain ⟨p, hp⟩ := hj
      rw [hget j p hp] at hy
      cases hy
      have hm := h (p, j) (List.mem_zipIdx_iff_getElem?.2 hp)
      have key : i ≠ j → (if j < i then tB (p.values.getD (x p.name) 0) v
          else tA (p.values.getD (x p.name) 0) v) = true := by
        intro hij
        unfold rowSet at hm
        rw [if_neg hij, mem_valueSet] at hm
        obtain ⟨z, hz, ht⟩ := hm
        rw [getD_some (hx p (List.mem_of_getElem? hp))] at hz
        cases hz
        exact ht
      refine ⟨fun hlt => ?_, fun hlt => ?_⟩
      · have := key (by omega)
        rwa [if_pos hlt] at this
      · have := key (by omega)
        rwa [if_neg (by omega)] at this
  · rintro ⟨h0, h⟩ ⟨p, j⟩ hpj
    have hp := List.mem_zipIdx_iff_getElem?.1 hpj
    simp only at hp
    have hpm := List.mem_of_getElem? hp
    unfold rowSet
    by_cases hij : i = j
    · subst hij
      rw [if_pos rfl, Finset.mem_singleton]
      rw [hget i p hp] at h0
      have hlt := hx p hpm
      have e : p.values[x p.name] = v := by
        have := getD_some hlt
        rw [List.getElem?_eq_getElem hlt] at this
        rw [Option.some.inj this]
        exact Option.some.inj h0
      simp only
      rw [← e, (hd p hpm).idxOf_getElem _ hlt]
    · rw [if_neg hij, mem_valueSet]
      refine ⟨_, getD_some (hx p hpm), ?_⟩
      have := h j _ (hget j p hp)
      simp only
      by_cases hlt : j < i
      · rw [if_pos hlt]; exact this.1 hlt
      · rw [if_neg hlt]; exact this.2 (by omega)

theorem stateSet_idxOf {p : Variable K} (hB : p.B = some (genB p.values.length)) {S : Finset ℕ}
    (hS : S ∈ genB p.values.length) : stateSet p ((genB p.values.length).idxOf S) = S := by
  have hlt := List.idxOf_lt_length_iff.2 hS
  unfold stateSet
  rw [hB]
  simp only
  rw [List.getD_eq_getElem _ _ hlt, List.getElem_idxOf]

/-- `z` is the best of the values at `x`. -/
def IsBestAt (tA : ℚ → ℚ → Bool) (vs : List (Variable K)) (x : K → ℕ) (z : ℚ) : Prop :=
  (∃ v ∈ vs, v.values[x v.name]? = some z) ∧
    ∀ v ∈ vs, ∀ y, v.values[x v.name]? = some y → tA y z = true

theorem mem_valsAt {vs : List (Variable K)} {x : K → ℕ} (hx : ValidAt vs x) {y : ℚ} :
    y ∈ valsAt vs x ↔ ∃ v ∈ vs, v.values[x v.name]? = some y := by
  unfold valsAt
  rw [List.mem_map]
  refine exists_congr fun p => and_congr_right fun hp => ?_
  rw [getD_some (hx p hp), Option.some.injEq]

theorem IsBestAt.unique (hs : Sel tB tA) {vs : List (Variable K)} {x : K → ℕ} {z z' : ℚ}
    (h : IsBestAt tA vs x z) (h' : IsBestAt tA vs x z') : z = z' := by
  obtain ⟨v, hv, hvz⟩ := h.1
  obtain ⟨v', hv', hvz'⟩ := h'.1
  exact hs.antisymm _ _ (h'.2 v hv z hvz) (h.2 v' hv' z' hvz')

theorem wins_isBest (hs : Sel tB tA) {vs : List (Variable K)} {x : K → ℕ} (hx : ValidAt vs x)
    {i : ℕ} {v : ℚ} (h : Wins tB tA (valsAt vs x) i v) : IsBestAt tA vs x v :=
  ⟨(mem_valsAt hx).1 (List.mem_of_getElem? h.1), fun p hp y hy =>
    wins_best hs h y ((mem_valsAt hx).2 ⟨p, hp, hy⟩)⟩

theorem ValidAt.perm {vs vs' : List (Variable K)} (hp : vs.Perm vs') {x : K → ℕ} :
    ValidAt vs x ↔ ValidAt vs' x := by
  unfold ValidAt
  exact forall_congr' fun v => by rw [hp.mem_iff]

theorem IsBestAt.perm {vs vs' : List (Variable K)} (hp : vs.Perm vs') {x : K → ℕ} {z : ℚ} :
    IsBestAt tA vs x z ↔ IsBestAt tA vs' x z := by
  unfold IsBestAt
  simp only [hp.mem_iff]

theorem mem_sysKeys {vs : List (Variable K)} {i : ℕ} {v : ℚ} :
    (i, v) ∈ sysKeys tB tA vs.zipIdx vs.zipIdx ↔
      (∃ p, vs[i]? = some p ∧ v ∈ p.values) ∧ rowGood tB tA vs.zipIdx i v := by
  unfold sysKeys
  simp only [List.mem_flatMap, List.mem_map, List.mem_filter, decide_eq_true_eq, Prod.mk.injEq,
    (List.perm_insertionSort _ _).mem_iff]
  constructor
  · rintro ⟨⟨p, j⟩, hpj, w, ⟨hw, hg⟩, rfl, rfl⟩
    exact ⟨⟨p, List.mem_zipIdx_iff_getElem?.1 hpj, hw⟩, hg⟩
  · rintro ⟨⟨p, hp, hv⟩, hg⟩
    exact ⟨(p, i), List.mem_zipIdx_iff_getElem?.2 hp, v, ⟨hv, hg⟩, rfl, rfl⟩

theorem nodup_sysKeys {vs : List (Variable K)} (hd : ∀ p ∈ vs, p.values.Nodup) :
    (sysKeys tB tA vs.zipIdx vs.zipIdx).Nodup := by
  unfold sysKeys
  generalize hgen : vs.zipIdx = all
  rw [← hgen]
  refine List.nodup_flatMap.2 ⟨?_, ?_⟩
  · rintro ⟨p, j⟩ hpj
    have hpm : p ∈ vs := List.mem_of_getElem? (List.mem_zipIdx_iff_getElem?.1 hpj)
    refine List.Nodup.map (fun a b h => (Prod.mk.inj h).2) ?_
    exact ((List.perm_insertionSort _ _).nodup_iff.2 (hd p hpm)).sublist List.filter_sublist
  · have hnd : (vs.zipIdx.map Prod.snd).Nodup := by
      rw [List.zipIdx_map_snd]
      exact List.nodup_range'
    refine (List.pairwise_map.1 hnd).imp ?_
    rintro ⟨p, j⟩ ⟨q, k⟩ hjk a ha hb
    obtain ⟨_, -, rfl⟩ := List.mem_map.1 ha
    obtain ⟨_, -, e⟩ := List.mem_map.1 hb
    exact hjk (Prod.mk.inj e).1.symm

/-- A row that is added stands for at least one assignment. -/
theorem rowGood_witness {vs : List (Variable K)} (hn : (vs.map Variable.name).Nodup) {i : ℕ} {v : ℚ}
    (hiv : ∃ p, vs[i]? = some p ∧ v ∈ p.values) (hg : rowGood tB tA vs.zipIdx i v) :
    ∃ x, ValidAt vs x ∧ ∀ pi ∈ vs.zipIdx, x pi.1.name ∈ rowSet tB tA i v pi := by
  classical
  let x : K → ℕ := fun k =>
    if h : ∃ pi ∈ vs.zipIdx, pi.1.name = k then (hg h.choose h.choose_spec.1).choose else 0
  have hx : ∀ pi ∈ vs.zipIdx, x pi.1.name ∈ rowSet tB tA i v pi := by
    intro pi hpi
    have h : ∃ qi ∈ vs.zipIdx, qi.1.name = pi.1.name := ⟨pi, hpi, rfl⟩
    have hxe : x pi.1.name = (hg h.choose h.choose_spec.1).choose := by
      simp only [x, dif_pos h]
    have he : h.choose = pi := by
      have hnd : (vs.zipIdx.map fun pi => pi.1.name).Nodup := by
        have : vs.zipIdx.map (fun pi => pi.1.name) = (vs.zipIdx.map Prod.fst).map Variable.name := by
          rw [List.map_map]; rfl
        rw [this, List.zipIdx_map_fst]
        exact hn
      exact List.inj_on_of_nodup_map hnd h.choose_spec.1 hpi h.choose_spec.2
    have e2 : rowSet tB tA i v pi = rowSet tB tA i v h.choose := by rw [he]
    rw [hxe, e2]
    exact (hg h.choose h.choose_spec.1).choose_spec
  refine ⟨x, fun p hp => ?_, hx⟩
  obtain ⟨j, hj⟩ := List.mem_iff_getElem?.1 hp
  have := hx (p, j) (List.mem_zipIdx_iff_getElem?.2 hj)
  unfold rowSet at this
  split at this
  · rename_i hij
    rw [Finset.mem_singleton] at this
    obtain ⟨p0, hp0, hv⟩ := hiv
    simp only at hij
    rw [hij, hj] at hp0
    cases hp0
    simp only at this
    rw [this]
    exact List.idxOf_lt_length_iff.2 hv
  · rw [mem_valueSet] at this
    obtain ⟨z, hz, -⟩ := this
    exact (List.getElem?_eq_some_iff.1 hz).1

/-- The facts about the CPM built by `sys_max_val` and `sys_min_val`; `lab` is `vals_new` before it is
sorted. -/
structure SysSpec (tA : ℚ → ℚ → Bool) (name : K) (varsP : List (Variable K)) (M : Cpm K)
    (var : Variable K) (lab : List ℚ) : Prop where
  vars : M.vars = var :: varsP
  noChild : M.noChild = 1
  p : M.p = M.C.map fun _ => 1
  noCs : M.Cs = [] ∧ M.q = [] ∧ M.ps = [] ∧ M.sampleIdx = []
  rows : ∀ r ∈ M.C, r.length = M.vars.length ∧ (∀ s ∈ r.head?, s < var.values.length) ∧
    ∀ vs ∈ M.vars.zip r, vs.2 + 1 < 2 ^ vs.1.values.length
  var : var = Variable.mk' name (lab.insertionSort (· ≤ ·)) .store
  nodup : lab.Nodup
  mem : ∀ z, z ∈ lab ↔ ∃ x, ValidAt varsP x ∧ IsBestAt tA varsP x z
  row : ∀ x, ValidAt varsP x → ∃ i s r z, M.C[i]? = some (s :: r) ∧ RowMatches varsP r x ∧
    lab[s]? = some z ∧ IsBestAt tA varsP x z ∧
    ∀ (j : ℕ) (r' : List ℕ), M.C[j]? = some r' → RowMatches varsP r'.tail x → j = i

theorem sysVal_spec (hs : Sel tB tA) (key : Variable K → ℚ) (name : K) {varsP : List (Variable K)}
    (h : SysParentsOK varsP) :
    ∃ M var, sysVal tB tA key name varsP = .ok (M, var) ∧
      SysSpec tA name varsP M var (addVals ((sysKeys tB tA
        (varsP.insertionSort fun a b => key a ≤ key b).zipIdx
        (varsP.insertionSort fun a b => key a ≤ key b).zipIdx).map Prod.snd) []) := by
  have hperm := List.perm_insertionSort (fun a b : Variable K => key a ≤ key b) varsP
  set vs := varsP.insertionSort fun a b => key a ≤ key b with hvs
  set keys := sysKeys tB tA vs.zipIdx vs.zipIdx with hkeys
  set lab := addVals (keys.map Prod.snd) [] with hlab
  have hmemvs : ∀ p, p ∈ vs ↔ p ∈ varsP := fun p => hperm.mem_iff
  have hfst : ∀ pi ∈ vs.zipIdx, pi.1 ∈ vs := fun pi hpi =>
    List.mem_of_getElem? (List.mem_zipIdx_iff_getElem?.1 hpi)
  have ht : ∀ pi ∈ vs.zipIdx, pi.1.B = some (genB pi.1.values.length) :=
    fun pi hpi => h.table _ ((hmemvs _).1 (hfst pi hpi))
  have hd : ∀ p ∈ vs, p.values.Nodup := fun p hp => h.distinct p ((hmemvs p).1 hp)
  have hn : (vs.map Variable.name).Nodup := (hperm.map _).nodup_iff.2 h.names
  have hzn : (vs.zipIdx.map fun pi => pi.1.name).Nodup := by
    have : vs.zipIdx.map (fun pi => pi.1.name) = (vs.zipIdx.map Prod.fst).map Variable.name := by
      rw [List.map_map]; rfl
    rw [this, List.zipIdx_map_fst]
    exact hn
  have hrows := sysRowsAll_eq tB tA ht (by
    rintro ⟨p, i⟩ hp ⟨q, j⟩ hq hij
    simp only at hij
    subst hij
    have h1 := List.mem_zipIdx_iff_getElem?.1 hp
    have h2 := List.mem_zipIdx_iff_getElem?.1 hq
    simp only at h1 h2
    rw [h1] at h2
    rw [Option.some.inj h2]) vs.zipIdx (fun _ h => h) []
  rw [← hkeys, ← hlab] at hrows
  -- the states of one row
  set f : ℕ × ℚ → Variable K → ℕ := fun iv p =>
    ((rowStates tB tA vs.zipIdx iv.1 iv.2).lookup p.name).getD 0 with hf
  have hstate : ∀ iv ∈ keys, ∀ pi ∈ vs.zipIdx, f iv pi.1 < (genB pi.1.values.length).length ∧
      stateSet pi.1 (f iv pi.1) = rowSet tB tA iv.1 iv.2 pi := by
    intro iv hiv pi hpi
    obtain ⟨⟨p0, hp0, hv0⟩, hg⟩ := mem_sysKeys.1 hiv
    have hm : rowSet tB tA iv.1 iv.2 pi ∈ genB pi.1.values.length := by
      rw [mem_genB]
      refine ⟨hg pi hpi, fun y hy => ?_⟩
      unfold rowSet at hy
      split at hy
      · rename_i hij
        rw [Finset.mem_singleton] at hy
        have := List.mem_zipIdx_iff_getElem?.1 hpi
        rw [← hij, hp0] at this
        rw [Option.some.inj this] at hv0
        rw [hy]
        exact List.idxOf_lt_length_iff.2 hv0
      · rw [mem_valueSet] at hy
        obtain ⟨z, hz, -⟩ := hy
        exact (List.getElem?_eq_some_iff.1 hz).1
    have he : f iv pi.1 = (genB pi.1.values.length).idxOf (rowSet tB tA iv.1 iv.2 pi) := by
      simp only [hf, lookup_rowStates hzn hpi, Option.getD_some]
    rw [he]
    exact ⟨List.idxOf_lt_length_iff.2 hm, stateSet_idxOf (ht pi hpi) hm⟩
  have hmatch : ∀ iv ∈ keys, ∀ x, RowMatches varsP (varsP.map (f iv)) x ↔
      ∀ pi ∈ vs.zipIdx, x pi.1.name ∈ rowSet tB tA iv.1 iv.2 pi := by
    intro iv hiv x
    rw [rowMatches_map]
    constructor
    · intro hall pi hpi
      rw [← (hstate iv hiv pi hpi).2]
      exact hall _ ((hmemvs _).1 (hfst pi hpi))
    · intro hall p hp
      obtain ⟨j, hj⟩ := List.mem_iff_getElem?.1 ((hmemvs p).2 hp)
      have hpi : (p, j) ∈ vs.zipIdx := List.mem_zipIdx_iff_getElem?.2 hj
      have := hall _ hpi
      rw [← (hstate iv hiv _ hpi).2] at this
      exact this
  have hlabn : lab.Nodup := nodup_addVals _ _ List.nodup_nil
  have hlabm : ∀ z, z ∈ lab ↔ z ∈ keys.map Prod.snd := by
    intro z
    rw [hlab, mem_addVals]
    simp
  set C := keys.map fun iv => lab.idxOf iv.2 :: varsP.map (f iv) with hC
  set var := Variable.mk' name (lab.insertionSort (· ≤ ·)) .store with hvar
  have hvl : var.values.length = lab.length := List.length_insertionSort _ _
  set M : Cpm K := { vars := var :: varsP, noChild := 1, C := C, p := C.map fun _ => 1 } with hM
  have hhead : ∀ iv ∈ keys, lab.idxOf iv.2 < var.values.length := by
    intro iv hiv
    rw [hvl]
    exact List.idxOf_lt_length_iff.2 ((hlabm _).2 (List.mem_map_of_mem hiv))
  have hentry : ∀ r ∈ M.C, ∀ vs ∈ M.vars.zip r, vs.2 + 1 < 2 ^ vs.1.values.length := by
    · intro r hr
      obtain ⟨iv, hiv, rfl⟩ := List.mem_map.1 hr
      intro q hq
      simp only [hM, List.zip_cons_cons, List.mem_cons] at hq
      rcases hq with rfl | hq
      · simp only
        rw [hvl]
        have h1 : lab.idxOf iv.2 < lab.length :=
          List.idxOf_lt_length_iff.2 ((hlabm _).2 (List.mem_map_of_mem hiv))
        have h2 : lab.length < 2 ^ lab.length := Nat.lt_two_pow_self
        omega
      · have hq' : q.1 ∈ varsP ∧ q.2 = f iv q.1 := by
          rw [List.mem_iff_getElem?] at hq
          obtain ⟨j, hj⟩ := hq
          rw [List.getElem?_zip_eq_some, List.getElem?_map] at hj
          refine ⟨List.mem_of_getElem? hj.1, ?_⟩
          have := hj.2
          rw [hj.1] at this
          exact (Option.some.inj this).symm
        obtain ⟨j, hj⟩ := List.mem_iff_getElem?.1 ((hmemvs _).2 hq'.1)
        have := (hstate iv hiv (q.1, j) (List.mem_zipIdx_iff_getElem?.2 hj)).1
        rw [hq'.2]
        simp only at this
        rw [length_genB] at this
        omega
  have hrl : ∀ r ∈ M.C, r.length = M.vars.length := by
    intro r hr
    obtain ⟨iv, -, rfl⟩ := List.mem_map.1 hr
    simp [hM]
  have hmk : Cpm.mk' M = .ok M :=
    mk'_ok hrl hentry (by simp [hM]) (.inr (by simp [hM])) rfl
  refine ⟨M, var, ?_, rfl, rfl, rfl, ⟨rfl, rfl, rfl, rfl⟩, fun r hr =>
    ⟨hrl r hr, fun s hsr => ?_, hentry r hr⟩, rfl, hlabn, ?_, ?_⟩
  · unfold sysVal
    simp only [← hvs]
    rw [hrows, ok_bind]
    simp only [List.map_map]
    have hC' : keys.map ((fun r : ℕ × List (K × ℕ) => r.1 :: varsP.map fun p =>
        (r.2.lookup p.name).getD 0) ∘ fun iv => (lab.idxOf iv.2,
          rowStates tB tA vs.zipIdx iv.1 iv.2)) = C := rfl
    have hp' : keys.map ((fun _ : ℕ × List (K × ℕ) => (1 : ℚ)) ∘ fun iv => (lab.idxOf iv.2,
          rowStates tB tA vs.zipIdx iv.1 iv.2)) = C.map fun _ => 1 := by
      rw [hC, List.map_map]; rfl
    rw [hC', hp', ← hvar, ← hM, hmk, ok_bind, pure_ok]
  · obtain ⟨iv, hiv, rfl⟩ := List.mem_map.1 hr
    rw [List.head?_cons, Option.mem_some_iff] at hsr
    rw [← hsr]
    exact hhead iv hiv
  · intro z
    rw [hlabm, List.mem_map]
    constructor
    · rintro ⟨⟨i, v⟩, hiv, rfl⟩
      obtain ⟨h1, h2⟩ := mem_sysKeys.1 hiv
      obtain ⟨x, hx, hxm⟩ := rowGood_witness hn h1 h2
      have hw := (rowSet_wins hx hd h1).1 hxm
      exact ⟨x, (ValidAt.perm hperm).1 hx, (IsBestAt.perm hperm).1 (wins_isBest hs hx hw)⟩
    · rintro ⟨x, hx, hz⟩
      have hx' := (ValidAt.perm hperm).2 hx
      have hne : valsAt vs x ≠ [] := by
        unfold valsAt
        rw [ne_eq, List.map_eq_nil_iff]
        intro hc
        rw [hc] at hperm
        exact h.ne hperm.symm.eq_nil
      obtain ⟨i, v, hw⟩ := exists_wins hs hne
      have hvz : z = v := IsBestAt.unique hs ((IsBestAt.perm hperm).2 hz) (wins_isBest hs hx' hw)
      have hi : ∃ p, vs[i]? = some p ∧ v ∈ p.values := by
        have h1 := hw.1
        unfold valsAt at h1
        rw [List.getElem?_map, Option.map_eq_some_iff] at h1
        obtain ⟨p, hp, hpv⟩ := h1
        refine ⟨p, hp, ?_⟩
        rw [← hpv]
        exact List.mem_of_getElem? (getD_some (hx' p (List.mem_of_getElem? hp)))
      have hall := (rowSet_wins (tB := tB) (tA := tA) hx' hd hi).2 hw
      exact ⟨(i, v), mem_sysKeys.2 ⟨hi, fun pi hpi => ⟨_, hall pi hpi⟩⟩, hvz.symm⟩
  · intro x hx
    have hx' := (ValidAt.perm hperm).2 hx
    have hne : valsAt vs x ≠ [] := by
      unfold valsAt
      rw [ne_eq, List.map_eq_nil_iff]
      intro hc
      rw [hc] at hperm
      exact h.ne hperm.symm.eq_nil
    obtain ⟨i, v, hw⟩ := exists_wins hs hne
    have hi : ∃ p, vs[i]? = some p ∧ v ∈ p.values := by
      have h1 := hw.1
      unfold valsAt at h1
      rw [List.getElem?_map, Option.map_eq_some_iff] at h1
      obtain ⟨p, hp, hpv⟩ := h1
      refine ⟨p, hp, ?_⟩
      rw [← hpv]
      exact List.mem_of_getElem? (getD_some (hx' p (List.mem_of_getElem? hp)))
    have hall := (rowSet_wins (tB := tB) (tA := tA) hx' hd hi).2 hw
    have hk : (i, v) ∈ keys := mem_sysKeys.2 ⟨hi, fun pi hpi => ⟨_, hall pi hpi⟩⟩
    obtain ⟨j, hj⟩ := List.mem_iff_getElem?.1 hk
    have hvl : v ∈ lab := (hlabm v).2 (List.mem_map_of_mem hk)
    refine ⟨j, lab.idxOf v, varsP.map (f (i, v)), v, ?_, (hmatch _ hk x).2 hall, ?_,
      (IsBestAt.perm hperm).1 (wins_isBest hs hx' hw), ?_⟩
    · rw [show M.C = C from rfl, hC, List.getElem?_map, hj]; rfl
    · have hlt := List.idxOf_lt_length_iff.2 hvl
      rw [List.getElem?_eq_getElem hlt, List.getElem_idxOf]
    · intro j' r' hj' hr'
      rw [show M.C = C from rfl, hC, List.getElem?_map, Option.map_eq_some_iff] at hj'
      obtain ⟨iv, hiv, rfl⟩ := hj'
      have hivm := List.mem_of_getElem? hiv
      rw [List.tail_cons, hmatch iv hivm] at hr'
      have hw' := (rowSet_wins hx' hd (mem_sysKeys.1 hivm).1).1 hr'
      obtain ⟨e1, e2⟩ := wins_unique hs hw hw'
      have hnd := nodup_sysKeys (tB := tB) (tA := tA) hd
      rw [← hkeys] at hnd
      have hjl := (List.getElem?_eq_some_iff.1 hj).1
      have hjl' := (List.getElem?_eq_some_iff.1 hiv).1
      have : keys[j'] = keys[j] := by
        rw [(List.getElem?_eq_some_iff.1 hj).2, (List.getElem?_eq_some_iff.1 hiv).2]
        exact Prod.ext e1.symm e2.symm
      exact (hnd.getElem_inj_iff).1 this

theorem addVals_of_subset (vs vals : List ℚ) (h : ∀ v ∈ vs, v ∈ vals) : addVals vs vals = vals := by
  induction vs with
  | nil => rfl
  | cons v vs ih =>
    rw [addVals_cons, if_pos (h v (by simp)), ih fun w hw => h w (by simp [hw])]

theorem addVals_disjoint (vs vals : List ℚ) (hn : vs.Nodup) (h : ∀ v ∈ vs, v ∉ vals) :
    addVals vs vals = vals ++ vs := by
  induction vs generalizing vals with
  | nil => simp [addVals]
  | cons v vs ih =>
    rw [List.nodup_cons] at hn
    rw [addVals_cons, if_neg (h v (by simp)), ih _ hn.2, List.append_assoc, List.singleton_append]
    intro w hw hc
    rcases List.mem_append.1 hc with hc | hc
    · exact h w (by simp [hw]) hc
    · rw [List.mem_singleton.1 hc] at hw
      exact hn.1 hw

/-- When all the variables have the same values, `vals_new` is built in ascending order. -/
theorem sysKeys_same (hs : Sel tB tA) {vs : List (Variable K)} (hd : ∀ p ∈ vs, p.values.Nodup)
    (hsame : ∀ p ∈ vs, ∀ q ∈ vs, ∀ z ∈ p.values, z ∈ q.values) :
    (addVals ((sysKeys tB tA vs.zipIdx vs.zipIdx).map Prod.snd) []).insertionSort (· ≤ ·) =
      addVals ((sysKeys tB tA vs.zipIdx vs.zipIdx).map Prod.snd) [] := by
  cases vs with
  | nil => rfl
  | cons v0 vs =>
    have hrefl : ∀ v, tA v v = true := fun v => (hs.total v v).elim id id
    have hgood : ∀ v ∈ v0.values, rowGood tB tA (v0 :: vs).zipIdx 0 v := by
      rintro v hv ⟨p, j⟩ hpj
      have hp := List.mem_of_getElem? (List.mem_zipIdx_iff_getElem?.1 hpj)
      simp only at hp
      have hvp := hsame v0 (by simp) p hp v hv
      unfold rowSet
      split
      · exact Finset.singleton_nonempty _
      · refine ⟨p.values.idxOf v, mem_valueSet.2 ⟨v, ?_, ?_⟩⟩
        · have hlt := List.idxOf_lt_length_iff.2 hvp
          rw [List.getElem?_eq_getElem hlt, List.getElem_idxOf]
        · rw [if_neg (by omega)]; exact hrefl v
    have hperm := List.perm_insertionSort (· ≤ ·) v0.values
    have hk : ∃ more, (sysKeys tB tA (v0 :: vs).zipIdx (v0 :: vs).zipIdx).map Prod.snd =
        v0.values.insertionSort (· ≤ ·) ++ more ∧ ∀ z ∈ more, z ∈ v0.values := by
      have h1 : sysKeys tB tA (v0 :: vs).zipIdx (v0 :: vs).zipIdx =
          ((v0.values.insertionSort (· ≤ ·)).filter fun v =>
            rowGood tB tA (v0 :: vs).zipIdx 0 v).map (fun v => (0, v)) ++
          sysKeys tB tA (v0 :: vs).zipIdx (vs.zipIdx 1) := rfl
      rw [h1, List.filter_eq_self.2 (fun v hv => by
        rw [decide_eq_true_iff]; exact hgood v (hperm.mem_iff.1 hv)), List.map_append, List.map_map]
      refine ⟨_, by rw [show (Prod.snd ∘ fun v : ℚ => ((0 : ℕ), v)) = id from rfl, List.map_id], ?_⟩
      intro z hz
      obtain ⟨⟨i, v⟩, hiv, rfl⟩ := List.mem_map.1 hz
      unfold sysKeys at hiv
      obtain ⟨⟨p, j⟩, hpj, hm⟩ := List.mem_flatMap.1 hiv
      obtain ⟨w, hw, e⟩ := List.mem_map.1 hm
      obtain ⟨-, rfl⟩ := Prod.mk.inj e
      have hp : p ∈ vs := (List.mem_zipIdx hpj).2.2 ▸ List.getElem_mem _
      exact hsame p (by simp [hp]) v0 (by simp) w
        ((List.perm_insertionSort (· ≤ ·) p.values).mem_iff.1 (List.mem_filter.1 hw).1)
    obtain ⟨more, hk, hmore⟩ := hk
    rw [hk, addVals_append, addVals_disjoint _ _ (hperm.nodup_iff.2 (hd v0 (by simp))) (by simp),
      List.nil_append, addVals_of_subset _ _ (fun v hv => hperm.mem_iff.2 (hmore v hv))]
    exact (List.pairwise_insertionSort (· ≤ ·) v0.values).insertionSort_eq

/-- `vals_new` after values that are all greater than those met before, or among them. -/
theorem addVals_ascending {vs vals : List ℚ} (hv : vals.Pairwise (· < ·)) (hs : vs.Pairwise (· < ·))
    (h : ∀ w ∈ vs, w ∉ vals → ∀ z ∈ vals, z < w) : (addVals vs vals).Pairwise (· < ·) := by
  induction vs generalizing vals with
  | nil => exact hv
  | cons v vs ih =>
    rw [List.pairwise_cons] at hs
    rw [addVals_cons]
    by_cases hc : v ∈ vals
    · rw [if_pos hc]
      exact ih hv hs.2 fun w hw => h w (by simp [hw])
    · rw [if_neg hc]
      refine ih ?_ hs.2 fun w hw hn z hz => ?_
      · refine List.pairwise_append.2 ⟨hv, by simp, fun a ha b hb => ?_⟩
        rw [List.mem_singleton.1 hb]
        exact h v (by simp) hc a ha
      · rcases List.mem_append.1 hz with hz | hz
        · exact h w (by simp [hw]) (fun hm => hn (by simp [hm])) z hz
        · rw [List.mem_singleton.1 hz]
          exact hs.1 w hw

/-- The values of every variable are the smallest ones of the values of all. -/
def InitialValues (vs : List (Variable K)) : Prop :=
  ∀ p ∈ vs, ∀ q ∈ vs, ∀ z ∈ p.values, ∀ y ∈ q.values, y ≤ z → y ∈ p.values

theorem pairwise_sorted_values {l : List ℚ} (h : l.Nodup) :
    (l.insertionSort (· ≤ ·)).Pairwise (· < ·) := by
  have h1 := List.pairwise_insertionSort (· ≤ ·) l
  have h2 : (l.insertionSort (· ≤ ·)).Pairwise (· ≠ ·) :=
    (List.perm_insertionSort (· ≤ ·) l).nodup_iff.2 h
  exact (h1.and h2).imp fun hab => lt_of_le_of_ne hab.1 hab.2

theorem exists_least {l : List ℚ} (h : l ≠ []) : ∃ m ∈ l, ∀ z ∈ l, m ≤ z := by
  induction l with
  | nil => exact absurd rfl h
  | cons a l ih =>
    by_cases hl : l = []
    · subst hl; exact ⟨a, by simp, by simp⟩
    · obtain ⟨m, hm, hle⟩ := ih hl
      rcases le_total a m with h1 | h1
      · refine ⟨a, by simp, fun z hz => ?_⟩
        rcases List.mem_cons.1 hz with rfl | hz
        · exact le_rfl
        · exact h1.trans (hle z hz)
      · refine ⟨m, by simp [hm], fun z hz => ?_⟩
        rcases List.mem_cons.1 hz with rfl | hz
        · exact h1
        · exact hle z hz

theorem mem_getElem?_idxOf {l : List ℚ} {z : ℚ} (h : z ∈ l) : l[l.idxOf z]? = some z := by
  have hlt := List.idxOf_lt_length_iff.2 h
  rw [List.getElem?_eq_getElem hlt, List.getElem_idxOf]

/-- For the maximum, `vals_new` is built in ascending order when the values of every variable are
the smallest ones of all. -/
theorem sysKeys_initial_max {vs : List (Variable K)} (hd : ∀ p ∈ vs, p.values.Nodup)
    (hne : ∀ p ∈ vs, p.values ≠ []) (hin : InitialValues vs) :
    (addVals ((sysKeys (fun z v : ℚ => decide (z < v)) (fun z v => decide (z ≤ v)) vs.zipIdx
      vs.zipIdx).map Prod.snd) []).Pairwise (· < ·) := by
  set tB := (fun z v : ℚ => decide (z < v)) with htB
  set tA := (fun z v : ℚ => decide (z ≤ v)) with htA
  cases vs with
  | nil => simp [sysKeys, addVals]
  | cons v0 vs0 =>
    set vs := v0 :: vs0 with hvs
    obtain ⟨m, hm, hml⟩ := exists_least (hne v0 (by simp [hvs]))
    have hmin : ∀ p ∈ vs, m ∈ p.values ∧ ∀ z ∈ p.values, m ≤ z := by
      intro p hp
      obtain ⟨m', hm', hml'⟩ := exists_least (hne p hp)
      have hv0 : v0 ∈ vs := by simp [hvs]
      rcases le_total m m' with h | h
      · have h1 := hin p hp v0 hv0 m' hm' m hm h
        exact ⟨h1, fun z hz => h.trans (hml' z hz)⟩
      · have h1 := hin v0 hv0 p hp m hm m' hm' h
        have : m = m' := le_antisymm (hml m' h1) h
        subst this
        exact ⟨hm', hml'⟩
    -- a value is left out only when it is the least one of all and the variable is not the first
    have hgood : ∀ (i : ℕ) (v : ℚ), (∃ p ∈ vs, v ∈ p.values) → (i = 0 ∨ v ≠ m) →
        rowGood tB tA vs.zipIdx i v := by
      rintro i v ⟨p0, hp0, hv0⟩ hor ⟨p, j⟩ hpj
      have hp := List.mem_of_getElem? (List.mem_zipIdx_iff_getElem?.1 hpj)
      simp only at hp
      have hmp := (hmin p hp).1
      have hle := (hmin p0 hp0).2 v hv0
      unfold rowSet
      split
      · exact Finset.singleton_nonempty _
      · rename_i hij
        simp only at hij
        refine ⟨p.values.idxOf m, mem_valueSet.2 ⟨m, mem_getElem?_idxOf hmp, ?_⟩⟩
        simp only
        by_cases hlt : j < i
        · rw [if_pos hlt, htB]
          simp only [decide_eq_true_eq]
          exact lt_of_le_of_ne hle fun e => (hor.resolve_left (by omega)) e.symm
        · rw [if_neg hlt, htA]
          simp only [decide_eq_true_eq]
          exact hle
    have key : ∀ (L : List (Variable K)) (k : ℕ) (vals : List ℚ), (∀ p ∈ L, p ∈ vs) →
        (k = 0 ∧ vals = [] ∨ m ∈ vals) → vals.Pairwise (· < ·) →
        (∀ q ∈ vs, ∀ y ∈ q.values, ∀ z ∈ vals, y ≤ z → y ∈ vals) →
        (addVals ((sysKeys tB tA vs.zipIdx (L.zipIdx k)).map Prod.snd) vals).Pairwise (· < ·) := by
      intro L
      induction L with
      | nil => intro k vals _ _ hp _; exact hp
      | cons p L ih =>
        intro k vals hL hk hp hcl
        have hpm := hL p (by simp)
        have h1 : (sysKeys tB tA vs.zipIdx ((p :: L).zipIdx k)).map Prod.snd =
            ((p.values.insertionSort (· ≤ ·)).filter fun v => rowGood tB tA vs.zipIdx k v) ++
            (sysKeys tB tA vs.zipIdx (L.zipIdx (k + 1))).map Prod.snd := by
          have : sysKeys tB tA vs.zipIdx ((p :: L).zipIdx k) =
            ((p.values.insertionSort (· ≤ ·)).filter fun v => rowGood tB tA vs.zipIdx k v).map
              (fun v => (k, v)) ++ sysKeys tB tA vs.zipIdx (L.zipIdx (k + 1)) := rfl
          rw [this, List.map_append, List.map_map,
            show (Prod.snd ∘ fun v : ℚ => ((k : ℕ), v)) = id from rfl, List.map_id]
        set W := (p.values.insertionSort (· ≤ ·)).filter fun v => rowGood tB tA vs.zipIdx k v with hW
        have hmemW : ∀ w, w ∈ W → w ∈ p.values := fun w hw =>
          (List.perm_insertionSort (· ≤ ·) p.values).mem_iff.1 (List.mem_filter.1 hw).1
        have hWor : ∀ w ∈ p.values, w ∈ addVals W vals := by
          intro w hw
          rw [mem_addVals]
          by_cases hwm : w = m ∧ k ≠ 0
          · exact .inl (hwm.1 ▸ hk.resolve_left fun h => hwm.2 h.1)
          · refine .inr (List.mem_filter.2
              ⟨(List.perm_insertionSort (· ≤ ·) p.values).mem_iff.2 hw, ?_⟩)
            rw [decide_eq_true_iff]
            refine hgood k w ⟨p, hpm, hw⟩ ?_
            by_cases h0 : k = 0
            · exact .inl h0
            · exact .inr fun e => hwm ⟨e, h0⟩
        rw [h1, addVals_append]
        refine ih (k + 1) _ (fun q hq => hL q (by simp [hq])) (.inr (hWor m (hmin p hpm).1))
          ?_ fun q hq y hy z hz hyz => ?_
        · refine addVals_ascending hp ((pairwise_sorted_values (hd p hpm)).filter _) ?_
          intro w hw hn z hz
          by_contra hlt
          exact hn (hcl p hpm w (hmemW w hw) z hz (not_lt.1 hlt))
        · rcases (mem_addVals _ _ _).1 hz with hz | hz
          · exact (mem_addVals _ _ _).2 (.inl (hcl q hq y hy z hz hyz))
          · exact hWor y (hin p hpm q hq z (hmemW z hz) y hy hyz)
    exact key vs 0 [] (fun p hp => hp) (.inl ⟨rfl, rfl⟩) List.Pairwise.nil
      (fun _ _ _ _ z hz => by simp at hz)

/-- For the minimum, the same when in addition no variable has a smaller greatest value than the
first. -/
theorem sysKeys_initial_min {v0 : Variable K} {vs0 : List (Variable K)}
    (hd : ∀ p ∈ v0 :: vs0, p.values.Nodup) (hin : InitialValues (v0 :: vs0))
    (hfirst : ∀ p ∈ vs0, ∀ z ∈ v0.values, ∃ y ∈ p.values, z ≤ y) :
    (addVals ((sysKeys (fun z v : ℚ => decide (v < z)) (fun z v => decide (v ≤ z))
      (v0 :: vs0).zipIdx (v0 :: vs0).zipIdx).map Prod.snd) []).Pairwise (· < ·) := by
  set tB := (fun z v : ℚ => decide (v < z)) with htB
  set tA := (fun z v : ℚ => decide (v ≤ z)) with htA
  have hgood : ∀ v ∈ v0.values, rowGood tB tA (v0 :: vs0).zipIdx 0 v := by
    rintro v hv ⟨p, j⟩ hpj
    have hpj' := List.mem_zipIdx_iff_getElem?.1 hpj
    simp only at hpj'
    unfold rowSet
    split
    · exact Finset.singleton_nonempty _
    · rename_i hij
      simp only at hij
      have hp : p ∈ vs0 := by
        cases j with
        | zero => exact absurd rfl hij
        | succ j => exact List.mem_of_getElem? (by simpa using hpj')
      obtain ⟨y, hy, hvy⟩ := hfirst p hp v hv
      refine ⟨p.values.idxOf y, mem_valueSet.2 ⟨y, mem_getElem?_idxOf hy, ?_⟩⟩
      simp only
      rw [if_neg (by omega), htA]
      simpa using hvy
  have hperm := List.perm_insertionSort (· ≤ ·) v0.values
  have hk : ∃ more, (sysKeys tB tA (v0 :: vs0).zipIdx (v0 :: vs0).zipIdx).map Prod.snd =
      v0.values.insertionSort (· ≤ ·) ++ more ∧ ∀ z ∈ more, z ∈ v0.values := by
    have h1 : sysKeys tB tA (v0 :: vs0).zipIdx (v0 :: vs0).zipIdx =
        ((v0.values.insertionSort (· ≤ ·)).filter fun v =>
          rowGood tB tA (v0 :: vs0).zipIdx 0 v).map (fun v => (0, v)) ++
        sysKeys tB tA (v0 :: vs0).zipIdx (vs0.zipIdx 1) := rfl
    rw [h1, List.filter_eq_self.2 (fun v hv => by
      rw [decide_eq_true_iff]; exact hgood v (hperm.mem_iff.1 hv)), List.map_append, List.map_map]
    refine ⟨_, by rw [show (Prod.snd ∘ fun v : ℚ => ((0 : ℕ), v)) = id from rfl, List.map_id], ?_⟩
    intro z hz
    obtain ⟨⟨i, v⟩, hiv, rfl⟩ := List.mem_map.1 hz
    unfold sysKeys at hiv
    obtain ⟨⟨p, j⟩, hpj, hm⟩ := List.mem_flatMap.1 hiv
    obtain ⟨w, hw, e⟩ := List.mem_map.1 hm
    obtain ⟨-, rfl⟩ := Prod.mk.inj e
    have hz := List.mem_zipIdx hpj
    have hp : p ∈ vs0 := hz.2.2 ▸ List.getElem_mem _
    obtain ⟨hw1, hw2⟩ := List.mem_filter.1 hw
    rw [decide_eq_true_iff] at hw2
    have h0 := hw2 (v0, 0) (by simp [List.zipIdx_cons])
    unfold rowSet at h0
    simp only at h0
    rw [if_neg (by omega)] at h0
    obtain ⟨y, hy⟩ := h0
    obtain ⟨z', hz', ht⟩ := mem_valueSet.1 hy
    rw [if_pos (by omega), htB] at ht
    simp only [decide_eq_true_eq] at ht
    exact hin v0 (by simp) p (by simp [hp]) z' (List.mem_of_getElem? hz') w
      ((List.perm_insertionSort (· ≤ ·) p.values).mem_iff.1 hw1) ht.le
  obtain ⟨more, hk, hmore⟩ := hk
  rw [hk, addVals_append, addVals_disjoint _ _ (hperm.nodup_iff.2 (hd v0 (by simp))) (by simp),
    List.nil_append, addVals_of_subset _ _ (fun v hv => hperm.mem_iff.2 (hmore v hv))]
  exact pairwise_sorted_values (hd v0 (by simp))

end

end BNS
