import Verif.Proofs.CpmProd
import Mathlib.Algebra.BigOperators.Ring.Finset
import Mathlib.Algebra.BigOperators.Group.Finset.Piecewise
import Mathlib.Data.List.Dedup

/-! `Cpm.get_subset`, the method `iscompatible` and `Cpm.sum` on well-formed input. -/

namespace BNS

open List

set_option linter.unusedSectionVars false
set_option linter.unnecessarySimpa false

section
variable {K : Type} [DecidableEq K] {U : K → Variable K} {M : Cpm K}

/-! ### `get_subset` -/

theorem setdiff_range (n : ℕ) (idx : List ℕ) :
    (setdiffOn id (List.range n) idx).1 = (List.range n).filter fun i => i ∉ idx := by
  unfold setdiffOn
  simp only
  rw [firstOccOn_of_nodup _ _ (by simpa using List.nodup_range)]
  simp

theorem filter_range_map {α β : Type} (C : List α) (X : List β) (dc : α) (dx : β)
    (hl : X.length = C.length) (g : α → Bool) :
    ((List.range C.length).filter fun i => g (C.getD i dc)).map (fun i => X.getD i dx) =
      ((C.zip X).filter fun cx => g cx.1).map Prod.snd := by
  have h1 := range_map_getD₂ C X dc dx hl (fun a b => (a, b))
  simp only [Prod.mk.eta, List.map_id'] at h1
  rw [← h1, List.filter_map, List.map_map]
  rfl

theorem mem_whereTrue {α : Type} (C : List α) (f : α → Bool) (d : α) {i : ℕ} (hi : i < C.length) :
    i ∈ whereTrue (C.map f) ↔ f (C.getD i d) = true := by
  unfold whereTrue
  rw [List.mem_filter, List.mem_range, List.length_map]
  simp [hi, List.getD_eq_getElem?_getD]

theorem whereTrue_lt {mask : List Bool} {i : ℕ} (h : i ∈ whereTrue mask) : i < mask.length := by
  unfold whereTrue at h
  simpa using (List.mem_filter.1 h).1

/-- rows with `f`, probabilities alongside -/
def filterRows (M : Cpm K) (f : List ℕ → Bool) : Cpm K :=
  { M with C := M.C.filter f, p := maskRows (M.C.map f) M.p }

theorem filterRows_WF (h : WF U M) (f : List ℕ → Bool) : WF U (filterRows M f) :=
  ⟨h.env, h.table, h.nodup, fun r hr => h.rowLen r (List.mem_filter.1 hr).1,
    fun r hr => h.entry r (List.mem_filter.1 hr).1, length_maskRows _ _ _ h.pLen, h.child, h.noCs⟩

theorem filterRows_zip (h : WF U M) (f : List ℕ → Bool) :
    (filterRows M f).C.zip (filterRows M f).p = (M.C.zip M.p).filter fun cp => f cp.1 := by
  have := zip_filter_map f id M.C M.p h.pLen
  simpa [filterRows] using this

theorem takeRowsOpt_filter (h : WF U M) (f : List ℕ → Bool) :
    takeRowsOpt M.p ((List.range M.C.length).filter fun i => f (M.C.getD i [])) =
      .ok (maskRows (M.C.map f) M.p) := by
  unfold takeRowsOpt
  split
  · rename_i h0; simp [h0, maskRows]
  · rw [takeRows_ok 0, filter_range_map _ _ _ _ h.pLen, maskRows_map]
    intro i hi
    rw [h.pLen]
    simpa using (List.mem_filter.1 hi).1

theorem takeRows_filter (M : Cpm K) (f : List ℕ → Bool) :
    takeRows M.C ((List.range M.C.length).filter fun i => f (M.C.getD i [])) =
      .ok (M.C.filter f) := by
  rw [takeRows_ok [], filter_range_map M.C M.C [] [] rfl, ← maskRows_map, maskRows_self]
  intro i hi
  simpa using (List.mem_filter.1 hi).1

theorem whereTrue_eq (C : List (List ℕ)) (f : List ℕ → Bool) :
    whereTrue (C.map f) = (List.range C.length).filter fun i => f (C.getD i []) := by
  unfold whereTrue
  rw [List.length_map]
  refine List.filter_congr fun i hi => ?_
  have hi : i < C.length := by simpa using hi
  simp [hi, List.getD_eq_getElem?_getD]

theorem getSubset_where (h : WF U M) (f : List ℕ → Bool) (flag : Bool) :
    M.getSubset (whereTrue (M.C.map f)) flag =
      .ok (filterRows M fun r => if flag then f r else !f r) := by
  have hwf := filterRows_WF h fun r => if flag then f r else !f r
  have hrows : subsetRows M.C.length (whereTrue (M.C.map f)) flag =
      .ok ((List.range M.C.length).filter fun i =>
        (fun r => if flag then f r else !f r) (M.C.getD i [])) := by
    unfold subsetRows
    cases flag with
    | true =>
      rw [if_pos rfl, if_pos]
      · rw [whereTrue_eq]; rfl
      · intro i hi; simpa using whereTrue_lt hi
    | false =>
      rw [if_neg (by simp), setdiff_range]
      congr 1
      refine List.filter_congr fun i hi => ?_
      have hi : i < M.C.length := by simpa using hi
      have := mem_whereTrue M.C f [] hi
      simp only [this]
      cases f (M.C.getD i []) <;> simp
  unfold Cpm.getSubset
  rw [hrows, ok_bind]
  generalize (fun r => if flag then f r else !f r) = g at hwf ⊢
  rw [takeRowsOpt_filter h, ok_bind, takeRows_filter, ok_bind]
  exact mk'_ok hwf.rowLen hwf.entry hwf.child (.inr hwf.pLen) hwf.noCs.1

theorem getSubset_zero (h : WF U M) {r : List ℕ} {rs : List (List ℕ)} (hC : M.C = r :: rs) :
    ∃ p0, M.getSubset [0] true = .ok { M with C := [r], p := [p0] } := by
  have hp := h.pLen
  rw [hC] at hp
  cases hp' : M.p with
  | nil => rw [hp'] at hp; simp at hp
  | cons p0 ps =>
    refine ⟨p0, ?_⟩
    unfold Cpm.getSubset subsetRows
    rw [if_pos rfl, if_pos (by simp [hC]), ok_bind, hp']
    simp only [takeRowsOpt]
    have h1 : takeRows (p0 :: ps) [0] = .ok [p0] := rfl
    have h2 : takeRows M.C [0] = .ok [r] := by rw [hC]; rfl
    rw [h1, ok_bind, h2, ok_bind]
    refine mk'_ok ?_ ?_ h.child (.inr rfl) h.noCs.1
    · intro r' hr'
      simp at hr'; subst hr'
      exact h.rowLen _ (by simp [hC])
    · intro r' hr'
      simp at hr'; subst hr'
      exact h.entry _ (by simp [hC])

/-! ### the method `iscompatible` -/

theorem max?_some_ge {l : List ℕ} (hl : l ≠ []) :
    ∃ m, l.max? = some m ∧ ∀ a ∈ l, a ≤ m := by
  cases hm : l.max? with
  | none => simp at hm; exact absurd hm hl
  | some m =>
    refine ⟨m, rfl, fun a ha => ?_⟩
    exact (List.max?_eq_some_iff.1 hm).2 a ha

/-- comparison of a row with a given row, column by column -/
theorem isCompatibleM_eq (h : WF U M) {r0 : List ℕ} {rs : List (List ℕ)} (hC : M.C = r0 :: rs)
    (hne : M.vars ≠ []) (p0 : ℚ) :
    M.isCompatibleM { M with C := [r0], p := [p0] } false =
      .ok (M.C.map fun r => decide (r = r0)) := by
  have hr0 : r0 ∈ M.C := by simp [hC]
  have hlen0 := h.rowLen r0 hr0
  unfold Cpm.isCompatibleM
  rw [pyAssert_true (by simp [h.noCs.1]), ok_bind]
  have hr0ne : r0 ≠ [] := by
    intro e; rw [e] at hlen0
    exact hne (List.length_eq_zero_iff.1 (by simpa using hlen0.symm))
  obtain ⟨a, r0', hr0e⟩ := List.exists_cons_of_ne_nil hr0ne
  subst hr0e
  simp only [ismemberOn]
  rw [condn_self, ok_bind, condn_other _ _ _ hlen0, ok_bind]
  have hcl := checkList_eq M.getNames M.vars (a :: r0') hlen0
  unfold Cpm.getNames at hcl
  rw [hcl]
  generalize hr0def : a :: r0' = r0 at *
  have key : ∀ (L : List ((Variable K × ℕ) × ℕ)) (f : List ℕ → Bool),
      (∀ t ∈ L, t ∈ checkList (M.vars.map Variable.name) M.vars r0) →
      L.foldlM (fun mask vsi => do
        let B ← compatTable M.C vsi.1.1 vsi.2 false
        let mask' ← compatStep M.C mask B vsi.1.2 vsi.2
        if mask.any id ∧ ∃ T ∈ B, T.length ≤ vsi.1.2 then .error .index else .ok mask')
        (M.C.map f) =
        (.ok (M.C.map fun r => f r && L.all fun t => decide (t.1.2 = r.getD t.2 0)) :
          Except Err (List Bool)) := by
    intro L
    induction L with
    | nil => intro f _; simp [pure_ok]
    | cons t L ih =>
      intro f ht
      obtain ⟨h1, h2, h3⟩ := mem_checkList.1 (ht t (by simp))
      have hlt : t.2 < M.vars.length := by
        rw [h3]; obtain ⟨h4, _⟩ := getElem_idxOf_name h2; exact h4
      have hcol : column M.C t.2 = .ok (M.C.map fun r => r.getD t.2 0) :=
        column_ok fun r hr => by rw [h.rowLen r hr]; exact hlt
      obtain ⟨m, hm1, hm2⟩ := max?_some_ge (l := M.C.map fun r => r.getD t.2 0)
        (by simp [hC])
      have htab : compatTable M.C t.1.1 t.2 false =
          .ok (some ((List.range (m + 1)).map fun i => ({i} : Finset ℕ))) := by
        unfold compatTable
        rw [if_neg (by simp), hcol, ok_bind, hm1]
      -- the checked state is the entry of the first row
      have hst : t.1.2 = r0.getD t.2 0 := by
        have := (zip_forall_iff h.nodup hlen0
          (fun v s => s = val (M.vars.map Variable.name) r0 v.name)).2 (fun v _ => rfl) t.1 h1
        rw [this, h3]; rfl
      have hstle : t.1.2 ≤ m := by
        rw [hst]; exact hm2 _ (List.mem_map.2 ⟨r0, hr0, rfl⟩)
      rw [List.foldlM_cons, htab, ok_bind, compatStep_ok]
      · rw [ok_bind, if_neg (by simp; omega), ok_bind, ih _ (fun t' ht' => ht t' (by simp [ht']))]
        congr 1
        refine List.map_congr_left fun r hr => ?_
        have hrle : r.getD t.2 0 ≤ m := hm2 _ (List.mem_map.2 ⟨r, hr, rfl⟩)
        rw [List.all_cons, ← Bool.and_assoc]
        congr 2
        rw [List.getD_eq_getElem?_getD, List.getD_eq_getElem?_getD]
        rw [List.getElem?_map, List.getElem?_map, List.getElem?_range (by omega),
          List.getElem?_range (by omega)]
        simp only [Option.map_some, Option.getD_some]
        by_cases he : t.1.2 = r.getD t.2 0
        · simp [he]
        · simp only [he, decide_false, decide_eq_false_iff_not]
          rintro ⟨i, hi⟩
          simp only [Finset.mem_inter, Finset.mem_singleton] at hi
          exact he (hi.1.symm.trans hi.2)
      · simp; omega
      · intro r hr
        have hlt' : t.2 < r.length := by rw [h.rowLen r hr]; exact hlt
        refine ⟨hlt', ?_⟩
        have hrle : r.getD t.2 0 ≤ m := hm2 _ (List.mem_map.2 ⟨r, hr, rfl⟩)
        simp [hlt'] at hrle ⊢
        omega
  have hrep : List.replicate M.C.length true = M.C.map fun _ => true := by simp
  rw [hrep, key _ _ (fun t ht => ht)]
  congr 1
  refine List.map_congr_left fun r hr => ?_
  simp only [Bool.true_and]
  by_cases he : r = r0
  · subst he
    simp only [decide_true, List.all_eq_true, decide_eq_true_eq]
    intro t ht
    obtain ⟨h1, h2, h3⟩ := mem_checkList.1 ht
    have := (zip_forall_iff h.nodup hlen0
      (fun v s => s = val (M.vars.map Variable.name) r v.name)).2 (fun v _ => rfl) t.1 h1
    rw [this, h3]; rfl
  · simp only [he, decide_false]
    rw [Bool.eq_false_iff]
    intro hall
    rw [List.all_eq_true] at hall
    apply he
    apply List.ext_getElem
    · rw [h.rowLen r hr, hlen0]
    · intro j hj1 hj2
      have hjv : j < M.vars.length := by rw [← hlen0]; exact hj2
      have hmem : ((M.vars[j], r0[j]), j) ∈ checkList (M.vars.map Variable.name) M.vars r0 := by
        refine mem_checkList.2 ⟨?_, List.mem_map_of_mem (List.getElem_mem hjv), ?_⟩
        · have : (M.vars.zip r0)[j]'(by simp; omega) = (M.vars[j], r0[j]) := by simp
          rw [← this]; exact List.getElem_mem _
        · have := h.nodup.idxOf_getElem j (by simpa using hjv)
          rw [List.getElem_map] at this
          exact this.symm
      have := hall _ hmem
      simp only [decide_eq_true_eq] at this
      rw [this]; simp [hj1]

/-! ### the summing loop -/

theorem flatten_ne_nil (h : WF U M) (hne : M.vars ≠ []) : M.C.flatten = [] ↔ M.C = [] := by
  constructor
  · intro hf
    cases hC : M.C with
    | nil => rfl
    | cons r rs =>
      rw [hC] at hf
      simp at hf
      have := h.rowLen r (by simp [hC])
      rw [hf.1] at this
      exact absurd (List.length_eq_zero_iff.1 this.symm) hne
  · intro h; simp [h]

theorem sum_partition {α : Type} (l : List α) (f : α → Bool) (g : α → ℚ) :
    (l.map g).sum = ((l.filter f).map g).sum + ((l.filter fun a => !f a).map g).sum := by
  induction l with
  | nil => simp
  | cons a l ih =>
    simp only [List.filter_cons, List.map_cons, List.sum_cons]
    cases h : f a <;> simp [ih] <;> ring

theorem sumLoop_spec (n : ℕ) : ∀ (M : Cpm K), WF U M → M.vars ≠ [] → M.C.length ≤ n →
    ∃ Cs ps, sumLoop n M = .ok (Cs, ps) ∧ ps.length = Cs.length ∧ Cs.Nodup ∧
      (∀ r, r ∈ Cs ↔ r ∈ M.C) ∧
      ∀ g : List ℕ → ℚ → ℚ, (∀ r a b, g r (a + b) = g r a + g r b) →
        ((Cs.zip ps).map fun cp => g cp.1 cp.2).sum =
        ((M.C.zip M.p).map fun cp => g cp.1 cp.2).sum := by
  induction n with
  | zero =>
    intro M h hne hlen
    have hC : M.C = [] := List.length_eq_zero_iff.1 (by omega)
    exact ⟨[], [], by simp [sumLoop, hC], rfl, List.nodup_nil, by simp [hC], by simp [hC]⟩
  | succ n ih =>
    intro M h hne hlen
    unfold sumLoop
    cases hC : M.C with
    | nil => exact ⟨[], [], by simp, rfl, List.nodup_nil, by simp, by simp⟩
    | cons r rs =>
      rw [if_neg (by rw [← hC, flatten_ne_nil h hne, hC]; simp)]
      obtain ⟨p0, h1⟩ := getSubset_zero h hC
      have h2 := isCompatibleM_eq h hC hne p0
      have h3 := getSubset_where h (fun r' => decide (r' = r)) false
      rw [h1, ok_bind, h2, ok_bind, ← hC]
      have h4 : pyGet M.C 0 = .ok r := by rw [hC]; rfl
      rw [h4, ok_bind, h3, ok_bind]
      simp only [Bool.false_eq_true, if_false]
      have hsub : (filterRows M fun r' => !decide (r' = r)).C.length ≤ n := by
        simp only [filterRows, hC, List.filter_cons, decide_true, Bool.not_true,
          Bool.false_eq_true, if_false]
        have := List.length_filter_le (fun r' => !decide (r' = r)) rs
        rw [hC] at hlen
        simp at hlen
        omega
      obtain ⟨Cs, ps, e1, e2, e3, e4, e5⟩ :=
        ih _ (filterRows_WF h fun r' => !decide (r' = r)) hne hsub
      have hpne : M.p ≠ [] := by
        intro e
        have := h.pLen
        rw [e, hC] at this; simp at this
      rw [e1, ok_bind, if_neg hpne]
      refine ⟨_, _, rfl, by simp [e2], ?_, ?_, ?_⟩
      · rw [List.nodup_cons]
        refine ⟨?_, e3⟩
        rw [e4]
        simp [filterRows]
      · intro r'
        rw [List.mem_cons, e4]
        simp only [filterRows, List.mem_filter]
        constructor
        · rintro (rfl | h)
          · simp [hC]
          · exact h.1
        · intro hr'
          by_cases he : r' = r
          · exact .inl he
          · exact .inr ⟨hr', by simp [he]⟩
      · intro g hg
        have hg0 : ∀ r, g r 0 = 0 := fun r => by
          have := hg r 0 0
          simp at this; exact this
        rw [List.singleton_append, List.zip_cons_cons, List.map_cons, List.sum_cons, e5 g hg,
          filterRows_zip h, sum_partition (M.C.zip M.p) (fun cp => decide (cp.1 = r))]
        congr 1
        rw [maskRows_map]
        generalize (M.C.zip M.p) = l
        induction l with
        | nil => simp [hg0]
        | cons cp l ihl =>
          rw [List.filter_cons]
          by_cases he : cp.1 = r
          · simp only [he, decide_true, if_true, List.map_cons, List.sum_cons, hg, ihl]
          · simp only [he, decide_false]
            exact ihl

end

end BNS
