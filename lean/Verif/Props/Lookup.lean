import Verif.Model.Operation
import Verif.Props.CpmMisc

/-!
# Property C55 (continued): looking up variables in lists of variables and of CPMs
-/

namespace BNS

set_option linter.unusedSectionVars false

section
variable {K : Type} [DecidableEq K]

/-- `get_var_idx`: when every name belongs to exactly one of the variables, their positions; a name
that belongs to none or to several is refused. -/
theorem C55_get_var_idx (varis : List (Variable K)) (names : List K) :
    ((∀ k ∈ names, varis.countP (fun v => v.name = k) = 1) →
      ∃ idx, getVarIdx varis names = .ok idx ∧ idx.length = names.length ∧
        ∀ (j : ℕ) (k : K), names[j]? = some k → ∃ i v, idx[j]? = some i ∧ varis[i]? = some v ∧
          v.name = k) ∧
    ((∃ k ∈ names, varis.countP (fun v => v.name = k) ≠ 1) →
      getVarIdx varis names = .error .assertion) := by
  have hlen : ∀ k, ((List.range varis.length).filter fun i =>
      (varis[i]?).map Variable.name = some k).length = varis.countP (fun v => v.name = k) := by
    intro k
    rw [← List.countP_eq_length_filter]
    have h1 : varis = (List.range varis.length).attach.map fun i =>
        varis[i.1]'(List.mem_range.1 i.2) := by
      apply List.ext_getElem
      · simp
      · intro i h1 h2; simp
    conv_rhs => rw [h1]
    rw [List.countP_map, ← List.countP_attach]
    refine List.countP_congr fun i _ => ?_
    have := List.mem_range.1 i.2
    simp [this]
  constructor
  · intro h
    have hone : ∀ k ∈ names, ∃ i, ((List.range varis.length).filter fun i =>
        (varis[i]?).map Variable.name = some k) = [i] := by
      intro k hk
      exact List.length_eq_one_iff.1 ((hlen k).trans (h k hk))
    refine ⟨names.map fun k => ((List.range varis.length).filter fun i =>
        (varis[i]?).map Variable.name = some k).headD 0, ?_, by simp, ?_⟩
    · refine mapM_ok fun k hk => ?_
      obtain ⟨i, hi⟩ := hone k hk
      simp only [hi]
      rfl
    · intro j k hj
      obtain ⟨i, hi⟩ := hone k (List.mem_of_getElem? hj)
      have hmem : i ∈ (List.range varis.length).filter fun i =>
          (varis[i]?).map Variable.name = some k := by rw [hi]; simp
      have h2 := (List.mem_filter.1 hmem).2
      simp only [decide_eq_true_eq, Option.map_eq_some_iff] at h2
      obtain ⟨v, hv, hvk⟩ := h2
      exact ⟨i, v, by rw [List.getElem?_map, hj, Option.map_some, hi]; rfl, hv, hvk⟩
  · rintro ⟨k, hk, hc⟩
    refine mapM_error ⟨k, hk, ?_⟩ ?_
    · simp only
      rw [pyAssert_false (by rw [hlen]; exact hc)]
      rfl
    · intro k' _ e' he
      simp only at he
      by_cases hc' : ((List.range varis.length).filter fun i =>
          (varis[i]?).map Variable.name = some k').length = 1
      · obtain ⟨i, hi⟩ := List.length_eq_one_iff.1 hc'
        rw [hi] at he
        cases he
      · rw [pyAssert_false hc'] at he
        injection he with he
        exact he.symm

theorem collectVars_spec (M : Cpm K) (names : List K) :
    ∃ fs, collectVars M names = .ok (fs, names.filter (· ∉ M.getNames)) ∧
      fs.map Variable.name = names.filter (· ∈ M.getNames) ∧ ∀ v ∈ fs, v ∈ M.vars := by
  induction names with
  | nil => exact ⟨[], rfl, rfl, by simp⟩
  | cons k rest ih =>
    obtain ⟨fs, h1, h2, h3⟩ := ih
    unfold collectVars
    by_cases hk : k ∈ M.getNames
    · obtain ⟨vs, g1, g2, g3⟩ := (C55_get_variables M [k]).1 (by simpa using hk)
      rw [if_pos hk, g1, ok_bind, h1, ok_bind]
      refine ⟨vs ++ fs, by simp [hk, pure_ok], by simp [hk, g3, h2], ?_⟩
      intro v hv
      rcases List.mem_append.1 hv with hv | hv
      · exact g2 v hv
      · exact h3 v hv
    · rw [if_neg hk, h1, ok_bind]
      exact ⟨fs, by simp [hk, pure_ok], by simp [hk, h2], h3⟩

theorem collectAll_spec (cpms : List (Cpm K)) (names : List K) :
    ∃ res, collectAll cpms names = .ok res ∧
      (res.map Variable.name).Perm (names.filter fun k => ∃ M ∈ cpms, k ∈ M.getNames) ∧
      ∀ v ∈ res, ∃ M ∈ cpms, v ∈ M.vars := by
  induction cpms generalizing names with
  | nil => exact ⟨[], rfl, by simp, by simp⟩
  | cons M Ms ih =>
    obtain ⟨fs, h1, h2, h3⟩ := collectVars_spec M names
    obtain ⟨res, g1, g2, g3⟩ := ih (names.filter (· ∉ M.getNames))
    unfold collectAll
    rw [h1, ok_bind]
    simp only
    rw [g1, ok_bind]
    refine ⟨fs ++ res, rfl, ?_, ?_⟩
    · rw [List.map_append, h2]
      refine (List.Perm.append_left _ g2).trans ?_
      rw [List.filter_filter]
      have hp := List.filter_append_perm (fun k => decide (k ∈ M.getNames))
        (names.filter fun k => ∃ N ∈ M :: Ms, k ∈ N.getNames)
      rw [List.filter_filter, List.filter_filter] at hp
      refine List.Perm.trans (List.Perm.of_eq ?_) hp
      congr 1
      · refine List.filter_congr fun k _ => ?_
        by_cases hk : k ∈ M.getNames <;> simp [hk]
      · refine List.filter_congr fun k _ => ?_
        by_cases hk : k ∈ M.getNames <;> simp [hk]
    · intro v hv
      rcases List.mem_append.1 hv with hv | hv
      · exact ⟨M, by simp, h3 v hv⟩
      · obtain ⟨N, hN, hvN⟩ := g3 v hv
        exact ⟨N, by simp [hN], hvN⟩

/-- `operation.get_variables(cpms, names)`: the objects of the requested names, in the order of the
request, each taken from one of the CPMs; when a name occurs in no CPM the call is refused. -/
theorem C55_get_variables_cpms (cpms : List (Cpm K)) (names : List K) :
    (names.Nodup → (∀ k ∈ names, ∃ M ∈ cpms, k ∈ M.getNames) →
      ∃ vs, getVariablesAll cpms names = .ok vs ∧ vs.map Variable.name = names ∧
        ∀ v ∈ vs, ∃ M ∈ cpms, v ∈ M.vars) ∧
    ((∃ k ∈ names, ∀ M ∈ cpms, k ∉ M.getNames) →
      getVariablesAll cpms names = .error .assertion) := by
  obtain ⟨res, h1, h2, h3⟩ := collectAll_spec cpms names
  constructor
  · intro hn ha
    rw [List.filter_eq_self.2 (fun k hk => decide_eq_true (ha k hk))] at h2
    have hs := List.perm_insertionSort
      (fun a b : Variable K => names.idxOf a.name ≤ names.idxOf b.name) res
    refine ⟨_, ?_, ?_, fun v hv => h3 v (hs.mem_iff.1 hv)⟩
    · unfold getVariablesAll
      rw [h1, ok_bind, pyAssert_true (by simpa using h2.length_eq)]
      rfl
    · have hp := (hs.map Variable.name).trans h2
      refine hp.eq_of_pairwise (le := fun a b => names.idxOf a ≤ names.idxOf b) ?_ ?_ ?_
      · intro a b ha' hb' h1 h2
        exact (List.idxOf_inj (hp.mem_iff.1 ha')).1 (le_antisymm h1 h2)
      · rw [List.pairwise_map]
        have : Std.Total fun a b : Variable K => names.idxOf a.name ≤ names.idxOf b.name :=
          ⟨fun a b => le_total _ _⟩
        have : IsTrans (Variable K) fun a b => names.idxOf a.name ≤ names.idxOf b.name :=
          ⟨fun a b c => le_trans⟩
        exact List.pairwise_insertionSort _ res
      · rw [List.pairwise_iff_getElem]
        intro i j hi hj hij
        rw [hn.idxOf_getElem, hn.idxOf_getElem]
        exact hij.le
  · rintro ⟨k, hk, hno⟩
    unfold getVariablesAll
    rw [h1, ok_bind, pyAssert_false]
    · rfl
    · intro hlen
      have h4 := h2.length_eq
      rw [List.length_map, hlen] at h4
      have h5 := List.length_filter_eq_length_iff.1 h4.symm
      have h6 := h5 k hk
      rw [decide_eq_true_iff] at h6
      obtain ⟨M, hM, hkM⟩ := h6
      exact hno M hM hkM

end

example : [1, 0].Nodup ∧ (∀ k ∈ [1, 0], ∃ M ∈ [Ex.A, Ex.B, Ex.D], k ∈ M.getNames) := by
  decide +kernel

example : ∀ k ∈ [2, 0], [Ex.U 0, Ex.U 1, Ex.U 2].countP (fun v => v.name = k) = 1 := by
  decide +kernel

end BNS
