import Verif.Proofs.CpmProb
import Verif.Proofs.CpmProdList
import Verif.Examples.Cpm

/-!
# Properties C08, C09, C10 and C13: condition, sum, sort
-/

namespace BNS

set_option linter.unusedSectionVars false

variable {K : Type} [DecidableEq K] {U : K → Variable K}

/-! ## C08 -/

/-- Conditioning restricts the distribution to the assignments consistent with the evidence;
evidence on variables outside the scope is ignored (`Consistent` only looks at the scope). -/
theorem C08_condition (M : Cpm K) (h : WF U M) (cv : List (Variable K)) (cs : List ℕ)
    (he : EvidenceOK U M.getNames cv cs) (hn : (cv.map Variable.name).Nodup) :
    ∃ P, M.condition cv cs = .ok P ∧ WF U P ∧ P.vars = M.vars ∧ P.noChild = M.noChild ∧
      ∀ x, dens P x = if Consistent M.getNames cv cs x then dens M x else 0 :=
  ⟨_, condition_ok h he hn, condPure_WF h he hn, rfl, rfl, fun x => dens_condPure h he hn x⟩

/-- Row by row: the rows kept are exactly those that have an assignment in common with the
evidence, in their order and with their own probability, and each of them then covers exactly the
assignments it covered that are consistent with the evidence. -/
theorem C08_condition_rows (M : Cpm K) (h : WF U M) (cv : List (Variable K)) (cs : List ℕ)
    (he : EvidenceOK U M.getNames cv cs) (hn : (cv.map Variable.name).Nodup) :
    ∃ P, M.condition cv cs = .ok P ∧ ∃ f : List ℕ → Option (List ℕ),
      P.C.zip P.p = (M.C.zip M.p).filterMap (fun cp => (f cp.1).map fun r => (r, cp.2)) ∧
      ∀ r ∈ M.C, ((f r).isSome ↔ Compatible M cv cs r) ∧
        ∀ r' ∈ f r, ∀ x, RowMatches M.vars r' x ↔
          Consistent M.getNames cv cs x ∧ RowMatches M.vars r x := by
  refine ⟨_, condition_ok h he hn, fun r => if compatRow M cv cs r then
    some (condRow (checkList M.getNames cv cs) r) else none, ?_, ?_⟩
  · have hz : (condPure M cv cs).C.zip (condPure M cv cs).p =
        ((M.C.zip M.p).filter fun cp => compatRow M cv cs cp.1).map
          fun cp => (condRow (checkList M.getNames cv cs) cp.1, cp.2) :=
      zip_filter_map _ _ _ _ h.pLen
    rw [hz, ← List.filterMap_eq_map, ← List.filterMap_eq_filter, List.filterMap_filterMap]
    congr 1
    funext cp
    cases hc : compatRow M cv cs cp.1 <;> simp [hc, Option.guard]
  · intro r hr
    have hiff := compatRow_iff h he hn hr
    constructor
    · unfold Compatible
      rw [show (M.vars.map Variable.name) = M.getNames from rfl, ← hiff]
      by_cases hc : compatRow M cv cs r = true <;> simp [hc]
    · intro r' hr' x
      by_cases hc : compatRow M cv cs r = true
      · simp only [hc, if_true, Option.mem_def, Option.some.injEq] at hr'
        subst hr'
        rw [← condRow_matches h he hn x r hr]
        have hc' := hc
        unfold compatRow at hc'
        rw [List.all_eq_true] at hc'
        exact ⟨fun hm => ⟨hc', hm⟩, fun hm => hm.2⟩
      · simp [hc] at hr'

example : EvidenceOK Ex.U Ex.D.getNames [Ex.U 2, Ex.U 7] [3, 1] ∧
    (([Ex.U 2, Ex.U 7] : List (Variable ℕ)).map Variable.name).Nodup :=
  ⟨⟨rfl, by decide +kernel, by decide +kernel⟩, by decide +kernel⟩

/-- **Without probabilities** (`p` empty, rows present) `condition` succeeds as well: it returns the same
rows, and again no probabilities. -/
theorem C08_condition_without_probabilities (M : Cpm K) (h : WF U M) (cv : List (Variable K))
    (cs : List ℕ) (he : EvidenceOK U M.getNames cv cs) (hn : (cv.map Variable.name).Nodup) :
    ∃ P, M.condition cv cs = .ok P ∧
      ({ M with p := [] } : Cpm K).condition cv cs = .ok { P with p := [] } := by
  have h1 := condition_ok h he hn
  refine ⟨_, h1, ?_⟩
  have hCs : M.Cs.flatten = [] := by rw [h.noCs.1]; rfl
  unfold Cpm.condition at h1 ⊢
  obtain ⟨mask, e1, h1⟩ := bind_ok.1 h1
  obtain ⟨cv', e2, h1⟩ := bind_ok.1 h1
  obtain ⟨cs', e3, h1⟩ := bind_ok.1 h1
  obtain ⟨Cc, e4, h1⟩ := bind_ok.1 h1
  obtain ⟨u, e5, h1⟩ := bind_ok.1 h1
  obtain ⟨u', e6, h1⟩ := bind_ok.1 h1
  simp only [hCs, if_true, pure_ok] at h1
  rw [← Except.ok.inj h1]
  simp only [e1, e2, e3, ok_bind]
  rw [e4, ok_bind, e5, ok_bind, pyAssert_true (.inl (if_pos trivial)), ok_bind]
  simp only [hCs, if_true, pure_ok]

example : ∃ P, ({ Ex.D with p := [] } : Cpm ℕ).condition [Ex.U 2] [3] = .ok P ∧ P.C ≠ [] ∧ P.p = [] :=
  exists_ok (by decide +kernel)

/-! ## C09 -/

theorem filter_perm_aux (l : List (Variable K)) (f : Variable K → Bool) :
    (l.filter f ++ l.filter fun v => !f v).Perm l := by
  exact List.filter_append_perm f l

/-- `sum(vars)` marginalises the named children (only the columns that are summed out have to hold
basic states).  At least one variable must remain. -/
theorem C09_sum (M : Cpm K) (h : WF U M) (vars : List (Variable K))
    (hb : ∀ r ∈ M.C, ∀ vs ∈ (M.vars.take M.noChild).zip r,
      vs.1.name ∈ vars.map Variable.name → vs.2 < vs.1.values.length)
    (hrem : ∃ v ∈ M.vars, v.name ∉ vars.map Variable.name ∨ v.name ∉ childNames M) :
    ∃ P, M.sum vars true = .ok P ∧ WF U P ∧
      P.vars = (M.vars.take M.noChild).filter (fun v => v.name ∉ vars.map Variable.name) ++
        M.vars.drop M.noChild ∧
      parentNames P = parentNames M ∧
      ∀ x, dens P x = sumOver (((M.vars.take M.noChild).filter
        (fun v => v.name ∈ vars.map Variable.name)).map fun v => (v.name, v.values.length))
        (dens M) x := by
  have hs := sumRemain_true h vars
  unfold Cpm.sum
  rw [hs]
  have hne : (M.vars.take M.noChild).filter (fun v => v.name ∉ vars.map Variable.name) ++
        M.vars.drop M.noChild ≠ [] := by
    obtain ⟨v, hv, hc⟩ := hrem
    rw [← List.take_append_drop M.noChild M.vars, List.mem_append] at hv
    refine List.ne_nil_of_mem (a := v) (List.mem_append.2 ?_)
    rcases hv with hv | hv
    · left
      refine List.mem_filter.2 ⟨hv, ?_⟩
      rcases hc with hc | hc
      · simpa using hc
      · exact absurd (List.mem_map_of_mem hv) hc
    · exact .inr hv
  obtain ⟨P, e1, e2, e3, e4, e5, e6, e7⟩ := sumBody_ok h
    (R := (M.vars.take M.noChild).filter (fun v => v.name ∉ vars.map Variable.name))
    (fun v hv => (List.mem_filter.1 hv).1)
    (h.nodup.sublist ((List.filter_sublist.trans (List.take_sublist _ _)).map _)) hne
  rw [child_forall_iff h
    (fun v s => v.name ∈ vars.map Variable.name → s < v.values.length)] at hb
  refine ⟨P, e1, e4, e2, ?_, fun x => ?_⟩
  · unfold parentNames
    rw [e2, e3, List.drop_left']
    rfl
  · refine dens_sum h ?_ (fun v hv => (List.mem_filter.1 hv).1) ?_ e2 e7 x
    · intro r hr v hv
      have := List.mem_filter.1 hv
      exact hb r hr v this.1 (by simpa using this.2)
    · have := filter_perm_aux (M.vars.take M.noChild)
        (fun v => decide (v.name ∈ vars.map Variable.name))
      simpa only [decide_not] using this

/-- `sum(vars, flag=False)` keeps only the named children. -/
theorem C09_sum_keep (M : Cpm K) (h : WF U M) (vars : List (Variable K))
    (hn : (vars.map Variable.name).Nodup)
    (hb : ∀ r ∈ M.C, ∀ vs ∈ (M.vars.take M.noChild).zip r,
      vs.1.name ∉ vars.map Variable.name → vs.2 < vs.1.values.length)
    (hrem : ∃ v ∈ M.vars, v.name ∈ vars.map Variable.name ∨ v.name ∉ childNames M) :
    ∃ P, M.sum vars false = .ok P ∧ WF U P ∧
      P.vars = (M.vars.take M.noChild).filter (fun v => v.name ∈ vars.map Variable.name) ++
        M.vars.drop M.noChild ∧
      parentNames P = parentNames M ∧
      ∀ x, dens P x = sumOver (((M.vars.take M.noChild).filter
        (fun v => v.name ∉ vars.map Variable.name)).map fun v => (v.name, v.values.length))
        (dens M) x := by
  obtain ⟨hs, hs1⟩ := sumRemain_false h vars hn
  unfold Cpm.sum
  rw [hs, hs1]
  have hne : (M.vars.take M.noChild).filter (fun v => v.name ∈ vars.map Variable.name) ++
        M.vars.drop M.noChild ≠ [] := by
    obtain ⟨v, hv, hc⟩ := hrem
    rw [← List.take_append_drop M.noChild M.vars, List.mem_append] at hv
    refine List.ne_nil_of_mem (a := v) (List.mem_append.2 ?_)
    rcases hv with hv | hv
    · left
      refine List.mem_filter.2 ⟨hv, ?_⟩
      rcases hc with hc | hc
      · simpa using hc
      · exact absurd (List.mem_map_of_mem hv) hc
    · exact .inr hv
  obtain ⟨P, e1, e2, e3, e4, e5, e6, e7⟩ := sumBody_ok h
    (R := (M.vars.take M.noChild).filter (fun v => v.name ∈ vars.map Variable.name))
    (fun v hv => (List.mem_filter.1 hv).1)
    (h.nodup.sublist ((List.filter_sublist.trans (List.take_sublist _ _)).map _)) hne
  rw [child_forall_iff h
    (fun v s => v.name ∉ vars.map Variable.name → s < v.values.length)] at hb
  refine ⟨P, e1, e4, e2, ?_, fun x => ?_⟩
  · unfold parentNames
    rw [e2, e3, List.drop_left']
    rfl
  · refine dens_sum h ?_ (fun v hv => (List.mem_filter.1 hv).1) ?_ e2 e7 x
    · intro r hr v hv
      have := List.mem_filter.1 hv
      exact hb r hr v this.1 (by simpa using this.2)
    · have := filter_perm_aux (M.vars.take M.noChild)
        (fun v => decide (v.name ∉ vars.map Variable.name))
      simpa only [decide_not, Bool.not_not] using this

/-- Summing out every variable of a CPM (a total probability) raises `ValueError`. -/
theorem C09_sum_all_raises : WF Ex.U Ex.A ∧ ChildBasic Ex.A ∧
    Ex.A.sum [Ex.U 0] true = .error .value := by
  decide +kernel

example : ∃ P, Ex.B.sum [Ex.U 2] true = .ok P ∧ P.C = [[2], [0], [1]] ∧ P.p = [1/5, 4/5, 4/5] :=
  ⟨_, rfl, by decide +kernel, by decide +kernel⟩

/-! ## C10 -/

/-- No probability is lost, duplicate rows are merged, parents are kept. -/
theorem C10_sum_total (M P : Cpm K) (h : WF U M) (vars : List (Variable K)) (flag : Bool)
    (hn : flag = false → (vars.map Variable.name).Nodup)
    (hP : M.sum vars flag = .ok P) :
    P.p.sum = M.p.sum ∧ P.p.length = P.C.length ∧ P.C.Nodup ∧ parentNames P = parentNames M := by
  have hidx : (sumRemain M vars flag).2 = colIdx M (sumRemain M vars flag).1 ∧
      ∀ v ∈ (sumRemain M vars flag).1, v ∈ M.vars.take M.noChild := by
    cases flag with
    | true => rw [sumRemain_true h]; exact ⟨rfl, fun v hv => (List.mem_filter.1 hv).1⟩
    | false =>
      obtain ⟨h1, h2⟩ := sumRemain_false h vars (hn rfl)
      exact ⟨h1, by rw [h2]; exact fun v hv => (List.mem_filter.1 hv).1⟩
  have hnd : ((sumRemain M vars flag).1.map Variable.name).Nodup := by
    cases flag with
    | true =>
      rw [sumRemain_true h]
      exact h.nodup.sublist ((List.filter_sublist.trans (List.take_sublist _ _)).map _)
    | false =>
      rw [(sumRemain_false h vars (hn rfl)).2]
      exact h.nodup.sublist ((List.filter_sublist.trans (List.take_sublist _ _)).map _)
  unfold Cpm.sum at hP
  rw [hidx.1] at hP
  by_cases hne : (sumRemain M vars flag).1 ++ M.vars.drop M.noChild = []
  · exfalso
    have hR : (sumRemain M vars flag).1 = [] := (List.append_eq_nil_iff.1 hne).1
    have hD : M.vars.drop M.noChild = [] := (List.append_eq_nil_iff.1 hne).2
    rw [hR] at hP
    have hlen : M.vars.length - M.noChild = 0 := by
      have := congrArg List.length hD
      simpa using this
    unfold sumBody at hP
    simp only [colIdx, List.map_nil, hlen, List.range'_zero, List.append_nil] at hP
    have e1 : takeRows M.vars [] = .ok [] := rfl
    have e2 : takeCols M.C [] = .ok (M.C.map fun _ => []) := mapM_ok fun _ _ => rfl
    rw [e1, ok_bind, e2, ok_bind] at hP
    have e3 : Cpm.mk' ({ vars := [], noChild := ([] : List ℕ).length, C := M.C.map fun _ => [],
                         p := M.p, q := M.q, sampleIdx := M.sampleIdx } : Cpm K) =
        .ok { vars := [], noChild := ([] : List ℕ).length, C := M.C.map fun _ => [],
              p := M.p, q := M.q, sampleIdx := M.sampleIdx } :=
      mk'_ok (by simp) (by simp) le_rfl (.inr (by simp [h.pLen])) rfl
    rw [e3, ok_bind] at hP
    have hfl : (M.C.map fun _ => ([] : List ℕ)).flatten = [] := by simp
    have e4 : sumLoop (M.C.map fun _ => ([] : List ℕ)).length
        ({ vars := [], noChild := ([] : List ℕ).length, C := M.C.map fun _ => [],
           p := M.p, q := M.q, sampleIdx := M.sampleIdx } : Cpm K) = .ok ([], []) := by
      generalize (M.C.map fun _ => ([] : List ℕ)).length = n
      cases n <;> simp [sumLoop]
    rw [e4, ok_bind] at hP
    simp at hP
  · obtain ⟨P', e1, e2, e3, e4, e5, e6, e7⟩ := sumBody_ok h hidx.2 hnd hne
    rw [e1] at hP
    cases hP
    refine ⟨?_, e4.pLen, e5, ?_⟩
    · have := e7 (fun _ q => q) (fun _ _ _ => rfl)
      have z1 : (P.C.zip P.p).map (fun cp => cp.2) = P.p := List.map_snd_zip (by rw [e4.pLen])
      have z2 : (M.C.zip M.p).map (fun cp => cp.2) = M.p := List.map_snd_zip (by rw [h.pLen])
      rw [z1, z2] at this
      exact this
    · unfold parentNames
      rw [e2, e3, List.drop_left']
      rfl

example : (Ex.B.sum [Ex.U 2] true).toOption.isSome = true := by decide +kernel

/-! ## C13 -/

theorem argsortOn_sorted {α κ : Type} [LinearOrder κ] (key : α → κ) (d : κ) (seq : List α) :
    (argsortOn key d seq).Pairwise
      fun i j => ((seq.map key).getD i d) ≤ ((seq.map key).getD j d) := by
  have : Std.Total fun i j : ℕ => ((seq.map key).getD i d) ≤ ((seq.map key).getD j d) :=
    ⟨fun i j => le_total _ _⟩
  have : IsTrans ℕ fun i j => ((seq.map key).getD i d) ≤ ((seq.map key).getD j d) :=
    ⟨fun i j k => le_trans⟩
  exact List.pairwise_insertionSort _ _

/-- Without samples, sorting permutes the rows together with their probabilities, leaves the
distribution unchanged, orders the rows by their reversed tuples, and a second sort changes
nothing.  (Missing for the full claim: a CPM with samples, see `C13_samples_mismatched`.) -/
theorem C13_sort_partial (M : Cpm K) (h : WF U M) :
    ∃ P, M.sort = .ok P ∧ WF U P ∧ P.vars = M.vars ∧ P.noChild = M.noChild ∧
      (P.C.zip P.p).Perm (M.C.zip M.p) ∧ (∀ x, dens P x = dens M x) ∧
      P.C.Pairwise (fun a b => a.reverse ≤ b.reverse) ∧ P.sort = .ok P := by
  have hsorted : (sortPure M).C.Pairwise (fun a b => a.reverse ≤ b.reverse) := by
    have h1 := argsortOn_sorted (fun r : List ℕ => r.reverse) [] M.C
    simp only [sortPure, sortIdx]
    rw [List.pairwise_map]
    refine h1.imp fun {i j} hij => ?_
    have hg : ∀ i, (M.C.map fun r : List ℕ => r.reverse).getD i [] = (M.C.getD i []).reverse := by
      intro i
      rw [List.getD_eq_getElem?_getD, List.getD_eq_getElem?_getD, List.getElem?_map]
      cases M.C[i]? <;> simp
    rw [hg, hg] at hij
    exact hij
  have hwf := sortPure_WF h
  refine ⟨_, sort_ok h, hwf, rfl, rfl, sortPure_rows_perm h,
    fun x => dens_perm (M := M) (N := sortPure M) rfl (sortPure_rows_perm h) x, hsorted, ?_⟩
  rw [sort_ok hwf]
  congr 1
  generalize sortPure M = N at hsorted hwf
  have hidx : sortIdx N = List.range N.C.length := by
    unfold sortIdx argsortOn
    apply List.Pairwise.insertionSort_eq
    rw [List.pairwise_iff_getElem]
    intro i j hi hj hij
    simp only [List.length_range] at hi hj
    simp only [List.getElem_range]
    rw [List.pairwise_iff_getElem] at hsorted
    have := hsorted i j hi hj hij
    simpa [hi, hj] using this
  have e1 : (sortPure N).C = N.C := by
    simp only [sortPure, hidx]; exact range_map_getD _ _
  have e2 : (sortPure N).p = N.p := by
    simp only [sortPure, hidx, ← hwf.pLen]; exact range_map_getD _ _
  have : sortPure N = { N with C := (sortPure N).C, p := (sortPure N).p } := rfl
  rw [this, e1, e2]

/-- With samples, sorting reorders the weights `q` but not the sampled states `Cs`, so a sample
changes weight. -/
theorem C13_samples_mismatched :
    ∃ (M P : Cpm ℕ), M.C.length = M.p.length ∧ M.mk' = .ok M ∧ M.sort = .ok P ∧
      (M.Cs.zip M.q) = [([0], 1/4), ([1], 3/4)] ∧ (P.Cs.zip P.q) = [([0], 3/4), ([1], 1/4)] :=
  ⟨{ vars := [Ex.U 0], noChild := 1, C := [[0], [1]], p := [1/10, 9/10], Cs := [[0], [1]],
     q := [1/4, 3/4], ps := [1/4, 3/4], sampleIdx := [1, 0] },
   { vars := [Ex.U 0], noChild := 1, C := [[1], [0]], p := [9/10, 1/10], Cs := [[0], [1]],
     q := [3/4, 1/4], ps := [1/4, 3/4], sampleIdx := [0, 1] },
   by decide +kernel, by decide +kernel, by decide +kernel, by decide +kernel, by decide +kernel⟩

end BNS
