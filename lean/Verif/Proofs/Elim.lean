import Verif.Model.Operation
import Verif.Proofs.CpmProdList
import Verif.Proofs.CpmMarg
import Verif.Proofs.SumOver
import Verif.Spec.Elim

/-! Helper lemmas: one step of variable elimination. -/

namespace BNS

set_option linter.unusedSectionVars false

section
variable {K : Type} [DecidableEq K] {U : K → Variable K} {M : Cpm K}

theorem getNames_eq (M : Cpm K) : M.getNames = childNames M ++ parentNames M := by
  unfold Cpm.getNames childNames parentNames
  rw [← List.map_append, List.take_append_drop]

theorem rowMatches_congr {vs : List (Variable K)} {row : List ℕ} {x y : K → ℕ}
    (h : ∀ k ∈ vs.map Variable.name, x k = y k) : RowMatches vs row x ↔ RowMatches vs row y := by
  unfold RowMatches
  refine forall₂_congr fun p hp => ?_
  rw [h _ (List.mem_map_of_mem (List.of_mem_zip hp).1)]

theorem dens_congr {x y : K → ℕ} (h : ∀ k ∈ M.getNames, x k = y k) : dens M x = dens M y := by
  unfold dens
  congr 1
  refine List.map_congr_left fun cp _ => ?_
  simp only [rowMatches_congr h]

theorem covers_congr {x y : K → ℕ} (h : ∀ k ∈ M.getNames, x k = y k) : Covers M x ↔ Covers M y := by
  unfold Covers
  simp only [rowMatches_congr (vs := M.vars) h]

theorem filter_name_eq {l : List (Variable K)} (hn : (l.map Variable.name).Nodup)
    {w : Variable K} (hw : w ∈ l) : l.filter (fun u => u.name = w.name) = [w] := by
  induction l with
  | nil => simp at hw
  | cons a l ih =>
    rw [List.map_cons, List.nodup_cons] at hn
    rcases List.mem_cons.1 hw with rfl | hw'
    · rw [List.filter_cons_of_pos (by simp)]
      congr 1
      rw [List.filter_eq_nil_iff]
      intro u hu
      have : u.name ≠ w.name := fun e => hn.1 (e ▸ List.mem_map_of_mem hu)
      simpa using this
    · rw [List.filter_cons_of_neg, ih hn.2 hw']
      have : a.name ≠ w.name := fun e => hn.1 (e ▸ List.mem_map_of_mem hw')
      simpa using this

/-- `sum` of one child: what is needed to go on eliminating. -/
structure SumSpec (U : K → Variable K) (M : Cpm K) (v : Variable K) (P : Cpm K) : Prop where
  wf : WF U P
  basic : ChildBasic P
  child : childNames P = (childNames M).filter (· ≠ v.name)
  parent : parentNames P = parentNames M
  covers : ∀ x, Covers M x → Covers P x
  dens : ∀ x, dens P x = sumOver [(v.name, (U v.name).values.length)] (BNS.dens M) x

theorem sumOne_spec (h : WF U M) (hb : ChildBasic M) {v : Variable K}
    (hv : v.name ∈ childNames M) (hne : ∃ k ∈ M.getNames, k ≠ v.name) :
    ∃ P, M.sum [v] true = .ok P ∧ SumSpec U M v P := by
  obtain ⟨w, hw, hwv⟩ := List.mem_map.1 hv
  have hwU : U v.name = w := by rw [← hwv]; exact h.env w (List.mem_of_mem_take hw)
  have hs := sumRemain_true h [v]
  unfold Cpm.sum
  rw [hs]
  have hR : ∀ u, u ∈ (M.vars.take M.noChild).filter (fun u => u.name ∉ [v].map Variable.name) →
      u ∈ M.vars.take M.noChild := fun u hu => (List.mem_filter.1 hu).1
  have hnd := h.nodup
  rw [← List.take_append_drop M.noChild M.vars, List.map_append, List.nodup_append] at hnd
  have hne' : (M.vars.take M.noChild).filter (fun u => u.name ∉ [v].map Variable.name) ++
        M.vars.drop M.noChild ≠ [] := by
    obtain ⟨k, hk, hkv⟩ := hne
    obtain ⟨u, hu, rfl⟩ := List.mem_map.1 hk
    rw [← List.take_append_drop M.noChild M.vars, List.mem_append] at hu
    refine List.ne_nil_of_mem (a := u) (List.mem_append.2 ?_)
    rcases hu with hu | hu
    · exact .inl (List.mem_filter.2 ⟨hu, by simpa using hkv⟩)
    · exact .inr hu
  obtain ⟨P, e1, e2, e3, e4, e5, e6, e7⟩ := sumBody_ok h hR
    (h.nodup.sublist ((List.filter_sublist.trans (List.take_sublist _ _)).map _)) hne'
  have hbv := (child_forall_iff h fun v s => s < v.values.length).1 hb
  have hchild : childNames P = (childNames M).filter (· ≠ v.name) := by
    unfold childNames
    rw [e2, e3, List.take_left', List.filter_map]
    · congr 1
      refine List.filter_congr fun u _ => ?_
      simp
    · rfl
  refine ⟨P, e1, e4, ?_, hchild, ?_, ?_, ?_⟩
  · refine (child_forall_iff e4 fun v s => s < v.values.length).2 fun r hr u hu => ?_
    rw [e2, e3, List.take_left' rfl] at hu
    obtain ⟨r', hr', rfl⟩ := List.mem_map.1 ((e6 r).1 hr)
    have hval := projRow_val (M := M) (vs := (M.vars.take M.noChild).filter
      (fun u => u.name ∉ [v].map Variable.name) ++ M.vars.drop M.noChild) r'
      (List.mem_append.2 (.inl hu))
    unfold Cpm.getNames
    rw [e2, hval]
    exact hbv r' hr' u (hR u hu)
  · unfold parentNames
    rw [e2, e3, List.drop_left']
    rfl
  · rintro x ⟨r, hr, hm⟩
    refine ⟨projRow M _ r, (e6 _).2 (List.mem_map.2 ⟨r, hr, rfl⟩), ?_⟩
    rw [e2]
    have hnP := e4.nodup
    rw [e2] at hnP
    rw [rowMatches_iff hnP (by simp [projRow])]
    intro u hu
    rw [projRow_val r hu]
    have hum : u ∈ M.vars := by
      rcases List.mem_append.1 hu with hu | hu
      · exact List.mem_of_mem_take (hR u hu)
      · exact List.mem_of_mem_drop hu
    exact (rowMatches_iff h.nodup (h.rowLen r hr) x).1 hm u hum
  · intro x
    have hD : (M.vars.take M.noChild).filter (fun u => u.name = v.name) = [w] := by
      rw [← hwv]; exact filter_name_eq hnd.1 hw
    have := dens_sum (M := M) h (R := (M.vars.take M.noChild).filter
      (fun u => u.name ∉ [v].map Variable.name)) (D := [w])
      (fun r hr u hu => by
        rw [List.mem_singleton] at hu; subst hu; exact hbv r hr u hw)
      (fun u hu => by rw [List.mem_singleton] at hu; subst hu; exact hw)
      (by
        rw [← hD]
        have := List.filter_append_perm (fun u : Variable K => decide (u.name = v.name))
          (M.vars.take M.noChild)
        simpa using this) e2 e7 x
    rw [this, hwU]
    simp [hwv]

/-- Not selected / selected by the scope test. -/
theorem inScope_iff (v : Variable K) (M : Cpm K) : inScope v M = true ↔ v.name ∈ M.getNames := by
  unfold inScope ismemberOn Cpm.getNames
  simp [idxOf?_eq]

theorem isInScope_one (v : Variable K) (cpms : List (Cpm K)) :
    isInScope [v] cpms = cpms.map (inScope v) := by
  unfold isInScope
  simp only [List.foldl_cons, List.foldl_nil]
  induction cpms with
  | nil => rfl
  | cons M l ih => simp only [List.map_cons, List.zipWith_cons_cons, Bool.false_or, ih]

theorem childDisjoint_perm {l l' : List (Cpm K)} (h : l.Perm l') (hd : ChildDisjoint l) :
    ChildDisjoint l' :=
  h.pairwise hd fun hAB k hk hk' => hAB k hk' hk

end

section
variable {K : Type} [LinearOrder K] {U : K → Variable K}

/-- The product of the densities of a list of CPMs. -/
theorem jointDens_perm {l l' : List (Cpm K)} (h : l.Perm l') (x : K → ℕ) :
    jointDens l x = jointDens l' x := (h.map _).prod_eq

theorem jointDens_append (l l' : List (Cpm K)) (x : K → ℕ) :
    jointDens (l ++ l') x = jointDens l x * jointDens l' x := by
  simp [jointDens]

theorem jointDens_congr {l : List (Cpm K)} {x y : K → ℕ}
    (h : ∀ M ∈ l, ∀ k ∈ M.getNames, x k = y k) : jointDens l x = jointDens l y := by
  unfold jointDens
  congr 1
  exact List.map_congr_left fun M hM => dens_congr (h M hM)

/-- The split of the list made by one step, up to order. -/
theorem scope_split (v : Variable K) (l : List (Cpm K)) :
    (l.filter (inScope v) ++ l.filter fun M => !inScope v M).Perm l :=
  List.filter_append_perm _ _

/-- One step of the elimination, given its product and that a variable is left in it. -/
theorem elimStep_core {l : List (Cpm K)} (hl : NetOK U l) {v : Variable K}
    (hv : ∃ M ∈ l, v.name ∈ childNames M) {P : Cpm K}
    (hP : productList (l.filter (inScope v)) = .ok P) (hother : ∃ k ∈ P.getNames, k ≠ v.name) :
    ∃ l', elimStep l v = .ok l' ∧ NetOK U l' ∧
      (∀ x0, (∀ M ∈ l, Covers M x0) → ∀ M ∈ l', Covers M x0) ∧
      (∀ x, jointDens l' x = sumOver [(v.name, (U v.name).values.length)] (jointDens l) x) ∧
      (l'.flatMap childNames).Perm ((l.flatMap childNames).filter (· ≠ v.name)) ∧
      (∀ k, (∃ M ∈ l', k ∈ M.getNames) ↔ (∃ M ∈ l, k ∈ M.getNames) ∧ k ≠ v.name) ∧
      ∀ S : K → Prop, ¬ S v.name → ∀ k, k ≠ v.name → Linked l S k → Linked l' S k := by
  classical
  set sel := l.filter (inScope v) with hsel
  set rest := l.filter (fun M => !inScope v M) with hrest
  have hperm : (sel ++ rest).Perm l := scope_split v l
  have hselm : ∀ M, M ∈ sel ↔ M ∈ l ∧ v.name ∈ M.getNames := by
    intro M; rw [hsel, List.mem_filter, inScope_iff]
  have hrestm : ∀ M, M ∈ rest ↔ M ∈ l ∧ v.name ∉ M.getNames := by
    intro M
    rw [hrest, List.mem_filter, ← inScope_iff]
    simp
  have hdall := childDisjoint_perm hperm.symm hl.disjoint
  have hdsel : ChildDisjoint sel := (List.pairwise_append.1 hdall).1
  have hdrest : ChildDisjoint rest := (List.pairwise_append.1 hdall).2.1
  obtain ⟨M0, hM0, hvM0⟩ := hv
  have hM0n : v.name ∈ M0.getNames := by
    rw [getNames_eq]; exact List.mem_append.2 (.inl hvM0)
  have hM0s : M0 ∈ sel := (hselm _).2 ⟨hM0, hM0n⟩
  have hPs := productList_ok (fun M hM => hl.wf M ((hselm M).1 hM).1) hdsel hP
  have hPb : ChildBasic P := hPs.basic fun M hM => hl.basic M ((hselm M).1 hM).1
  have hvP : v.name ∈ childNames P := by
    rw [hPs.child.mem_iff]; exact List.mem_flatMap.2 ⟨M0, hM0s, hvM0⟩
  obtain ⟨Q, hQ, hQs⟩ := sumOne_spec hPs.wf hPb hvP hother
  have hQn : ∀ k, k ∈ Q.getNames ↔ (∃ M ∈ sel, k ∈ M.getNames) ∧ k ≠ v.name := by
    intro k
    rw [getNames_eq Q, List.mem_append, hQs.child, hQs.parent, ← hPs.names, getNames_eq P,
      List.mem_append, List.mem_filter]
    have hd := hPs.wf.nodup
    have he : P.vars.map Variable.name = childNames P ++ parentNames P := getNames_eq P
    rw [he, List.nodup_append] at hd
    constructor
    · rintro (⟨h1, h2⟩ | h1)
      · exact ⟨.inl h1, by simpa using h2⟩
      · exact ⟨.inr h1, fun e => hd.2.2 _ hvP k h1 e.symm⟩
    · rintro ⟨h1 | h1, h2⟩
      · exact .inl ⟨h1, by simpa using h2⟩
      · exact .inr h1
  refine ⟨Q :: rest, ?_, ?_, ?_, ?_, ?_, ?_, ?_⟩
  · unfold elimStep
    simp only [isInScope_one]
    rw [maskRows_self, hP, ok_bind, hQ, ok_bind, List.map_map, maskRows_self]
    rfl
  · refine ⟨?_, ?_, ?_⟩
    · intro M hM
      rcases List.mem_cons.1 hM with rfl | hM
      · exact hQs.wf
      · exact hl.wf M ((hrestm M).1 hM).1
    · intro M hM
      rcases List.mem_cons.1 hM with rfl | hM
      · exact hQs.basic
      · exact hl.basic M ((hrestm M).1 hM).1
    · unfold ChildDisjoint
      rw [List.pairwise_cons]
      refine ⟨fun B hB k hk => ?_, hdrest⟩
      rw [hQs.child] at hk
      have hk' := (List.mem_filter.1 hk).1
      rw [hPs.child.mem_iff] at hk'
      obtain ⟨A, hA, hkA⟩ := List.mem_flatMap.1 hk'
      exact (List.pairwise_append.1 hdall).2.2 A hA B hB k hkA
  · intro x0 hc M hM
    rcases List.mem_cons.1 hM with rfl | hM
    · refine hQs.covers x0 ((hPs.covers x0).2 fun M hM => hc M ((hselm M).1 hM).1)
    · exact hc M ((hrestm M).1 hM).1
  · intro x
    have h1 : jointDens (Q :: rest) x = jointDens rest x * dens Q x := by
      simp only [jointDens, List.map_cons, List.prod_cons]; rw [mul_comm]
    rw [h1, hQs.dens, ← sumOver_mul_indep [(v.name, (U v.name).values.length)] (dens P)
      (jointDens rest) x ?_]
    · refine sumOver_congr _ _ fun y => ?_
      rw [← jointDens_perm hperm, jointDens_append, hPs.dens, mul_comm]
      rfl
    · intro y y' hy
      refine jointDens_congr fun M hM k hk => hy k ?_
      have := ((hrestm M).1 hM).2
      simp only [List.map_cons, List.map_nil, List.mem_singleton]
      rintro rfl
      exact this hk
  · rw [List.flatMap_cons, hQs.child]
    have h1 : ((sel ++ rest).flatMap childNames).Perm (l.flatMap childNames) :=
      hperm.flatMap_right _
    refine List.Perm.trans ?_ (h1.filter _)
    rw [List.flatMap_append, List.filter_append]
    refine List.Perm.append ?_ (List.Perm.of_eq ?_)
    · exact hPs.child.filter _
    · symm
      rw [List.filter_eq_self]
      intro k hk
      obtain ⟨B, hB, hkB⟩ := List.mem_flatMap.1 hk
      have : v.name ∉ B.getNames := ((hrestm B).1 hB).2
      rw [getNames_eq] at this
      simp only [decide_eq_true_eq]
      rintro rfl
      exact this (List.mem_append.2 (.inl hkB))
  · intro k
    simp only [List.mem_cons, exists_eq_or_imp, hQn]
    constructor
    · rintro (⟨⟨M, hM, hk⟩, hne⟩ | ⟨M, hM, hk⟩)
      · exact ⟨⟨M, ((hselm M).1 hM).1, hk⟩, hne⟩
      · have := (hrestm M).1 hM
        exact ⟨⟨M, this.1, hk⟩, fun e => this.2 (e ▸ hk)⟩
    · rintro ⟨⟨M, hM, hk⟩, hne⟩
      by_cases hvM : v.name ∈ M.getNames
      · exact .inl ⟨⟨M, (hselm M).2 ⟨hM, hvM⟩, hk⟩, hne⟩
      · exact .inr ⟨M, (hrestm M).2 ⟨hM, hvM⟩, hk⟩
  · rintro S hS k hk ⟨q, hq, hlk⟩
    have hqv : q ≠ v.name := fun e => hS (e ▸ hq)
    have key : ∀ a, Relation.ReflTransGen (Share l) a q →
        (a ≠ v.name → Relation.ReflTransGen (Share (Q :: rest)) a q) ∧
        (a = v.name → ∀ a' ∈ Q.getNames, Relation.ReflTransGen (Share (Q :: rest)) a' q) := by
      intro a ha
      induction ha using Relation.ReflTransGen.head_induction_on with
      | refl => exact ⟨fun _ => .refl, fun e => absurd e hqv⟩
      | head hab _ ih =>
        rename_i a b _
        obtain ⟨M, hM, h1, h2⟩ := hab
        by_cases hb : b = v.name
        · have hMs : M ∈ sel := (hselm M).2 ⟨hM, hb ▸ h2⟩
          exact ⟨fun ha => ih.2 hb a ((hQn a).2 ⟨⟨M, hMs, h1⟩, ha⟩), fun _ => ih.2 hb⟩
        · refine ⟨fun ha => ?_, fun e a' ha' => ?_⟩
          · refine .head ?_ (ih.1 hb)
            by_cases hvM : v.name ∈ M.getNames
            · have hMs : M ∈ sel := (hselm M).2 ⟨hM, hvM⟩
              exact ⟨Q, by simp, (hQn a).2 ⟨⟨M, hMs, h1⟩, ha⟩, (hQn b).2 ⟨⟨M, hMs, h2⟩, hb⟩⟩
            · exact ⟨M, List.mem_cons_of_mem _ ((hrestm M).2 ⟨hM, hvM⟩), h1, h2⟩
          · have hMs : M ∈ sel := (hselm M).2 ⟨hM, e ▸ h1⟩
            exact .head ⟨Q, by simp, ha', (hQn b).2 ⟨⟨M, hMs, h2⟩, hb⟩⟩ (ih.1 hb)
    exact ⟨q, hq, (key k hlk).1 hk⟩

/-- One step of the elimination. -/
theorem elimStep_spec {l : List (Cpm K)} (hl : NetOK U l) (x0 : K → ℕ)
    (hc : ∀ M ∈ l, Covers M x0) {v : Variable K} (hv : ∃ M ∈ l, v.name ∈ childNames M)
    {S : K → Prop} (hS : ¬ S v.name) (hlink : Linked l S v.name) :
    ∃ l', elimStep l v = .ok l' ∧ NetOK U l' ∧ (∀ M ∈ l', Covers M x0) ∧
      (∀ x, jointDens l' x = sumOver [(v.name, (U v.name).values.length)] (jointDens l) x) ∧
      (l'.flatMap childNames).Perm ((l.flatMap childNames).filter (· ≠ v.name)) ∧
      (∀ k, (∃ M ∈ l', k ∈ M.getNames) ↔ (∃ M ∈ l, k ∈ M.getNames) ∧ k ≠ v.name) ∧
      ∀ k, k ≠ v.name → Linked l S k → Linked l' S k := by
  classical
  set sel := l.filter (inScope v) with hsel
  have hselm : ∀ M, M ∈ sel ↔ M ∈ l ∧ v.name ∈ M.getNames := by
    intro M; rw [hsel, List.mem_filter, inScope_iff]
  have hdsel : ChildDisjoint sel :=
    (List.pairwise_append.1 (childDisjoint_perm (scope_split v l).symm hl.disjoint)).1
  have hv' := hv
  obtain ⟨M0, hM0, hvM0⟩ := hv
  have hM0n : v.name ∈ M0.getNames := by
    rw [getNames_eq]; exact List.mem_append.2 (.inl hvM0)
  have hM0s : M0 ∈ sel := (hselm _).2 ⟨hM0, hM0n⟩
  obtain ⟨P, hP⟩ := productList_total (U := U) (l := sel) (List.ne_nil_of_mem hM0s) x0
    (fun M hM => ⟨hl.wf M ((hselm M).1 hM).1, by
      have := ((hselm M).1 hM).2
      intro e; simp [Cpm.getNames, e] at this, hc M ((hselm M).1 hM).1⟩) hdsel
  have hPs := productList_ok (fun M hM => hl.wf M ((hselm M).1 hM).1) hdsel hP
  have hother : ∃ k ∈ P.getNames, k ≠ v.name := by
    obtain ⟨q, hq, hlk⟩ := hlink
    have hqv : q ≠ v.name := fun e => hS (e ▸ hq)
    -- first edge of the chain that leaves `v`
    clear hM0 hvM0 hM0n hM0s
    have : ∀ a, Relation.ReflTransGen (Share l) a q → a = v.name →
        ∃ k ∈ P.getNames, k ≠ v.name := by
      intro a ha
      induction ha using Relation.ReflTransGen.head_induction_on with
      | refl => intro e; exact absurd e hqv
      | head hab _ ih =>
        intro e
        rename_i a b _
        by_cases hb : b = v.name
        · exact ih hb
        · obtain ⟨M, hM, h1, h2⟩ := hab
          exact ⟨b, (hPs.names b).2 ⟨M, (hselm M).2 ⟨hM, e ▸ h1⟩, h2⟩, hb⟩
    exact this _ hlk rfl
  obtain ⟨l', e1, e2, e3, e4, e5, e6, e7⟩ := elimStep_core hl hv' hP hother
  exact ⟨l', e1, e2, e3 x0 hc, e4, e5, e6, e7 S hS⟩

/-- All the steps. -/
theorem elimList_spec {S : K → Prop} (x0 : K → ℕ) (ve : List (Variable K)) :
    ∀ {l : List (Cpm K)}, NetOK U l → (∀ M ∈ l, Covers M x0) → (ve.map Variable.name).Nodup →
      (∀ v ∈ ve, (∃ M ∈ l, v.name ∈ childNames M) ∧ ¬ S v.name ∧ Linked l S v.name) →
    ∃ l', variableElimList l ve = .ok l' ∧ NetOK U l' ∧ (∀ M ∈ l', Covers M x0) ∧
      (∀ x, jointDens l' x =
        sumOver (ve.map fun v => (v.name, (U v.name).values.length)) (jointDens l) x) ∧
      (l'.flatMap childNames).Perm ((l.flatMap childNames).filter (· ∉ ve.map Variable.name)) ∧
      (∀ k, (∃ M ∈ l', k ∈ M.getNames) ↔
        (∃ M ∈ l, k ∈ M.getNames) ∧ k ∉ ve.map Variable.name) ∧ (l = [] → l' = []) ∧
        (l ≠ [] → l' ≠ []) := by
  induction ve with
  | nil => intro l hl hc _ _; exact ⟨l, rfl, hl, hc, fun x => rfl, by simp, by simp, id, id⟩
  | cons v ve ih =>
    intro l hl hc hn hve
    rw [List.map_cons, List.nodup_cons] at hn
    obtain ⟨hv1, hv2, hv3⟩ := hve v (by simp)
    obtain ⟨l1, e1, e2, e3, e4, e5, e6, e7⟩ := elimStep_spec hl x0 hc hv1 hv2 hv3
    have hchild1 : ∀ k, (∃ M ∈ l1, k ∈ childNames M) ↔ (∃ M ∈ l, k ∈ childNames M) ∧ k ≠ v.name := by
      intro k
      have := e5.mem_iff (a := k)
      rw [List.mem_flatMap, List.mem_filter, List.mem_flatMap] at this
      simpa using this
    have hstep : ∀ w ∈ ve, (∃ M ∈ l1, w.name ∈ childNames M) ∧ ¬ S w.name ∧ Linked l1 S w.name := by
      intro w hw
      obtain ⟨h1, h2, h3⟩ := hve w (by simp [hw])
      have hne : w.name ≠ v.name := fun e => hn.1 (e ▸ List.mem_map_of_mem hw)
      exact ⟨(hchild1 _).2 ⟨h1, hne⟩, h2, e7 _ hne h3⟩
    obtain ⟨l2, f1, f2, f3, f4, f5, f6, f7, f8⟩ := ih e2 e3 hn.2 hstep
    have hl1 : l1 ≠ [] := by
      rintro rfl
      unfold elimStep at e1
      simp only at e1
      cases hp : productList (maskRows (isInScope [v] l) l) with
      | error e => rw [hp] at e1; cases e1
      | ok P =>
        rw [hp, ok_bind] at e1
        cases hq : P.sum [v] true with
        | error e => rw [hq] at e1; cases e1
        | ok Q => rw [hq, ok_bind] at e1; cases e1
    refine ⟨l2, ?_, f2, f3, fun x => ?_, ?_, fun k => ?_, ?_, fun _ => f8 hl1⟩
    · unfold variableElimList at f1 ⊢
      rw [List.foldlM_cons, e1, ok_bind, f1]
    · rw [f4 x]
      have hperm : ((v :: ve).map fun v => (v.name, (U v.name).values.length)).Perm
          ((ve.map fun v => (v.name, (U v.name).values.length)) ++
            [(v.name, (U v.name).values.length)]) := by
        rw [List.map_cons]; exact (List.perm_append_singleton _ _).symm
      rw [sumOver_perm hperm, sumOver_append]
      · refine sumOver_congr _ _ fun y => e4 y
      · rw [List.map_map]
        simpa [Function.comp_def] using hn
    · refine f5.trans ((e5.filter _).trans (List.Perm.of_eq ?_))
      rw [List.filter_filter]
      refine List.filter_congr fun k _ => ?_
      simp only [List.map_cons, List.mem_cons, not_or, Bool.decide_and, decide_not]
      rw [Bool.and_comm]
    · rw [f6 k, e6 k]
      simp only [List.map_cons, List.mem_cons, not_or]
      tauto
    · rintro rfl
      obtain ⟨M, hM, -⟩ := hv1
      simp at hM

/-- The scope of a sum that succeeds; it is never empty. -/
theorem sum_vars_eq {M P : Cpm K} {v : Variable K} (h : M.sum [v] true = .ok P) :
    P.vars = (sumRemain M [v] true).1 ++ M.vars.drop M.noChild ∧ P.vars ≠ [] := by
  unfold Cpm.sum sumBody at h
  simp only at h
  cases h1 : takeRows M.vars ((sumRemain M [v] true).2 ++
      List.range' M.noChild (M.vars.length - M.noChild)) with
  | error e => rw [h1] at h; cases h
  | ok vars' =>
  rw [h1, ok_bind] at h
  cases h2 : takeCols M.C ((sumRemain M [v] true).2 ++
      List.range' M.noChild (M.vars.length - M.noChild)) with
  | error e => rw [h2] at h; cases h
  | ok C =>
  rw [h2, ok_bind] at h
  generalize Cpm.mk' _ = X at h
  cases X with
  | error e => cases h
  | ok M0 =>
  rw [ok_bind] at h
  cases h3 : sumLoop M0.C.length M0 with
  | error e => rw [h3] at h; cases h
  | ok cp =>
  rw [h3, ok_bind] at h
  by_cases hv : vars' = []
  · rw [if_pos hv] at h; cases h
  rw [if_neg hv] at h
  have hscope : P.vars = (sumRemain M [v] true).1 ++ M.vars.drop M.noChild := by
    generalize hX : Cpm.mk' _ = X at h
    cases X with
    | error e => cases h
    | ok Ms =>
      rw [ok_bind] at h
      have hMs := mk'_eq hX
      by_cases hc : M.Cs.flatten = []
      · rw [if_pos hc] at h; cases h; rw [hMs]
      · rw [if_neg hc] at h
        generalize takeCols _ _ = z at h
        cases z with
        | error e => cases h
        | ok Cs => rw [ok_bind] at h; rw [mk'_eq h, hMs]
  refine ⟨hscope, fun hP => ?_⟩
  rw [hP] at hscope
  obtain ⟨h4, h5⟩ := List.append_eq_nil_iff.1 hscope.symm
  refine hv ?_
  have h6 : (sumRemain M [v] true).2 = [] := by
    unfold sumRemain setdiffOn at h4 ⊢
    simp only [if_true] at h4 ⊢
    rw [h4]; rfl
  have h7 : M.vars.length - M.noChild = 0 := by
    have := congrArg List.length h5; simpa using this
  rw [h6, h7] at h1
  simp [takeRows, pure_ok] at h1
  exact h1

theorem sum_vars_ne {M P : Cpm K} {v : Variable K} (h : M.sum [v] true = .ok P) : P.vars ≠ [] :=
  (sum_vars_eq h).2

theorem elimList_vars (ve : List (Variable K)) : ∀ {l l' : List (Cpm K)},
    (∀ M ∈ l, M.vars ≠ []) → variableElimList l ve = .ok l' → ∀ M ∈ l', M.vars ≠ [] := by
  induction ve with
  | nil => intro l l' h e; cases e; exact h
  | cons v ve ih =>
    intro l l' h e
    unfold variableElimList at e
    rw [List.foldlM_cons] at e
    cases h1 : elimStep l v with
    | error e' => rw [h1] at e; cases e
    | ok l1 =>
      rw [h1, ok_bind] at e
      refine ih ?_ e
      unfold elimStep at h1
      simp only at h1
      cases hp : productList (maskRows (isInScope [v] l) l) with
      | error e => rw [hp] at h1; cases h1
      | ok P =>
        rw [hp, ok_bind] at h1
        cases hq : P.sum [v] true with
        | error e => rw [hq] at h1; cases h1
        | ok Q =>
          rw [hq, ok_bind] at h1
          cases h1
          intro M hM
          rcases List.mem_cons.1 hM with rfl | hM
          · exact sum_vars_ne hq
          · refine h M ?_
            rw [isInScope_one, List.map_map, maskRows_self] at hM
            exact (List.mem_filter.1 hM).1

/-- What a step that succeeds has done, whatever the network. -/
theorem elimStep_of_ok {l l' : List (Cpm K)} (hl : NetOK U l) {v : Variable K}
    (hv : ∃ M ∈ l, v.name ∈ childNames M) (h : elimStep l v = .ok l') :
    NetOK U l' ∧
      (∀ x, jointDens l' x = sumOver [(v.name, (U v.name).values.length)] (jointDens l) x) ∧
      (l'.flatMap childNames).Perm ((l.flatMap childNames).filter (· ≠ v.name)) ∧
      (∀ k, (∃ M ∈ l', k ∈ M.getNames) ↔ (∃ M ∈ l, k ∈ M.getNames) ∧ k ≠ v.name) := by
  have h0 := h
  unfold elimStep at h
  simp only [isInScope_one] at h
  rw [maskRows_self] at h
  cases hP : productList (l.filter (inScope v)) with
  | error e => rw [hP] at h; cases h
  | ok P =>
  rw [hP, ok_bind] at h
  cases hQ : P.sum [v] true with
  | error e => rw [hQ] at h; cases h
  | ok Q =>
  have hselm : ∀ M, M ∈ l.filter (inScope v) ↔ M ∈ l ∧ v.name ∈ M.getNames := by
    intro M; rw [List.mem_filter, inScope_iff]
  have hdsel : ChildDisjoint (l.filter (inScope v)) :=
    (List.pairwise_append.1 (childDisjoint_perm (scope_split v l).symm hl.disjoint)).1
  have hPs := productList_ok (fun M hM => hl.wf M ((hselm M).1 hM).1) hdsel hP
  have hvP : v.name ∈ childNames P := by
    obtain ⟨M0, hM0, hvM0⟩ := hv
    rw [hPs.child.mem_iff]
    refine List.mem_flatMap.2 ⟨M0, (hselm _).2 ⟨hM0, ?_⟩, hvM0⟩
    rw [getNames_eq]; exact List.mem_append.2 (.inl hvM0)
  have hother : ∃ k ∈ P.getNames, k ≠ v.name := by
    obtain ⟨q1, q2⟩ := sum_vars_eq hQ
    obtain ⟨w, hw⟩ := List.exists_mem_of_ne_nil _ q2
    rw [q1, sumRemain_true hPs.wf, List.mem_append] at hw
    rcases hw with hw | hw
    · obtain ⟨h1, h2⟩ := List.mem_filter.1 hw
      exact ⟨w.name, List.mem_map_of_mem (List.mem_of_mem_take h1), by simpa using h2⟩
    · refine ⟨w.name, List.mem_map_of_mem (List.mem_of_mem_drop hw), fun e => ?_⟩
      have hd := hPs.wf.nodup
      have he : P.vars.map Variable.name = childNames P ++ parentNames P := getNames_eq P
      rw [he, List.nodup_append] at hd
      exact hd.2.2 _ hvP _ (List.mem_map_of_mem hw) e.symm
  obtain ⟨l2, e1, e2, -, e4, e5, e6, -⟩ := elimStep_core hl hv hP hother
  rw [h0] at e1
  cases e1
  exact ⟨e2, e4, e5, e6⟩

theorem elimList_of_ok (ve : List (Variable K)) :
    ∀ {l l' : List (Cpm K)}, NetOK U l → (ve.map Variable.name).Nodup →
      (∀ v ∈ ve, ∃ M ∈ l, v.name ∈ childNames M) → variableElimList l ve = .ok l' →
    NetOK U l' ∧
      (∀ x, jointDens l' x =
        sumOver (ve.map fun v => (v.name, (U v.name).values.length)) (jointDens l) x) ∧
      (l'.flatMap childNames).Perm ((l.flatMap childNames).filter (· ∉ ve.map Variable.name)) ∧
      (∀ k, (∃ M ∈ l', k ∈ M.getNames) ↔
        (∃ M ∈ l, k ∈ M.getNames) ∧ k ∉ ve.map Variable.name) := by
  induction ve with
  | nil => intro l l' hl _ _ h; cases h; exact ⟨hl, fun x => rfl, by simp, by simp⟩
  | cons v ve ih =>
    intro l l' hl hn hve h
    rw [List.map_cons, List.nodup_cons] at hn
    unfold variableElimList at h
    rw [List.foldlM_cons] at h
    cases h1 : elimStep l v with
    | error e => rw [h1] at h; cases h
    | ok l1 =>
    rw [h1, ok_bind] at h
    obtain ⟨e2, e4, e5, e6⟩ := elimStep_of_ok hl (hve v (by simp)) h1
    have hchild1 : ∀ k, (∃ M ∈ l1, k ∈ childNames M) ↔ (∃ M ∈ l, k ∈ childNames M) ∧ k ≠ v.name := by
      intro k
      have := e5.mem_iff (a := k)
      rw [List.mem_flatMap, List.mem_filter, List.mem_flatMap] at this
      simpa using this
    obtain ⟨f2, f4, f5, f6⟩ := ih e2 hn.2 (fun w hw => (hchild1 _).2 ⟨hve w (by simp [hw]),
      fun e => hn.1 (e ▸ List.mem_map_of_mem hw)⟩) h
    refine ⟨f2, fun x => ?_, ?_, fun k => ?_⟩
    · rw [f4 x]
      have hperm : ((v :: ve).map fun v => (v.name, (U v.name).values.length)).Perm
          ((ve.map fun v => (v.name, (U v.name).values.length)) ++
            [(v.name, (U v.name).values.length)]) := by
        rw [List.map_cons]; exact (List.perm_append_singleton _ _).symm
      rw [sumOver_perm hperm, sumOver_append]
      · refine sumOver_congr _ _ fun y => e4 y
      · rw [List.map_map]
        simpa [Function.comp_def] using hn
    · refine f5.trans ((e5.filter _).trans (List.Perm.of_eq ?_))
      rw [List.filter_filter]
      refine List.filter_congr fun k _ => ?_
      simp only [List.map_cons, List.mem_cons, not_or, Bool.decide_and, decide_not]
      rw [Bool.and_comm]
    · rw [f6 k, e6 k]
      simp only [List.map_cons, List.mem_cons, not_or]
      tauto

theorem variableElim_of_ok {cpms : List (Cpm K)} {ve : List (Variable K)} {P : Cpm K}
    (hl : NetOK U cpms) (hn : (ve.map Variable.name).Nodup)
    (hve : ∀ v ∈ ve, ∃ M ∈ cpms, v.name ∈ childNames M) (h : variableElim cpms ve = .ok P) :
    WF U P ∧ ChildBasic P ∧
      (∀ x, dens P x =
        sumOver (ve.map fun v => (v.name, (U v.name).values.length)) (jointDens cpms) x) ∧
      (childNames P).Perm ((cpms.flatMap childNames).filter (· ∉ ve.map Variable.name)) ∧
      (∀ k, k ∈ P.getNames ↔ (∃ M ∈ cpms, k ∈ M.getNames) ∧ k ∉ ve.map Variable.name) := by
  unfold variableElim at h
  cases h1 : variableElimList cpms ve with
  | error e => rw [h1] at h; cases h
  | ok l =>
  rw [h1, ok_bind] at h
  obtain ⟨f2, f4, f5, f6⟩ := elimList_of_ok ve hl hn hve h1
  have hPs := productList_ok f2.wf f2.disjoint h
  exact ⟨hPs.wf, hPs.basic f2.basic, fun x => by rw [hPs.dens, ← f4]; rfl, hPs.child.trans f5,
    fun k => by rw [hPs.names, f6]⟩

end
end BNS
