import Verif.Proofs.Sampling
import Verif.Examples.Cpm

/-!
# Property C44: Monte Carlo samples carry the joint probability

The full claim is false: see `C44_state_zero_wrong` and `C44_listing_order_wrong`.
-/

namespace BNS

set_option linter.unusedSectionVars false

variable {K : Type} [DecidableEq K] {U : K → Variable K}

/-- A sampled network: well-formed CPMs with basic child states, whose rows do not overlap, no
variable defined twice, listed parents first. -/
structure SampleOK (U : K → Variable K) (cpms : List (Cpm K)) : Prop where
  net : NetOK U cpms
  rows : ∀ M ∈ cpms, RowsDisjoint M
  first : ParentsFirst cpms

theorem SampleOK.nodup {cpms : List (Cpm K)} (h : SampleOK U cpms) :
    ((cpms.flatMap fun M => M.vars.take M.noChild).map Variable.name).Nodup := by
  have h1 : ∀ M ∈ cpms, (childNames M).Nodup := fun M hM =>
    (h.net.wf M hM).nodup.sublist ((List.take_sublist _ _).map _)
  rw [List.map_flatMap]
  refine List.nodup_flatMap.2 ⟨h1, ?_⟩
  exact h.net.disjoint.imp fun hab k hk hk' => hab k hk hk'

/-- Missing from the full claim: the CPMs must be listed parents first, and nothing is said about a
sample in which a parent has state 0.  Then, for all random outcomes, the weight recorded with each
sample is the joint probability of its states, and it is positive. -/
theorem C44_weight_partial (cpms : List (Cpm K)) (h : SampleOK U cpms) (draws : List (List ℕ))
    (P : Cpm K) (hP : mcsProduct cpms draws = .ok P) :
    P.Cs.length = draws.length ∧
    ∀ (i : ℕ) (s : List ℕ), P.Cs[i]? = some s →
      (∀ M ∈ cpms, ∀ v ∈ parentNames M, 0 < assignment P.vars s v) →
      P.q[i]? = some (jointDens cpms (assignment P.vars s)) ∧
      0 < jointDens cpms (assignment P.vars s) := by
  have hso := getSampleOrder_parentsFirst h.first h.nodup
  unfold mcsProduct at hP
  simp only [hso] at hP
  obtain ⟨samples, hs, hP⟩ := bind_ok.1 hP
  have := mk'_eq hP
  subst this
  have hf := mapM_ok_forall₂ hs
  refine ⟨by simp [hf.length_eq], fun i s hi hpos => ?_⟩
  simp only [List.getElem?_map, Option.map_eq_some_iff] at hi ⊢
  obtain ⟨⟨s0, ps⟩, hi, rfl⟩ := hi
  have hil : i < draws.length := by
    have := (List.getElem?_eq_some_iff.1 hi).1
    rwa [← hf.length_eq] at this
  have hone := List.Forall₂.get hf hil (by rw [← hf.length_eq]; exact hil)
  rw [List.get_eq_getElem, List.get_eq_getElem, (List.getElem?_eq_some_iff.1 hi).2] at hone
  unfold singleSample at hone
  have hlen : (List.range cpms.length).length = cpms.length := List.length_range
  -- reversing names and states together changes nothing
  have hrev : ∀ k, s0.length = (cpms.flatMap fun M => M.vars.take M.noChild).length →
      assignment (cpms.flatMap fun M => M.vars.take M.noChild).reverse s0.reverse k =
      val ((cpms.flatMap fun M => M.vars.take M.noChild).map Variable.name) s0 k := by
    intro k hl
    have hn := h.nodup
    generalize cpms.flatMap (fun M => M.vars.take M.noChild) = vs at hl hn
    change val (vs.reverse.map Variable.name) s0.reverse k = _
    clear hi hone hpos hs hP hf hso
    induction vs generalizing s0 with
    | nil =>
      have : s0 = [] := List.length_eq_zero_iff.1 (by simpa using hl)
      subst this; rfl
    | cons v vs ih =>
      cases s0 with
      | nil => simp at hl
      | cons a s0 =>
        rw [List.map_cons, List.nodup_cons] at hn
        rw [List.reverse_cons, List.reverse_cons, List.map_append, val_append _ _ _ _ (by
          simpa using hl), List.map_cons, List.map_nil, List.map_cons, val_cons, val_cons,
          ih s0 (by simpa using hl) hn.2]
        by_cases hk : v.name = k
        · subst hk
          rw [if_neg, if_pos rfl, if_pos rfl]
          simpa using hn.1
        · rw [if_neg hk, if_neg hk]
          split
          · rfl
          · rename_i hk2
            have hk3 : k ∉ vs.map Variable.name := by simpa using hk2
            have h2 : val (vs.map Variable.name) s0 k = 0 := by
              unfold val
              rw [List.idxOf_of_notMem hk3, List.getD_eq_getElem?_getD, List.getElem?_eq_none]
              · rfl
              · rw [List.length_cons, List.length_cons] at hl
                rw [List.length_map]; omega
            rw [h2]; rfl
  have hslen : s0.length = (cpms.flatMap fun M => M.vars.take M.noChild).length := by
    have := sampleLoop_length _ _ _ _ _ _ _ _ hone
    rw [this, List.length_map]
  simp only at hpos ⊢
  have hval : assignment (cpms.flatMap fun M => M.vars.take M.noChild).reverse s0.reverse =
      val ((cpms.flatMap fun M => M.vars.take M.noChild).map Variable.name) s0 :=
    funext fun k => hrev k hslen
  rw [hval] at hpos ⊢
  have hmain := sampleLoop_spec h.net.wf h.net.basic h.rows h.first h.nodup cpms []
    ((List.range cpms.length).zip cpms) draws[i] [] s0
    ps rfl (by rw [List.map_snd_zip (by simp)]) rfl (by simp) hone hpos
  obtain ⟨-, hps, hall⟩ := hmain
  have hprod : ps.prod = jointDens cpms
      (val ((cpms.flatMap fun M => M.vars.take M.noChild).map Variable.name) s0) := by
    rw [hps]; rfl
  refine ⟨⟨(s0, ps), hi, hprod⟩, ?_⟩
  rw [← hprod]
  clear hps hprod hone hi
  induction ps with
  | nil => simp
  | cons p ps ih =>
    rw [List.prod_cons]
    exact mul_pos (hall p (by simp)) (ih fun q hq => hall q (by simp [hq]))

/-- The same for the weights per variable of `mcs_product(cpms, nsample, is_scalar=False)`: in the
order of the CPMs, each is the conditional probability of the CPM at the sampled states. -/
theorem C44_vector_partial (cpms : List (Cpm K)) (h : SampleOK U cpms) (draws : List ℕ)
    (s : List ℕ) (ps : List ℚ) (hs : singleSample cpms (getSampleOrder cpms) draws = .ok (s, ps))
    (hpos : ∀ M ∈ cpms, ∀ v ∈ parentNames M, 0 < assignment (getSampleOrder cpms).vars s v) :
    ps = cpms.map (fun M => dens M (assignment (getSampleOrder cpms).vars s)) ∧
      ∀ p ∈ ps, 0 < p := by
  have hso := getSampleOrder_parentsFirst h.first h.nodup
  rw [hso] at hpos hs ⊢
  exact (sampleLoop_spec h.net.wf h.net.basic h.rows h.first h.nodup cpms []
    ((List.range cpms.length).zip cpms) draws [] s
    ps rfl (by rw [List.map_snd_zip (by simp)]) rfl (by simp) hs hpos).2

/-- Reversing names and states together changes nothing. -/
private theorem assignment_reverse (vs : List (Variable K)) (hn : (vs.map Variable.name).Nodup)
    (s0 : List ℕ) (hl : s0.length = vs.length) (k : K) :
    assignment vs.reverse s0.reverse k = assignment vs s0 k := by
  change val (vs.reverse.map Variable.name) s0.reverse k = val (vs.map Variable.name) s0 k
  induction vs generalizing s0 with
  | nil =>
    have : s0 = [] := List.length_eq_zero_iff.1 (by simpa using hl)
    subst this; rfl
  | cons v vs ih =>
    cases s0 with
    | nil => simp at hl
    | cons a s0 =>
      rw [List.map_cons, List.nodup_cons] at hn
      rw [List.reverse_cons, List.reverse_cons, List.map_append, val_append _ _ _ _ (by
        simpa using hl), List.map_cons, List.map_nil, List.map_cons, val_cons, val_cons,
        ih hn.2 s0 (by simpa using hl)]
      by_cases hk : v.name = k
      · subst hk
        rw [if_neg, if_pos rfl, if_pos rfl]
        simpa using hn.1
      · rw [if_neg hk, if_neg hk]
        split
        · rfl
        · rename_i hk2
          have hk3 : k ∉ vs.map Variable.name := by simpa using hk2
          have h2 : val (vs.map Variable.name) s0 k = 0 := by
            unfold val
            rw [List.idxOf_of_notMem hk3, List.getD_eq_getElem?_getD, List.getElem?_eq_none]
            · rfl
            · rw [List.length_cons, List.length_cons] at hl
              rw [List.length_map]; omega
          rw [h2]; rfl

/-- What `is_scalar=False` returns: the columns of the samples are those of the returned variables,
while the columns of the weights follow the CPMs as they were listed. -/
theorem C44_vector_output_partial (cpms : List (Cpm K)) (h : SampleOK U cpms) (draws : List (List ℕ))
    (vs : List (Variable K)) (Cs : List (List ℕ)) (q : List (List ℚ))
    (hP : mcsProductVec cpms draws = .ok (vs, Cs, q)) :
    vs.map Variable.name = (cpms.flatMap childNames).reverse ∧
    Cs.length = draws.length ∧ q.length = draws.length ∧
    ∀ (i : ℕ) (s : List ℕ), Cs[i]? = some s → s.length = vs.length ∧
      ((∀ M ∈ cpms, ∀ v ∈ parentNames M, 0 < assignment vs s v) →
        q[i]? = some (cpms.map fun M => dens M (assignment vs s)) ∧
        ∀ M ∈ cpms, 0 < dens M (assignment vs s)) := by
  have hso := getSampleOrder_parentsFirst h.first h.nodup
  unfold mcsProductVec at hP
  obtain ⟨samples, hs, hP⟩ := bind_ok.1 hP
  cases hP
  have hf := mapM_ok_forall₂ hs
  have hvs : (getSampleOrder cpms).vars = cpms.flatMap fun M => M.vars.take M.noChild := by rw [hso]
  refine ⟨?_, by simp [hf.length_eq], by simp [hf.length_eq], fun i s hi => ?_⟩
  · rw [hvs, List.map_reverse, List.map_flatMap]
    rfl
  simp only [List.getElem?_map, Option.map_eq_some_iff] at hi ⊢
  obtain ⟨⟨s0, ps⟩, hi, rfl⟩ := hi
  have hil : i < draws.length := by
    have := (List.getElem?_eq_some_iff.1 hi).1
    rwa [← hf.length_eq] at this
  have hone := List.Forall₂.get hf hil (by rw [← hf.length_eq]; exact hil)
  rw [List.get_eq_getElem, List.get_eq_getElem, (List.getElem?_eq_some_iff.1 hi).2] at hone
  have hslen : s0.length = (getSampleOrder cpms).vars.length := by
    have := hone
    rw [hso] at this
    unfold singleSample at this
    have := sampleLoop_length _ _ _ _ _ _ _ _ this
    rw [hvs, this, List.length_map]
  have hrev : assignment (getSampleOrder cpms).vars.reverse s0.reverse =
      assignment (getSampleOrder cpms).vars s0 :=
    funext fun k => assignment_reverse _ (by rw [hvs]; exact h.nodup) s0 hslen k
  refine ⟨by simp [hslen], fun hpos => ?_⟩
  simp only at hpos ⊢
  rw [hrev] at hpos ⊢
  obtain ⟨h1, h2⟩ := C44_vector_partial cpms h _ _ _ hone hpos
  refine ⟨⟨_, hi, h1⟩, fun M hM => ?_⟩
  exact h2 _ (h1 ▸ List.mem_map_of_mem (f := fun M => dens M (assignment (getSampleOrder cpms).vars s0)) hM)

theorem Ex.rows_AB : RowsDisjoint Ex.A ∧ RowsDisjoint Ex.B := by
  -- two overlapping rows would share a state of the child
  have key : ∀ (vs : List (Variable ℕ)) (r r' : List ℕ), (∃ t ∈ (vs.zip r).zip (vs.zip r'),
      t.1.1 = t.2.1 ∧ stateSet t.1.1 t.1.2 ∩ stateSet t.2.1 t.2.2 = ∅) →
      ∀ x, ¬ (RowMatches vs r x ∧ RowMatches vs r' x) := by
    rintro vs r r' ⟨⟨⟨v, s⟩, ⟨w, s'⟩⟩, ht, he, hi⟩ x ⟨h1, h2⟩
    simp only at he hi
    subst he
    have a := h1 _ (List.of_mem_zip ht).1
    have b := h2 _ (List.of_mem_zip ht).2
    have : x v.name ∈ (∅ : Finset ℕ) := hi ▸ Finset.mem_inter.2 ⟨a, b⟩
    simp at this
  have dec : ∀ (M : Cpm ℕ), (M.C.Pairwise fun r r' => ∃ t ∈ (M.vars.zip r).zip (M.vars.zip r'),
      t.1.1 = t.2.1 ∧ stateSet t.1.1 t.1.2 ∩ stateSet t.2.1 t.2.2 = ∅) → RowsDisjoint M :=
    fun M hM => hM.imp fun {r r'} h => key _ r r' h
  exact ⟨dec _ (by decide +kernel), dec _ (by decide +kernel)⟩

theorem Ex.sample_ok : SampleOK Ex.U [Ex.A, Ex.B] where
  net := ⟨by decide +kernel, by decide +kernel, by decide +kernel⟩
  rows := by
    intro M hM
    rcases List.mem_cons.1 hM with rfl | hM
    · exact Ex.rows_AB.1
    · rw [List.mem_singleton.1 hM]; exact Ex.rows_AB.2
  first := by
    intro pre M post h v hv
    match pre with
    | [] =>
      simp only [List.nil_append, List.cons.injEq] at h
      obtain ⟨rfl, -⟩ := h
      revert v; decide +kernel
    | [N] =>
      simp only [List.cons_append, List.nil_append, List.cons.injEq] at h
      obtain ⟨rfl, rfl, -⟩ := h
      refine ⟨_, List.mem_singleton_self _, ?_⟩
      revert v; decide +kernel
    | _ :: _ :: pre =>
      simp at h

/-- Non-vacuity: a sample with a positive parent state. -/
example : (mcsProduct [Ex.A, Ex.B] [[1, 1]]).toOption.map
    (fun P => (P.getNames, P.Cs, P.q, jointDens [Ex.A, Ex.B] (assignment P.vars [1, 1]))) =
    some ([2, 0], [[1, 1]], [18/25], 18/25) := by decide +kernel

/-- Defect: a parent sampled in state 0 is not conditioned on (`y > 0`, operation.py:221-222).  Here
variable 0 is in state 0 and the row drawn for variable 2 is one that holds in state 1. -/
theorem C44_state_zero_wrong : SampleOK Ex.U [Ex.A, Ex.B] ∧
    ∃ P, mcsProduct [Ex.A, Ex.B] [[0, 3]] = .ok P ∧ P.Cs = [[1, 0]] ∧
      P.q = [2/25] ∧ jointDens [Ex.A, Ex.B] (assignment P.vars [1, 0]) = 3/100 :=
  ⟨Ex.sample_ok, exists_ok (by decide +kernel)⟩

/-- Defect: the sampling order is paired with the CPMs in the order they were given
(operation.py:218), so with a child listed before its parent states are written to the wrong
variables.  No parent is in state 0 here. -/
theorem C44_listing_order_wrong : ChildDisjoint [Ex.B, Ex.A] ∧
    ∃ P, mcsProduct [Ex.B, Ex.A] [[1, 0]] = .ok P ∧ P.Cs = [[1, 1]] ∧
      P.q = [27/100] ∧ jointDens [Ex.B, Ex.A] (assignment P.vars [1, 1]) = 18/25 :=
  ⟨by decide +kernel, exists_ok (by decide +kernel)⟩

/-- Defect: a variable that is a child of two CPMs is only reported on the screen
(operation.py:134-135), and the sampling then raises.  No sample is ever returned. -/
theorem C44_common_child (cpms : List (Cpm K)) (hac : Acyclic cpms)
    (hdef : ∀ M ∈ cpms, ∀ v ∈ (M.vars.drop M.noChild).map Variable.name,
      ∃ N ∈ cpms, v ∈ (N.vars.take N.noChild).map Variable.name)
    (hdis : ¬ ChildDisjoint cpms) (draws : List (List ℕ)) (hd : draws ≠ []) (P : Cpm K) :
    mcsProduct cpms draws ≠ .ok P := by
  have hlong := getSampleOrder_longer hac hdef hdis
  have hno : ∀ (L : List (ℕ × Cpm K)) (i : ℕ) (d : List ℕ) (r : List ℕ × List ℚ), L ≠ [] →
      sampleLoop (getSampleOrder cpms).vars (getSampleOrder cpms).addOrder i L d
        ((getSampleOrder cpms).vars.map fun _ => 0) ≠ .ok r := by
    rintro (_ | ⟨⟨j, M⟩, L⟩) i d r hL h
    · exact hL rfl
    cases d with
    | nil => simp [sampleLoop] at h
    | cons d ds =>
      rw [sampleLoop] at h
      obtain ⟨⟨s1, p⟩, h1, -⟩ := bind_ok.1 h
      unfold sampleOne at h1
      simp only at h1
      obtain ⟨M', -, h1⟩ := bind_ok.1 h1
      split at h1
      · split at h1
        · obtain ⟨s3, h3, -⟩ := bind_ok.1 h1
          unfold assignAt at h3
          rw [if_pos (by rw [List.length_map]; omega)] at h3
          cases h3
        · cases h1
      · cases h1
  have hord : (getSampleOrder cpms).order ≠ [] := by
    intro h0
    have : ∀ n, ((List.range n).foldl (fun st i => sampleStep i st.1 st.2)
        (cpms.zip (List.range cpms.length), { order := [], vars := [], addOrder := [] })).2.order = [] →
      ((List.range n).foldl (fun st i => sampleStep i st.1 st.2)
        (cpms.zip (List.range cpms.length), { order := [], vars := [], addOrder := [] })).2.addOrder =
          [] := by
      intro n
      induction n with
      | zero => intro _; rfl
      | succ n ih =>
        rw [List.range_succ, List.foldl_append, List.foldl_cons, List.foldl_nil]
        generalize (List.range n).foldl (fun st i => sampleStep i st.1 st.2)
          (cpms.zip (List.range cpms.length), { order := [], vars := [], addOrder := [] }) = st at ih ⊢
        unfold sampleStep
        split
        · exact ih
        · split
          · exact ih
          · intro h
            simp at h
    have h1 := this cpms.length h0
    have h2 : (getSampleOrder cpms).addOrder = [] := h1
    rw [h2] at hlong
    simp at hlong
  have hc : cpms ≠ [] := by
    rintro rfl
    exact hdis List.Pairwise.nil
  intro h
  unfold mcsProduct at h
  simp only at h
  obtain ⟨samples, h1, -⟩ := bind_ok.1 h
  obtain ⟨d, ds, rfl⟩ := List.exists_cons_of_ne_nil hd
  rw [List.mapM_cons] at h1
  obtain ⟨r, h2, -⟩ := bind_ok.1 h1
  refine hno ((getSampleOrder cpms).order.zip cpms) 0 d r ?_ h2
  obtain ⟨a, l, hl⟩ := List.exists_cons_of_ne_nil hord
  obtain ⟨b, m, hm⟩ := List.exists_cons_of_ne_nil hc
  rw [hl, hm]
  simp

/-- The same CPM twice. -/
example (draws : List (List ℕ)) (hd : draws ≠ []) (P : Cpm ℕ) :
    mcsProduct [Ex.A, Ex.A] draws ≠ .ok P := by
  refine C44_common_child _ ?_ (by decide +kernel) (by decide +kernel) draws hd P
  intro i h
  have : ∀ a b : Fin [Ex.A, Ex.A].length, ¬ DependsOn [Ex.A, Ex.A][a] [Ex.A, Ex.A][b] := by
    rintro a b ⟨v, hv, -⟩
    have : ∀ M ∈ [Ex.A, Ex.A], (M.vars.drop M.noChild).map Variable.name = [] := by decide +kernel
    have h0 := this _ (List.getElem_mem a.2)
    exact absurd (h0 ▸ hv : v ∈ []) (by simp)
  obtain ⟨b, hb, -⟩ := Relation.TransGen.head'_iff.1 h
  exact this _ _ hb

/-- Defect: with `is_scalar=False` the columns of the samples are reversed and those of the weights
are not (operation.py:184-191): the weight in the column of variable 2 is that of variable 0. -/
theorem C44_vector_mismatched :
    ∃ vs Cs q, mcsProductVec [Ex.A, Ex.B] [[1, 1]] = .ok (vs, Cs, q) ∧
      vs.map Variable.name = [2, 0] ∧ Cs = [[1, 1]] ∧ q = [[9/10, 4/5]] ∧
      dens Ex.B (assignment vs [1, 1]) = 4/5 ∧ dens Ex.A (assignment vs [1, 1]) = 9/10 := by
  obtain ⟨⟨vs, Cs, q⟩, h⟩ := exists_ok (x := mcsProductVec [Ex.A, Ex.B] [[1, 1]])
    (P := fun r => r.1.map Variable.name = [2, 0] ∧ r.2.1 = [[1, 1]] ∧ r.2.2 = [[9/10, 4/5]] ∧
      dens Ex.B (assignment r.1 [1, 1]) = 4/5 ∧ dens Ex.A (assignment r.1 [1, 1]) = 9/10)
    (by decide +kernel)
  exact ⟨vs, Cs, q, h⟩

end BNS
