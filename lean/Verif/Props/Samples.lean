import Verif.Proofs.SamplesProd
import Verif.Examples.Cpm

/-!
# Properties C08, C09, C16, C54 (samples) and C59: CPMs that carry samples

`noSamples M` (Spec/Samples.lean) is `M` without its samples; the theorems about the event matrix
apply to it.  The theorems below say that an operation on a CPM with samples does the same to the
event matrix, and what it does to the samples.
-/

namespace BNS

set_option linter.unusedSectionVars false

section
variable {K : Type} [DecidableEq K] {U : K → Variable K}

/-! ## C54: what the constructor checks about samples -/

/-- An accepted CPM has rectangular samples with one column per variable, states at most `n` and one
value per sample in each of `q`, `ps` and `sample_idx`, or none.  Missing for the full claim: state
`n` is accepted although it is not a basic state (`C54_samples_accept_composite`). -/
theorem C54_samples_partial (M N : Cpm K) (h : M.mk' = .ok N) (hne : M.Cs.flatten ≠ []) :
    (∀ c ∈ M.Cs, c.length = M.vars.length) ∧
    (∀ c ∈ M.Cs, ∀ vs ∈ M.vars.zip c, vs.2 ≤ vs.1.values.length) ∧
    (M.q = [] ∨ M.q.length = M.Cs.length) ∧ (M.ps = [] ∨ M.ps.length = M.Cs.length) ∧
    (M.sampleIdx = [] ∨ M.sampleIdx.length = M.Cs.length) := by
  unfold Cpm.mk' at h
  simp only [bind_ok] at h
  obtain ⟨_, _, _, _, _, _, _, h4, _, h5, _, h6, _, h7, _⟩ := h
  have key : ∀ {b : Prop} [Decidable b] {u : Unit}, pyAssert b = .ok u → b := by
    intro b _ u hb
    by_contra hn
    rw [pyAssert_false hn] at hb
    cases hb
  have h5 := key h5
  have h6 := key h6
  have h7 := key h7
  simp only [hne, false_or] at h5 h6 h7
  unfold checkCs at h4
  rw [if_neg hne] at h4
  split at h4
  · cases h4
  · split at h4
    · rename_i hall
      simp only [Bool.and_eq_true, List.all_eq_true, decide_eq_true_eq] at hall
      exact ⟨hall.1, hall.2, h5, h6, h7⟩
    · cases h4

/-- A CPM whose event matrix is accepted is accepted with any well-formed samples; samples with a
wrong number of columns or too large a state are refused. -/
theorem C54_samples_decided (M : Cpm K) (hM : (noSamples M).mk' = .ok (noSamples M)) :
    (SamplesOK M → M.mk' = .ok M) ∧
    (M.Cs.Pairwise (fun a b => a.length = b.length) → M.Cs.flatten ≠ [] →
      ((∃ c ∈ M.Cs, c.length ≠ M.vars.length) ∨
        ∃ c ∈ M.Cs, ∃ vs ∈ M.vars.zip c, vs.1.values.length < vs.2) →
      M.mk' = .error .assertion) := by
  refine ⟨fun hs => mk'_attach hM hs.chk, fun hrect hne hbad => ?_⟩
  unfold Cpm.mk' at hM ⊢
  simp only [bind_ok] at hM
  obtain ⟨u1, h1, u2, h2, u3, h3, -⟩ := hM
  have h1' : pyAssert (M.noChild ≤ M.vars.length) = .ok u1 := h1
  have h2' : checkC M.vars M.C = .ok u2 := h2
  have h3' : pyAssert (M.p = [] ∨ M.p.length = M.C.length) = .ok u3 := h3
  have h4 : checkCs M.vars M.Cs = .error .assertion := by
    unfold checkCs
    rw [if_neg hne, if_neg (by simpa using hrect), if_neg]
    simp only [Bool.and_eq_true, List.all_eq_true, decide_eq_true_eq]
    rintro ⟨ha, hb⟩
    rcases hbad with ⟨c, hc, h⟩ | ⟨c, hc, vs, hvs, h⟩
    · exact h (ha c hc)
    · have := hb c hc vs hvs
      omega
  rw [h1', ok_bind, h2', ok_bind, h3', ok_bind, h4]
  rfl

/-! ## C16: subsets of the samples -/

/-- `get_subset(rows, isC=False)` keeps the requested samples, in the order of the request, each
with its probability, weight and number, and drops the event matrix; `flag=0` keeps the others in
their order; numbers that do not exist are refused. -/
theorem C16_samples (M : Cpm K) (hs : SamplesOK M) (hc : M.noChild ≤ M.vars.length)
    (idx : List ℕ) :
    (∀ flag, (flag = true → ∀ i ∈ idx, i < M.Cs.length) →
      ∃ P, M.getSubsetCs idx flag = .ok P ∧ P.vars = M.vars ∧ P.noChild = M.noChild ∧ P.C = [] ∧
        P.p = [] ∧ ∃ rows : List ℕ,
          rows = (if flag then idx else (List.range M.Cs.length).filter fun i => i ∉ idx) ∧
          P.Cs = rows.map (fun i => M.Cs.getD i []) ∧ P.q = rows.map (fun i => M.q.getD i 0) ∧
          P.sampleIdx = rows.map (fun i => M.sampleIdx.getD i 0) ∧
          P.ps = if M.ps = [] then [] else rows.map fun i => M.ps.getD i 0) ∧
    ((∃ i ∈ idx, M.Cs.length ≤ i) → M.getSubsetCs idx true = .error .assertion) := by
  refine ⟨fun flag hi => ?_, fun hi => ?_⟩
  · set rows := (if flag then idx else (List.range M.Cs.length).filter fun i => i ∉ idx) with hrows
    have hlt : ∀ i ∈ rows, i < M.Cs.length := by
      intro i hir
      cases flag with
      | true => exact hi rfl i (by simpa [hrows] using hir)
      | false =>
        simp only [hrows, Bool.false_eq_true, if_false] at hir
        simpa using (List.mem_filter.1 hir).1
    have h1 : subsetRows M.Cs.length idx flag = .ok rows := by
      unfold subsetRows
      cases flag with
      | true => rw [if_pos rfl, if_pos (hi rfl)]; rfl
      | false => rw [if_neg (by simp), setdiff_range]; rfl
    have hopt : ∀ {α : Type} (X : List α) (d : α), X.length = M.Cs.length →
        takeRowsOpt X rows = .ok (rows.map fun i => X.getD i d) := by
      intro α X d hX
      unfold takeRowsOpt
      split
      · have : M.Cs.length = 0 := by rw [← hX]; rfl
        have hr : rows = [] := by
          rw [List.eq_nil_iff_forall_not_mem]
          intro i hir
          have := hlt i hir
          omega
        rw [hr]; rfl
      · exact takeRows_ok d fun i hir => by rw [hX]; exact hlt i hir
    have hps : takeRowsOpt M.ps rows =
        .ok (if M.ps = [] then [] else rows.map fun i => M.ps.getD i 0) := by
      by_cases h0 : M.ps = []
      · rw [if_pos h0, h0]; rfl
      · rw [if_neg h0]
        exact hopt M.ps 0 (hs.psLen.resolve_left h0)
    have hCs : takeRows M.Cs rows = .ok (rows.map fun i => M.Cs.getD i []) := takeRows_ok [] hlt
    refine ⟨⟨M.vars, M.noChild, [], [], rows.map fun i => M.Cs.getD i [],
      rows.map fun i => M.q.getD i 0, if M.ps = [] then [] else rows.map fun i => M.ps.getD i 0,
      rows.map fun i => M.sampleIdx.getD i 0⟩, ?_, rfl, rfl, rfl, rfl, rows, rfl, rfl, rfl, rfl, rfl⟩
    unfold Cpm.getSubsetCs
    rw [h1, ok_bind, hopt M.q 0 hs.qLen, ok_bind, hps, ok_bind, hopt M.sampleIdx 0 hs.siLen, ok_bind,
      hCs, ok_bind]
    have hmem : ∀ c ∈ rows.map (fun i => M.Cs.getD i []), c ∈ M.Cs := by
      intro c hcm
      obtain ⟨i, hir, rfl⟩ := List.mem_map.1 hcm
      have := hlt i hir
      simp [this]
    refine mk'_attach (mk'_ok (by simp [noSamples]) (by simp [noSamples]) hc (.inl rfl) rfl)
      ⟨checkCs_ok (fun c hcm => hs.rowLen c (hmem c hcm))
        (fun c hcm p hp => (hs.entry c (hmem c hcm) p hp).le), ?_, ?_, ?_⟩
    · exact .inr (.inr (by simp))
    · by_cases h0 : M.ps = []
      · exact .inl (by simp [h0])
      · exact .inr (.inr (by simp [h0]))
    · exact .inr (.inr (by simp))
  · unfold Cpm.getSubsetCs subsetRows
    rw [if_pos rfl, if_neg]
    · rfl
    · intro h
      obtain ⟨i, h1, h2⟩ := hi
      exact absurd (h i h1) (by omega)

/-! ## C08: conditioning with samples -/

/-- Conditioning a CPM with samples conditions its event matrix exactly as without samples, keeps
the samples, their probabilities and numbers, and records a weight per sample.  For evidence on
basic states the weight is the table's probability at the sample with the evidence written over it
(times the sampling probability when a child is conditioned); without evidence in the scope it is the
sampling probability. -/
theorem C08_samples (M P : Cpm K) (h : WF U (noSamples M)) (hs : SamplesOK M)
    (h0 : M.Cs.flatten ≠ []) (cv : List (Variable K)) (cs : List ℕ)
    (he : EvidenceOK U M.getNames cv cs) (hn : (cv.map Variable.name).Nodup)
    (hP : (noSamples M).condition cv cs = .ok P) :
    ∃ Q, M.condition cv cs = .ok Q ∧ noSamples Q = P ∧ Q.Cs = M.Cs ∧ Q.q = M.q ∧
      Q.sampleIdx = M.sampleIdx ∧ Q.ps.length = M.Cs.length ∧
      ((∀ k ∈ M.getNames, k ∉ cv.map Variable.name) → Q.ps = M.q) ∧
      ((∀ p ∈ cv.zip cs, p.1.name ∈ M.getNames → p.2 < p.1.values.length) →
        (∃ k ∈ M.getNames, k ∈ cv.map Variable.name) →
        ∀ (i : ℕ) (c : List ℕ), M.Cs[i]? = some c →
          Q.ps[i]? = some (dens M (override cv cs (sampleState M.vars c)) *
            if ∃ k ∈ childNames M, k ∈ cv.map Variable.name then M.q.getD i 0 else 1)) := by
  have hP' := condition_ok h he hn
  rw [hP] at hP'
  injection hP' with hP'
  subst hP'
  refine ⟨_, condition_attach h hs h0 he hn, rfl, rfl, rfl, rfl, ?_, ?_, ?_⟩
  · simp only
    split
    · simp [hs.qLen]
    · split
      · simp
      · exact hs.qLen
  · intro hno
    simp only
    have h1 : ¬ ∃ k ∈ M.getNames, k ∈ cv.map Variable.name := by
      rintro ⟨k, hk, hk'⟩; exact hno k hk hk'
    have h2 : ¬ ∃ k ∈ childNames M, k ∈ cv.map Variable.name := by
      rintro ⟨k, hk, hk'⟩
      refine h1 ⟨k, ?_, hk'⟩
      obtain ⟨v, hv, rfl⟩ := List.mem_map.1 hk
      exact List.mem_map_of_mem (List.mem_of_mem_take hv)
    rw [if_neg h2, if_neg h1]
  · intro hb hin i c hic
    have hcm := List.mem_of_getElem? hic
    have hw := condWeight_basic h hs he hn (Cs_vars_ne hs h0) hb hcm
    have hi : i < M.Cs.length := by
      rw [List.getElem?_eq_some_iff] at hic
      exact hic.1
    have hd : dens (noSamples M) = dens M := rfl
    simp only
    by_cases hch : ∃ k ∈ childNames M, k ∈ cv.map Variable.name
    · rw [if_pos hch, if_pos hch]
      have hq : M.q[i]? = some (M.q.getD i 0) := by
        have : i < M.q.length := by rw [hs.qLen]; exact hi
        simp [this]
      rw [List.getElem?_zipWith, hic, hq]
      simp only
      rw [hw, hd]
    · rw [if_neg hch, if_neg hch, if_pos hin, List.getElem?_map, hic]
      simp only [Option.map_some]
      rw [hw, hd, mul_one]

/-! ## C09: summing with samples -/

/-- Summing out variables of a CPM with samples does to the event matrix what it does without
samples; each sample keeps the states of the remaining variables, its probability, its weight and
its number. -/
theorem C09_samples (M P : Cpm K) (h : WF U (noSamples M)) (hs : SamplesOK M)
    (h0 : M.Cs.flatten ≠ []) (vars : List (Variable K)) (flag : Bool)
    (hP : (noSamples M).sum vars flag = .ok P) :
    ∃ Q, M.sum vars flag = .ok Q ∧ noSamples Q = P ∧ Q.q = M.q ∧ Q.ps = M.ps ∧
      Q.sampleIdx = M.sampleIdx ∧ Q.Cs.length = M.Cs.length ∧
      ∀ (i : ℕ) (c : List ℕ), M.Cs[i]? = some c → ∃ c', Q.Cs[i]? = some c' ∧
        c'.length = Q.vars.length ∧
        ∀ v ∈ Q.vars, sampleState Q.vars c' v.name = sampleState M.vars c v.name := by
  have hR : ∀ v ∈ (sumRemain M vars flag).1, v ∈ M.vars := by
    intro v hv
    unfold sumRemain at hv
    cases flag with
    | true =>
      simp only [if_true] at hv
      exact List.mem_of_mem_take ((setdiffOn_fst_sublist _ _ _).subset hv)
    | false =>
      simp only [Bool.false_eq_true, if_false, List.mem_filterMap] at hv
      obtain ⟨i, -, hi⟩ := hv
      exact List.mem_of_getElem? hi
  obtain ⟨g1, g2, g3⟩ := sumBody_attach (R := (sumRemain M vars flag).1)
    (idx := (sumRemain M vars flag).2) hs h0 h.nodup hR hP
  refine ⟨_, g1, ?_, rfl, rfl, rfl, by simp, ?_⟩
  · conv_rhs => rw [← g3]
    rfl
  · intro i c hic
    refine ⟨P.vars.map fun v => sampleState M.vars c v.name, by simp [hic], by simp, ?_⟩
    intro v hv
    unfold sampleState
    have h1 := List.idxOf_lt_length_iff.2 (List.mem_map_of_mem (f := Variable.name) hv)
    have h2 := List.getElem_idxOf h1
    have h1' : (P.vars.map Variable.name).idxOf v.name < P.vars.length := by simpa using h1
    rw [List.getElem_map] at h2
    simp only
    rw [List.getD_eq_getElem _ _ (by simpa using h1), List.getElem_map, h2]

end

/-! ## C59: products join samples -/

section
variable {K : Type} [LinearOrder K] {U : K → Variable K}

/-- The weight of sample `i`: the recorded one, or its sampling probability when none is recorded. -/
def weightAt (M : Cpm K) (i : ℕ) : ℚ := if M.ps = [] then M.q.getD i 0 else M.ps.getD i 0

/-- Products of CPMs whose samples have the same numbers: the event matrices are multiplied as
without samples, and the result has, for each number, one sample that agrees with both samples of
that number, whose probability and weight are the products of theirs. -/
theorem C59_product_samples (S M P : Cpm K) (hS : WF U (noSamples S)) (hM : WF U (noSamples M))
    (hsS : SamplesOK S) (hsM : SamplesOK M) (h0S : S.Cs.flatten ≠ []) (h0M : M.Cs.flatten ≠ [])
    (hCS : S.C ≠ []) (hCM : M.C ≠ [])
    (hd : ∀ k ∈ childNames S, k ∉ childNames M)
    (hnS : S.sampleIdx.Nodup) (hnM : M.sampleIdx.Nodup)
    (hsame : ∀ n, n ∈ S.sampleIdx ↔ n ∈ M.sampleIdx)
    (hagree : ∀ (i j n : ℕ) (c d : List ℕ), S.sampleIdx[i]? = some n → M.sampleIdx[j]? = some n →
      S.Cs[i]? = some c → M.Cs[j]? = some d → ∀ k ∈ S.getNames, k ∈ M.getNames →
        sampleState S.vars c k = sampleState M.vars d k)
    (hP : (noSamples S).product (noSamples M) = .ok P) :
    ∃ Q, S.product M = .ok Q ∧ noSamples Q = P ∧ Q.Cs.length = S.Cs.length ∧
      ∀ (i j n : ℕ) (c d : List ℕ), S.sampleIdx[i]? = some n → M.sampleIdx[j]? = some n →
        S.Cs[i]? = some c → M.Cs[j]? = some d →
        ∃ (l : ℕ) (e : List ℕ), Q.sampleIdx[l]? = some n ∧ Q.Cs[l]? = some e ∧
          (∀ k ∈ S.getNames, sampleState Q.vars e k = sampleState S.vars c k) ∧
          (∀ k ∈ M.getNames, sampleState Q.vars e k = sampleState M.vars d k) ∧
          Q.q[l]? = some (S.q.getD i 0 * M.q.getD j 0) ∧
          Q.ps[l]? = some (weightAt S i * weightAt M j) := by
  have flat : ∀ {X : Cpm K}, WF U (noSamples X) → SamplesOK X → X.Cs.flatten ≠ [] → X.C ≠ [] →
      X.C.flatten ≠ [] := by
    intro X hX hs h0 hC hf
    exact hC ((flatten_ne_nil (M := noSamples X) hX (Cs_vars_ne (M := X) hs h0)).1 hf)
  have wt : ∀ (X : Cpm K) (i : ℕ), (weights X).getD i 0 = weightAt X i := by
    intro X i
    unfold weights weightAt
    split <;> rfl
  have core : ∀ (A B R : Cpm K), WF U (noSamples A) → WF U (noSamples B) → SamplesOK A →
      SamplesOK B → A.Cs.flatten ≠ [] → B.Cs.flatten ≠ [] → A.C ≠ [] →
      (∀ k ∈ childNames A, k ∉ childNames B) → B.sampleIdx.Nodup →
      (∀ n, n ∈ A.sampleIdx → n ∈ B.sampleIdx) →
      (∀ (i j n : ℕ) (c d : List ℕ), A.sampleIdx[i]? = some n → B.sampleIdx[j]? = some n →
        A.Cs[i]? = some c → B.Cs[j]? = some d → ∀ k ∈ A.getNames, k ∈ B.getNames →
        sampleState A.vars c k = sampleState B.vars d k) →
      productCore (noSamples A) (noSamples B) = .ok R →
      ∃ Q, productCore A B = .ok Q ∧ noSamples Q = R ∧ Q.Cs.length = A.Cs.length ∧
        ∀ (i j n : ℕ) (c d : List ℕ), A.sampleIdx[i]? = some n → B.sampleIdx[j]? = some n →
        A.Cs[i]? = some c → B.Cs[j]? = some d →
        ∃ (l : ℕ) (e : List ℕ), Q.sampleIdx[l]? = some n ∧ Q.Cs[l]? = some e ∧
          (∀ k ∈ A.getNames, sampleState Q.vars e k = sampleState A.vars c k) ∧
          (∀ k ∈ B.getNames, sampleState Q.vars e k = sampleState B.vars d k) ∧
          Q.q[l]? = some (A.q.getD i 0 * B.q.getD j 0) ∧
          Q.ps[l]? = some (weightAt A i * weightAt B j) := by
    intro A B R hA hB hsA hsB h0A h0B hCA hd hnB hsub hag hR
    have hne := flat hA hsA h0A hCA
    have hR' := productCore_ok hA hB hd hne
    rw [hR] at hR'
    injection hR' with hR'
    subst hR'
    refine ⟨_, productCore_attach hA hB hsA hsB h0A h0B hd hne hnB hsub, rfl, by simp, ?_⟩
    intro i j n c d hi hj hc hdd
    have hiA : i < A.Cs.length := by
      rw [List.getElem?_eq_some_iff] at hc; exact hc.1
    have hm : matchIdx A B i = j := by
      unfold matchIdx
      have h1 : A.sampleIdx.getD i 0 = n := by simp [List.getD, hi]
      rw [h1]
      obtain ⟨hjl, hjn⟩ := List.getElem?_eq_some_iff.1 hj
      rw [← hjn]
      exact hnB.idxOf_getElem j hjl
    have hcd : A.Cs.getD i [] = c := by simp [List.getD, hc]
    have hdd' : B.Cs.getD j [] = d := by simp [List.getD, hdd]
    have hst : ∀ k, k ∈ A.getNames ∨ k ∈ B.getNames →
        sampleState (newV A B) (reorder A B (d ++ notComS A B c)) k =
          if k ∈ B.getNames then sampleState B.vars d k else sampleState A.vars c k := fun k hk =>
      joined_state hA (hsA.rowLen c (List.mem_of_getElem? hc))
        (hsB.rowLen d (List.mem_of_getElem? hdd)) hk
    refine ⟨i, reorder A B (d ++ notComS A B c), hi, ?_, ?_, ?_, ?_, ?_⟩
    · simp only [List.getElem?_map, List.getElem?_range hiA, Option.map_some, hm, hcd, hdd']
    · intro k hk
      refine (hst k (.inl hk)).trans ?_
      split
      · rename_i hkB
        exact (hag i j n c d hi hj hc hdd k hk hkB).symm
      · rfl
    · intro k hk
      exact (hst k (.inr hk)).trans (if_pos hk)
    · simp only [List.getElem?_map, List.getElem?_range hiA, Option.map_some, hm]
      rw [mul_comm]
    · simp only [List.getElem?_map, List.getElem?_range hiA, Option.map_some, hm, wt]
      rw [mul_comm]
  unfold Cpm.product at hP ⊢
  by_cases hlen : S.vars.length > M.vars.length
  · rw [if_pos hlen]
    rw [if_pos (show (noSamples S).vars.length > (noSamples M).vars.length from hlen)] at hP
    obtain ⟨Q, q1, q2, q3, q4⟩ := core M S P hM hS hsM hsS h0M h0S hCM (fun k h1 h2 => hd k h2 h1)
      hnS (fun n => (hsame n).2)
      (fun i j n c d a1 a2 a3 a4 k k1 k2 => (hagree j i n d c a2 a1 a4 a3 k k2 k1).symm) hP
    refine ⟨Q, q1, q2, ?_, ?_⟩
    · rw [q3, ← hsM.siLen, ← hsS.siLen]
      exact (List.perm_of_nodup_nodup_toFinset_eq hnM hnS (by ext n; simp [hsame n])).length_eq
    · intro i j n c d a1 a2 a3 a4
      obtain ⟨l, e, b1, b2, b3, b4, b5, b6⟩ := q4 j i n d c a2 a1 a4 a3
      exact ⟨l, e, b1, b2, b4, b3, by rw [b5, mul_comm], by rw [b6, mul_comm]⟩
  · rw [if_neg hlen]
    rw [if_neg (show ¬ (noSamples S).vars.length > (noSamples M).vars.length from hlen)] at hP
    exact core S M P hS hM hsS hsM h0S h0M hCS hd hnM (fun n => (hsame n).1) hagree hP

end

/-! ## Non-vacuity and the accepted composite state -/

/-- State 2 of a two-valued variable is composite, but the constructor accepts it in a sample. -/
theorem C54_samples_accept_composite :
    ∃ M : Cpm ℕ, M.mk' = .ok M ∧ M.vars = [Ex.U 0] ∧ M.Cs = [[2]] ∧
      (Ex.U 0).getSet 2 = .ok {0, 1} :=
  ⟨{ vars := [Ex.U 0], noChild := 1, C := [[0], [1]], p := [1/10, 9/10], Cs := [[2]], q := [1],
     sampleIdx := [0] }, by decide +kernel, rfl, rfl, by decide +kernel⟩

/-- `Ex.A` with two samples -/
def Ex.As : Cpm ℕ :=
  { Ex.A with Cs := [[1], [0]], q := [9/10, 1/10], sampleIdx := [0, 1] }

/-- `Ex.B` with the samples of the same numbers -/
def Ex.Bs : Cpm ℕ :=
  { Ex.B with Cs := [[2, 0], [0, 1]], q := [1/2, 1/5], sampleIdx := [1, 0] }

theorem Ex.samples_ok : SamplesOK Ex.As ∧ SamplesOK Ex.Bs ∧ WF Ex.U (noSamples Ex.As) ∧
    WF Ex.U (noSamples Ex.Bs) ∧ Ex.As.Cs.flatten ≠ [] ∧ Ex.Bs.Cs.flatten ≠ [] ∧
    Ex.As.sampleIdx.Nodup ∧ Ex.Bs.sampleIdx.Nodup ∧
    (∀ k ∈ childNames Ex.As, k ∉ childNames Ex.Bs) := by decide +kernel

/-- The samples of `Ex.As` and `Ex.Bs` with the same number agree on the common variable, and the
product joins them. -/
example : sampleState Ex.As.vars [1] 0 = sampleState Ex.Bs.vars [0, 1] 0 ∧
    sampleState Ex.As.vars [0] 0 = sampleState Ex.Bs.vars [2, 0] 0 ∧
    ∃ Q, Ex.As.product Ex.Bs = .ok Q ∧
      (Q.Cs = [[1, 0], [0, 2]] ∧ Q.q = [9/50, 1/20] ∧ Q.sampleIdx = [0, 1]) :=
  ⟨by decide +kernel, by decide +kernel, exists_ok (by decide +kernel)⟩

/-- Conditioning on the parent. -/
example : ∃ Q, Ex.Bs.condition [Ex.U 0] [1] = .ok Q ∧ Q.ps = [0, 1/5] :=
  exists_ok (by decide +kernel)

end BNS
