import Verif.Model.MsysSamples
import Verif.Proofs.SamplesProd
import Verif.Proofs.Msys

/-! Samples of `prod_Msys_and_Mcomps`: products of CPMs that carry only samples. -/

namespace BNS

set_option linter.unusedSectionVars false

section
variable {K : Type} [LinearOrder K] {U : K → Variable K} {σ : ℕ → K → ℕ} {N : List ℕ}

/-- a CPM that carries only samples, those of `σ` with the numbers `N` -/
structure OnlySamples (U : K → Variable K) (σ : ℕ → K → ℕ) (N : List ℕ) (M : Cpm K) : Prop where
  wf : WF U (noSamples M)
  noC : M.C = []
  ok : SamplesOK M
  nodup : M.sampleIdx.Nodup
  nums : ∀ n, n ∈ M.sampleIdx ↔ n ∈ N
  scope : M.vars ≠ []
  by_ : SampledBy σ M

theorem OnlySamples.flat {M : Cpm K} (h : OnlySamples U σ N M) (hN : N ≠ []) :
    M.Cs.flatten ≠ [] := by
  intro hf
  rw [List.flatten_eq_nil_iff] at hf
  obtain ⟨n, hn⟩ := List.exists_mem_of_ne_nil _ hN
  have h1 := List.length_pos_of_mem ((h.nums n).2 hn)
  rw [h.ok.siLen] at h1
  have h2 := h.ok.rowLen _ (List.getElem_mem h1)
  rw [hf _ (List.getElem_mem h1)] at h2
  exact h.scope (List.length_eq_zero_iff.1 h2.symm)

theorem getD_weights (M : Cpm K) (n : ℕ) : (weights M).getD (M.sampleIdx.idxOf n) 0 = numWeight M n := by
  unfold weights numWeight numProb
  split <;> rfl

theorem sampled_core {A B : Cpm K} (hA : OnlySamples U σ N A) (hB : OnlySamples U σ N B)
    (hN : N ≠ []) (hd : ∀ k ∈ childNames A, k ∉ childNames B) :
    ∃ Q, productCore A B = .ok Q ∧ OnlySamples U σ N Q ∧
      (∀ k, k ∈ Q.getNames ↔ k ∈ A.getNames ∨ k ∈ B.getNames) ∧
      (∀ k, k ∈ childNames Q ↔ k ∈ childNames A ∨ k ∈ childNames B) ∧
      ∀ n ∈ N, numProb Q n = numProb A n * numProb B n ∧ numWeight Q n = numWeight A n * numWeight B n := by
  have hsub : ∀ n ∈ A.sampleIdx, n ∈ B.sampleIdx := fun n hn => (hB.nums n).2 ((hA.nums n).1 hn)
  have hprod := productCore_attach' hA.wf hB.wf hA.ok hB.ok (hA.flat hN) (hB.flat hN) hd
    (.inr ⟨hA.noC, hB.noC⟩) hB.nodup hsub
  have hwf := sortPure_WF (prodPure_WF hA.wf hB.wf hd)
  have hnn : ((newV A B).map Variable.name).Nodup :=
    newNames_nodup (S := noSamples A) (M := noSamples B) hA.wf hB.wf hd
  have hlenA := hA.ok.siLen
  -- the sample at position `i`
  have hat : ∀ i < A.Cs.length, ∃ n ∈ N, A.sampleIdx[i]? = some n ∧ A.sampleIdx.getD i 0 = n ∧
      A.sampleIdx.idxOf n = i ∧ matchIdx A B i = B.sampleIdx.idxOf n ∧
      B.sampleIdx.idxOf n < B.Cs.length ∧ B.sampleIdx[B.sampleIdx.idxOf n]? = some n := by
    intro i hi
    have hi' : i < A.sampleIdx.length := by omega
    have hn : A.sampleIdx[i] ∈ N := (hA.nums _).1 (List.getElem_mem hi')
    have hb := List.idxOf_lt_length_iff.2 (hsub _ (List.getElem_mem hi'))
    refine ⟨A.sampleIdx[i], hn, by simp [hi'], by simp [hi'], hA.nodup.idxOf_getElem i hi', ?_,
      by rw [← hB.ok.siLen]; exact hb, ?_⟩
    · unfold matchIdx; simp [hi']
    · rw [List.getElem?_eq_getElem hb, List.getElem_idxOf hb]
  have hstate : ∀ i < A.Cs.length, ∀ n, A.sampleIdx[i]? = some n → ∀ k ∈ newNames A B,
      sampleState (newV A B) (reorder A B (B.Cs.getD (matchIdx A B i) [] ++
        notComS A B (A.Cs.getD i []))) k = σ n k := by
    intro i hi n hin k hk
    obtain ⟨n', -, h1, -, -, h4, h5, h6⟩ := hat i hi
    rw [hin] at h1
    obtain rfl : n = n' := by simpa using h1
    rw [h4]
    have hcA : A.Cs[i]? = some (A.Cs.getD i []) := by simp [hi]
    have hcB : B.Cs[B.sampleIdx.idxOf n]? = some (B.Cs.getD (B.sampleIdx.idxOf n) []) := by simp [h5]
    have hk' := (mem_newNames k).1 hk
    rw [joined_state hA.wf (hA.ok.rowLen _ (List.mem_of_getElem? hcA))
      (hB.ok.rowLen _ (List.mem_of_getElem? hcB)) hk']
    split
    · rename_i hkB
      obtain ⟨v, hv, rfl⟩ := List.mem_map.1 hkB
      exact hB.by_ _ _ _ h6 hcB v hv
    · rename_i hkB
      obtain ⟨v, hv, rfl⟩ := List.mem_map.1 (hk'.resolve_right hkB)
      exact hA.by_ _ _ _ hin hcA v hv
  -- the states of the realisations are basic states
  have hσA : ∀ n ∈ N, ∀ v ∈ A.vars, σ n v.name < v.values.length := by
    intro n hn v hv
    have hi := List.idxOf_lt_length_iff.2 ((hA.nums n).2 hn)
    have hi' : A.sampleIdx.idxOf n < A.Cs.length := by rw [← hlenA]; exact hi
    have hin : A.sampleIdx[A.sampleIdx.idxOf n]? = some n := by
      rw [List.getElem?_eq_getElem hi, List.getElem_idxOf hi]
    rw [← hA.by_ _ _ _ hin (List.getElem?_eq_getElem hi') v hv]
    exact (zip_forall_iff hA.wf.nodup (hA.ok.rowLen _ (List.getElem_mem hi'))
      (fun v s => s < v.values.length)).1 (hA.ok.entry _ (List.getElem_mem hi')) v hv
  have hσB : ∀ n ∈ N, ∀ v ∈ B.vars, σ n v.name < v.values.length := by
    intro n hn v hv
    have hi := List.idxOf_lt_length_iff.2 ((hB.nums n).2 hn)
    have hi' : B.sampleIdx.idxOf n < B.Cs.length := by rw [← hB.ok.siLen]; exact hi
    have hin : B.sampleIdx[B.sampleIdx.idxOf n]? = some n := by
      rw [List.getElem?_eq_getElem hi, List.getElem_idxOf hi]
    rw [← hB.by_ _ _ _ hin (List.getElem?_eq_getElem hi') v hv]
    exact (zip_forall_iff hB.wf.nodup (hB.ok.rowLen _ (List.getElem_mem hi'))
      (fun v s => s < v.values.length)).1 (hB.ok.entry _ (List.getElem_mem hi')) v hv
  have hpos : 0 < A.Cs.length := by
    obtain ⟨n, hn⟩ := List.exists_mem_of_ne_nil _ hN
    rw [← hlenA]
    exact List.length_pos_of_mem ((hA.nums n).2 hn)
  refine ⟨_, hprod, ⟨hwf, ?_, ⟨?_, ?_, by simp, .inr (by simp), by simpa using hlenA⟩, hA.nodup,
    hA.nums, ?_, ?_⟩, ?_, ?_, ?_⟩
  · have h0 : (noSamples A).C = [] := hA.noC
    simp [sortPure, sortIdx, prodPure, h0, argsortOn]
  · intro r hr
    obtain ⟨i, _, rfl⟩ := List.mem_map.1 hr
    exact length_reorder _
  · intro r hr
    obtain ⟨i, hi, rfl⟩ := List.mem_map.1 hr
    have hi : i < A.Cs.length := by simpa using hi
    obtain ⟨n, hn, hin, -⟩ := hat i hi
    refine (zip_forall_iff hnn (length_reorder _) (fun v s => s < v.values.length)).2 ?_
    intro v hv
    have := hstate i hi n hin v.name (List.mem_map_of_mem hv)
    unfold sampleState at this
    unfold val
    rw [this]
    rcases newV_sub v hv with h | h
    · exact hσA n hn v h
    · exact hσB n hn v h
  · obtain ⟨v, hv⟩ := List.exists_mem_of_ne_nil _ hA.scope
    have := (mem_newNames (S := A) (M := B) v.name).2 (.inl (List.mem_map_of_mem hv))
    intro h0
    have h0' : newV A B = [] := h0
    unfold newNames at this
    rw [h0'] at this
    cases this
  · intro i n c hin hc v hv
    have hi : i < A.Cs.length := by
      have := (List.getElem?_eq_some_iff.1 hc).1
      simpa using this
    have hc' : reorder A B (B.Cs.getD (matchIdx A B i) [] ++ notComS A B (A.Cs.getD i [])) = c := by
      simpa [hi] using hc
    rw [← hc']
    exact hstate i hi n hin v.name (List.mem_map_of_mem hv)
  · exact mem_newNames
  · intro k
    have h1 : childNames (sortPure (prodPure (noSamples A) (noSamples B))) =
        (newChildV A B).map Variable.name := by
      unfold childNames
      simp only [sortPure, prodPure]
      show ((newV A B).take (newChildV A B).length).map _ = _
      unfold newV
      rw [List.take_left' rfl]
    show k ∈ childNames (sortPure (prodPure (noSamples A) (noSamples B))) ↔ _
    rw [h1]
    unfold childNames
    simp only [List.mem_map, mem_newChild]
    constructor
    · rintro ⟨v, h | h, rfl⟩
      · exact .inl ⟨v, h, rfl⟩
      · exact .inr ⟨v, h, rfl⟩
    · rintro (⟨v, h, rfl⟩ | ⟨v, h, rfl⟩)
      · exact ⟨v, .inl h, rfl⟩
      · exact ⟨v, .inr h, rfl⟩
  · intro n hn
    have hi := List.idxOf_lt_length_iff.2 ((hA.nums n).2 hn)
    have hi' : A.sampleIdx.idxOf n < A.Cs.length := by rw [← hlenA]; exact hi
    obtain ⟨n', -, h1, h2, h3, h4, -⟩ := hat _ hi'
    have hin : A.sampleIdx[A.sampleIdx.idxOf n]? = some n := by
      rw [List.getElem?_eq_getElem hi, List.getElem_idxOf hi]
    rw [hin] at h1
    obtain rfl : n = n' := by simpa using h1
    constructor
    · unfold numProb
      simp only
      rw [List.getD_eq_getElem _ _ (by simpa using hi')]
      simp only [List.getElem_map, List.getElem_range, h4]
      rw [mul_comm]
    · rw [← getD_weights A, ← getD_weights B]
      unfold numWeight
      rw [if_neg (fun h => by have := congrArg List.length h; simp at this; simp [this] at hpos)]
      simp only
      rw [List.getD_eq_getElem _ _ (by simpa using hi')]
      simp only [List.getElem_map, List.getElem_range, h4]
      rw [mul_comm]

theorem sampled_product {A B : Cpm K} (hA : OnlySamples U σ N A) (hB : OnlySamples U σ N B)
    (hN : N ≠ []) (hd : ∀ k ∈ childNames A, k ∉ childNames B) :
    ∃ Q, A.product B = .ok Q ∧ OnlySamples U σ N Q ∧
      (∀ k, k ∈ Q.getNames ↔ k ∈ A.getNames ∨ k ∈ B.getNames) ∧
      (∀ k, k ∈ childNames Q ↔ k ∈ childNames A ∨ k ∈ childNames B) ∧
      ∀ n ∈ N, numProb Q n = numProb A n * numProb B n ∧ numWeight Q n = numWeight A n * numWeight B n := by
  unfold Cpm.product
  split
  · obtain ⟨Q, h1, h2, h3, h4, h5⟩ := sampled_core hB hA hN (fun k hk hk' => hd k hk' hk)
    refine ⟨Q, h1, h2, fun k => (h3 k).trans or_comm, fun k => (h4 k).trans or_comm, fun n hn => ?_⟩
    obtain ⟨a, b⟩ := h5 n hn
    exact ⟨a.trans (mul_comm _ _), b.trans (mul_comm _ _)⟩
  · exact sampled_core hA hB hN hd

theorem sampled_fold (hN : N ≠ []) : ∀ (ms : List (Cpm K)) {A : Cpm K}, OnlySamples U σ N A →
    (∀ m ∈ ms, OnlySamples U σ N m) →
    (∀ m ∈ ms, ∀ k ∈ childNames A, k ∉ childNames m) →
    ms.Pairwise (fun m m' => ∀ k ∈ childNames m, k ∉ childNames m') →
    ∃ Q, ms.foldlM (fun prod cx => prod.product cx) A = .ok Q ∧ OnlySamples U σ N Q ∧
      (∀ k, k ∈ Q.getNames ↔ k ∈ A.getNames ∨ ∃ m ∈ ms, k ∈ m.getNames) ∧
      ∀ n ∈ N, numProb Q n = numProb A n * (ms.map fun m => numProb m n).prod ∧
        numWeight Q n = numWeight A n * (ms.map fun m => numWeight m n).prod
  | [], A, hA, _, _, _ => ⟨A, rfl, hA, by simp, by simp⟩
  | m :: ms, A, hA, hms, hd, hp => by
    rw [List.pairwise_cons] at hp
    obtain ⟨Q, h1, h2, h3, h4, h5⟩ := sampled_product hA (hms m (by simp)) hN (hd m (by simp))
    obtain ⟨R, r1, r2, r3, r4⟩ := sampled_fold hN ms h2 (fun m' hm' => hms m' (by simp [hm']))
      (fun m' hm' k hk => by
        rcases (h4 k).1 hk with h | h
        · exact hd m' (by simp [hm']) k h
        · exact hp.1 m' hm' k h) hp.2
    refine ⟨R, ?_, r2, fun k => ?_, fun n hn => ?_⟩
    · rw [List.foldlM_cons, h1, ok_bind]; exact r1
    · rw [r3, h3]; simp [or_assoc]
    · obtain ⟨a, b⟩ := h5 n hn
      obtain ⟨c, d⟩ := r4 n hn
      rw [c, d, a, b]
      simp [mul_assoc]

/-! ### the dictionary of CPMs -/

variable {cv : List (Variable K)} {cs : List ℕ} {S : Cpm K} {comps : List (Cpm K)} {E : K → Cpm K}

theorem dict_fold {cond : List K} (hE : ∀ m ∈ comps, ∀ k, m.vars.head?.map Variable.name = some k →
      E k = m) :
    ∀ (ps : List (Variable K)) (d : List (K × Cpm K)),
    (∀ v ∈ ps, v.name ∈ cond ∨ ∃ m ∈ comps, m.vars.head?.map Variable.name = some v.name) →
    (∀ v ∈ ps, v.name ∉ d.map Prod.fst) → (ps.map Variable.name).Nodup →
    ps.foldlM (samplesStep comps cond) d =
      .ok (d ++ (ps.filter fun v => v.name ∉ cond).map fun v => (v.name, E v.name))
  | [], d, _, _, _ => by simp [pure_ok]
  | v :: ps, d, h1, h2, h3 => by
    rw [List.map_cons, List.nodup_cons] at h3
    rw [List.foldlM_cons]
    unfold samplesStep
    by_cases hc : v.name ∈ cond
    · rw [if_pos hc, ok_bind]
      have := dict_fold hE ps d (fun w hw => h1 w (by simp [hw])) (fun w hw => h2 w (by simp [hw])) h3.2
      unfold samplesStep at this
      rw [this, List.filter_cons_of_neg (by simp [hc])]
    · rw [if_neg hc]
      have hfind : comps.find? (fun m => (m.vars.head?.map Variable.name) = some v.name) =
          some (E v.name) := by
        obtain ⟨m, hm, hmv⟩ := (h1 v (by simp)).resolve_left hc
        cases hf : comps.find? (fun m => (m.vars.head?.map Variable.name) = some v.name) with
        | none => simpa [hmv] using List.find?_eq_none.1 hf m hm
        | some m' =>
          have := List.find?_some hf
          rw [hE m' (List.mem_of_find?_eq_some hf) v.name (by simpa using this)]
      rw [hfind]
      simp only
      rw [ok_bind]
      have hset : itemSet d v.name (E v.name) = d ++ [(v.name, E v.name)] := by
        unfold itemSet; rw [if_neg (h2 v (by simp))]
      rw [hset]
      have := dict_fold hE ps (d ++ [(v.name, E v.name)]) (fun w hw => h1 w (by simp [hw]))
        (fun w hw => by
          rw [List.map_append, List.mem_append]
          rintro (h | h)
          · exact h2 w (by simp [hw]) h
          · simp only [List.map_cons, List.map_nil, List.mem_singleton] at h
            exact h3.1 (h ▸ List.mem_map_of_mem hw)) h3.2
      unfold samplesStep at this
      rw [this, List.filter_cons_of_pos (by simp [hc])]
      simp

/-! ### the tables do not see the samples -/

theorem pyGet_map {α β : Type} (f : α → β) (l : List α) (i : ℕ) :
    pyGet (l.map f) i = (pyGet l i).map f := by
  unfold pyGet
  rw [List.getElem?_map]
  cases l[i]? <;> rfl

theorem except_map_bind {ε α β γ : Type} (x : Except ε α) (f : α → β) (g : β → Except ε γ) :
    (x.map f >>= g) = x >>= fun a => g (f a) := by cases x <;> rfl

theorem condScope_noSamples (comps : List (Cpm K)) :
    condScope (comps.map noSamples) = condScope comps := by
  cases comps with
  | nil => rfl
  | cons m ms =>
    unfold condScope
    simp only [List.map_cons]
    simp only [← List.map_cons, List.forall_mem_map]
    rfl

theorem compProb_noSamples (m : Cpm K) (c1 : List ℕ) : ∀ l, compProb (noSamples m) c1 l = compProb m c1 l
  | [] => rfl
  | k :: ks => by
    unfold compProb
    rw [compProb_noSamples m c1 ks]
    rfl

theorem prodMsys_noSamples (S : Cpm K) (comps : List (Cpm K)) :
    prodMsysMcomps (noSamples S) (comps.map noSamples) = prodMsysMcomps S comps := by
  unfold prodMsysMcomps
  simp only [condScope_noSamples, List.forall_mem_map, List.mapM_map, pyGet_map, except_map_bind,
    compProb_noSamples]
  rfl

theorem compPars_noSamples (S : Cpm K) (comps : List (Cpm K)) :
    compPars (noSamples S) (comps.map noSamples) = compPars S comps ∧
      otherPars (noSamples S) (comps.map noSamples) = otherPars S comps := by
  unfold compPars otherPars
  simp only [List.mem_map, exists_exists_and_eq_and, forall_exists_index, and_imp,
    forall_apply_eq_imp_iff₂]
  exact ⟨rfl, rfl⟩

theorem OnlySamples.of {M : Cpm K} (hw : WF U (noSamples M)) (hs : SamplesOK M)
    (hn : M.sampleIdx.Nodup) (hN : ∀ n, n ∈ M.sampleIdx ↔ n ∈ N) (hv : M.vars ≠ [])
    (hb : SampledBy σ M) : OnlySamples U σ N (dropTable M) :=
  ⟨⟨hw.env, hw.table, hw.nodup, by simp [dropTable, noSamples], by simp [dropTable, noSamples],
    rfl, hw.child, ⟨rfl, rfl, rfl, rfl⟩⟩, rfl, ⟨hs.rowLen, hs.entry, hs.qLen, hs.psLen, hs.siLen⟩,
    hn, hN, hv, hb⟩

/-- the product of the samples -/
theorem msysSamples_ok (h : MsysSamplesOK U cv cs S comps E σ) :
    ∃ Q, msysSamples S comps (cv.map Variable.name) = .ok Q ∧
      OnlySamples U σ S.sampleIdx Q ∧
      (∀ k, k ∈ Q.getNames ↔ k ∈ S.getNames ∨ ∃ v ∈ compPars S comps, k ∈ (E v.name).getNames) ∧
      ∀ n ∈ S.sampleIdx,
        numProb Q n = numProb S n * ((compPars S comps).map fun v => numProb (E v.name) n).prod ∧
        numWeight Q n =
          numWeight S n * ((compPars S comps).map fun v => numWeight (E v.name) n).prod := by
  obtain ⟨hT, hE, hch, hne, hS, hcs, hnums, hall, hextra⟩ := h
  have hSv : S.vars ≠ [] := hT.scope
  have hNne : S.sampleIdx ≠ [] := by
    intro h0
    have := hS.1.siLen
    rw [h0] at this
    exact hne (List.length_eq_zero_iff.1 this.symm)
  have hmv : ∀ m ∈ comps, ∃ v, m.vars = v :: cv ∧ m.noChild = 1 := by
    intro m hm
    obtain ⟨v, hv⟩ := hT.compsOK.vars _ (List.mem_map_of_mem (f := noSamples) hm)
    exact ⟨v, hv, hT.compsOK.noChild (noSamples m) (List.mem_map_of_mem hm)⟩
  have hcn : ∀ m ∈ comps, ∀ k, k ∈ childNames m ↔ m.vars.head?.map Variable.name = some k := by
    intro m hm k
    obtain ⟨v, hv, h1⟩ := hmv m hm
    unfold childNames
    rw [hv, h1]
    simp [eq_comm]
  have hcompS : ∀ v ∈ compPars S comps, E v.name ∈ comps ∧ v.name ∈ childNames (E v.name) := by
    intro v hv
    obtain ⟨m, hm, hk⟩ := of_decide_eq_true (List.mem_filter.1 hv).2
    rw [hE m hm _ hk]
    exact ⟨hm, hk⟩
  -- the dictionary
  obtain ⟨v0, vr, hvr⟩ := List.exists_cons_of_ne_nil hSv
  have hnd : (v0.name :: vr.map Variable.name).Nodup := by
    have := hT.sys.nodup
    rw [show (noSamples S).vars = S.vars from rfl, hvr] at this
    exact this
  have hdrop : S.vars.drop S.noChild = vr.drop (S.noChild - 1) := by
    rw [hvr]
    cases hk : S.noChild with
    | zero => omega
    | succ k => simp
  have hdict : (S.vars.drop S.noChild).foldlM (samplesStep comps (cv.map Variable.name))
      [(v0.name, S)] = .ok ([(v0.name, S)] ++ ((S.vars.drop S.noChild).filter fun v =>
        v.name ∉ cv.map Variable.name).map fun v => (v.name, E v.name)) := by
    refine dict_fold (fun m hm k hk => hE m hm k ((hcn m hm k).2 hk)) _ _ ?_ ?_ ?_
    · intro v hv
      refine (hall v hv).imp_right ?_
      rintro ⟨m, hm, hk⟩
      exact ⟨m, hm, (hcn m hm _).1 hk⟩
    · intro v hv
      rw [hdrop] at hv
      simp only [List.map_cons, List.map_nil, List.mem_singleton]
      intro e
      exact (List.nodup_cons.1 hnd).1 (e ▸ List.mem_map_of_mem (List.mem_of_mem_drop hv))
    · rw [hdrop]
      exact (List.nodup_cons.1 hnd).2.sublist ((List.drop_sublist _ _).map _)
  have hfil : ((S.vars.drop S.noChild).filter fun v => v.name ∉ cv.map Variable.name) =
      compPars S comps := by
    unfold compPars
    refine List.filter_congr fun v hv => ?_
    rw [decide_eq_decide]
    constructor
    · exact fun h => (hall v hv).resolve_left h
    · rintro ⟨m, hm, hk⟩ hc
      obtain ⟨w, hw, e⟩ := List.mem_map.1 hc
      exact hT.compsOK.indep _ (List.mem_map_of_mem (f := noSamples) hm) w hw (e ▸ hk)
  rw [hfil] at hdict
  -- the product
  have hO : OnlySamples U σ S.sampleIdx (dropTable S) :=
    .of hT.sys hS.1 hS.2.1 (fun _ => Iff.rfl) hSv hS.2.2
  have hOm : ∀ m ∈ comps, OnlySamples U σ S.sampleIdx (dropTable m) := fun m hm =>
    .of (hT.compsOK.wf _ (List.mem_map_of_mem (f := noSamples) hm)) (hcs m hm).1 (hcs m hm).2.1
      (hnums m hm) (by obtain ⟨v, hv, -⟩ := hmv m hm; simp [hv]) (hcs m hm).2.2
  have hparN : ((compPars S comps).map Variable.name).Nodup := by
    have h1 := hT.sys.nodup
    exact h1.sublist ((List.filter_sublist.trans (List.drop_sublist _ _)).map _)
  obtain ⟨Q, q1, q2, q3, q4⟩ := sampled_fold (U := U) (σ := σ) hNne
    ((compPars S comps).map fun v => dropTable (E v.name)) hO
    (by
      intro m hm
      obtain ⟨v, hv, rfl⟩ := List.mem_map.1 hm
      exact hOm _ (hcompS v hv).1)
    (by
      intro m hm k hk
      obtain ⟨v, hv, rfl⟩ := List.mem_map.1 hm
      exact fun hk' => hT.notChild _ (List.mem_map_of_mem (f := noSamples) (hcompS v hv).1) k hk' hk)
    (by
      rw [List.pairwise_map]
      rw [List.Nodup, List.pairwise_map] at hparN
      refine (List.pairwise_iff_forall_sublist.2 ?_)
      intro v w hvw k hk hk'
      have hne' := List.pairwise_iff_forall_sublist.1 hparN hvw
      have hv : v ∈ compPars S comps := hvw.subset (by simp)
      have hw : w ∈ compPars S comps := hvw.subset (by simp)
      have e1 := (hcn _ (hcompS v hv).1 k).1 hk
      have e2 := (hcn _ (hcompS v hv).1 _).1 (hcompS v hv).2
      have e3 := (hcn _ (hcompS w hw).1 k).1 hk'
      have e4 := (hcn _ (hcompS w hw).1 _).1 (hcompS w hw).2
      rw [e1] at e2
      rw [e3] at e4
      exact hne' ((Option.some.inj e2).symm.trans (Option.some.inj e4)))
  refine ⟨Q, ?_, q2, ?_, ?_⟩
  · unfold msysSamples
    rw [hvr, show pyGet (v0 :: vr) 0 = .ok v0 from rfl, ok_bind, ← hvr, hdict, ok_bind]
    simp only [List.cons_append, List.nil_append, List.map_cons, List.map_map]
    exact q1
  · intro k
    rw [q3]
    simp only [List.mem_map, exists_exists_and_eq_and]
    rfl
  · intro n hn
    have := q4 n hn
    simp only [List.map_map] at this
    exact this

theorem noSamples_attach {P : Cpm K} (hP : WF U P) (Cs : List (List ℕ)) (q ps : List ℚ)
    (si : List ℕ) : noSamples { P with Cs := Cs, q := q, ps := ps, sampleIdx := si } = P := by
  obtain ⟨h1, h2, h3, h4⟩ := hP.noCs
  cases P
  simp only at h1 h2 h3 h4
  subst h1 h2 h3 h4
  rfl

/-- samples put in the order of the columns of a table -/
theorem reindex_samples {P Q : Cpm K} (hP : WF U P) (hQ : OnlySamples U σ N Q)
    (hsub : ∀ k ∈ P.getNames, k ∈ Q.getNames) :
    ∃ Cs, (do
        let idx ← Q.getColInd P.getNames
        let Cs ← takeCols Q.Cs idx
        Cpm.mk' { P with Cs := Cs, q := Q.q, ps := Q.ps, sampleIdx := Q.sampleIdx }) =
        .ok { P with Cs := Cs, q := Q.q, ps := Q.ps, sampleIdx := Q.sampleIdx } ∧
      SamplesOK { P with Cs := Cs, q := Q.q, ps := Q.ps, sampleIdx := Q.sampleIdx } ∧
      SampledBy σ { P with Cs := Cs, q := Q.q, ps := Q.ps, sampleIdx := Q.sampleIdx } := by
  have hidx : Q.getColInd P.getNames = .ok (P.getNames.map fun k => Q.getNames.idxOf k) := by
    unfold Cpm.getColInd
    rw [pyAssert_true (show P.getNames.Nodup from hP.nodup), ok_bind]
    exact mapM_ok fun k hk => by rw [pyIndex_eq, if_pos (hsub k hk)]
  have hcols : takeCols Q.Cs (P.getNames.map fun k => Q.getNames.idxOf k) =
      .ok (Q.Cs.map fun r => (P.getNames.map fun k => Q.getNames.idxOf k).map fun i => r.getD i 0) := by
    refine takeCols_ok fun r hr i hi => ?_
    obtain ⟨k, hk, rfl⟩ := List.mem_map.1 hi
    rw [hQ.ok.rowLen r hr]
    have := List.idxOf_lt_length_iff.2 (hsub k hk)
    unfold Cpm.getNames at this ⊢
    simpa using this
  have hst : ∀ r : List ℕ, ∀ v ∈ P.vars, sampleState P.vars
      ((P.getNames.map fun k => Q.getNames.idxOf k).map fun i => r.getD i 0) v.name =
        sampleState Q.vars r v.name := by
    intro r v hv
    rw [List.map_map]
    exact val_map P.getNames (fun k => r.getD (Q.getNames.idxOf k) 0) (List.mem_map_of_mem hv)
  set Cs := Q.Cs.map fun r => (P.getNames.map fun k => Q.getNames.idxOf k).map fun i => r.getD i 0
    with hCs
  have hlen : Cs.length = Q.Cs.length := by simp [hCs]
  have hok : SamplesOK { P with Cs := Cs, q := Q.q, ps := Q.ps, sampleIdx := Q.sampleIdx } := by
    refine ⟨?_, ?_, by rw [show (_ : Cpm K).Cs.length = _ from hlen]; exact hQ.ok.qLen, ?_,
      by rw [show (_ : Cpm K).Cs.length = _ from hlen]; exact hQ.ok.siLen⟩
    · intro c hc
      obtain ⟨r, hr, rfl⟩ := List.mem_map.1 hc
      simp [Cpm.getNames]
    · intro c hc
      obtain ⟨r, hr, rfl⟩ := List.mem_map.1 hc
      refine (zip_forall_iff hP.nodup (by simp [Cpm.getNames]) (fun v s => s < v.values.length)).2 ?_
      intro v hv
      have h1 := hst r v hv
      unfold sampleState at h1
      unfold val
      rw [h1]
      have h2 := hQ.wf.mem_of_name (hsub v.name (List.mem_map_of_mem hv))
      rw [hP.env v hv] at h2
      exact (zip_forall_iff hQ.wf.nodup (hQ.ok.rowLen r hr) (fun v s => s < v.values.length)).1
        (hQ.ok.entry r hr) v h2
    · rw [show (_ : Cpm K).Cs.length = _ from hlen]; exact hQ.ok.psLen
  refine ⟨Cs, ?_, hok, ?_⟩
  · rw [hidx, ok_bind, hcols, ok_bind]
    have hn := noSamples_attach hP Cs Q.q Q.ps Q.sampleIdx
    refine mk'_attach ?_ hok.chk
    rw [hn]
    exact mk'_ok hP.rowLen hP.entry hP.child (.inr hP.pLen) hP.noCs.1
  · intro i n c hin hc v hv
    have hc' : Cs[i]? = some c := hc
    rw [hCs, List.getElem?_map] at hc'
    obtain ⟨r, hr, rfl⟩ := Option.map_eq_some_iff.1 hc'
    have h2 := hQ.wf.mem_of_name (hsub v.name (List.mem_map_of_mem hv))
    rw [hP.env v hv] at h2
    exact (hst r v hv).trans (hQ.by_ i n r hin hr v h2)

end

end BNS
