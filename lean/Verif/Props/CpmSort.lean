import Verif.Proofs.CpmSort
import Verif.Props.CpmOps

/-!
# Property C13: sorting a CPM with samples
-/

namespace BNS

set_option linter.unusedSectionVars false

section
variable {K : Type} [DecidableEq K]

/-- A CPM with sample numbers, as many as rows.  Sorting orders the numbers; the rows, their
probabilities and the weights `q` are carried along; the sampled states `Cs` and their probabilities `ps`
stay where they are.  (Missing for the full claim: `Cs` and `ps` should be carried along as well, see
`C13_samples_mismatched`.) -/
theorem C13_samples_partial (M : Cpm K) (hne : M.sampleIdx ≠ [])
    (hrow : ∀ r ∈ M.C, r.length = M.vars.length)
    (hent : ∀ r ∈ M.C, ∀ p ∈ M.vars.zip r, p.2 + 1 < 2 ^ p.1.values.length)
    (hC : M.C.length = M.sampleIdx.length) (hp : M.p.length = M.sampleIdx.length)
    (hq : M.q.length = M.sampleIdx.length)
    (hCs : M.Cs.flatten = [] ∨ M.Cs.length = M.sampleIdx.length) :
    ∃ P, M.sort = .ok P ∧ P.vars = M.vars ∧ P.noChild = M.noChild ∧ P.Cs = M.Cs ∧ P.ps = M.ps ∧
      P.sampleIdx.Pairwise (· ≤ ·) ∧
      (P.sampleIdx.zip (P.C.zip (P.p.zip P.q))).Perm (M.sampleIdx.zip (M.C.zip (M.p.zip M.q))) := by
  set n := M.sampleIdx.length with hn
  set idx := argsortOn id 0 M.sampleIdx with hidx
  have hperm : idx.Perm (List.range n) := argsortOn_perm _ _ _
  have hlt : ∀ i ∈ idx, i < n := fun i hi => by simpa using hperm.subset hi
  have hlen : idx.length = n := by simpa using hperm.length_eq
  have hn0 : n ≠ 0 := by
    intro h0
    exact hne (List.length_eq_zero_iff.1 h0)
  have hopt : ∀ {α : Type} (X : List α) (d : α), X.length = n →
      takeRowsOpt X idx = .ok (idx.map fun i => X.getD i d) := by
    intro α X d hX
    unfold takeRowsOpt
    split
    · exact absurd hX.symm hn0
    · exact takeRows_ok d (by rw [hX]; exact hlt)
  have hsub : ∀ r ∈ idx.map (fun i => M.C.getD i []), r ∈ M.C := by
    intro r hr
    obtain ⟨i, hi, rfl⟩ := List.mem_map.1 hr
    have : i < M.C.length := by rw [hC]; exact hlt i hi
    have e : M.C.getD i [] = M.C[i] := by simp [this]
    rw [e]
    exact List.getElem_mem this
  refine ⟨{ M with C := idx.map fun i => M.C.getD i []
                   p := idx.map fun i => M.p.getD i 0
                   q := idx.map fun i => M.q.getD i 0
                   sampleIdx := idx.map fun i => M.sampleIdx.getD i 0 }, ?_, rfl, rfl, rfl, rfl, ?_, ?_⟩
  · unfold Cpm.sort
    rw [if_neg hne]
    simp only
    rw [← hidx, takeRows_ok [] (by rw [hC]; exact hlt), ok_bind,
      checkC_ok (fun r hr => hrow r (hsub r hr)) (fun r hr => hent r (hsub r hr)), ok_bind,
      hopt M.p 0 hp, ok_bind, pyAssert_true (Or.inr (by simp)), ok_bind, hopt M.q 0 hq, ok_bind,
      pyAssert_true (Or.inr (hCs.imp_right fun e => by rw [List.length_map, hlen, e])), ok_bind,
      hopt M.sampleIdx 0 rfl, ok_bind,
      pyAssert_true (Or.inr (hCs.imp_right fun e => by rw [List.length_map, hlen, e])), ok_bind]
    rfl
  · simp only
    rw [List.pairwise_map]
    have := argsortOn_sorted (id : ℕ → ℕ) 0 M.sampleIdx
    rw [List.map_id] at this
    exact this
  · simp only
    rw [List.zip_map', List.zip_map', List.zip_map']
    refine (hperm.map _).trans (List.Perm.of_eq ?_)
    refine List.ext_getElem (by simp [hC, hp, hq, ← hn]) fun i h1 h2 => ?_
    simp only [List.length_map, List.length_range] at h1
    have a1 : i < M.C.length := by omega
    have a2 : i < M.p.length := by omega
    have a3 : i < M.q.length := by omega
    have a4 : i < M.sampleIdx.length := h1
    simp [a1, a2, a3, a4]

/-- Fewer rows than sample numbers, for example a CPM with samples and no rows: `sort` raises
`IndexError`. -/
theorem C13_samples_only (M : Cpm K) (hlt : M.C.length < M.sampleIdx.length) :
    M.sort = .error .index := by
  have hne : M.sampleIdx ≠ [] := by
    intro h0
    rw [h0] at hlt
    exact absurd hlt (by simp)
  have hperm : (argsortOn id 0 M.sampleIdx).Perm (List.range M.sampleIdx.length) := argsortOn_perm _ _ _
  have hmem : M.C.length ∈ argsortOn id 0 M.sampleIdx := hperm.mem_iff.2 (List.mem_range.2 hlt)
  unfold Cpm.sort
  rw [if_neg hne]
  simp only
  have : takeRows M.C (argsortOn id 0 M.sampleIdx) = .error .index := by
    generalize argsortOn id 0 M.sampleIdx = l at hmem
    unfold takeRows
    clear hperm
    induction l with
    | nil => cases hmem
    | cons a l ih =>
      rw [List.mapM_cons]
      by_cases ha : a < M.C.length
      · rw [pyGet_lt ha [], ok_bind]
        rcases List.mem_cons.1 hmem with e | e
        · omega
        · rw [ih e]
          rfl
      · have : pyGet M.C a = .error .index := by
          unfold pyGet
          rw [List.getElem?_eq_none (by omega)]
        rw [this]
        rfl
  rw [this]
  rfl

/-- More rows than sample numbers: `sort` drops the surplus rows and their probabilities without an
error, so the distribution changes. -/
theorem C13_rows_lost (M : Cpm K) (hne : M.sampleIdx ≠ [])
    (hrow : ∀ r ∈ M.C, r.length = M.vars.length)
    (hent : ∀ r ∈ M.C, ∀ p ∈ M.vars.zip r, p.2 + 1 < 2 ^ p.1.values.length)
    (hC : M.sampleIdx.length < M.C.length) (hp : M.p.length = M.C.length)
    (hq : M.q.length = M.sampleIdx.length) (hCs : M.Cs.length = M.sampleIdx.length) :
    ∃ P, M.sort = .ok P ∧ P.C.Perm (M.C.take M.sampleIdx.length) ∧
      P.p.Perm (M.p.take M.sampleIdx.length) := by
  set n := M.sampleIdx.length with hn
  set idx := argsortOn id 0 M.sampleIdx with hidx
  have hperm : idx.Perm (List.range n) := argsortOn_perm _ _ _
  have hlt : ∀ i ∈ idx, i < n := fun i hi => by simpa using hperm.subset hi
  have hlen : idx.length = n := by simpa using hperm.length_eq
  have hn0 : n ≠ 0 := by
    intro h0
    exact hne (List.length_eq_zero_iff.1 h0)
  have hopt : ∀ {α : Type} (X : List α) (d : α), n ≤ X.length →
      takeRowsOpt X idx = .ok (idx.map fun i => X.getD i d) := by
    intro α X d hX
    unfold takeRowsOpt
    split
    · exact absurd hX (by simpa using hn0)
    · exact takeRows_ok d fun i hi => lt_of_lt_of_le (hlt i hi) hX
  have hsub : ∀ r ∈ idx.map (fun i => M.C.getD i []), r ∈ M.C := by
    intro r hr
    obtain ⟨i, hi, rfl⟩ := List.mem_map.1 hr
    have : i < M.C.length := lt_trans (hlt i hi) hC
    have e : M.C.getD i [] = M.C[i] := by simp [this]
    rw [e]
    exact List.getElem_mem this
  have htake : ∀ {α : Type} (X : List α) (d : α), n ≤ X.length →
      (idx.map fun i => X.getD i d).Perm (X.take n) := by
    intro α X d hX
    refine (hperm.map _).trans (List.Perm.of_eq ?_)
    refine List.ext_getElem (by simpa using hX) fun i h1 h2 => ?_
    simp only [List.length_map, List.length_range] at h1
    have : i < X.length := lt_of_lt_of_le h1 hX
    simp [this]
  refine ⟨{ M with C := idx.map fun i => M.C.getD i []
                   p := idx.map fun i => M.p.getD i 0
                   q := idx.map fun i => M.q.getD i 0
                   sampleIdx := idx.map fun i => M.sampleIdx.getD i 0 }, ?_,
    htake M.C [] hC.le, htake M.p 0 (by rw [hp]; exact hC.le)⟩
  unfold Cpm.sort
  rw [if_neg hne]
  simp only
  rw [← hidx, takeRows_ok [] (fun i hi => lt_trans (hlt i hi) hC), ok_bind,
    checkC_ok (fun r hr => hrow r (hsub r hr)) (fun r hr => hent r (hsub r hr)), ok_bind,
    hopt M.p 0 (by rw [hp]; exact hC.le), ok_bind, pyAssert_true (Or.inr (by simp)), ok_bind,
    hopt M.q 0 hq.ge, ok_bind,
    pyAssert_true (Or.inr (.inr (by rw [List.length_map, hlen, hCs]))), ok_bind,
    hopt M.sampleIdx 0 le_rfl, ok_bind,
    pyAssert_true (Or.inr (.inr (by rw [List.length_map, hlen, hCs]))), ok_bind]
  rfl

end

/-- CPMs that meet the hypotheses of `C13_samples_partial`, `C13_samples_only` and `C13_rows_lost`; all
can be constructed.  In the third the row with probability 7/10 is lost. -/
example :
    (Cpm.mk' (K := ℕ) ⟨[Ex.U 0], 1, [[0], [1]], [1/10, 9/10], [[0], [1]], [1/4, 3/4], [1/4, 3/4], [1, 0]⟩).isOk
      = true ∧
    (Cpm.mk' (K := ℕ) ⟨[Ex.U 0], 1, [], [], [[0], [1]], [1/4, 3/4], [], [1, 0]⟩).isOk = true ∧
    (Cpm.mk' (K := ℕ) ⟨[Ex.U 0], 1, [[0], [1]], [3/10, 7/10], [[1]], [1/4], [], [0]⟩).isOk = true ∧
    ((Cpm.sort (K := ℕ) ⟨[Ex.U 0], 1, [[0], [1]], [3/10, 7/10], [[1]], [1/4], [], [0]⟩).map
      fun P => (P.C, P.p)) = .ok ([[0]], [3/10]) := by
  decide +kernel

end BNS
