import Verif.Spec.McsIndep
import Verif.Proofs.McsProb

/-! Helper lemmas: plain Monte Carlo simulation of independent components. -/

namespace BNS

set_option linter.unusedSectionVars false

variable {K : Type} [DecidableEq K] {c : IndepCfg K}

theorem draws_unique {states : List ℕ} {p : ℕ → ℚ} (h : DistOK states p) {u : ℚ} (h0 : 0 ≤ u)
    (h1 : u < 1) {s : ℕ} : Draws states p u s ↔ npChoice states (states.map p) u = .ok s := by
  have hp : ∀ x ∈ states.map p, 0 ≤ x := by
    intro x hx
    obtain ⟨s, hs, rfl⟩ := List.mem_map.1 hx
    exact h.nonneg s hs
  rw [npChoice_eq (by simp) hp h.total]
  have hlt := searchRight_lt hp h.total h1
  rw [List.length_map] at hlt
  have hget : pyGet states (searchRight (states.map p) u) =
      .ok states[searchRight (states.map p) u] := by simp [pyGet, hlt]
  rw [hget, Except.ok.injEq]
  constructor
  · rintro ⟨l, l', rfl, ha, hb⟩
    have : searchRight ((l ++ s :: l').map p) u = l.length := by
      rw [searchRight_iff hp h0 (by simp)]
      simp only [List.map_append, List.map_cons]
      constructor
      · rw [List.take_left' (by simp)]; exact ha
      · have h2 : List.take (l.length + 1) (l.map p ++ p s :: l'.map p) = l.map p ++ [p s] := by
          rw [show l.map p ++ p s :: l'.map p = (l.map p ++ [p s]) ++ l'.map p by simp]
          exact List.take_left' (by simp)
        rw [h2]
        simpa using hb
    rw [List.getElem_of_eq rfl]
    simp only [this]
    simp
  · intro hs
    obtain ⟨ha, hb⟩ := (searchRight_iff hp h0 (by simpa using hlt)).1 rfl
    rw [List.take_add_one, List.sum_append] at hb
    simp only [← List.map_take, List.getElem?_map, List.getElem?_eq_getElem hlt] at ha hb
    refine ⟨states.take (searchRight (states.map p) u), states.drop (searchRight (states.map p) u + 1),
      ?_, ha, ?_⟩
    · rw [← hs, ← List.drop_eq_getElem_cons hlt, List.take_append_drop]
    · rw [← hs]; simpa using hb

theorem draws_exists {states : List ℕ} {p : ℕ → ℚ} (h : DistOK states p) {u : ℚ} (h0 : 0 ≤ u)
    (h1 : u < 1) : ∃ s, Draws states p u s := by
  have hp : ∀ x ∈ states.map p, 0 ≤ x := by
    intro x hx
    obtain ⟨s, hs, rfl⟩ := List.mem_map.1 hx
    exact h.nonneg s hs
  obtain ⟨i, hi, hs, -⟩ := npChoice_ok (xs := states) (p := states.map p) (by simp) hp h.total h0 h1
  exact ⟨_, (draws_unique h h0 h1).2 hs⟩

theorem indepDraw_eq (hc : IndepOK c) {r : ℕ → ℕ → ℚ} (hr : Uniform r) {xs : ℕ → K → ℕ}
    (hx : Drawn c r xs) (i : ℕ) : indepDraw c (r i) = .ok (c.names.map (xs i)) := by
  unfold indepDraw
  have : ∀ ej ∈ c.names.zipIdx, npChoice (c.keys ej.1) ((c.keys ej.1).map (c.prob ej.1)) (r i ej.2) =
      .ok (xs i ej.1) := by
    rintro ⟨e, j⟩ hm
    obtain ⟨hj, he⟩ : ∃ hj : j < c.names.length, e = c.names[j] := by
      obtain ⟨hj, he⟩ := List.mem_zipIdx' hm
      exact ⟨hj, he⟩
    subst he
    exact (draws_unique (hc.dist _ (List.getElem_mem hj)) (hr i j).1 (hr i j).2).1 ((hx i).1 j hj)
  have h2 : ∀ l : List (K × ℕ), (∀ ej ∈ l, npChoice (c.keys ej.1) ((c.keys ej.1).map (c.prob ej.1))
      (r i ej.2) = .ok (xs i ej.1)) → (l.mapM fun ej => npChoice (c.keys ej.1)
      ((c.keys ej.1).map (c.prob ej.1)) (r i ej.2)) = .ok (l.map fun ej => xs i ej.1) := by
    intro l
    induction l with
    | nil => intro _; rfl
    | cons a l ih =>
      intro h
      rw [List.mapM_cons, h a (by simp), ok_bind, ih fun ej he => h ej (by simp [he]), ok_bind]
      rfl
  rw [h2 _ this]
  have h3 : (c.names.zipIdx.map fun ej => xs i ej.1) = (c.names.zipIdx.map Prod.fst).map (xs i) := by
    rw [List.map_map]; rfl
  rw [h3, List.zipIdx_map_fst]

theorem sampleFn_map {names : List K} {x : K → ℕ} (h : ∀ k, k ∉ names → x k = 0) :
    sampleFn names (names.map x) = x := by
  funext k
  unfold sampleFn
  by_cases hk : k ∈ names
  · have := List.idxOf_lt_length_of_mem hk
    simp [List.getD, List.getElem?_eq_getElem this]
  · rw [h k hk, List.idxOf_eq_length hk]
    simp [List.getD]

theorem nFail_succ (c : IndepCfg K) (xs : ℕ → K → ℕ) (n : ℕ) : nFail c xs (n + 1) =
    nFail c xs n + if (c.sysFun (xs n)).st = .f then 1 else 0 := by
  unfold nFail
  rw [List.range_succ, List.countP_append]
  by_cases h : (c.sysFun (xs n)).st = .f <;> simp [h]

theorem nFail_le (c : IndepCfg K) (xs : ℕ → K → ℕ) (n : ℕ) : nFail c xs n ≤ n := by
  unfold nFail
  exact List.countP_le_length.trans (by simp)

theorem nFail_mono (c : IndepCfg K) (xs : ℕ → K → ℕ) {m n : ℕ} (h : m ≤ n) :
    nFail c xs m ≤ nFail c xs n := by
  induction n with
  | zero => rw [Nat.le_zero.1 h]
  | succ n ih =>
    rcases Nat.lt_or_ge n m with h' | h'
    · rw [show m = n + 1 by omega]
    · rw [nFail_succ]; have := ih h'; omega

theorem covIndep {k n : ℕ} (hk : 0 < k) (hn : 0 < n) :
    (k : ℚ) / n * (1 - (k : ℚ) / n) / n / ((k : ℚ) / n) ^ 2 = (1 - (k : ℚ) / n) / k := by
  have : (0 : ℚ) < k := by exact_mod_cast hk
  have : (0 : ℚ) < n := by exact_mod_cast hn
  field_simp

/-- The state of the loop after `n` iterations. -/
structure IndepInv (c : IndepCfg K) (xs : ℕ → K → ℕ) (n : ℕ) (st : IndepState) : Prop where
  nsamp : st.nsamp = n
  nfail : st.nfail = nFail c xs n
  pf : st.pf = none ↔ nFail c xs n = 0
  goOn : (∀ m ≤ n, ¬ StopAt c xs m) → mcsGoOn c.covT st.cov2 = true
  stop : StopAt c xs n → mcsGoOn c.covT st.cov2 = false ∧
    st.pf = some ((nFail c xs n : ℚ) / n) ∧
    st.cov2 = (1 - (nFail c xs n : ℚ) / n) / nFail c xs n

theorem not_stop_zero (c : IndepCfg K) (xs : ℕ → K → ℕ) : ¬ StopAt c xs 0 := by
  rintro ⟨m, h, -⟩
  omega

theorem indepInv_zero (h1 : c.covT < 1) (xs : ℕ → K → ℕ) : IndepInv c xs 0 {} := by
  refine ⟨rfl, by simp [nFail], by simp [nFail], fun _ => ?_, fun h => absurd h (not_stop_zero c xs)⟩
  unfold mcsGoOn
  simp only [decide_eq_true_eq]
  by_cases h : c.covT < 0
  · exact .inl h
  · right
    nlinarith

theorem indepUpdate_inv (h0 : 0 ≤ c.covT) {xs : ℕ → K → ℕ} {n : ℕ} {st : IndepState}
    (hi : IndepInv c xs n st) (hn : ∀ m ≤ n, ¬ StopAt c xs m) (row : List ℕ) :
    IndepInv c xs (n + 1) (indepUpdate st row (decide ((c.sysFun (xs n)).st = .f))) := by
  have hg := hi.goOn hn
  have hs := nFail_succ c xs n
  by_cases hf : (c.sysFun (xs n)).st = .f
  · rw [if_pos hf] at hs
    unfold indepUpdate
    simp only [hf, decide_true, if_true]
    have hnf : ((st.nfail + 1 : ℕ) : ℚ) = nFail c xs (n + 1) := by rw [hs, hi.nfail]
    have hns : ((st.nsamp + 1 : ℕ) : ℚ) = (n + 1 : ℕ) := by rw [hi.nsamp]
    rw [hnf, hns]
    have hcov : 5 < st.nfail + 1 → ((nFail c xs (n + 1) : ℚ) / (n + 1 : ℕ) *
        (1 - (nFail c xs (n + 1) : ℚ) / (n + 1 : ℕ)) / (n + 1 : ℕ) /
        ((nFail c xs (n + 1) : ℚ) / (n + 1 : ℕ)) ^ 2) =
        (1 - (nFail c xs (n + 1) : ℚ) / (n + 1 : ℕ)) / nFail c xs (n + 1) :=
      fun h => covIndep (by omega) (by omega)
    refine ⟨by simp [hi.nsamp], by simp [hi.nfail, hs], by simp [hs], fun hno => ?_, fun h => ?_⟩
    · simp only
      split
      · rename_i h5
        rw [hcov h5]
        unfold mcsGoOn
        simp only [decide_eq_true_eq]
        right
        by_contra hle
        refine hno (n + 1) le_rfl ⟨n, rfl, hf, ?_, not_lt.1 hle⟩
        rw [hs, ← hi.nfail]; exact h5
      · exact hg
    · obtain ⟨m, -, -, h5, hle⟩ := h
      have h5' : 5 < st.nfail + 1 := by rw [hi.nfail, ← hs]; exact h5
      simp only [if_pos h5']
      rw [hcov h5']
      refine ⟨?_, by simp, by simp⟩
      unfold mcsGoOn
      simp only [decide_eq_false_iff_not, not_or, not_lt]
      exact ⟨h0, hle⟩
  · rw [if_neg hf] at hs
    unfold indepUpdate
    simp only [hf, decide_false, Bool.false_eq_true, if_false]
    refine ⟨by simp [hi.nsamp], by simp [hi.nfail, hs], by rw [hs]; simpa using hi.pf, fun _ => hg, ?_⟩
    rintro ⟨m, hm, h, -⟩
    rw [show m = n by omega] at h
    exact absurd h hf

/-- Whether the loop is still running after `n` vectors, and without an exception. -/
def Alive (c : IndepCfg K) (xs : ℕ → K → ℕ) (n : ℕ) : Prop :=
  (∀ m ≤ n, ¬ StopAt c xs m) ∧ (20000 ≤ n → 0 < nFail c xs 20000)

theorem indepStep_eq (hc : IndepOK c) {r : ℕ → ℕ → ℚ} (hr : Uniform r) {xs : ℕ → K → ℕ}
    (hx : Drawn c r xs) (h0 : 0 ≤ c.covT) {n : ℕ} {st : IndepState} (hi : IndepInv c xs n st)
    (ha : Alive c xs n) :
    (n + 1 = 20000 ∧ nFail c xs 20000 = 0 ∧ indepStep c (r n) st = .error .unbound) ∨
    ∃ st', indepStep c (r n) st = .ok st' ∧ IndepInv c xs (n + 1) st' ∧
      (20000 ≤ n + 1 → 0 < nFail c xs 20000) := by
  unfold indepStep
  rw [indepDraw_eq hc hr hx, ok_bind, sampleFn_map (hx n).2]
  have hi' := indepUpdate_inv h0 hi ha.1 (c.names.map (xs n))
  generalize indepUpdate st (c.names.map (xs n)) (decide ((c.sysFun (xs n)).st = .f)) = st' at hi'
  simp only [hi'.nsamp, hi'.pf]
  by_cases hb : (n + 1) % 20000 = 0 ∧ nFail c xs (n + 1) = 0
  · rw [if_pos hb]
    by_cases hn : n + 1 = 20000
    · exact .inl ⟨hn, hn ▸ hb.2, rfl⟩
    · have h2 : 20000 ≤ n := by omega
      have h3 := ha.2 h2
      have := nFail_mono c xs (show 20000 ≤ n + 1 by omega)
      omega
  · rw [if_neg hb]
    refine .inr ⟨st', rfl, hi', fun h => ?_⟩
    by_cases hn : n + 1 = 20000
    · rw [hn] at hb
      simp only [Nat.mod_self, true_and] at hb
      omega
    · exact ha.2 (by omega)

theorem indepLoop_eq (hc : IndepOK c) {r : ℕ → ℕ → ℚ} (hr : Uniform r) {xs : ℕ → K → ℕ}
    (hx : Drawn c r xs) (h0 : 0 ≤ c.covT) :
    ∀ (fuel n : ℕ) (st : IndepState), IndepInv c xs n st → (∀ m < n, ¬ StopAt c xs m) →
      (20000 ≤ n → 0 < nFail c xs 20000) →
      (∃ N st', n ≤ N ∧ N ≤ n + fuel ∧ StopAt c xs N ∧ (∀ m < N, ¬ StopAt c xs m) ∧
        (20000 ≤ N → 0 < nFail c xs 20000) ∧ indepLoop c r fuel st = .ok st' ∧ IndepInv c xs N st') ∨
      (n < 20000 ∧ 20000 ≤ n + fuel ∧ nFail c xs 20000 = 0 ∧ (∀ m < 20000, ¬ StopAt c xs m) ∧
        indepLoop c r fuel st = .error .unbound) ∨
      ((∀ m ≤ n + fuel, ¬ StopAt c xs m) ∧ (20000 ≤ n + fuel → 0 < nFail c xs 20000) ∧
        indepLoop c r fuel st = .error .fuel) := by
  intro fuel
  induction fuel with
  | zero =>
    intro n st hi hb hu
    by_cases hs : StopAt c xs n
    · refine .inl ⟨n, st, le_rfl, le_rfl, hs, hb, hu, ?_, hi⟩
      unfold indepLoop
      rw [if_neg (by simp [(hi.stop hs).1])]
    · have hall : ∀ m ≤ n, ¬ StopAt c xs m := fun m hm => by
        rcases Nat.lt_or_ge m n with h | h
        · exact hb m h
        · rw [show m = n by omega]; exact hs
      refine .inr (.inr ⟨by simpa using hall, by simpa using hu, ?_⟩)
      unfold indepLoop
      rw [if_pos (hi.goOn hall)]
  | succ fuel ih =>
    intro n st hi hb hu
    by_cases hs : StopAt c xs n
    · refine .inl ⟨n, st, le_rfl, by omega, hs, hb, hu, ?_, hi⟩
      unfold indepLoop
      rw [if_neg (by simp [(hi.stop hs).1])]
    · have hall : ∀ m ≤ n, ¬ StopAt c xs m := fun m hm => by
        rcases Nat.lt_or_ge m n with h | h
        · exact hb m h
        · rw [show m = n by omega]; exact hs
      have hstep := indepStep_eq hc hr hx h0 hi ⟨hall, hu⟩
      unfold indepLoop
      rw [if_pos (hi.goOn hall), hi.nsamp]
      rcases hstep with ⟨h1, h2, h3⟩ | ⟨st', h1, h2, h3⟩
      · rw [h3, error_bind]
        exact .inr (.inl ⟨by omega, by omega, h2, fun m hm => hall m (by omega), rfl⟩)
      · rw [h1, ok_bind]
        rcases ih (n + 1) st' h2 (fun m hm => hall m (by omega)) h3 with
          ⟨N, st'', ha, hb', hrest⟩ | ⟨ha, hb', hrest⟩ | ⟨ha, hb', hrest⟩
        · exact .inl ⟨N, st'', by omega, by omega, hrest⟩
        · exact .inr (.inl ⟨by omega, by omega, hrest⟩)
        · exact .inr (.inr ⟨fun m hm => ha m (by omega), fun h => hb' (by omega), hrest⟩)

end BNS
