import Verif.Proofs.McsIndep

/-!
# C68: plain Monte Carlo simulation of independent components

`r` are the uniform numbers, `xs i` the component vector that they give in iteration `i`.
-/

namespace BNS

set_option linter.unusedSectionVars false

variable {K : Type} [DecidableEq K] {c : IndepCfg K} {r : ℕ → ℕ → ℚ} {xs : ℕ → K → ℕ}

/-- Every uniform number draws exactly one state of a distribution, and the uniform numbers give
exactly one sequence of component vectors, with states among those of the distribution. -/
theorem C68_draw (hc : IndepOK c) (hr : Uniform r) :
    (∀ e ∈ c.names, ∀ u : ℚ, 0 ≤ u → u < 1 → ∃! s, Draws (c.keys e) (c.prob e) u s) ∧
    (∃! xs, Drawn c r xs) ∧ ∀ xs, Drawn c r xs → ∀ i, ∀ e ∈ c.names, xs i e ∈ c.keys e := by
  have huniq : ∀ e ∈ c.names, ∀ u : ℚ, 0 ≤ u → u < 1 → ∀ s s', Draws (c.keys e) (c.prob e) u s →
      Draws (c.keys e) (c.prob e) u s' → s = s' := by
    intro e he u h0 h1 s s' hs hs'
    rw [draws_unique (hc.dist e he) h0 h1] at hs hs'
    rw [hs] at hs'
    exact Except.ok.inj hs'
  refine ⟨fun e he u h0 h1 => ?_, ?_, ?_⟩
  · obtain ⟨s, hs⟩ := draws_exists (hc.dist e he) h0 h1
    exact ⟨s, hs, fun s' hs' => huniq e he u h0 h1 s' s hs' hs⟩
  · have hex : ∀ i k, ∃ s, (k ∈ c.names → Draws (c.keys k) (c.prob k) (r i (c.names.idxOf k)) s) ∧
        (k ∉ c.names → s = 0) := by
      intro i k
      by_cases hk : k ∈ c.names
      · obtain ⟨s, hs⟩ := draws_exists (hc.dist k hk) (hr i (c.names.idxOf k)).1 (hr i _).2
        exact ⟨s, fun _ => hs, fun h => absurd hk h⟩
      · exact ⟨0, fun h => absurd h hk, fun _ => rfl⟩
    choose f hf hg using hex
    refine ⟨f, fun i => ⟨fun j hj => ?_, hg i⟩, fun g hgd => ?_⟩
    · have := hf i c.names[j] (List.getElem_mem hj)
      rwa [hc.nodup.idxOf_getElem] at this
    · funext i k
      by_cases hk : k ∈ c.names
      · have hlt := List.idxOf_lt_length_of_mem hk
        have h1 := (hgd i).1 _ hlt
        simp only [List.getElem_idxOf] at h1
        exact huniq k hk _ (hr i _).1 (hr i _).2 _ _ h1 (hf i k hk)
      · rw [(hgd i).2 k hk, hg i k hk]
  · intro xs hx i e he
    obtain ⟨j, hj, rfl⟩ := List.getElem_of_mem he
    obtain ⟨l, l', hl, -⟩ := (hx i).1 j hj
    rw [hl]
    simp

/-- What is returned, for a target between zero and one.  With `k` failing vectors among the first
`n`, the simulation returns `k / n` and the squared coefficient of variation `(1 - pf) / k` exactly
for the first `n` at which the vector drawn last fails, more than five have failed, and the target
is met — unless the first 20000 vectors all survived. -/
theorem C68_result (hc : IndepOK c) (hr : Uniform r) (hx : Drawn c r xs) (h0 : 0 ≤ c.covT)
    (h1 : c.covT < 1) {fuel n : ℕ} {pf cov2 : ℚ} :
    runMcsIndep c r fuel = .ok (pf, cov2, n) ↔
      n ≤ fuel ∧ StopAt c xs n ∧ (∀ m < n, ¬ StopAt c xs m) ∧
      (20000 ≤ n → 0 < nFail c xs 20000) ∧ pf = (nFail c xs n : ℚ) / n ∧
      cov2 = (1 - pf) / nFail c xs n := by
  unfold runMcsIndep
  rcases indepLoop_eq hc hr hx h0 fuel 0 {} (indepInv_zero h1 xs) (by simp) (by simp) with
    ⟨N, st, -, hN, hs, hb, hu, hl, hi⟩ | ⟨-, hf, hz, hb, hl⟩ | ⟨hb, hu, hl⟩
  · obtain ⟨-, hpf, hcov⟩ := hi.stop hs
    rw [hl, ok_bind, hpf]
    simp only [pure_ok, Except.ok.injEq, Prod.mk.injEq, hcov, hi.nsamp]
    constructor
    · rintro ⟨rfl, rfl, rfl⟩
      exact ⟨by omega, hs, hb, hu, rfl, rfl⟩
    · rintro ⟨-, hs', hb', -, h4, h5⟩
      have : n = N := by
        rcases Nat.lt_trichotomy n N with h | h | h
        · exact absurd hs' (hb n h)
        · exact h
        · exact absurd hs (hb' N h)
      subst this
      exact ⟨h4.symm, by rw [h5, h4], rfl⟩
  · rw [hl, error_bind]
    refine ⟨fun h => (by cases h), ?_⟩
    rintro ⟨-, hs', -, h3, -⟩
    rcases Nat.lt_or_ge n 20000 with h | h
    · exact absurd hs' (hb n h)
    · have := h3 h; omega
  · rw [hl, error_bind]
    refine ⟨fun h => (by cases h), ?_⟩
    rintro ⟨h, hs', -⟩
    exact absurd hs' (hb n (by omega))

/-- As soon as there are six failing vectors, and one over the square of the target, the simulation
ends — if one of them is among the first 20000. -/
theorem C68_terminates (hc : IndepOK c) (hr : Uniform r) (hx : Drawn c r xs) (h0 : 0 < c.covT)
    (h1 : c.covT < 1) {n : ℕ} (h6 : 6 ≤ nFail c xs n) (ht : 1 ≤ nFail c xs n * c.covT ^ 2)
    (hrare : 20000 ≤ n → 0 < nFail c xs 20000) :
    ∃ pf cov2 m, runMcsIndep c r n = .ok (pf, cov2, m) ∧ m ≤ n := by
  have hex : ∃ m ≤ n, StopAt c xs m := by
    clear hrare
    induction n with
    | zero => simp [nFail] at h6
    | succ n ih =>
      by_cases hf : (c.sysFun (xs n)).st = .f
      · refine ⟨n + 1, le_rfl, n, rfl, hf, by omega, ?_⟩
        have hk : (0 : ℚ) < nFail c xs (n + 1) := by exact_mod_cast (show 0 < nFail c xs (n + 1) by omega)
        rw [div_le_iff₀ hk]
        have : (0 : ℚ) ≤ (nFail c xs (n + 1) : ℚ) / (n + 1 : ℕ) := by positivity
        linarith
      · have hs := nFail_succ c xs n
        rw [if_neg hf, add_zero] at hs
        rw [hs] at h6 ht
        obtain ⟨m, hm, hst⟩ := ih h6 ht
        exact ⟨m, by omega, hst⟩
  classical
  have hfind := Nat.find_spec hex
  refine ⟨_, _, Nat.find hex, (C68_result hc hr hx h0.le h1).2 ⟨hfind.1, hfind.2, ?_, ?_, rfl, rfl⟩,
    hfind.1⟩
  · intro m hm hst
    exact Nat.find_min hex hm ⟨by omega, hst⟩
  · intro h
    exact hrare (by omega)

/-- More iterations do not change the result. -/
theorem C68_fuel (hc : IndepOK c) (hr : Uniform r) (h0 : 0 ≤ c.covT) (h1 : c.covT < 1)
    {fuel : ℕ} {x : ℚ × ℚ × ℕ} (h : runMcsIndep c r fuel = .ok x) (k : ℕ) :
    runMcsIndep c r (fuel + k) = .ok x := by
  obtain ⟨xs, hx, -⟩ := (C68_draw hc hr).2.1
  obtain ⟨pf, cov2, n⟩ := x
  obtain ⟨h2, h3⟩ := (C68_result hc hr hx h0 h1).1 h
  exact (C68_result hc hr hx h0 h1).2 ⟨by omega, h3⟩

/-- The simulation breaks down on rare failures: if the first 20000 vectors survive, the progress
report reads the estimate before there is one. -/
theorem C68_not_rare (hc : IndepOK c) (hr : Uniform r) (hx : Drawn c r xs) (h0 : 0 ≤ c.covT)
    (h1 : c.covT < 1) (hs : ∀ i < 20000, (c.sysFun (xs i)).st ≠ .f) {fuel : ℕ}
    (hf : 20000 ≤ fuel) : runMcsIndep c r fuel = .error .unbound := by
  have hz : nFail c xs 20000 = 0 := by
    unfold nFail
    rw [List.countP_eq_zero]
    intro i hi
    simpa using hs i (List.mem_range.1 hi)
  have hno : ∀ m ≤ 20000, ¬ StopAt c xs m := by
    rintro m hm ⟨-, -, -, h5, -⟩
    have := nFail_mono c xs hm
    omega
  unfold runMcsIndep
  rcases indepLoop_eq hc hr hx h0 fuel 0 {} (indepInv_zero h1 xs) (by simp) (by simp) with
    ⟨N, st, -, hN, hst, hb, hu, hl, hi⟩ | ⟨-, -, -, -, hl⟩ | ⟨hb, hu, hl⟩
  · rcases Nat.lt_or_ge N 20000 with h | h
    · exact absurd hst (hno N h.le)
    · have := hu h; omega
  · rw [hl, error_bind]
  · have := hu (by omega)
    omega

/-- It goes on for ever when the failures stop before the target is met. -/
theorem C68_not_terminates (hc : IndepOK c) (hr : Uniform r) (hx : Drawn c r xs) (h0 : 0 ≤ c.covT)
    (h1 : c.covT < 1) {N : ℕ} (hN : ∀ m ≤ N, ¬ StopAt c xs m)
    (hs : ∀ i, N ≤ i → (c.sysFun (xs i)).st ≠ .f) (hrare : 0 < nFail c xs 20000) (fuel : ℕ) :
    runMcsIndep c r fuel = .error .fuel := by
  have hno : ∀ m, ¬ StopAt c xs m := by
    intro m hm
    rcases Nat.lt_or_ge N m with h | h
    · obtain ⟨i, rfl, hf, -⟩ := hm
      exact hs i (by omega) hf
    · exact hN m h hm
  unfold runMcsIndep
  rcases indepLoop_eq hc hr hx h0 fuel 0 {} (indepInv_zero h1 xs) (by simp) (by simp) with
    ⟨N, st, -, hN, hst, hb, hu, hl, hi⟩ | ⟨-, -, hz, -, hl⟩ | ⟨hb, hu, hl⟩
  · exact absurd hst (hno N)
  · omega
  · rw [hl, error_bind]

/-- What it refuses: a target of one or more (an unbound variable), and a component whose
probabilities do not add up to one, or one of them negative.  With a negative target it does not
return. -/
theorem C68_refused {fuel : ℕ} (hr : Uniform r) :
    (1 ≤ c.covT → runMcsIndep c r fuel = .error .unbound) ∧
    (c.covT < 1 → (∃ e ∈ c.names, ((c.keys e).map (c.prob e)).sum ≠ 1 ∨
      ∃ s ∈ c.keys e, c.prob e s < 0) → runMcsIndep c r (fuel + 1) = .error .value) ∧
    (c.covT < 0 → ∀ x, runMcsIndep c r fuel ≠ .ok x) := by
  refine ⟨fun hcov => ?_, fun hcov hbad => ?_, fun hcov x h => ?_⟩
  · have hg : mcsGoOn c.covT ({} : IndepState).cov2 = false := by
      unfold mcsGoOn
      simp only [decide_eq_false_iff_not, not_or, not_lt]
      constructor <;> nlinarith
    have : indepLoop c r fuel {} = .ok {} := by
      cases fuel <;> unfold indepLoop <;> rw [if_neg (by rw [hg]; simp)]
    unfold runMcsIndep
    rw [this]
    rfl
  · have hg : mcsGoOn c.covT ({} : IndepState).cov2 = true := by
      unfold mcsGoOn
      simp only [decide_eq_true_eq]
      by_cases h : c.covT < 0
      · exact .inl h
      · right
        show c.covT ^ 2 < 1
        nlinarith
    have herr : indepDraw c (r 0) = .error .value := by
      refine mapM_error ?_ fun ej _ e' he => npChoice_err (hr 0 ej.2).2 he
      obtain ⟨e, he, hb⟩ := hbad
      obtain ⟨j, hj, rfl⟩ := List.getElem_of_mem he
      refine ⟨(c.names[j], j), by rw [List.mem_zipIdx_iff_getElem?]; simp [hj], ?_⟩
      unfold npChoice
      split
      · rfl
      split
      · rfl
      split
      · rfl
      rename_i hany
      split
      · rfl
      rename_i hsum
      exfalso
      rcases hb with hb | ⟨s', hs', hneg⟩
      · exact hsum hb
      · apply hany
        rw [List.any_eq_true]
        exact ⟨_, List.mem_map.2 ⟨s', hs', rfl⟩, by simpa using hneg⟩
    unfold runMcsIndep indepLoop
    rw [if_pos hg]
    unfold indepStep
    rw [herr]
    rfl
  · have : ∀ fuel st, ∀ st', indepLoop c r fuel st ≠ .ok st' := by
      intro fuel
      induction fuel with
      | zero =>
        intro st st' h
        unfold indepLoop at h
        rw [if_pos (by simp [mcsGoOn, hcov])] at h
        cases h
      | succ n ih =>
        intro st st' h
        unfold indepLoop at h
        rw [if_pos (by simp [mcsGoOn, hcov]), bind_ok] at h
        obtain ⟨s, -, h⟩ := h
        exact ih _ _ h
    unfold runMcsIndep at h
    rw [bind_ok] at h
    obtain ⟨st, h, -⟩ := h
    exact this _ _ _ h

/-! ## Witnesses for C68 -/

namespace Ex

/-- Two components with three states; the system fails unless both are above the lowest state. -/
def indepNames : List ℕ := [0, 1]

def indepKeys : ℕ → List ℕ := fun _ => [0, 1, 2]

def indepProb : ℕ → ℕ → ℚ := fun _ s => if s = 1 then 1 / 2 else 1 / 4

def indep (covT : ℚ) : IndepCfg ℕ :=
  { names := indepNames
    keys := indepKeys
    prob := indepProb
    sysFun := fun x => { val := 0, st := if 1 ≤ x 0 ∧ 1 ≤ x 1 then .s else .f, min := [] }
    covT := covT }

theorem indep_ok (t : ℚ) : IndepOK (indep t) := by
  refine ⟨show indepNames.Nodup by decide, fun e _ => ?_⟩
  show DistOK [0, 1, 2] (indepProb e)
  exact ⟨by decide, fun s _ => by unfold indepProb; split <;> norm_num, by simp [indepProb]; norm_num⟩

/-- Uniform numbers: 1/8, 5/8 and 7/8 in turn. -/
def indepUnif (i j : ℕ) : ℚ := if (i + j) % 3 = 0 then 1 / 8 else if (i + j) % 3 = 1 then 5 / 8 else 7 / 8

theorem indepUnif_ok : Uniform indepUnif := by
  intro i j
  unfold indepUnif
  split
  · norm_num
  split <;> norm_num

/-- the hypotheses of the theorems are met, and a simulation that returns: six failures in the first
nine vectors -/
example : IndepOK (indep (1 / 2)) ∧ Uniform indepUnif ∧ (indep (1 / 2)).covT = 1 / 2 ∧
    runMcsIndep (indep (1 / 2)) indepUnif 9 = .ok (2 / 3, 1 / 18, 9) := by
  refine ⟨indep_ok _, indepUnif_ok, rfl, by decide +kernel⟩

/-- a simulation in which the first failures come and then none: numbers in the middle after the
first vector -/
example : IndepOK (indep (1 / 2)) ∧ ∃ (r : ℕ → ℕ → ℚ) (xs : ℕ → ℕ → ℕ), Uniform r ∧
    Drawn (indep (1 / 2)) r xs ∧ (∀ m ≤ 1, ¬ StopAt (indep (1 / 2)) xs m) ∧
    (∀ i, 1 ≤ i → ((indep (1 / 2)).sysFun (xs i)).st ≠ .f) ∧ 0 < nFail (indep (1 / 2)) xs 20000 := by
  refine ⟨indep_ok _, fun i _ => if i = 0 then 0 else 1 / 2,
    fun i k => if k ∈ indepNames then (if i = 0 then 0 else 1) else 0, ?_, ?_, ?_, ?_, ?_⟩
  · intro i j
    simp only
    split <;> norm_num
  · intro i
    refine ⟨fun j hj => ?_, fun k hk => if_neg hk⟩
    have hm : (indep (1 / 2)).names[j] ∈ indepNames := List.getElem_mem hj
    simp only [if_pos hm]
    split
    · exact ⟨[], [1, 2], rfl, by simp, by simp [indep, indepProb]⟩
    · refine ⟨[0], [2], rfl, ?_, ?_⟩ <;> norm_num [indep, indepProb]
  · rintro m hm ⟨-, -, -, h5, -⟩
    have := nFail_le (indep (1 / 2)) (fun i k => if k ∈ indepNames then (if i = 0 then 0 else 1) else 0) m
    omega
  · intro i hi
    simp [indep, indepNames, show i ≠ 0 by omega]
  · refine lt_of_lt_of_le ?_ (nFail_mono _ _ (show 1 ≤ 20000 by omega))
    rw [nFail_succ]
    simp [indep, indepNames]

/-- vectors that never fail -/
example : ∃ (r : ℕ → ℕ → ℚ) (xs : ℕ → ℕ → ℕ), Uniform r ∧ Drawn (indep (1 / 2)) r xs ∧
    ∀ i < 20000, ((indep (1 / 2)).sysFun (xs i)).st ≠ .f := by
  refine ⟨fun _ _ => 1 / 2, fun _ k => if k ∈ indepNames then 1 else 0, fun _ _ => by norm_num,
    fun i => ⟨fun j hj => ?_, fun k hk => if_neg hk⟩, fun i _ => by simp [indep, indepNames]⟩
  have hm : (indep (1 / 2)).names[j] ∈ indepNames := List.getElem_mem hj
  simp only [if_pos hm]
  refine ⟨[0], [2], rfl, ?_, ?_⟩ <;> norm_num [indep, indepProb]

end Ex

end BNS
