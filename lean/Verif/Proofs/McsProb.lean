import Verif.Proofs.Mcs

/-! Helper lemmas: the distribution of the Monte Carlo samples. -/

namespace BNS

set_option linter.unusedSectionVars false

variable {K : Type} [DecidableEq K]

/-- The uniform numbers for which a choice gives the `i`-th element form an interval whose length is
the `i`-th probability. -/
theorem npChoice_interval {xs : List ℕ} (hx : xs.Nodup) {p : List ℚ} (hl : p.length = xs.length)
    (hp : ∀ x ∈ p, 0 ≤ x) (h1 : p.sum = 1) {i : ℕ} (hi : i < xs.length) :
    ∃ lo, ∀ u, 0 ≤ u → u < 1 →
      (npChoice xs p u = .ok xs[i] ↔ lo ≤ u ∧ u < lo + p[i]) := by
  refine ⟨(p.take i).sum, fun u hu0 hu => ?_⟩
  have hs : (p.take (i + 1)).sum = (p.take i).sum + p[i] := by
    rw [List.take_add_one, List.sum_append]
    simp [show i < p.length by omega]
  rw [← hs, ← searchRight_iff hp hu0 (by omega)]
  have hlt := searchRight_lt hp h1 hu
  rw [npChoice_eq hl hp h1]
  have : pyGet xs (searchRight p u) = .ok xs[searchRight p u] := by
    simp [pyGet, show searchRight p u < xs.length by omega]
  rw [this, Except.ok.injEq]
  exact ⟨fun h => (List.Nodup.getElem_inj_iff hx).1 h, fun h => by simp [h]⟩

theorem drawComp_interval {probs : K → ℕ → ℚ} {b : Branch K} {e : K} (h2 : TwoState probs b e)
    (s : ℕ) : ∃ lo, ∀ u, 0 ≤ u → u < 1 →
      (drawComp probs b e u = .ok s ↔ lo ≤ u ∧ u < lo + drawProb probs b e s) := by
  unfold drawComp drawProb
  rcases h2 with h2 | ⟨ha, hb, hc, hd⟩
  · refine ⟨0, fun u h0 h1 => ?_⟩
    rw [if_neg (by omega), if_pos h2, Except.ok.injEq]
    by_cases hs : s = b.down e
    · simp [hs, h0, h1]
    · rw [if_neg hs]
      refine ⟨fun h => absurd h.symm hs, fun h => ?_⟩
      linarith [h.1, h.2]
  · have hr : List.range' (b.down e) (b.up e + 1 - b.down e) = [b.down e, b.up e] := by
      rw [ha, show b.down e + 1 + 1 - b.down e = 2 by omega]
      rfl
    have hlt : b.down e < b.up e := by omega
    have hne : ¬ b.down e = b.up e := by omega
    simp only [if_pos hlt, if_neg hne, hr]
    have key := fun i hi => npChoice_interval (xs := [b.down e, b.up e])
      (p := [probs e (b.down e), probs e (b.up e)]) (by simpa using hne) rfl (by simp [hb, hc])
      (by simpa using hd) (i := i) hi
    by_cases hs : s = b.down e
    · obtain ⟨lo, h⟩ := key 0 (by simp)
      refine ⟨lo, fun u h0 h1 => ?_⟩
      rw [if_pos (.inl hs), hs]
      simpa using h u h0 h1
    by_cases hs' : s = b.up e
    · obtain ⟨lo, h⟩ := key 1 (by simp)
      refine ⟨lo, fun u h0 h1 => ?_⟩
      rw [if_pos (.inr hs'), hs']
      simpa using h u h0 h1
    · refine ⟨0, fun u h0 h1 => ?_⟩
      rw [if_neg (by simp [hs, hs'])]
      refine ⟨fun h => ?_, fun h => ?_⟩
      · have := npChoice_mem h
        simp [hs, hs'] at this
      · linarith [h.1, h.2]

/-! ## Unbiasedness -/

section
variable {vs : List (K × ℕ)} {probs : K → ℕ → ℚ}

/-- Within a two-state space: probability of the branch times the probability of drawing `x` in it
is the probability of `x` if it lies in the branch. -/
theorem boxProb_mul (hv : VarisOK vs) (hp : ProbOK vs probs) (h2 : ∀ kn ∈ vs, kn.2 ≤ 2)
    {b : Branch K} (hb : BoxOK vs b) (hbp : b.p = probOf vs probs (InBox vs b)) {x : K → ℕ}
    (hx : InSpace vs x) : b.p * (vs.map fun kn => drawProb probs b kn.1 (x kn.1)).prod =
      if InBox vs b x then weight vs probs x else 0 := by
  rw [hbp, ← approxProb_eq hv probs hb]
  unfold approxProb
  have hprod : ∀ (l : List (K × ℕ)) (f g : K × ℕ → ℚ),
      (l.map f).prod * (l.map g).prod = (l.map fun kn => f kn * g kn).prod := by
    intro l f g
    induction l with
    | nil => simp
    | cons a l ih =>
      simp only [List.map_cons, List.prod_cons, ← ih]
      ring
  rw [hprod]
  have hin : (if InBox vs b x then weight vs probs x else 0) =
      (vs.map fun kn => if b.down kn.1 ≤ x kn.1 ∧ x kn.1 ≤ b.up kn.1 then
        probs kn.1 (x kn.1) else 0).prod := by
    rw [prod_ite vs (fun kn => b.down kn.1 ≤ x kn.1 ∧ x kn.1 ≤ b.up kn.1)
      (fun kn => probs kn.1 (x kn.1))]
    rfl
  rw [hin]
  congr 1
  refine List.map_congr_left fun kn hkn => ?_
  obtain ⟨hle, hlt⟩ := hb kn hkn
  have hk2 := h2 kn hkn
  have hxk := hx kn hkn
  have htot := hp.total kn hkn
  unfold rangeProb drawProb
  by_cases he : b.down kn.1 = b.up kn.1
  · rw [if_pos he, ← he]
    simp only [Nat.add_sub_cancel_left, List.range'_one, List.map_cons, List.map_nil,
      List.sum_cons, List.sum_nil, add_zero]
    by_cases hs : x kn.1 = b.down kn.1
    · simp [hs]
    · rw [if_neg hs, if_neg (by omega), mul_zero]
  · have hd : b.down kn.1 = 0 := by omega
    have hu : b.up kn.1 = 1 := by omega
    have hn : kn.2 = 2 := by omega
    rw [hn, Finset.sum_range_succ, Finset.sum_range_one] at htot
    rw [if_neg he, hd, hu, if_pos (by omega), if_pos (by omega)]
    simp [List.range'_succ, htot]

/-- The probability of drawing `x`, times the unspecified probability. -/
theorem sampleProb_mul (hv : VarisOK vs) (hp : ProbOK vs probs) (h2 : ∀ kn ∈ vs, kn.2 ≤ 2)
    {brs : List (Branch K)} (hb : ∀ b ∈ brs, BoxOK vs b)
    (hbp : ∀ b ∈ brs, b.p = probOf vs probs (InBox vs b)) (hu : unkMass brs ≠ 0) {x : K → ℕ}
    (hx : InSpace vs x) : unkMass brs * sampleProb vs probs brs x =
      (brs.map fun b => if Unspec b ∧ InBox vs b x then weight vs probs x else 0).sum := by
  have hmul : ∀ (l : List (Branch K)) (c : ℚ) (f : Branch K → ℚ),
      c * (l.map f).sum = (l.map fun a => c * f a).sum := by
    intro l c f
    induction l with
    | nil => simp
    | cons a l ih => simp only [List.map_cons, List.sum_cons, ← ih]; ring
  unfold sampleProb
  rw [hmul]
  congr 1
  refine List.map_congr_left fun b hbm => ?_
  by_cases hU : Unspec b
  · simp only [hU, if_true, true_and]
    rw [← boxProb_mul hv hp h2 (hb b hbm) (hbp b hbm) hx]
    field_simp
  · simp [hU]

/-- The expected value, over the drawn vectors, of the indicator of an event. -/
theorem sampleProb_event (hv : VarisOK vs) (hp : ProbOK vs probs) (h2 : ∀ kn ∈ vs, kn.2 ≤ 2)
    {brs : List (Branch K)} (hb : ∀ b ∈ brs, BoxOK vs b)
    (hbp : ∀ b ∈ brs, b.p = probOf vs probs (InBox vs b)) (hu : unkMass brs ≠ 0)
    (E : (K → ℕ) → Prop) [DecidablePred E] :
    unkMass brs * sumOver vs (fun x => if E x then sampleProb vs probs brs x else 0) (fun _ => 0) =
      (brs.map fun b => if Unspec b then probOf vs probs (fun x => E x ∧ InBox vs b x) else 0).sum := by
  rw [← sumOver_mul_left]
  have h1 : (brs.map fun b => if Unspec b then probOf vs probs (fun x => E x ∧ InBox vs b x) else 0) =
      brs.map fun b => sumOver vs (fun x => if Unspec b ∧ E x ∧ InBox vs b x then
        weight vs probs x else 0) (fun _ => 0) := by
    refine List.map_congr_left fun b _ => ?_
    by_cases hU : Unspec b
    · simp [hU, probOf]
    · simp [hU, sumOver_zero]
  rw [h1, ← sumOver_list vs brs (fun b x => if Unspec b ∧ E x ∧ InBox vs b x then
        weight vs probs x else 0)]
  refine sumOver_congr' vs hv.nodup _ fun y hy _ => ?_
  by_cases hE : E y
  · simp only [hE, if_true, true_and]
    exact sampleProb_mul hv hp h2 hb hbp hu hy
  · simp [hE]

theorem sum_nonpos' {l : List ℚ} (h : ∀ x ∈ l, x ≤ 0) : l.sum ≤ 0 := by
  induction l with
  | nil => simp
  | cons a l ih =>
    rw [List.sum_cons]
    have := h a (by simp)
    have := ih fun x hx => h x (by simp [hx])
    linarith

/-- An event over the branches of a partition. -/
theorem partition_split (hv : VarisOK vs) (probs : K → ℕ → ℚ) {brs : List (Branch K)}
    (hpart : Partition vs brs) (E : (K → ℕ) → Prop) [DecidablePred E] :
    probOf vs probs E = (brs.map fun b => probOf vs probs (fun x => E x ∧ InBox vs b x)).sum := by
  unfold probOf
  rw [← sumOver_list vs brs (fun b x => if E x ∧ InBox vs b x then weight vs probs x else 0)]
  refine sumOver_congr' vs hv.nodup _ fun y hy _ => ?_
  have hc := hpart.2 y hy
  by_cases hE : E y
  · simp only [hE, true_and, if_true]
    rw [sum_count, hc]
    simp
  · simp [hE]

end

end BNS
