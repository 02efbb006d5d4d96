import Verif.Proofs.Estimate
import Mathlib.Algebra.Order.Floor.Semiring

/-! Percentiles, ratios and chunks. -/

namespace BNS

set_option linter.unusedSectionVars false

/-- a sorted list, as an interpolated function -/
def lerp (s : List ℚ) (pos : ℚ) : ℚ :=
  s.getD ⌊pos⌋₊ 0 + (pos - ⌊pos⌋₊) * (s.getD (⌊pos⌋₊ + 1) (s.getD ⌊pos⌋₊ 0) - s.getD ⌊pos⌋₊ 0)

theorem percentile_ok {xs : List ℚ} (hne : xs ≠ []) {t : ℚ} (h0 : 0 ≤ t) (h1 : t ≤ 1) :
    percentile xs t = .ok (lerp (xs.insertionSort (· ≤ ·)) (t * ((xs.length : ℚ) - 1))) ∧
      0 ≤ t * ((xs.length : ℚ) - 1) ∧
      ⌊t * ((xs.length : ℚ) - 1)⌋₊ < (xs.insertionSort (· ≤ ·)).length := by
  have hlen : 0 < xs.length := List.length_pos_iff.2 hne
  have hlq : (1 : ℚ) ≤ xs.length := by exact_mod_cast hlen
  have hpos : 0 ≤ t * ((xs.length : ℚ) - 1) := mul_nonneg h0 (by linarith)
  have hfl : ⌊t * ((xs.length : ℚ) - 1)⌋₊ < (xs.insertionSort (· ≤ ·)).length := by
    rw [List.length_insertionSort, Nat.floor_lt hpos]
    nlinarith
  refine ⟨?_, hpos, hfl⟩
  unfold percentile
  simp only
  rw [pyGet_lt hfl 0, ok_bind]
  rfl

section
variable {s : List ℚ} (hs : s.Pairwise (· ≤ ·))
include hs

theorem getD_mono {i j : ℕ} (hij : i ≤ j) (hj : j < s.length) : s.getD i 0 ≤ s.getD j 0 := by
  rw [List.getD_eq_getElem _ _ (by omega), List.getD_eq_getElem _ _ hj]
  rcases hij.eq_or_lt with e | e
  · subst e; rfl
  · exact List.pairwise_iff_getElem.1 hs i j _ _ e

theorem next_le {i : ℕ} (hi : i < s.length) : s.getD i 0 ≤ s.getD (i + 1) (s.getD i 0) := by
  by_cases h : i + 1 < s.length
  · have := getD_mono hs (Nat.le_succ i) h
    rwa [List.getD_eq_getElem _ (s.getD i 0) h, ← List.getD_eq_getElem _ 0 h]
  · exact (List.getD_eq_default s (s.getD i 0) (by omega : s.length ≤ i + 1)).ge

theorem lerp_bounds {pos : ℚ} (h0 : 0 ≤ pos) (hi : ⌊pos⌋₊ < s.length) :
    s.getD ⌊pos⌋₊ 0 ≤ lerp s pos ∧ lerp s pos ≤ s.getD (⌊pos⌋₊ + 1) (s.getD ⌊pos⌋₊ 0) := by
  have h1 := next_le hs hi
  have h2 := Nat.floor_le h0
  have h3 := Nat.lt_floor_add_one pos
  unfold lerp
  constructor <;> nlinarith

theorem lerp_mono {p q : ℚ} (h0 : 0 ≤ p) (hpq : p ≤ q) (hq : ⌊q⌋₊ < s.length) :
    lerp s p ≤ lerp s q := by
  have hfl : ⌊p⌋₊ ≤ ⌊q⌋₊ := Nat.floor_le_floor hpq
  rcases hfl.eq_or_lt with e | e
  · unfold lerp
    rw [e]
    have := next_le hs hq
    nlinarith
  · refine (lerp_bounds hs h0 (by omega)).2.trans ?_
    refine le_trans ?_ (lerp_bounds hs (h0.trans hpq) hq).1
    have h1 : ⌊p⌋₊ + 1 < s.length := by omega
    rw [List.getD_eq_getElem _ (s.getD ⌊p⌋₊ 0) h1, ← List.getD_eq_getElem _ 0 h1]
    exact getD_mono hs e hq

end

theorem lerp_mem {s : List ℚ} (hs : s.Pairwise (· ≤ ·)) {pos : ℚ} (h0 : 0 ≤ pos)
    (hi : ⌊pos⌋₊ < s.length) {l u : ℚ} (hb : ∀ x ∈ s, l ≤ x ∧ x ≤ u) :
    l ≤ lerp s pos ∧ lerp s pos ≤ u := by
  have hb' : ∀ i < s.length, l ≤ s.getD i 0 ∧ s.getD i 0 ≤ u := fun i hi => by
    rw [List.getD_eq_getElem _ _ hi]
    exact hb _ (List.getElem_mem _)
  have := lerp_bounds hs h0 hi
  refine ⟨(hb' _ hi).1.trans this.1, this.2.trans ?_⟩
  by_cases h : ⌊pos⌋₊ + 1 < s.length
  · rw [List.getD_eq_getElem _ _ h]
    exact (hb _ (List.getElem_mem _)).2
  · rw [List.getD_eq_default _ _ (by omega)]
    exact (hb' _ hi).2

theorem ratio_mem {k1 k2 q : ℚ} (h1 : 0 ≤ k1) (h2 : 0 ≤ k2) (hq : 0 ≤ q) {x : ℚ × ℚ}
    (hx : 0 ≤ x.1 ∧ 0 ≤ x.2) : 0 ≤ ratio k1 k2 q x ∧ ratio k1 k2 q x ≤ 1 := by
  unfold ratio
  have a1 := mul_nonneg hq hx.1
  have a2 := mul_nonneg hq hx.2
  have hn : 0 ≤ q * x.1 + k1 := by linarith
  have hd : q * x.1 + k1 ≤ q * (x.1 + x.2) + k1 + k2 := by nlinarith
  exact ⟨div_nonneg hn (hn.trans hd), div_le_one_of_le₀ hd (hn.trans hd)⟩

theorem mean_mem {l : List ℚ} (h : ∀ x ∈ l, 0 ≤ x ∧ x ≤ 1) :
    0 ≤ l.sum / l.length ∧ l.sum / l.length ≤ 1 := by
  have h1 : 0 ≤ l.sum := List.sum_nonneg fun x hx => (h x hx).1
  have h2 : l.sum ≤ l.length := by
    have := List.sum_le_card_nsmul l 1 fun x hx => (h x hx).2
    simpa using this
  exact ⟨by positivity, div_le_one_of_le₀ h2 (by positivity)⟩

section
variable {K : Type} [DecidableEq K] {U : K → Variable K} {M : Cpm K}
  {cv1 cv2 : List (Variable K)} {cs1 cs2 : List ℕ}

/-- one round of the conditional estimate -/
def condStep (M : Cpm K) (cv1 : List (Variable K)) (cs1 : List ℕ) (cv2 : List (Variable K))
    (cs2 : List ℕ) (n : ℕ) (acc : Option (ℚ × ℚ × ℚ × ℚ)) (i : ℕ) : Option (ℚ × ℚ × ℚ × ℚ) :=
  let w := (rowRange i n).map (wt M)
  let t1 := nTrue ((rowRange i n).map (hw M cv1 cs1 true)) w
  let t2 := nTrue ((rowRange i n).map (hw M cv2 cs2 true)) w
  let ab := acc.getD (1 / 100, 1 / 100, 1 / 100, 1 / 100)
  some (ab.1 + t1, ab.2.1 + (nEff w - t1), ab.2.2.1 + (t2 - t1), ab.2.2.2 + (nEff w - (t2 - t1)))

/-- all four parameters of the beta distributions are positive -/
def Pos4 (acc : Option (ℚ × ℚ × ℚ × ℚ)) : Prop :=
  let ab := acc.getD (1 / 100, 1 / 100, 1 / 100, 1 / 100)
  0 < ab.1 ∧ 0 < ab.2.1 ∧ 0 < ab.2.2.1 ∧ 0 < ab.2.2.2

theorem condRound_ok (h : WF U (noSamples M)) (hs : SamplesOK M)
    (he1 : EvidenceOK U M.getNames cv1 cs1) (hnd1 : (cv1.map Variable.name).Nodup)
    (he2 : EvidenceOK U M.getNames cv2 cs2) (hnd2 : (cv2.map Variable.name).Nodup)
    {i n : ℕ} (hn : 0 < n)
    (hin : (i + 1) * n ≤ M.Cs.length) (h1 : M.ps = [] → n = M.Cs.length)
    (acc : Option (ℚ × ℚ × ℚ × ℚ)) :
    condRound M cv1 cs1 cv2 cs2 n acc i = .ok (condStep M cv1 cs1 cv2 cs2 n acc i) := by
  unfold condRound
  rw [estWeights_ok h hs he1 hnd1 hn hin h1, ok_bind, estWeights_ok h hs he2 hnd2 hn hin h1, ok_bind]
  rfl

theorem condStep_pos {i n : ℕ} (hin : (i + 1) * n ≤ M.Cs.length)
    (hw0 : ∀ j < M.Cs.length, 0 ≤ wt M j)
    (hsub : ∀ x, Consistent (M.vars.map Variable.name) cv1 cs1 x →
      Consistent (M.vars.map Variable.name) cv2 cs2 x)
    {acc : Option (ℚ × ℚ × ℚ × ℚ)} (hacc : Pos4 acc) :
    Pos4 (condStep M cv1 cs1 cv2 cs2 n acc i) := by
  have hwj : ∀ j ∈ rowRange i n, 0 ≤ wt M j := fun j hj =>
    hw0 j (by have := (mem_rowRange.1 hj).2; omega)
  have b1 := nTrue_bounds (l := rowRange i n) (f := hw M cv1 cs1 true) (g := wt M)
    (fun j hj => (hw_bounds (hwj j hj)).1) (fun j hj => (hw_bounds (hwj j hj)).2)
  have b2 := nTrue_bounds (l := rowRange i n) (f := hw M cv2 cs2 true) (g := wt M)
    (fun j hj => (hw_bounds (hwj j hj)).1) (fun j hj => (hw_bounds (hwj j hj)).2)
  have b3 := nTrue_mono (l := rowRange i n) (f := hw M cv1 cs1 true) (f' := hw M cv2 cs2 true)
    (g := wt M) (fun j hj => by
      unfold hw
      by_cases hc : Hit M cv1 cs1 true (M.Cs.getD j [])
      · have : Hit M cv2 cs2 true (M.Cs.getD j []) := by
          unfold Hit at hc ⊢
          simp only [iff_true] at hc ⊢
          exact hsub _ hc
        rw [if_pos hc, if_pos this]
      · rw [if_neg hc]
        split
        · exact hwj j hj
        · rfl) hwj
  obtain ⟨a1, a2, a3, a4⟩ := hacc
  refine ⟨?_, ?_, ?_, ?_⟩ <;> simp only [condStep, Option.getD_some] <;>
    linarith [b1.1, b1.2, b2.1, b2.2]

theorem getProb_mono (h : WF U (noSamples M)) (hs : SamplesOK M) (hp : ∀ x ∈ M.p, 0 ≤ x)
    (hq1 : QueryOK U M.getNames cv1 cs1) (hq2 : QueryOK U M.getNames cv2 cs2)
    (hsub : ∀ x, Consistent (M.vars.map Variable.name) cv1 cs1 x →
      Consistent (M.vars.map Variable.name) cv2 cs2 x) {a b : ℚ}
    (ha : M.getProb cv1 cs1 true = .ok a) (hb : M.getProb cv2 cs2 true = .ok b) : a ≤ b := by
  rw [getProb_samples h hs hq1, Except.ok.injEq] at ha
  rw [getProb_samples h hs hq2, Except.ok.injEq] at hb
  rw [← ha, ← hb]
  refine maskRows_mono (fun r hr h1 => ?_) hp
  simp only [if_true] at h1 ⊢
  rw [compatRow_iff h hq1.ev hq1.nodup hr] at h1
  rw [compatRow_iff h hq2.ev hq2.nodup hr]
  obtain ⟨x, hx1, hx2⟩ := h1
  exact ⟨x, hsub x hx1, hx2⟩

end

/-! ### Chunks -/

theorem chunk_flatten {α : Type} (n : ℕ) (l : List α) (m : ℕ) :
    ((List.range m).map fun j => (l.drop (j * n)).take n).flatten = l.take (m * n) := by
  induction m with
  | zero => simp
  | succ m ih =>
    rw [List.range_succ, List.map_append, List.flatten_append, ih, Nat.add_mul, Nat.one_mul,
      List.take_add]
    simp

end BNS
