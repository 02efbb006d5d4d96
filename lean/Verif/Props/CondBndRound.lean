import Verif.Props.CpmRound
import Verif.Props.CpmRoundUnder
import Verif.Proofs.CondBndRound

/-!
# Property C109: conditional probability bounds in floating-point arithmetic
-/

namespace BNS

set_option linter.unusedSectionVars false

open List

/-- Division in double precision, without underflow. -/
def div53 (x y : ℚ) : ℚ := float53 (x / y)

section
variable {K : Type} [DecidableEq K] {U : K → Variable K}

/-- With exact arithmetic this is `get_prob_bnd` of C12. -/
theorem C109_refines (M : Cpm K) (cv : List (Variable K)) (cs : List ℕ) (flag : Bool)
    (dv : List (Variable K)) (ds : List ℕ) (dflag : Bool) :
    M.getProbBndCondR Arith.exact (· / ·) cv cs flag dv ds dflag =
      M.getProbBnd cv cs flag (some (dv, ds, dflag)) := by
  have hs : ∀ x y : ℚ, Arith.exact.sum [x, y] = x + y := fun x y => by
    show [x, y].sum = _; simp
  have hg : ∀ vs st fl, M.getProbR Arith.exact vs st fl = M.getProb vs st fl := fun _ _ _ => rfl
  unfold Cpm.getProbBndCondR Cpm.getProbBnd
  simp only [hs, hg]
  rfl

/-- Computed with a rounding to 53 binary digits, the interval of the conditional `get_prob_bnd` contains
the conditional probability up to `(6 N + 12) 2⁻⁵² / b`, for every way of completing the partly known
distribution, where `b` is the probability of the condition that the table knows; and it is computed
without a division by zero.  Missing: conditions with a smaller known probability
(`C109_not_small`). -/
theorem C109_round_partial {fl : ℚ → ℚ} {F : ℚ → Prop} {η : ℚ} (hF : Round53 fl F η) {k : ℕ} {M' M : Cpm K}
    (hM : SameTable (NearP F ((2 : ℚ) ^ (-53 : ℤ)) k) M' M) (h : WF U M)
    (C' : List (List ℕ)) (p' : List ℚ)
    (h' : WF U (complete M C' p')) (hp : ∀ q ∈ M.p ++ p', 0 ≤ q) (h1 : (M.p ++ p').sum = 1)
    (cv : List (Variable K)) (cs : List ℕ) (hq : QueryOK U M.getNames cv cs) (flag : Bool)
    (dv : List (Variable K)) (ds : List ℕ) (hd : QueryOK U M.getNames dv ds) (dflag : Bool)
    {N : ℕ} (hN : k + M.C.length ≤ N) {b : ℚ} (hb : M.getProb dv ds dflag = .ok b)
    (hbN : (6 * N + 12) * (2 : ℚ) ^ (-52 : ℤ) ≤ b)
    (hsub : ∀ s t, (complete M C' p').getProb cv cs flag = .ok s →
      (complete M C' p').getProb dv ds dflag = .ok t → s ≤ t) :
    ∃ lo hi s t, M'.getProbBndCondR (Arith.ofRound fl) (fun x y => fl (x / y)) cv cs flag dv ds dflag =
        .ok (lo, hi) ∧
      (complete M C' p').getProb cv cs flag = .ok s ∧
      (complete M C' p').getProb dv ds dflag = .ok t ∧ 0 < t ∧
      lo - (6 * N + 12) * (2 : ℚ) ^ (-52 : ℤ) / b ≤ s / t ∧
      s / t ≤ hi + (6 * N + 12) * (2 : ℚ) ^ (-52 : ℤ) / b ∧ 0 ≤ lo ∧ hi ≤ 1 := by
  obtain ⟨lo1, hi1, s, a1, a2, a3, a4, a5, a6⟩ := C12_bounds M h C' p' h' hp h1 cv cs hq flag
  obtain ⟨lo2, hi2, t, b1, b2, b3, b4, b5, b6⟩ := C12_bounds M h C' p' h' hp h1 dv ds hd dflag
  unfold Cpm.getProbBnd at a1 b1
  obtain ⟨a, ha, a1⟩ := bind_ok.1 a1
  obtain ⟨rfl, rfl⟩ := Prod.mk.inj (Except.ok.inj a1 : (a, min 1 (a + (1 - M.p.sum))) = (lo1, hi1))
  obtain ⟨b0, hb0, b1⟩ := bind_ok.1 b1
  obtain ⟨rfl, rfl⟩ := Prod.mk.inj (Except.ok.inj b1 : (b0, min 1 (b0 + (1 - M.p.sum))) = (lo2, hi2))
  obtain rfl : b0 = b := Except.ok.inj (hb0.symm.trans hb)
  have hA := hF.within
  obtain ⟨a', ha', hna⟩ := (getProb_rel hM (fun _ _ hl hn => sum_nearP hA _ _ _ _ hl hn) cv cs flag).of_ok ha
  obtain ⟨b', hb', hnb⟩ := (getProb_rel hM (fun _ _ hl hn => sum_nearP hA _ _ _ _ hl hn) dv ds dflag).of_ok hb
  have hns := sum_nearP hA k M.C.length M'.p M.p hM.p h.pLen.le
  have hb1 : b0 ≤ 1 := b3.trans (b4.trans b6)
  have hN' : N ≤ 2 ^ 52 := by
    have h3 : (6 * (N : ℚ) + 12) * (2 : ℚ) ^ (-52 : ℤ) ≤ 1 := hbN.trans hb1
    have h4 : (6 * (N : ℚ) + 12) ≤ 2 ^ 52 := by
      have e : (2 : ℚ) ^ (-52 : ℤ) = 1 / 2 ^ 52 := by norm_num
      rw [e, mul_one_div, div_le_one (by positivity)] at h3
      exact h3
    have : (N : ℚ) ≤ 2 ^ 52 := by linarith [(Nat.cast_nonneg N : (0 : ℚ) ≤ N)]
    exact_mod_cast this
  have ra := C103_relative (hna.mono hA.eps hN) hN'
  have rb := C103_relative (hnb.mono hA.eps hN) hN'
  have rs := C103_relative (hns.mono hA.eps hN) hN'
  have a0 := hna.nonneg' hA.eps
  have sum0 : 0 ≤ 1 - M.p.sum := by
    rw [List.sum_append] at h1
    have : 0 ≤ p'.sum := List.sum_nonneg fun q hq => hp q (by simp [hq])
    linarith
  have hsn : 0 ≤ M.p.sum := List.sum_nonneg fun q hq => hp q (by simp [hq])
  have ha1 : a ≤ 1 := a3.trans (a4.trans a6)
  have hst := hsub _ _ a2 b2
  have e52 : (2 : ℚ) ^ (-52 : ℤ) = 2 * (2 : ℚ) ^ (-53 : ℤ) := by norm_num
  have epos : 0 < (2 : ℚ) ^ (-53 : ℤ) := two_zpow_pos _
  have hX : (6 * (N : ℚ) + 12) * (2 : ℚ) ^ (-52 : ℤ) =
      6 * (N * (2 : ℚ) ^ (-52 : ℤ)) + 24 * (2 : ℚ) ^ (-53 : ℤ) := by rw [e52]; ring
  have hT0 : 0 ≤ (N : ℚ) * (2 : ℚ) ^ (-52 : ℤ) := by positivity
  rw [hX] at hbN ⊢
  generalize (N : ℚ) * (2 : ℚ) ^ (-52 : ℤ) = T at *
  obtain ⟨hbp, hD0, hD1, he1, hT1, hX1, hX2⟩ : 0 < b0 ∧ 0 ≤ 2 * T + 10 * (2 : ℚ) ^ (-53 : ℤ) ∧
      2 * T + 10 * (2 : ℚ) ^ (-53 : ℤ) ≤ b0 / 2 ∧ (2 : ℚ) ^ (-53 : ℤ) ≤ 1 / 2 ∧ T ≤ 1 / 2 ∧
      2 * (2 * T + 10 * (2 : ℚ) ^ (-53 : ℤ)) + 4 * (2 : ℚ) ^ (-53 : ℤ) + 2 * T ≤
        6 * T + 24 * (2 : ℚ) ^ (-53 : ℤ) ∧
      4 * (2 : ℚ) ^ (-53 : ℤ) + 3 * T + (2 * T + 10 * (2 : ℚ) ^ (-53 : ℤ)) ≤
        6 * T + 24 * (2 : ℚ) ^ (-53 : ℤ) := by
    clear hX e52
    generalize (2 : ℚ) ^ (-53 : ℤ) = e at *
    refine ⟨?_, ?_, ?_, ?_, ?_, ?_, ?_⟩ <;> linarith
  have na := bound_near hF hna.repr hns.repr hT0 (by linarith) a5 ha1 hsn (by linarith) ra rs
  have nb := bound_near hF hnb.repr hns.repr hT0 (by linarith) hbp.le hb1 hsn (by linarith) rb rs
  have fq := hF.any (a' / (Arith.ofRound fl).sum
    [b', (Arith.ofRound fl).sub 1 ((Arith.ofRound fl).sum M'.p)])
  have fu := hF.any ((Arith.ofRound fl).sum
    [a', (Arith.ofRound fl).sub 1 ((Arith.ofRound fl).sum M'.p)] / b')
  have hna0 := hna.nonneg' hA.eps
  have htu : t ≤ b0 + (1 - M.p.sum) := b4.trans (min_le_right _ _)
  have hsu : s ≤ a + (1 - M.p.sum) := a4.trans (min_le_right _ _)
  have hW0 : 0 ≤ (Arith.ofRound fl).sum
      [b', (Arith.ofRound fl).sub 1 ((Arith.ofRound fl).sum M'.p)] := by
    have := (abs_le.1 nb).1
    linarith
  have l2 := hF.nonneg _ (div_nonneg hna0 hW0)
  obtain ⟨l1, l3⟩ := cond_lower (s := s) (t := t) a5 hbp hb1 sum0 epos.le he1 hT0 hT1
    hD0 hD1 a3 (by linarith) htu hst nb hna0 ra hF.eta.1 hF.eta.2 l2 fq
  have u1 := cond_upper hbp hb1 epos.le he1 hT0 hT1 hD0 hD1
    (a5.trans a3) hsu b3 hst na rb hF.eta.1 hF.eta.2 fu
  have hbp' : b' ≠ 0 := by
    intro h0
    rw [h0, zero_sub, abs_neg, abs_of_pos hbp] at rb
    nlinarith
  generalize hW : (Arith.ofRound fl).sum
    [b', (Arith.ofRound fl).sub 1 ((Arith.ofRound fl).sum M'.p)] = W at *
  generalize hV : (Arith.ofRound fl).sum
    [a', (Arith.ofRound fl).sub 1 ((Arith.ofRound fl).sum M'.p)] = V at *
  have hmono : ∀ x y : ℚ, x ≤ y → x / b0 ≤ y / b0 := fun x y hxy =>
    div_le_div_of_nonneg_right hxy hbp.le
  refine ⟨fl (a' / W), min 1 (fl (V / b')), s, t, ?_, a2, b2, by linarith, ?_, ?_, l2,
    min_le_left _ _⟩
  · unfold Cpm.getProbBndCondR
    have hdv : dv ≠ [] := hd.ne
    simp only [ha', hb', ok_bind, hdv, if_false, hW, hV]
    rw [if_neg]
    · rfl
    · rintro (h | h)
      · linarith
      · exact hbp' h
  · exact sub_le_iff_le_add.2 (l1.trans (add_le_add le_rfl (hmono _ _ hX1)))
  · exact u1.trans (add_le_add le_rfl (hmono _ _ hX2))

/-- In double precision without underflow. -/
theorem C109_interval_partial {k : ℕ} {M' M : Cpm K}
    (hM : SameTable (NearP (fun _ => True) ((2 : ℚ) ^ (-53 : ℤ)) k) M' M) (h : WF U M)
    (C' : List (List ℕ)) (p' : List ℚ)
    (h' : WF U (complete M C' p')) (hp : ∀ q ∈ M.p ++ p', 0 ≤ q) (h1 : (M.p ++ p').sum = 1)
    (cv : List (Variable K)) (cs : List ℕ) (hq : QueryOK U M.getNames cv cs) (flag : Bool)
    (dv : List (Variable K)) (ds : List ℕ) (hd : QueryOK U M.getNames dv ds) (dflag : Bool)
    {N : ℕ} (hN : k + M.C.length ≤ N) {b : ℚ} (hb : M.getProb dv ds dflag = .ok b)
    (hbN : (6 * N + 12) * (2 : ℚ) ^ (-52 : ℤ) ≤ b)
    (hsub : ∀ s t, (complete M C' p').getProb cv cs flag = .ok s →
      (complete M C' p').getProb dv ds dflag = .ok t → s ≤ t) :
    ∃ lo hi s t, M'.getProbBndCondR (Arith.ofRound float53) div53 cv cs flag dv ds dflag =
        .ok (lo, hi) ∧
      (complete M C' p').getProb cv cs flag = .ok s ∧
      (complete M C' p').getProb dv ds dflag = .ok t ∧ 0 < t ∧
      lo - (6 * N + 12) * (2 : ℚ) ^ (-52 : ℤ) / b ≤ s / t ∧
      s / t ≤ hi + (6 * N + 12) * (2 : ℚ) ^ (-52 : ℤ) / b ∧ 0 ≤ lo ∧ hi ≤ 1 :=
  C109_round_partial round53_float53 hM h C' p' h' hp h1 cv cs hq flag dv ds hd dflag hN hb hbN hsub

/-- In double precision, with underflow in the divisions; the probabilities of the table are stored with
relative errors. -/
theorem C109_double_partial {k : ℕ} {M' M : Cpm K}
    (hM : SameTable (NearP OnGrid ((2 : ℚ) ^ (-53 : ℤ)) k) M' M) (h : WF U M)
    (C' : List (List ℕ)) (p' : List ℚ)
    (h' : WF U (complete M C' p')) (hp : ∀ q ∈ M.p ++ p', 0 ≤ q) (h1 : (M.p ++ p').sum = 1)
    (cv : List (Variable K)) (cs : List ℕ) (hq : QueryOK U M.getNames cv cs) (flag : Bool)
    (dv : List (Variable K)) (ds : List ℕ) (hd : QueryOK U M.getNames dv ds) (dflag : Bool)
    {N : ℕ} (hN : k + M.C.length ≤ N) {b : ℚ} (hb : M.getProb dv ds dflag = .ok b)
    (hbN : (6 * N + 12) * (2 : ℚ) ^ (-52 : ℤ) ≤ b)
    (hsub : ∀ s t, (complete M C' p').getProb cv cs flag = .ok s →
      (complete M C' p').getProb dv ds dflag = .ok t → s ≤ t) :
    ∃ lo hi s t, M'.getProbBndCondR (Arith.ofRound float64) (fun x y => float64 (x / y)) cv cs flag dv ds dflag =
        .ok (lo, hi) ∧
      (complete M C' p').getProb cv cs flag = .ok s ∧
      (complete M C' p').getProb dv ds dflag = .ok t ∧ 0 < t ∧
      lo - (6 * N + 12) * (2 : ℚ) ^ (-52 : ℤ) / b ≤ s / t ∧
      s / t ≤ hi + (6 * N + 12) * (2 : ℚ) ^ (-52 : ℤ) / b ∧ 0 ≤ lo ∧ hi ≤ 1 :=
  C109_round_partial round53_float64 hM h C' p' h' hp h1 cv cs hq flag dv ds hd dflag hN hb hbN hsub

end

namespace Ex

/-- A variable with five values, one of them very improbable. -/
def five : Variable ℕ := Variable.mk' 7 [0, 1, 2, 3, 4] .dflt

def fiveCpm : Cpm ℕ :=
  { vars := [five], noChild := 1, C := [[0], [1], [2], [3], [4]],
    p := [1/5, 2/5, 3/10, 1/10 - 2 ^ (-60 : ℤ), 2 ^ (-60 : ℤ)] }

theorem tenth_table : SameTable (NearP OnGrid ((2 : ℚ) ^ (-53 : ℤ)) 1)
    (stored64 { A with C := [[0]], p := [1/10] }) { A with C := [[0]], p := [1/10] } :=
  ⟨rfl, rfl, rfl, .cons ⟨float64_grid _, by decide +kernel, by decide +kernel, by decide +kernel⟩ .nil,
    ⟨rfl, rfl, rfl, rfl⟩, rfl⟩

end Ex

/-- Non-vacuity: a table with only one of the two rows known, stored in double precision; the
probability of the known value given that it occurs. -/
example : ∃ lo hi s t,
    (Ex.stored { Ex.A with C := [[0]], p := [1/10] }).getProbBndCondR (Arith.ofRound float53) div53
      [Ex.U 0] [0] true [Ex.U 0] [0] true = .ok (lo, hi) ∧
    (complete { Ex.A with C := [[0]], p := [1/10] } [[1]] [9/10]).getProb [Ex.U 0] [0] true = .ok s ∧
    (complete { Ex.A with C := [[0]], p := [1/10] } [[1]] [9/10]).getProb [Ex.U 0] [0] true = .ok t ∧
    0 < t ∧ lo - (6 * ((2 : ℕ) : ℚ) + 12) * (2 : ℚ) ^ (-52 : ℤ) / (1/10) ≤ s / t ∧
    s / t ≤ hi + (6 * ((2 : ℕ) : ℚ) + 12) * (2 : ℚ) ^ (-52 : ℤ) / (1/10) ∧ 0 ≤ lo ∧ hi ≤ 1 :=
  C109_interval_partial (U := Ex.U) (N := 2)
    (Ex.stored_table { Ex.A with C := [[0]], p := [1/10] } (by decide +kernel) rfl)
    (by decide +kernel : WF Ex.U { Ex.A with C := [[0]], p := [1/10] }) [[1]] [9/10]
    (by decide +kernel) (by decide +kernel) (by decide +kernel) [Ex.U 0] [0]
    ⟨⟨rfl, by decide +kernel, by decide +kernel⟩, by simp, by decide +kernel, by decide +kernel⟩ true
    [Ex.U 0] [0]
    ⟨⟨rfl, by decide +kernel, by decide +kernel⟩, by simp, by decide +kernel, by decide +kernel⟩ true
    (by decide) (by decide +kernel) (by norm_num)
    (fun s t hs ht => by rw [hs] at ht; exact (Except.ok.inj ht).le)

/-- Non-vacuity in double precision with underflow. -/
example : ∃ lo hi s t,
    (Ex.stored64 { Ex.A with C := [[0]], p := [1/10] }).getProbBndCondR (Arith.ofRound float64)
      (fun x y => float64 (x / y)) [Ex.U 0] [0] true [Ex.U 0] [0] true = .ok (lo, hi) ∧
    (complete { Ex.A with C := [[0]], p := [1/10] } [[1]] [9/10]).getProb [Ex.U 0] [0] true = .ok s ∧
    (complete { Ex.A with C := [[0]], p := [1/10] } [[1]] [9/10]).getProb [Ex.U 0] [0] true = .ok t ∧
    0 < t ∧ lo - (6 * ((2 : ℕ) : ℚ) + 12) * (2 : ℚ) ^ (-52 : ℤ) / (1/10) ≤ s / t ∧
    s / t ≤ hi + (6 * ((2 : ℕ) : ℚ) + 12) * (2 : ℚ) ^ (-52 : ℤ) / (1/10) ∧ 0 ≤ lo ∧ hi ≤ 1 :=
  C109_double_partial (U := Ex.U) (N := 2) Ex.tenth_table
    (by decide +kernel : WF Ex.U { Ex.A with C := [[0]], p := [1/10] }) [[1]] [9/10]
    (by decide +kernel) (by decide +kernel) (by decide +kernel) [Ex.U 0] [0]
    ⟨⟨rfl, by decide +kernel, by decide +kernel⟩, by simp, by decide +kernel, by decide +kernel⟩ true
    [Ex.U 0] [0]
    ⟨⟨rfl, by decide +kernel, by decide +kernel⟩, by simp, by decide +kernel, by decide +kernel⟩ true
    (by decide) (by decide +kernel) (by norm_num)
    (fun s t hs ht => by rw [hs] at ht; exact (Except.ok.inj ht).le)

/-- The same table, without the condition. -/
example : ∃ lo hi t,
    (Ex.stored64 { Ex.A with C := [[0]], p := [1/10] }).getProbBndR (Arith.ofRound float64)
      [Ex.U 0] [0] true = .ok (lo, hi) ∧
    (complete { Ex.A with C := [[0]], p := [1/10] } [[1]] [9/10]).getProb [Ex.U 0] [0] true = .ok t ∧
    lo - ((2 : ℕ) : ℚ) * (2 : ℚ) ^ (-52 : ℤ) ≤ t ∧
    t ≤ hi + (2 * ((2 : ℕ) : ℚ) + 5) * (2 : ℚ) ^ (-52 : ℤ) ∧ 0 ≤ lo ∧ hi ≤ 1 :=
  C103_interval_double (U := Ex.U) (N := 2) Ex.tenth_table
    (by decide +kernel : WF Ex.U { Ex.A with C := [[0]], p := [1/10] }) [[1]] [9/10]
    (by decide +kernel) (by decide +kernel) (by decide +kernel) [Ex.U 0] [0]
    ⟨⟨rfl, by decide +kernel, by decide +kernel⟩, by simp, by decide +kernel, by decide +kernel⟩ true
    (by decide) (by norm_num)

/-- Why the condition must not be too improbable: for a complete table whose probabilities add up to
1, in double precision their sum is above 1, and for the condition with the probability `2⁻⁶⁰` both
bounds of its probability given itself, which is 1, are negative. -/
theorem C109_not_small :
    Cpm.mk' Ex.fiveCpm = .ok Ex.fiveCpm ∧ Ex.fiveCpm.p.sum = 1 ∧
    Ex.fiveCpm.getProbBnd [Ex.five] [4] true (some ([Ex.five], [4], true)) = .ok (1, 1) ∧
    ∃ lo up, (Ex.stored Ex.fiveCpm).getProbBndCondR (Arith.ofRound float64)
      (fun x y => float64 (x / y)) [Ex.five] [4] true [Ex.five] [4] true = .ok (lo, up) ∧
      lo < 0 ∧ up < -200 := by
  refine ⟨by decide +kernel, by decide +kernel, by decide +kernel, ?_⟩
  have : ((Ex.stored Ex.fiveCpm).getProbBndCondR (Arith.ofRound float64)
      (fun x y => float64 (x / y)) [Ex.five] [4] true [Ex.five] [4] true).toOption.any
        (fun r => decide (r.1 < 0 ∧ r.2 < -200)) = true := by decide +kernel
  revert this
  cases (Ex.stored Ex.fiveCpm).getProbBndCondR (Arith.ofRound float64)
      (fun x y => float64 (x / y)) [Ex.five] [4] true [Ex.five] [4] true with
  | error e => intro h; simp [Except.toOption] at h
  | ok r =>
    intro h
    simp [Except.toOption] at h
    exact ⟨r.1, r.2, rfl, h⟩

end BNS
