import Verif.Proofs.CpmRoundElim
import Verif.Proofs.Float53
import Verif.Proofs.CpmRoundCount
import Verif.Proofs.CondBndRound
import Verif.Props.Elim
import Verif.Props.CpmQuery
import Verif.Props.BrcRound

/-!
# Property C103: inference with CPMs in floating-point arithmetic

`Arith` is the arithmetic of the probabilities; `Arith.mul` stands for `get_prod`, `Arith.sum` for
`np.sum`.
-/

namespace BNS

set_option linter.unusedSectionVars false

open List

section
variable {K : Type} [LinearOrder K] {U : K → Variable K} {A : Arith} {F : ℚ → Prop} {ε : ℚ}

theorem sumLoopR_exact : ∀ (n : ℕ) (M : Cpm K), sumLoopR Arith.exact n M = sumLoop n M := by
  intro n
  induction n with
  | zero => intro M; rfl
  | succ n ih =>
    intro M
    unfold sumLoopR sumLoop
    simp only [ih]
    rfl

/-- With exact arithmetic these are the operations of the other properties. -/
theorem C103_refines (S M : Cpm K) (cpms : List (Cpm K)) (vs : List (Variable K)) (st : List ℕ)
    (flag : Bool) :
    S.productR Arith.exact M = S.product M ∧ M.sumR Arith.exact vs flag = M.sum vs flag ∧
    M.getProbR Arith.exact vs st flag = M.getProb vs st flag ∧
    variableElimR Arith.exact cpms vs = variableElim cpms vs ∧
    (∀ a b, M.getProbBndR Arith.exact vs st flag = .ok (a, b) ↔
      M.getProbBnd vs st flag none = .ok (a, b)) := by
  have hs : ∀ (M : Cpm K) vs flag, M.sumR Arith.exact vs flag = M.sum vs flag := by
    intro M vs flag
    unfold Cpm.sumR Cpm.sum sumBodyR sumBody
    simp only [sumLoopR_exact]
  have hp : ∀ S M : Cpm K, S.productR Arith.exact M = S.product M := fun _ _ => rfl
  have hl : ∀ l : List (Cpm K), productListR Arith.exact l = productList l := by
    intro l
    cases l <;> rfl
  have he : elimStepR (K := K) Arith.exact = elimStep := by
    funext l v
    unfold elimStepR elimStep
    simp only [hs, hl]
  refine ⟨hp S M, hs M vs flag, rfl, ?_, fun a b => ?_⟩
  · unfold variableElimR variableElim variableElimListR variableElimList
    simp only [he, hl]
  · unfold Cpm.getProbBndR Cpm.getProbBnd
    have : M.getProbR Arith.exact vs st flag = M.getProb vs st flag := rfl
    rw [this]
    simp only [Arith.exact, List.sum_cons, List.sum_nil, add_zero]

/-- Whatever the arithmetic, rounding changes the probabilities only: products, sums and eliminations
raise the same exceptions, and give tables with the same variables and the same rows in the same
order. -/
theorem C103_structure (A : Arith) {cpms' cpms : List (Cpm K)}
    (h : Forall₂ (SameTable fun _ _ => True) cpms' cpms) (ve : List (Variable K)) :
    Outcome (SameTable fun _ _ => True) (variableElimR A cpms' ve) (variableElim cpms ve) ∧
    (∀ S' S M' M, SameTable (fun _ _ => True) S' S → SameTable (fun _ _ => True) M' M →
      Outcome (SameTable fun _ _ => True) (Cpm.productR A S' M' : Except Err (Cpm K)) (S.product M) ∧
      ∀ flag, Outcome (SameTable fun _ _ => True) (M'.sumR A ve flag) (M.sum ve flag)) := by
  refine ⟨elim_rel (counted_true A) (k := 0) h ve, fun S' S M' M hS hM => ⟨?_, fun flag => ?_⟩⟩
  · exact product_rel (counted_true A) (k := 0) (m := 0) hS hM
  · exact sum_rel hM (fun _ _ _ _ => trivial) ve flag

/-- One operation: the product of tables right up to `k` and `m` relative errors is right up to
`k + m + 1`; a sum adds as many as the table has rows; so does the sum in `get_prob`. -/
theorem C103_operations (hA : A.Within F ε 0) {k m : ℕ} {S' S M' M : Cpm K}
    (hS : SameTable (NearP F ε k) S' S) (hM : SameTable (NearP F ε m) M' M) :
    Outcome (SameTable (NearP F ε (k + m + 1))) (S'.productR A M') (S.product M) ∧
    (∀ vs flag, Outcome (SameTable (NearP F ε (m + M.C.length))) (M'.sumR A vs flag) (M.sum vs flag)) ∧
    (∀ vs st flag, Outcome (NearP F ε (m + M.C.length)) (M'.getProbR A vs st flag)
      (M.getProb vs st flag)) :=
  ⟨product_rel (counted_near hA) hS hM,
    fun vs flag => sum_rel hM (fun _ _ hl hn => (counted_near hA).sum _ _ _ _ hl hn) vs flag,
    fun vs st flag => getProb_rel hM (fun _ _ hl hn => (counted_near hA).sum _ _ _ _ hl hn) vs st flag⟩

theorem dens_near {k : ℕ} {P' P : Cpm K} (h : SameTable (NearP F ε k) P' P)
    (x : K → ℕ) : 0 ≤ dens P x ∧ (1 - ε) ^ k * dens P x ≤ dens P' x ∧
      dens P' x ≤ (1 + ε) ^ k * dens P x := by
  unfold dens
  rw [h.vars, h.C]
  have hp := h.p
  generalize P'.p = p' at hp
  generalize P.p = p at hp
  generalize P.C = C
  induction hp generalizing C with
  | nil => simp
  | cons h1 h2 ih =>
    cases C with
    | nil => simp
    | cons r C =>
      obtain ⟨i1, i2, i3⟩ := ih C
      simp only [List.zip_cons_cons, List.map_cons, List.sum_cons]
      by_cases hr : RowMatches P.vars r x
      · simp only [if_pos hr]
        refine ⟨add_nonneg h1.nonneg i1, ?_, ?_⟩
        · rw [mul_add]; exact add_le_add h1.low i2
        · rw [mul_add]; exact add_le_add h1.up i3
      · simp only [if_neg hr, zero_add]
        exact ⟨i1, i2, i3⟩

/-- Elimination: with relative errors at most `ε` in every operation and tables right up to `k`
relative errors, the result is the brute-force marginal of the tables meant, up to `elimRoundings`
relative errors, at every assignment.  Missing: tables with samples, and arithmetic with underflow
(`C103_underflow`). -/
theorem C103_elimination_partial (hA : A.Within F ε 0) {k : ℕ} {cpms' cpms : List (Cpm K)}
    (h : Forall₂ (SameTable (NearP F ε k)) cpms' cpms) {ve : List (Variable K)}
    (he : ElimOK U cpms ve) :
    ∃ P', variableElimR A cpms' ve = .ok P' ∧
      (∀ n, n ∈ P'.getNames ↔ (∃ M ∈ cpms, n ∈ M.getNames) ∧ n ∉ ve.map Variable.name) ∧
      ∀ x, (1 - ε) ^ elimRoundings k cpms ve *
          sumOver (ve.map fun v => (v.name, v.values.length)) (jointDens cpms) x ≤ dens P' x ∧
        dens P' x ≤ (1 + ε) ^ elimRoundings k cpms ve *
          sumOver (ve.map fun v => (v.name, v.values.length)) (jointDens cpms) x := by
  obtain ⟨P, hP, -, -, hd, -, hn⟩ := C15_elimination_partial cpms ve he
  obtain ⟨P', hP', hPP⟩ := (elim_rel (counted_near hA) h ve).of_ok hP
  refine ⟨P', hP', fun n => ?_, fun x => ?_⟩
  · rw [← hn]
    unfold Cpm.getNames
    rw [hPP.vars]
  · obtain ⟨-, h1, h2⟩ := dens_near hPP x
    rw [← hd]
    exact ⟨h1, h2⟩

/-- From the tables to the printed probability: what `get_prob` answers about the result of the
elimination is what it would answer in exact arithmetic, up to the roundings of the elimination and
one per row of its result. -/
theorem C103_probability (hA : A.Within F ε 0) {k : ℕ} {cpms' cpms : List (Cpm K)}
    (h : Forall₂ (SameTable (NearP F ε k)) cpms' cpms) {ve vs : List (Variable K)} {st : List ℕ}
    {flag : Bool} {P : Cpm K} (hP : variableElim cpms ve = .ok P) {q : ℚ}
    (hq : P.getProb vs st flag = .ok q) :
    ∃ P' q', variableElimR A cpms' ve = .ok P' ∧ P'.getProbR A vs st flag = .ok q' ∧ 0 ≤ q ∧
      (1 - ε) ^ (elimRoundings k cpms ve + P.C.length) * q ≤ q' ∧
      q' ≤ (1 + ε) ^ (elimRoundings k cpms ve + P.C.length) * q := by
  obtain ⟨P', hP', hPP⟩ := (elim_rel (counted_near hA) h ve).of_ok hP
  obtain ⟨q', hq', hqq⟩ := ((C103_operations hA hPP hPP).2.2 vs st flag).of_ok hq
  exact ⟨P', q', hP', hq', hqq.nonneg, hqq.low, hqq.up⟩

end

/-- Double precision as long as nothing underflows: every operation has relative error at most
`2⁻⁵³`; and it is double precision whenever the exact result is 0 or at least `2⁻¹⁰²²`. -/
theorem C103_float53 :
    (Arith.ofRound float53).Within (fun _ => True) ((2 : ℚ) ^ (-53 : ℤ)) 0 ∧
    ∀ x, x = 0 ∨ (2 : ℚ) ^ (-1022 : ℤ) ≤ |x| → float64 x = float53 x :=
  ⟨ofRound_within ⟨(two_zpow_pos _).le, by norm_num⟩ le_rfl trivial trivial (fun _ => trivial)
    (fun _ => float53_nonneg) (fun _ _ _ _ => float53_rel _) (fun _ _ _ _ => float53_rel _)
    (fun x => by simpa using float53_rel x), fun _ => float64_eq_float53⟩

/-- In numbers: after at most `2⁵²` roundings of relative size `2⁻⁵³`, the result has a relative
error of at most `2⁻⁵²` per rounding. -/
theorem C103_relative {F : ℚ → Prop} {k : ℕ} {x' x : ℚ}
    (h : NearP F ((2 : ℚ) ^ (-53 : ℤ)) k x' x) (hk : k ≤ 2 ^ 52) :
    |x' - x| ≤ k * (2 : ℚ) ^ (-52 : ℤ) * x := by
  have he : 0 ≤ (2 : ℚ) ^ (-53 : ℤ) ∧ (2 : ℚ) ^ (-53 : ℤ) < 1 :=
    ⟨(two_zpow_pos _).le, by norm_num⟩
  have hk' : (k : ℚ) ≤ 2 ^ 52 := by exact_mod_cast hk
  have h1 : (k : ℚ) * (2 : ℚ) ^ (-53 : ℤ) ≤ 1 / 2 := by
    have := mul_le_mul_of_nonneg_right hk' he.1
    refine this.trans ?_
    norm_num
  have h2 := up_le_linear he h1
  have h3 := one_add_mul_le_pow (a := -(2 : ℚ) ^ (-53 : ℤ)) (by linarith [he.2]) k
  rw [← sub_eq_add_neg] at h3
  have e : (2 : ℚ) ^ (-52 : ℤ) = 2 * (2 : ℚ) ^ (-53 : ℤ) := by norm_num
  have h4 := mul_le_mul_of_nonneg_right h2 h.nonneg
  have h5 := mul_le_mul_of_nonneg_right h3 h.nonneg
  have h6 : 0 ≤ k * (2 : ℚ) ^ (-53 : ℤ) * x :=
    mul_nonneg (mul_nonneg (Nat.cast_nonneg k) he.1) h.nonneg
  rw [abs_le, e]
  constructor
  · nlinarith [h.low]
  · nlinarith [h.up]

/-- How many roundings, known beforehand: at most one per given table besides those of the tables
themselves, and for every eliminated variable the product of the numbers of rows of the tables. -/
theorem C103_count {K : Type} [LinearOrder K] (k : ℕ) (cpms : List (Cpm K)) (ve : List (Variable K)) :
    elimRoundings k cpms ve ≤ cpms.length * (k + 1) +
      ve.length * (cpms.map fun M => max 1 M.C.length).prod := by
  have h := elimRows_le ve cpms
  have h' : ((cpms.map rows1).prod) = (cpms.map fun M => max 1 M.C.length).prod := rfl
  rw [← h']
  unfold elimRoundings
  rw [Nat.mul_add, Nat.mul_one]
  omega

/-- The same in numbers: eliminating variables in double precision, without underflow, from tables
stored with one rounding gives every entry with a relative error of at most `2⁻⁵²` times a number
that can be read off the given tables. -/
theorem C103_relative_elimination_partial {K : Type} [LinearOrder K] {U : K → Variable K}
    {cpms' cpms : List (Cpm K)}
    (h : Forall₂ (SameTable (NearP (fun _ => True) ((2 : ℚ) ^ (-53 : ℤ)) 1)) cpms' cpms)
    {ve : List (Variable K)} (he : ElimOK U cpms ve) {N : ℕ}
    (hN : 2 * cpms.length + ve.length * (cpms.map fun M => max 1 M.C.length).prod ≤ N)
    (hN' : N ≤ 2 ^ 52) :
    ∃ P', variableElimR (Arith.ofRound float53) cpms' ve = .ok P' ∧
      ∀ x, |dens P' x - sumOver (ve.map fun v => (v.name, v.values.length)) (jointDens cpms) x| ≤
        N * (2 : ℚ) ^ (-52 : ℤ) *
          sumOver (ve.map fun v => (v.name, v.values.length)) (jointDens cpms) x := by
  obtain ⟨P, hP, -, -, hd, -, -⟩ := C15_elimination_partial cpms ve he
  obtain ⟨P', hP', hPP⟩ := (elim_rel (counted_near C103_float53.1) h ve).of_ok hP
  refine ⟨P', hP', fun x => ?_⟩
  have hc := C103_count 1 cpms ve
  have hk : elimRoundings 1 cpms ve ≤ N := by omega
  obtain ⟨h0, h1, h2⟩ := dens_near hPP x
  rw [hd] at h0 h1 h2
  have hn : NearP (fun _ => True) ((2 : ℚ) ^ (-53 : ℤ)) (elimRoundings 1 cpms ve) (dens P' x)
      (sumOver (ve.map fun v => (v.name, v.values.length)) (jointDens cpms) x) :=
    ⟨trivial, h0, h1, h2⟩
  exact C103_relative (hn.mono C103_float53.1.eps hk) hN'

/-- The interval of `get_prob_bnd` computed with a rounding to 53 binary digits contains the probability
of the event up to the rounding errors, for every way of completing the partly known distribution. -/
theorem C103_interval_round {fl : ℚ → ℚ} {F : ℚ → Prop} {η : ℚ} (hF : Round53 fl F η)
    {K : Type} [DecidableEq K] {U : K → Variable K} {k : ℕ} {M' M : Cpm K}
    (hM : SameTable (NearP F ((2 : ℚ) ^ (-53 : ℤ)) k) M' M) (h : WF U M)
    (C' : List (List ℕ)) (p' : List ℚ)
    (h' : WF U (complete M C' p')) (hp : ∀ q ∈ M.p ++ p', 0 ≤ q) (h1 : (M.p ++ p').sum = 1)
    (cv : List (Variable K)) (cs : List ℕ) (hq : QueryOK U M.getNames cv cs) (flag : Bool) {N : ℕ}
    (hN : k + M.C.length ≤ N) (hN' : N ≤ 2 ^ 52) :
    ∃ lo hi t, M'.getProbBndR (Arith.ofRound fl) cv cs flag = .ok (lo, hi) ∧
      (complete M C' p').getProb cv cs flag = .ok t ∧
      lo - N * (2 : ℚ) ^ (-52 : ℤ) ≤ t ∧ t ≤ hi + (2 * N + 5) * (2 : ℚ) ^ (-52 : ℤ) ∧
      0 ≤ lo ∧ hi ≤ 1 := by
  obtain ⟨lo, hi, t, e1, e2, e3, e4, e5, e6⟩ := C12_bounds M h C' p' h' hp h1 cv cs hq flag
  unfold Cpm.getProbBnd at e1
  obtain ⟨a, ha, e1⟩ := bind_ok.1 e1
  have e1' : (a, min 1 (a + (1 - M.p.sum))) = (lo, hi) := Except.ok.inj e1
  obtain ⟨rfl, rfl⟩ := Prod.mk.inj e1'
  have hA := hF.within
  obtain ⟨a', ha', hna⟩ := (getProb_rel hM (fun _ _ hl hn => sum_nearP hA _ _ _ _ hl hn) cv cs flag).of_ok ha
  have hns := sum_nearP hA k M.C.length M'.p M.p hM.p h.pLen.le
  have ra := C103_relative (hna.mono hA.eps hN) hN'
  have rs := C103_relative (hns.mono hA.eps hN) hN'
  have a0 := hna.nonneg' hA.eps
  have sum0 : M.p.sum ≤ 1 := by
    rw [List.sum_append] at h1
    have : 0 ≤ p'.sum := List.sum_nonneg fun q hq => hp q (by simp [hq])
    linarith
  have hsn : 0 ≤ M.p.sum := List.sum_nonneg fun q hq => hp q (by simp [hq])
  have ha1 : a ≤ 1 := e3.trans (e4.trans e6)
  have hT1 : (N : ℚ) * (2 : ℚ) ^ (-52 : ℤ) ≤ 1 := by
    have : (N : ℚ) ≤ 2 ^ 52 := by exact_mod_cast hN'
    have := mul_le_mul_of_nonneg_right this (two_zpow_pos (-52)).le
    refine this.trans (le_of_eq ?_)
    norm_num
  have hT0 : 0 ≤ (N : ℚ) * (2 : ℚ) ^ (-52 : ℤ) := mul_nonneg (Nat.cast_nonneg _) (two_zpow_pos _).le
  have hX : (2 * (N : ℚ) + 5) * (2 : ℚ) ^ (-52 : ℤ) =
      2 * (N * (2 : ℚ) ^ (-52 : ℤ)) + 10 * (2 : ℚ) ^ (-53 : ℤ) := by
    have e52 : (2 : ℚ) ^ (-52 : ℤ) = 2 * (2 : ℚ) ^ (-53 : ℤ) := by norm_num
    rw [e52]; ring
  have nb := bound_near hF hna.repr hns.repr hT0 hT1 e5 ha1 hsn sum0 ra rs
  rw [hX]
  have hep := two_zpow_pos (-53)
  generalize (N : ℚ) * (2 : ℚ) ^ (-52 : ℤ) = T at ra rs hT1 hT0 nb ⊢
  generalize (2 : ℚ) ^ (-53 : ℤ) = e at nb hep ⊢
  have ra' : |a' - a| ≤ T := ra.trans (mul_le_of_le_one_right hT0 ha1)
  rw [abs_le] at ra' nb
  refine ⟨a', min 1 ((Arith.ofRound fl).sum [a', (Arith.ofRound fl).sub 1 ((Arith.ofRound fl).sum M'.p)]),
    t, ?_, e2, by linarith [ra'.2], ?_, a0, min_le_left _ _⟩
  · unfold Cpm.getProbBndR
    rw [ha', ok_bind]
    rfl
  · generalize (Arith.ofRound fl).sum [a', (Arith.ofRound fl).sub 1 ((Arith.ofRound fl).sum M'.p)] = V
      at nb ⊢
    rcases min_cases (1 : ℚ) V with ⟨hm, -⟩ | ⟨hm, -⟩
    · rw [hm]; linarith [e4.trans e6]
    · rw [hm]
      have := e4.trans (min_le_right _ _)
      linarith [nb.1]

/-- In double precision without underflow. -/
theorem C103_interval {K : Type} [DecidableEq K] {U : K → Variable K} {k : ℕ} {M' M : Cpm K}
    (hM : SameTable (NearP (fun _ => True) ((2 : ℚ) ^ (-53 : ℤ)) k) M' M) (h : WF U M)
    (C' : List (List ℕ)) (p' : List ℚ)
    (h' : WF U (complete M C' p')) (hp : ∀ q ∈ M.p ++ p', 0 ≤ q) (h1 : (M.p ++ p').sum = 1)
    (cv : List (Variable K)) (cs : List ℕ) (hq : QueryOK U M.getNames cv cs) (flag : Bool) {N : ℕ}
    (hN : k + M.C.length ≤ N) (hN' : N ≤ 2 ^ 52) :
    ∃ lo hi t, M'.getProbBndR (Arith.ofRound float53) cv cs flag = .ok (lo, hi) ∧
      (complete M C' p').getProb cv cs flag = .ok t ∧
      lo - N * (2 : ℚ) ^ (-52 : ℤ) ≤ t ∧ t ≤ hi + (2 * N + 5) * (2 : ℚ) ^ (-52 : ℤ) ∧
      0 ≤ lo ∧ hi ≤ 1 :=
  C103_interval_round round53_float53 hM h C' p' h' hp h1 cv cs hq flag hN hN'

/-- In double precision, for tables whose probabilities are stored with relative errors, all of them
multiples of `2⁻¹⁰⁷⁴`: sums and differences do not underflow. -/
theorem C103_interval_double {K : Type} [DecidableEq K] {U : K → Variable K} {k : ℕ} {M' M : Cpm K}
    (hM : SameTable (NearP (fun x => ∃ z : ℤ, x = z * (2 : ℚ) ^ (-1074 : ℤ)) ((2 : ℚ) ^ (-53 : ℤ)) k) M' M)
    (h : WF U M) (C' : List (List ℕ)) (p' : List ℚ)
    (h' : WF U (complete M C' p')) (hp : ∀ q ∈ M.p ++ p', 0 ≤ q) (h1 : (M.p ++ p').sum = 1)
    (cv : List (Variable K)) (cs : List ℕ) (hq : QueryOK U M.getNames cv cs) (flag : Bool) {N : ℕ}
    (hN : k + M.C.length ≤ N) (hN' : N ≤ 2 ^ 52) :
    ∃ lo hi t, M'.getProbBndR (Arith.ofRound float64) cv cs flag = .ok (lo, hi) ∧
      (complete M C' p').getProb cv cs flag = .ok t ∧
      lo - N * (2 : ℚ) ^ (-52 : ℤ) ≤ t ∧ t ≤ hi + (2 * N + 5) * (2 : ℚ) ^ (-52 : ℤ) ∧
      0 ≤ lo ∧ hi ≤ 1 :=
  C103_interval_round round53_float64 hM h C' p' h' hp h1 cv cs hq flag hN hN'

namespace Ex

/-- The table as the computer stores it. -/
def stored (M : Cpm ℕ) : Cpm ℕ := { M with p := M.p.map float53 }

/-- A table stored in double precision is right up to one relative error. -/
theorem stored_table (M : Cpm ℕ) (hM : ∀ x ∈ M.p, 0 ≤ x) (hs : M.Cs = []) :
    SameTable (NearP (fun _ => True) ((2 : ℚ) ^ (-53 : ℤ)) 1) (stored M) M := by
  refine ⟨rfl, rfl, rfl, ?_, ⟨rfl, rfl, rfl, rfl⟩, by rw [hs]; rfl⟩
  show Forall₂ _ (M.p.map float53) M.p
  generalize M.p = p at hM
  induction p with
  | nil => exact Forall₂.nil
  | cons a p ih =>
    have h0 := hM a (by simp)
    have hr := float53_rel a
    rw [abs_of_nonneg h0, abs_le] at hr
    refine Forall₂.cons ⟨trivial, h0, ?_, ?_⟩ (ih fun x hx => hM x (by simp [hx]))
    · rw [pow_one]; linarith [hr.1]
    · rw [pow_one]; linarith [hr.2]

/-- The three tables, stored in double precision, are right up to one relative error each. -/
theorem stored_near : Forall₂ (SameTable (NearP (fun _ => True) ((2 : ℚ) ^ (-53 : ℤ)) 1))
    ([A, B, D].map stored) [A, B, D] :=
  .cons (stored_table _ (by decide +kernel) rfl) (.cons (stored_table _ (by decide +kernel) rfl)
    (.cons (stored_table _ (by decide +kernel) rfl) .nil))

/-- A variable with four values, and its distribution 0.2, 0.4, 0.3, 0.1. -/
def four : Variable ℕ := Variable.mk' 7 [0, 1, 2, 3] .dflt

def fourCpm : Cpm ℕ :=
  { vars := [four], noChild := 1, C := [[0], [1], [2], [3]], p := [1/5, 2/5, 3/10, 1/10] }

/-- A table with a tiny probability, and one that goes with it. -/
def tiny (k : ℕ) : Cpm ℕ :=
  { vars := [U k], noChild := 1, C := [[0], [1]], p := [2 ^ (-600 : ℤ), 1 - 2 ^ (-600 : ℤ)] }

end Ex

/-- Non-vacuity of the interval: a table with only one of the two rows known, stored in double
precision. -/
example : ∃ lo hi t,
    (Ex.stored { Ex.A with C := [[0]], p := [1/10] }).getProbBndR (Arith.ofRound float53) [Ex.U 0] [1]
      true = .ok (lo, hi) ∧
    (complete { Ex.A with C := [[0]], p := [1/10] } [[1]] [9/10]).getProb [Ex.U 0] [1] true = .ok t ∧
    lo - 2 * (2 : ℚ) ^ (-52 : ℤ) ≤ t ∧ t ≤ hi + 9 * (2 : ℚ) ^ (-52 : ℤ) := by
  obtain ⟨lo, hi, t, h1, h2, h3, h4, -⟩ := C103_interval (N := 2)
    (Ex.stored_table { Ex.A with C := [[0]], p := [1/10] } (by decide +kernel) rfl)
    (by decide +kernel : WF Ex.U { Ex.A with C := [[0]], p := [1/10] }) [[1]] [9/10]
    (by decide +kernel) (by decide +kernel) (by decide +kernel) [Ex.U 0] [1]
    ⟨⟨rfl, by decide +kernel, by decide +kernel⟩, by simp, by decide +kernel, by decide +kernel⟩ true
    (by decide) (by norm_num)
  refine ⟨lo, hi, t, h1, h2, by exact_mod_cast h3, ?_⟩
  have e : ((2 : ℕ) : ℚ) = 2 := rfl
  rw [e] at h4
  linarith

/-- Non-vacuity of the count: for the example network it is at most 6 + 2 · 2 · 4 · 6. -/
example : ∃ P', variableElimR (Arith.ofRound float53) ([Ex.A, Ex.B, Ex.D].map Ex.stored)
    [Ex.U 0, Ex.U 2] = .ok P' ∧ ∀ x,
      |dens P' x - sumOver [(0, 2), (2, 3)] (jointDens [Ex.A, Ex.B, Ex.D]) x| ≤
        ((1000 : ℕ) : ℚ) * (2 : ℚ) ^ (-52 : ℤ) *
          sumOver [(0, 2), (2, 3)] (jointDens [Ex.A, Ex.B, Ex.D]) x :=
  C103_relative_elimination_partial Ex.stored_near Ex.elim_ok (by decide +kernel) (by norm_num)

/-- Non-vacuity: the example network in double precision; 20 roundings. -/
example : ∃ P', variableElimR (Arith.ofRound float53) ([Ex.A, Ex.B, Ex.D].map Ex.stored)
    [Ex.U 0, Ex.U 2] = .ok P' ∧ ∀ x, (1 - (2 : ℚ) ^ (-53 : ℤ)) ^ 20 *
      sumOver [(0, 2), (2, 3)] (jointDens [Ex.A, Ex.B, Ex.D]) x ≤ dens P' x := by
  obtain ⟨P', h1, -, h2⟩ := C103_elimination_partial C103_float53.1 Ex.stored_near Ex.elim_ok
  refine ⟨P', h1, fun x => ?_⟩
  have : elimRoundings 1 [Ex.A, Ex.B, Ex.D] [Ex.U 0, Ex.U 2] = 20 := by decide +kernel
  rw [this] at h2
  exact (h2 x).1

/-- In double precision the probabilities of a variable need not add up to 1, and the result depends
on the order of elimination, in the last digits. -/
theorem C103_not_exact :
    ∃ P Q, variableElimR (Arith.ofRound float53) ([Ex.A, Ex.B, Ex.D].map Ex.stored)
        [Ex.U 0, Ex.U 2] = .ok P ∧
      variableElimR (Arith.ofRound float53) ([Ex.A, Ex.B, Ex.D].map Ex.stored)
        [Ex.U 2, Ex.U 0] = .ok Q ∧ P.C = Q.C ∧ P.p ≠ Q.p ∧ 1 < P.p.sum ∧ 1 < Q.p.sum := by
  refine ⟨_, _, rfl, rfl, ?_, ?_, ?_, ?_⟩ <;> decide +kernel

/-- The bounds of `get_prob_bnd` can be the wrong way round: for a complete table 0.2, 0.4, 0.3, 0.1
stored and added in double precision, the sum is above 1, the "unknown probability" is negative and
the upper bound of the first state falls below the lower bound, and below the probability meant. -/
theorem C103_bounds_crossed :
    Cpm.mk' Ex.fourCpm = .ok Ex.fourCpm ∧ Ex.fourCpm.p.sum = 1 ∧
    ∃ lo up, (Ex.stored Ex.fourCpm).getProbBndR (Arith.ofRound float64) [Ex.four] [0] true =
      .ok (lo, up) ∧ up < lo ∧ up < 1/5 :=
  ⟨by decide +kernel, by decide +kernel, float53 (1/5), float53 (1/5) - 2 ^ (-52 : ℤ),
    by decide +kernel, by decide +kernel, by decide +kernel⟩

/-- Why underflow is left out: in double precision the product of two tables with the probability
`2⁻⁶⁰⁰` has a row with probability 0. -/
theorem C103_underflow :
    ∃ P Q, (Ex.tiny 0).productR (Arith.ofRound float64) (Ex.tiny 1) = .ok P ∧
      (Ex.tiny 0).product (Ex.tiny 1) = .ok Q ∧ P.C = Q.C ∧ P.p.head? = some 0 ∧
      Q.p.head? = some (2 ^ (-1200 : ℤ)) := by
  refine ⟨_, _, rfl, rfl, ?_, ?_, ?_⟩ <;> decide +kernel

end BNS
