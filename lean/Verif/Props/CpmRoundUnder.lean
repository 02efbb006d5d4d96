import Verif.Props.CpmRound
import Verif.Proofs.CpmRoundUnder

/-!
# Property C103: inference with CPMs in double precision, with underflow
-/

namespace BNS

set_option linter.unusedSectionVars false

open List

section
variable {K : Type} [LinearOrder K] {U : K → Variable K} {A : Arith} {F : ℚ → Prop} {ε η : ℚ}

theorem dens_nearU (he : 0 ≤ η) {k : ℕ} {P' P : Cpm K} (h : SameTable (NearU F ε η k) P' P)
    (x : K → ℕ) : 0 ≤ dens P x ∧ (1 - ε) ^ k * dens P x - P.p.length * (η * 8 ^ k) ≤ dens P' x ∧
      dens P' x ≤ (1 + ε) ^ k * dens P x + P.p.length * (η * 8 ^ k) := by
  unfold dens
  rw [h.vars, h.C]
  have hp := h.p
  have h8 : 0 ≤ η * 8 ^ k := mul_nonneg he (by positivity)
  generalize P'.p = p' at hp
  generalize P.p = p at hp
  generalize P.C = C
  induction hp generalizing C with
  | nil => simp
  | @cons a b l' l h1 h2 ih =>
    have hl : 0 ≤ (l.length : ℚ) * (η * 8 ^ k) := mul_nonneg (Nat.cast_nonneg _) h8
    cases C with
    | nil =>
      simp only [List.zip_nil_left, List.map_nil, List.sum_nil, mul_zero, List.length_cons,
        Nat.cast_add, Nat.cast_one]
      refine ⟨le_rfl, ?_, ?_⟩ <;> linarith
    | cons r C =>
      obtain ⟨i1, i2, i3⟩ := ih C
      simp only [List.zip_cons_cons, List.map_cons, List.sum_cons, List.length_cons, Nat.cast_add,
        Nat.cast_one]
      by_cases hr : RowMatches P.vars r x
      · simp only [if_pos hr]
        refine ⟨add_nonneg h1.nonneg i1, ?_, ?_⟩
        · rw [mul_add]; linarith [h1.low]
        · rw [mul_add]; linarith [h1.up]
      · simp only [if_neg hr, zero_add]
        refine ⟨i1, ?_, ?_⟩ <;> linarith

end

/-- From counted errors to numbers. -/
theorem relative_under {k : ℕ} {x' x c : ℚ} (hx : 0 ≤ x)
    (h1 : (1 - (2 : ℚ) ^ (-53 : ℤ)) ^ k * x - c ≤ x') (h2 : x' ≤ (1 + (2 : ℚ) ^ (-53 : ℤ)) ^ k * x + c)
    (hk : k ≤ 2 ^ 52) : |x' - x| ≤ k * (2 : ℚ) ^ (-52 : ℤ) * x + c := by
  have he : 0 ≤ (2 : ℚ) ^ (-53 : ℤ) ∧ (2 : ℚ) ^ (-53 : ℤ) < 1 := C103_float53.1.eps
  have hl := C103_relative (F := fun _ => True) (x' := (1 - (2 : ℚ) ^ (-53 : ℤ)) ^ k * x) (x := x) (k := k)
    ⟨trivial, hx, le_rfl, mul_le_mul_of_nonneg_right ((low_le_one he k).trans (up_ge_one he k)) hx⟩ hk
  have hu := C103_relative (F := fun _ => True) (x' := (1 + (2 : ℚ) ^ (-53 : ℤ)) ^ k * x) (x := x) (k := k)
    ⟨trivial, hx, mul_le_mul_of_nonneg_right ((low_le_one he k).trans (up_ge_one he k)) hx, le_rfl⟩ hk
  rw [abs_le] at hl hu ⊢
  constructor
  · linarith [hl.1]
  · linarith [hu.2]

/-- The doubles, without upper limit: the multiples of the smallest positive one. -/
abbrev OnGrid (x : ℚ) : Prop := ∃ z : ℤ, x = z * (2 : ℚ) ^ (-1074 : ℤ)

theorem under_eq (k : ℕ) : (2 : ℚ) ^ (-1075 : ℤ) * 8 ^ k = (2 : ℚ) ^ (3 * (k : ℤ) - 1075) := by
  have : (8 : ℚ) ^ k = (2 : ℚ) ^ (3 * (k : ℤ)) := by
    rw [zpow_mul, zpow_natCast]; norm_num
  rw [this, ← zpow_add₀ (by norm_num)]
  congr 1

/-- Storing a probability in double precision, small ones included. -/
theorem stored_under {x : ℚ} (h0 : 0 ≤ x) (h1 : x ≤ 1) :
    NearU OnGrid ((2 : ℚ) ^ (-53 : ℤ)) ((2 : ℚ) ^ (-1075 : ℤ)) 1 (float64 x) x := by
  have hr := float64_err x
  have hp := two_zpow_pos (-1075)
  rw [abs_of_nonneg h0, abs_le] at hr
  refine ⟨float64_grid x, float64_nonneg h0, h0, by linarith, ?_, ?_⟩
  · rw [pow_one, pow_one]; linarith [hr.1]
  · rw [pow_one, pow_one]; linarith [hr.2]

section
variable {K : Type} [LinearOrder K] {U : K → Variable K}

/-- Elimination in double precision, with underflow: besides the relative errors there is an absolute
one, of at most `2^(3 k - 1075)` per row of the result, where `k` is the number of roundings.
Missing: tables with samples, overflow; for more than about 350 roundings the bound says nothing. -/
theorem C103_double_partial {cpms' cpms : List (Cpm K)}
    (h : Forall₂ (SameTable (NearU OnGrid ((2 : ℚ) ^ (-53 : ℤ)) ((2 : ℚ) ^ (-1075 : ℤ)) 1)) cpms' cpms)
    {ve : List (Variable K)} (he : ElimOK U cpms ve) {N : ℕ} (hN : elimRoundings 1 cpms ve ≤ N)
    (hN' : N ≤ 2 ^ 52) :
    ∃ P', variableElimR (Arith.ofRound float64) cpms' ve = .ok P' ∧
      ∀ x, |dens P' x - sumOver (ve.map fun v => (v.name, v.values.length)) (jointDens cpms) x| ≤
        N * (2 : ℚ) ^ (-52 : ℤ) *
          sumOver (ve.map fun v => (v.name, v.values.length)) (jointDens cpms) x +
        P'.C.length * (2 : ℚ) ^ (3 * (N : ℤ) - 1075) := by
  obtain ⟨P, hP, hw, -, hd, -, hn⟩ := C15_elimination_partial cpms ve he
  have hc := counted_nearU C102_float64
    (zpow_le_one_of_nonpos₀ (by norm_num) (by norm_num))
  obtain ⟨P', hP', hPP⟩ := (elim_rel hc h ve).of_ok hP
  refine ⟨P', hP', fun x => ?_⟩
  have hPN := hPP.mono fun x' x => hc.mono _ _ x' x hN
  obtain ⟨h0, h1, h2⟩ := dens_nearU (two_zpow_pos _).le hPN x
  have hl : P.p.length = P'.C.length := by rw [hPP.C, hw.pLen]
  rw [under_eq, hl] at h1 h2
  rw [← hd]
  exact relative_under h0 h1 h2 hN'

/-- A probability asked of the result, in double precision, with underflow. -/
theorem C103_double_probability {cpms' cpms : List (Cpm K)}
    (h : Forall₂ (SameTable (NearU OnGrid ((2 : ℚ) ^ (-53 : ℤ)) ((2 : ℚ) ^ (-1075 : ℤ)) 1)) cpms' cpms)
    {ve vs : List (Variable K)} {st : List ℕ} {flag : Bool} {P : Cpm K}
    (hP : variableElim cpms ve = .ok P) {q : ℚ} (hq : P.getProb vs st flag = .ok q) {N : ℕ}
    (hN : elimRoundings 1 cpms ve + P.C.length ≤ N) (hN' : N ≤ 2 ^ 52) :
    ∃ P' q', variableElimR (Arith.ofRound float64) cpms' ve = .ok P' ∧
      P'.getProbR (Arith.ofRound float64) vs st flag = .ok q' ∧ 0 ≤ q' ∧
      |q' - q| ≤ N * (2 : ℚ) ^ (-52 : ℤ) * q + (2 : ℚ) ^ (3 * (N : ℤ) - 1075) := by
  have hc := counted_nearU C102_float64
    (zpow_le_one_of_nonpos₀ (by norm_num) (by norm_num))
  obtain ⟨P', hP', hPP⟩ := (elim_rel hc h ve).of_ok hP
  obtain ⟨q', hq', hqq⟩ := (getProb_rel hPP (fun _ _ hl hn => hc.sum _ _ _ _ hl hn) vs st flag).of_ok hq
  have hqN := hc.mono _ _ _ _ hN hqq
  have h1 := hqN.low
  have h2 := hqN.up
  rw [under_eq] at h1 h2
  exact ⟨P', q', hP', hq', hqN.nonneg', relative_under hqN.nonneg h1 h2 hN'⟩

end

namespace Ex

/-- The table as the computer stores it, with underflow. -/
def stored64 (M : Cpm ℕ) : Cpm ℕ := { M with p := M.p.map float64 }

theorem stored64_table (M : Cpm ℕ) (hM : ∀ x ∈ M.p, 0 ≤ x ∧ x ≤ 1) (hs : M.Cs = []) :
    SameTable (NearU OnGrid ((2 : ℚ) ^ (-53 : ℤ)) ((2 : ℚ) ^ (-1075 : ℤ)) 1) (stored64 M) M := by
  refine ⟨rfl, rfl, rfl, ?_, ⟨rfl, rfl, rfl, rfl⟩, by rw [hs]; rfl⟩
  show Forall₂ _ (M.p.map float64) M.p
  generalize M.p = p at hM
  induction p with
  | nil => exact Forall₂.nil
  | cons a p ih =>
    have h0 := hM a (by simp)
    exact Forall₂.cons (stored_under h0.1 h0.2) (ih fun x hx => hM x (by simp [hx]))

end Ex

/-- Non-vacuity: the example network, 20 roundings; the absolute error is far below the relative
one. -/
example : ∃ P', variableElimR (Arith.ofRound float64) ([Ex.A, Ex.B, Ex.D].map Ex.stored64)
    [Ex.U 0, Ex.U 2] = .ok P' ∧ ∀ x,
      |dens P' x - sumOver [(0, 2), (2, 3)] (jointDens [Ex.A, Ex.B, Ex.D]) x| ≤
        ((20 : ℕ) : ℚ) * (2 : ℚ) ^ (-52 : ℤ) *
          sumOver [(0, 2), (2, 3)] (jointDens [Ex.A, Ex.B, Ex.D]) x +
        P'.C.length * (2 : ℚ) ^ (3 * ((20 : ℕ) : ℤ) - 1075) :=
  C103_double_partial
    (.cons (Ex.stored64_table _ (by decide +kernel) rfl)
      (.cons (Ex.stored64_table _ (by decide +kernel) rfl)
        (.cons (Ex.stored64_table _ (by decide +kernel) rfl) .nil)))
    Ex.elim_ok (by decide +kernel) (by norm_num)

end BNS
