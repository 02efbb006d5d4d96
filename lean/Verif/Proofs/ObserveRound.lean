import Verif.Proofs.CpmRoundCount
import Verif.Proofs.Observe
import Verif.Props.CpmRound

/-!
# Helper lemmas: conditioning computes with no probability, and quotients of rounded numbers
-/

namespace BNS

set_option linter.unusedSectionVars false

open List

section Cond
variable {K : Type} [DecidableEq K] {R : ℚ → ℚ → Prop}

theorem conditionRest_rel {M' M : Cpm K} (h : SameTable R M' M) (vs : List (Variable K))
    (qs : List QState) :
    Outcome (SameTable R) (M'.conditionRest vs qs) (M.conditionRest vs qs) := by
  have hp := forall₂_nil_iff h.p
  unfold Cpm.conditionRest
  rw [h.vars, h.C]
  refine Outcome.bind_self fun mask _ => ?_
  refine Outcome.bind_self fun cv _ => Outcome.bind_self fun cs _ => Outcome.bind_self fun Cc _ => ?_
  have hr : Forall₂ R (if M'.p = [] then [] else maskRows mask M'.p)
      (if M.p = [] then [] else maskRows mask M.p) := by
    by_cases hm : M.p = []
    · rw [if_pos hm, if_pos (hp.2 hm)]; exact Forall₂.nil
    · rw [if_neg hm, if_neg (fun e => hm (hp.1 e))]
      exact maskRows_rel h.p mask
  refine Outcome.bind_self fun _ _ => ?_
  refine pyAssert_rel (by rw [forall₂_nil_iff hr, hr.length_eq]) ?_
  rw [if_pos (by rw [h.samples.1]; exact h.noCs), if_pos h.noCs]
  exact ⟨rfl, h.noChild, rfl, hr, h.samples, h.noCs⟩

theorem conditionQ_rel {M' M : Cpm K} (h : SameTable R M' M) (qv : QVars K) (qs : List QState) :
    Outcome (SameTable R) (M'.conditionQ qv qs) (M.conditionQ qv qs) := by
  have hr : M'.resolve qv = M.resolve qv := by
    rw [h.eq]
    cases qv <;> rfl
  unfold Cpm.conditionQ
  rw [hr]
  exact Outcome.bind_self fun vs _ => Outcome.bind_self fun cs _ => conditionRest_rel h vs cs

theorem Outcome.mapM₂ {ι κ α β : Type} {S : ι → κ → Prop} {Q : α → β → Prop} {f : ι → Except Err α}
    {g : κ → Except Err β} {l : List ι} {l' : List κ} (h : Forall₂ S l l')
    (hfg : ∀ i j, S i j → Outcome Q (f i) (g j)) : Outcome (Forall₂ Q) (l.mapM f) (l'.mapM g) := by
  induction h with
  | nil => exact Forall₂.nil
  | cons h1 _ ih =>
    rw [List.mapM_cons, List.mapM_cons]
    exact (hfg _ _ h1).bind fun x y hxy => ih.bind fun xs ys hxs => Forall₂.cons hxy hxs

theorem collectVars_same {M' M : Cpm K} (h : SameTable R M' M) (names : List K) :
    collectVars M' names = collectVars M names := by
  have hn : M'.getNames = M.getNames := by unfold Cpm.getNames; rw [h.vars]
  have hv : ∀ ks, M'.getVariables ks = M.getVariables ks := by
    intro ks; unfold Cpm.getVariables; rw [h.vars]
  induction names with
  | nil => rfl
  | cons k rest ih =>
    unfold collectVars
    rw [hn, hv, ih]

theorem collectAll_same {l' l : List (Cpm K)} (h : Forall₂ (SameTable R) l' l) (names : List K) :
    collectAll l' names = collectAll l names := by
  induction h generalizing names with
  | nil => rfl
  | cons h1 _ ih =>
    unfold collectAll
    simp only [collectVars_same h1, ih]

theorem conditionAllQ_rel {l' l : List (Cpm K)} (h : Forall₂ (SameTable R) l' l) (qv : QVars K)
    (qs : List QState) :
    Outcome (Forall₂ (SameTable R)) (conditionAllQ l' qv qs) (conditionAllQ l qv qs) := by
  have hv : ∀ names, getVariablesAll l' names = getVariablesAll l names := by
    intro names
    unfold getVariablesAll
    rw [collectAll_same h]
  unfold conditionAllQ
  have rest : ∀ vs : List (Variable K), Outcome (Forall₂ (SameTable R))
      (condStates vs qs >>= fun cs => l'.mapM fun M => M.conditionQ (.vars vs) cs)
      (condStates vs qs >>= fun cs => l.mapM fun M => M.conditionQ (.vars vs) cs) := fun vs =>
    Outcome.bind_self fun cs _ => Outcome.mapM₂ h fun _ _ hM => conditionQ_rel hM _ _
  cases qv with
  | names ns =>
    simp only [hv]
    exact Outcome.bind_self fun vs _ => rest vs
  | vars vs => exact rest vs

end Cond

section Rows
variable {K : Type} [LinearOrder K] {U : K → Variable K}

theorem elimList_rowsProd : ∀ (ve : List (Variable K)) {l l1 : List (Cpm K)},
    ve.foldlM elimStep l = .ok l1 → (l1.map rows1).prod ≤ (l.map rows1).prod := by
  intro ve
  induction ve with
  | nil => intro l l1 h; cases h; exact le_rfl
  | cons v ve ih =>
    intro l l1 h
    rw [List.foldlM_cons] at h
    obtain ⟨l2, h2, h⟩ := bind_ok.1 h
    exact (ih h).trans (elimStep_rows h2)

/-- The result of an elimination has at most as many rows as all the tables together. -/
theorem elim_result_rows {l : List (Cpm K)} {ve : List (Variable K)} {P : Cpm K}
    (h : variableElim l ve = .ok P) : P.C.length ≤ (l.map rows1).prod := by
  unfold variableElim variableElimList at h
  obtain ⟨l1, h1, h⟩ := bind_ok.1 h
  exact (le_max_right _ _).trans ((productList_rows h).trans (elimList_rowsProd ve h1))

theorem condNet_rows (cpms : List (Cpm K)) (ns : List K) (ss : List ℕ) :
    ((condNet U cpms ns ss).map rows1).prod ≤ (cpms.map rows1).prod := by
  unfold condNet
  rw [List.map_map]
  induction cpms with
  | nil => simp
  | cons M l ih =>
    rw [List.map_cons, List.prod_cons, List.map_cons, List.prod_cons]
    refine Nat.mul_le_mul ?_ ih
    refine max_le_max le_rfl ?_
    unfold condPure
    simp only [List.length_map]
    exact List.length_filter_le _ _

end Rows

/-- The quotient of two numbers, each right up to `N` relative errors of double precision, rounded
once: right up to `3 N + 1` units of relative size `2⁻⁵²`. -/
theorem quotient_near {N : ℕ} {q' q s' s : ℚ}
    (hq : |q' - q| ≤ N * (2 : ℚ) ^ (-52 : ℤ) * q) (hs : |s' - s| ≤ N * (2 : ℚ) ^ (-52 : ℤ) * s)
    (hq0 : 0 ≤ q) (hs0 : 0 < s) (hN : N ≤ 2 ^ 48) :
    0 < s' ∧ |float53 (q' / s') - q / s| ≤ (3 * N + 1) * (2 : ℚ) ^ (-52 : ℤ) * (q / s) := by
  have hN' : (N : ℚ) ≤ 2 ^ 48 := by exact_mod_cast hN
  have f := float53_rel (q' / s')
  set e := (2 : ℚ) ^ (-53 : ℤ) with he
  have ee : (2 : ℚ) ^ (-52 : ℤ) = 2 * e := by rw [he]; norm_num
  have epos : 0 < e := two_zpow_pos _
  have esm : e ≤ 1 / 100 := by rw [he]; norm_num
  have hT : (N : ℚ) * (2 * e) ≤ 1 / 16 := by
    have := mul_le_mul_of_nonneg_right hN' (by linarith : 0 ≤ 2 * e)
    refine this.trans (le_of_eq ?_)
    rw [he]; norm_num
  rw [ee] at hq hs ⊢
  have e3 : (3 * (N : ℚ) + 1) * (2 * e) = 3 * (N * (2 * e)) + 2 * e := by ring
  rw [e3]
  clear_value e
  have hT0 : 0 ≤ (N : ℚ) * (2 * e) := by positivity
  generalize (N : ℚ) * (2 * e) = T at hq hs hT hT0 ⊢
  rw [abs_le] at hq hs
  have hs1 : 0 < s' := by nlinarith [hs.1]
  refine ⟨hs1, ?_⟩
  obtain ⟨r, hr⟩ : ∃ r, r = q / s := ⟨_, rfl⟩
  have hr0 : 0 ≤ r := by rw [hr]; positivity
  have hqr : q = r * s := by rw [hr]; field_simp
  have d1 : |q' / s' - r| ≤ (5 / 2) * T * r := by
    rw [abs_le]
    constructor
    · rw [le_sub_iff_add_le, le_div_iff₀ hs1]
      nlinarith [mul_nonneg hr0 hs0.le, mul_nonneg (mul_nonneg hr0 hs0.le) hT0, hq.1, hs.2, hs.1,
        mul_nonneg hr0 hT0, mul_nonneg (mul_nonneg hr0 hT0) hs0.le]
    · rw [sub_le_iff_le_add, div_le_iff₀ hs1]
      nlinarith [mul_nonneg hr0 hs0.le, mul_nonneg (mul_nonneg hr0 hs0.le) hT0, hq.2, hs.2, hs.1,
        mul_nonneg hr0 hT0, mul_nonneg (mul_nonneg hr0 hT0) hs0.le]
  rw [← hr]
  have hq1 : 0 ≤ q' := by nlinarith [hq.1]
  have hd0 : 0 ≤ q' / s' := by positivity
  rw [abs_of_nonneg hd0] at f
  have d2 := abs_le.1 d1
  have d3 : |float53 (q' / s') - r| ≤ e * (q' / s') + (5 / 2) * T * r := by
    calc |float53 (q' / s') - r| = |(float53 (q' / s') - q' / s') + (q' / s' - r)| := by ring_nf
      _ ≤ _ := (abs_add_le _ _).trans (add_le_add f d1)
  refine d3.trans ?_
  have : q' / s' ≤ 2 * r := by nlinarith [d2.2, mul_nonneg hT0 hr0]
  nlinarith [mul_nonneg hT0 hr0]

end BNS
