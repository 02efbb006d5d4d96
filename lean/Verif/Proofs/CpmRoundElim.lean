import Verif.Proofs.CpmRound
import Verif.Proofs.BrcRoundNum

/-!
# Helper lemmas: roundings of a whole elimination
-/

namespace BNS

set_option linter.unusedSectionVars false

open List

/-- A relation with a count of roundings, kept by the operations of the arithmetic. -/
structure Counted (A : Arith) (R : ℕ → ℚ → ℚ → Prop) : Prop where
  one : ∀ k, R k 1 1
  mono : ∀ k m x' x, k ≤ m → R k x' x → R m x' x
  mul : ∀ k m x' x y' y, R k x' x → R m y' y → R (k + m + 1) (A.mul x' y') (x * y)
  sum : ∀ k n l' l, Forall₂ (R k) l' l → l.length ≤ n → R (k + n) (A.sum l') l.sum

theorem counted_true (A : Arith) : Counted A fun _ _ _ => True :=
  ⟨fun _ => trivial, fun _ _ _ _ _ _ => trivial, fun _ _ _ _ _ _ _ _ => trivial,
    fun _ _ _ _ _ _ => trivial⟩

section Near
variable {A : Arith} {F : ℚ → Prop} {ε : ℚ}

theorem NearP.mono (he : 0 ≤ ε ∧ ε < 1) {k m : ℕ} {x' x : ℚ} (hk : k ≤ m) (h : NearP F ε k x' x) :
    NearP F ε m x' x :=
  ⟨h.repr, h.nonneg, (mul_le_mul_of_nonneg_right (low_anti he hk) h.nonneg).trans h.low,
    h.up.trans (mul_le_mul_of_nonneg_right (up_mono he hk) h.nonneg)⟩

theorem NearP.nonneg' (he : 0 ≤ ε ∧ ε < 1) {k : ℕ} {x' x : ℚ} (h : NearP F ε k x' x) : 0 ≤ x' :=
  (mul_nonneg (low_pos he k) h.nonneg).trans h.low

theorem sum_nearP {η : ℚ} (hA : A.Within F ε η) (k n : ℕ) (l' l : List ℚ)
    (h : Forall₂ (NearP F ε k) l' l) (hn : l.length ≤ n) : NearP F ε (k + n) (A.sum l') l.sum := by
  have hm : ∀ x ∈ l', F x ∧ 0 ≤ x := by
    clear hn
    induction h with
    | nil => simp
    | cons h1 h2 ih =>
      intro x hx
      rcases List.mem_cons.1 hx with rfl | hx
      · exact ⟨h1.repr, h1.nonneg' hA.eps⟩
      · exact ih x hx
  obtain ⟨h1, h2, h3⟩ := hA.sum l' hm
  have hs : 0 ≤ l.sum ∧ (1 - ε) ^ k * l.sum ≤ l'.sum ∧ l'.sum ≤ (1 + ε) ^ k * l.sum := by
    clear hn hm h1 h2 h3
    induction h with
    | nil => simp
    | cons h1 h2 ih =>
      obtain ⟨i1, i2, i3⟩ := ih
      simp only [List.sum_cons]
      refine ⟨add_nonneg h1.nonneg i1, ?_, ?_⟩
      · rw [mul_add]; exact add_le_add h1.low i2
      · rw [mul_add]; exact add_le_add h1.up i3
  obtain ⟨s0, s1, s2⟩ := hs
  rw [h.length_eq] at h2 h3
  have s0' : 0 ≤ l'.sum := (mul_nonneg (low_pos hA.eps k) s0).trans s1
  refine ⟨h1, s0, ?_, ?_⟩
  · calc (1 - ε) ^ (k + n) * l.sum = (1 - ε) ^ n * ((1 - ε) ^ k * l.sum) := by rw [pow_add]; ring
      _ ≤ (1 - ε) ^ n * l'.sum := mul_le_mul_of_nonneg_left s1 (low_pos hA.eps n)
      _ ≤ (1 - ε) ^ l.length * l'.sum := mul_le_mul_of_nonneg_right (low_anti hA.eps hn) s0'
      _ ≤ _ := h2
  · calc A.sum l' ≤ (1 + ε) ^ l.length * l'.sum := h3
      _ ≤ (1 + ε) ^ n * l'.sum := mul_le_mul_of_nonneg_right (up_mono hA.eps hn) s0'
      _ ≤ (1 + ε) ^ n * ((1 + ε) ^ k * l.sum) :=
        mul_le_mul_of_nonneg_left s2 (zero_le_one.trans (up_ge_one hA.eps n))
      _ = (1 + ε) ^ (k + n) * l.sum := by rw [pow_add]; ring

theorem counted_near (hA : A.Within F ε 0) : Counted A (NearP F ε) where
  one k := ⟨hA.one, zero_le_one, by rw [mul_one]; exact low_le_one hA.eps k,
    by rw [mul_one]; exact up_ge_one hA.eps k⟩
  mono k m x' x hk h := h.mono hA.eps hk
  mul k m x' x y' y hx hy := by
    have x0 := hx.nonneg' hA.eps
    have y0 := hy.nonneg' hA.eps
    obtain ⟨h1, h2, h3, h4⟩ := hA.mul x' y' hx.repr hy.repr x0 y0
    have e1 : 0 ≤ 1 - ε := by linarith [hA.eps.2]
    have e2 : 0 ≤ 1 + ε := by linarith [hA.eps.1]
    refine ⟨h1, mul_nonneg hx.nonneg hy.nonneg, ?_, ?_⟩
    · have := mul_le_mul hx.low hy.low (mul_nonneg (low_pos hA.eps m) hy.nonneg) x0
      have := mul_le_mul_of_nonneg_left this e1
      calc (1 - ε) ^ (k + m + 1) * (x * y)
          = (1 - ε) * ((1 - ε) ^ k * x * ((1 - ε) ^ m * y)) := by rw [pow_succ, pow_add]; ring
        _ ≤ (1 - ε) * (x' * y') := this
        _ ≤ _ := by linarith
    · have := mul_le_mul hx.up hy.up y0 (mul_nonneg (pow_nonneg e2 k) hx.nonneg)
      have := mul_le_mul_of_nonneg_left this e2
      calc A.mul x' y' ≤ (1 + ε) * (x' * y') := by linarith
        _ ≤ (1 + ε) * ((1 + ε) ^ k * x * ((1 + ε) ^ m * y)) := this
        _ = (1 + ε) ^ (k + m + 1) * (x * y) := by rw [pow_succ, pow_add]; ring
  sum := sum_nearP hA

end Near

section Elim
variable {K : Type} [LinearOrder K] {A : Arith} {R : ℕ → ℚ → ℚ → Prop}

theorem SameTable.mono {Q Q' : ℚ → ℚ → Prop} {M' M : Cpm K} (h : SameTable Q M' M)
    (hq : ∀ x' x, Q x' x → Q' x' x) : SameTable Q' M' M :=
  ⟨h.vars, h.noChild, h.C, h.p.imp fun a b => hq a b, h.samples, h.noCs⟩

theorem product_rel (hR : Counted A R) {k m : ℕ} {X' X Y' Y : Cpm K} (hX : SameTable (R k) X' X)
    (hY : SameTable (R m) Y' Y) :
    Outcome (SameTable (R (k + m + 1))) (X'.productR A Y') (X.product Y) := by
  unfold Cpm.productR Cpm.product
  rw [hX.vars, hY.vars]
  by_cases h : X.vars.length > Y.vars.length
  · simp only [if_pos h]
    exact productCore_rel hY hX (hR.one _) (hR.one _) fun x' x y' y hx hy => hR.mul _ _ _ _ _ _ hx hy
  · simp only [if_neg h]
    refine productCore_rel hX hY (hR.one _) (hR.one _) fun x' x y' y hx hy => ?_
    have := hR.mul _ _ _ _ _ _ hx hy
    rwa [Nat.add_comm m k] at this

/-- Two lists of tables, related with the counts adding up to the given number. -/
inductive Counts (R : ℕ → ℚ → ℚ → Prop) : ℕ → List (Cpm K) → List (Cpm K) → Prop
  | nil : Counts R 0 [] []
  | cons {k t : ℕ} {M' M : Cpm K} {l' l : List (Cpm K)} : SameTable (R k) M' M → Counts R t l' l →
      Counts R (k + t) (M' :: l') (M :: l)

theorem Counts.of_forall {k : ℕ} {l' l : List (Cpm K)} (h : Forall₂ (SameTable (R k)) l' l) :
    Counts R (l.length * k) l' l := by
  induction h with
  | nil => simpa using Counts.nil
  | cons h1 h2 ih =>
    have := Counts.cons h1 ih
    rwa [List.length_cons, Nat.succ_mul, Nat.add_comm]

theorem fold_rel (hR : Counted A R) {t : ℕ} {l' l : List (Cpm K)} (h : Counts R t l' l) :
    ∀ {k : ℕ} {P' P : Cpm K}, SameTable (R k) P' P →
      Outcome (SameTable (R (k + t + l.length)))
        (l'.foldlM (fun prod cx => prod.productR A cx) P') (l.foldlM (fun prod cx => prod.product cx) P) := by
  induction h with
  | nil => intro k P' P h; exact h
  | @cons m t M' M l' l h1 h2 ih =>
    intro k P' P h
    rw [List.foldlM_cons, List.foldlM_cons]
    refine (product_rel hR h h1).bind fun Q' Q hQ => (ih hQ).mono fun a b hab => ?_
    refine hab.mono fun x' x => hR.mono _ _ _ _ ?_
    rw [List.length_cons]; omega

theorem productList_rel (hR : Counted A R) {t : ℕ} {l' l : List (Cpm K)} (h : Counts R t l' l) :
    Outcome (SameTable (R (t + l.length - 1))) (productListR A l') (productList l) := by
  cases h with
  | nil => exact rfl
  | cons h1 h2 =>
    refine (fold_rel hR h2 h1).mono fun a b hab => hab.mono fun x' x => hR.mono _ _ _ _ ?_
    rw [List.length_cons]; omega

theorem Counts.mask {t : ℕ} {l' l : List (Cpm K)} (h : Counts R t l' l) (mask : List Bool) :
    ∃ t1 t2, t1 + t2 ≤ t ∧ Counts R t1 (maskRows mask l') (maskRows mask l) ∧
      Counts R t2 (maskRows (mask.map not) l') (maskRows (mask.map not) l) ∧
      (maskRows mask l).length + (maskRows (mask.map not) l).length ≤ l.length := by
  induction h generalizing mask with
  | nil => exact ⟨0, 0, le_rfl, by simpa [maskRows] using Counts.nil,
      by simpa [maskRows] using Counts.nil, by simp [maskRows]⟩
  | @cons k t M' M l' l h1 h2 ih =>
    cases mask with
    | nil => exact ⟨0, 0, by omega, by simpa [maskRows] using Counts.nil,
        by simpa [maskRows] using Counts.nil, by simp [maskRows]⟩
    | cons b mask =>
      obtain ⟨t1, t2, ht, c1, c2, hl⟩ := ih mask
      cases b
      · refine ⟨t1, k + t2, by omega, c1, .cons h1 c2, ?_⟩
        have : (maskRows (false :: mask) (M :: l)).length = (maskRows mask l).length := rfl
        have h3 : (maskRows ((false :: mask).map not) (M :: l)).length =
          (maskRows (mask.map not) l).length + 1 := rfl
        rw [this, h3, List.length_cons]; omega
      · refine ⟨k + t1, t2, by omega, .cons h1 c1, c2, ?_⟩
        have : (maskRows (true :: mask) (M :: l)).length = (maskRows mask l).length + 1 := rfl
        have h3 : (maskRows ((true :: mask).map not) (M :: l)).length =
          (maskRows (mask.map not) l).length := rfl
        rw [this, h3, List.length_cons]; omega

theorem Counts.inScope {t : ℕ} {l' l : List (Cpm K)} (h : Counts R t l' l) (v : Variable K) :
    isInScope [v] l' = isInScope [v] l := by
  have h1 : l'.map (BNS.inScope v) = l.map (BNS.inScope v) := by
    induction h with
    | nil => rfl
    | cons h1 h2 ih =>
      rw [List.map_cons, List.map_cons, ih]
      unfold BNS.inScope
      rw [h1.vars]
  have h2 : (l'.map fun _ => false) = l.map fun _ => false := by
    clear h1
    induction h with
    | nil => rfl
    | cons h1 h2 ih => rw [List.map_cons, List.map_cons, ih]
  unfold isInScope
  simp only [List.foldl_cons, List.foldl_nil, h1, h2]

theorem productList_ne {l : List (Cpm K)} {P : Cpm K} (h : productList l = .ok P) : 1 ≤ l.length := by
  cases l with
  | nil => cases h
  | cons a l => simp

theorem elimList_rel (hR : Counted A R) : ∀ (ve : List (Variable K)) {t c : ℕ} {l' l : List (Cpm K)},
    Counts R t l' l → t + l.length ≤ c →
      Outcome (fun a b => ∃ t2, Counts R t2 a b ∧ t2 + b.length ≤ c + elimRows l ve)
        (variableElimListR A l' ve) (variableElimList l ve) := by
  intro ve
  induction ve with
  | nil => intro t c l' l h hc; exact ⟨t, h, by simpa [elimRows] using hc⟩
  | cons v ve ih =>
    intro t c l' l h hc
    unfold variableElimListR variableElimList
    rw [List.foldlM_cons, List.foldlM_cons]
    obtain ⟨t1, t2, ht, c1, c2, hl⟩ := h.mask (isInScope [v] l)
    have hstep : Outcome (fun a b => ∃ t2, Counts R t2 a b ∧ t2 + b.length ≤ c +
        tableRows (productList (maskRows (isInScope [v] l) l))) (elimStepR A l' v) (elimStep l v) := by
      unfold elimStepR elimStep
      rw [h.inScope]
      refine (productList_rel hR c1).bind' fun P' P _ hP hPP => ?_
      have hne := productList_ne hP
      refine (sum_rel hPP (fun l' l hl hn => hR.sum _ _ _ _ hl hn) [v] true).bind fun Q' Q hQ => ?_
      refine ⟨_, Counts.cons hQ c2, ?_⟩
      rw [hP, List.length_cons, tableRows]
      omega
    refine hstep.bind' fun a b _ hb hab => ?_
    obtain ⟨t3, c3, h3⟩ := hab
    have := ih c3 h3
    refine this.mono fun x y hxy => ?_
    obtain ⟨t4, c4, h4⟩ := hxy
    refine ⟨t4, c4, ?_⟩
    rw [elimRows, hb]
    simp only
    omega

theorem elim_rel (hR : Counted A R) {k : ℕ} {cpms' cpms : List (Cpm K)}
    (h : Forall₂ (SameTable (R k)) cpms' cpms) (ve : List (Variable K)) :
    Outcome (SameTable (R (elimRoundings k cpms ve))) (variableElimR A cpms' ve)
      (variableElim cpms ve) := by
  unfold variableElimR variableElim
  refine (elimList_rel hR ve (Counts.of_forall h) le_rfl).bind' fun a b _ _ hab => ?_
  obtain ⟨t, ht, hle⟩ := hab
  refine (productList_rel hR ht).mono fun x y hxy => hxy.mono fun x' x => hR.mono _ _ _ _ ?_
  unfold elimRoundings
  omega

end Elim

end BNS
