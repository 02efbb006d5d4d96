import Verif.Proofs.CpmRoundElim
import Mathlib.Algebra.Order.BigOperators.Group.List

/-!
# Helper lemmas: how many rows the tables of an elimination can have
-/

namespace BNS

set_option linter.unusedSectionVars false

open List

variable {K : Type}

section Basic
variable [DecidableEq K]

theorem condition_rows {M P : Cpm K} {vars : List (Variable K)} {states : List ℕ}
    (h : M.condition vars states = .ok P) : P.C.length ≤ M.C.length := by
  unfold Cpm.condition at h
  obtain ⟨mask, -, h⟩ := bind_ok.1 h
  generalize (if M.p = [] then [] else maskRows mask M.p) = pm at h
  obtain ⟨cv, -, h⟩ := bind_ok.1 h
  obtain ⟨cs, -, h⟩ := bind_ok.1 h
  obtain ⟨Cc, hC, h⟩ := bind_ok.1 h
  obtain ⟨_, -, h⟩ := bind_ok.1 h
  obtain ⟨_, -, h⟩ := bind_ok.1 h
  have hlen : Cc.length ≤ M.C.length := by
    have key : ∀ (l : List ((Variable K × ℕ) × ℕ)) (C0 C1 : List (List ℕ)),
        l.foldlM (fun Cc vsi => do
          let col ← column (maskRows mask M.C) vsi.2
          let col' ← condColumn vsi.1.1.B vsi.1.2 col
          return setCol Cc vsi.2 col') C0 = Except.ok (ε := Err) C1 → C1.length ≤ C0.length := by
      intro l
      induction l with
      | nil => intro C0 C1 h; cases h; exact le_rfl
      | cons a l ih =>
        intro C0 C1 h
        rw [List.foldlM_cons] at h
        obtain ⟨C2, h2, h⟩ := bind_ok.1 h
        obtain ⟨col, -, h2⟩ := bind_ok.1 h2
        obtain ⟨col', -, h2⟩ := bind_ok.1 h2
        cases h2
        refine (ih _ _ h).trans ?_
        unfold setCol
        simp
    exact (key _ _ _ hC).trans (maskRows_length _ _)
  split at h
  · cases h; exact hlen
  · simp only at h
    split at h
    · obtain ⟨ps, -, h⟩ := bind_ok.1 h
      obtain ⟨_, -, h⟩ := bind_ok.1 h
      cases h; exact hlen
    · split at h
      · cases h; exact hlen
      · obtain ⟨ps, -, h⟩ := bind_ok.1 h
        cases h; exact hlen

theorem sumLoop_rows : ∀ (fuel : ℕ) {M : Cpm K} {C : List (List ℕ)} {p : List ℚ},
    sumLoop fuel M = .ok (C, p) → C.length ≤ fuel := by
  intro fuel
  induction fuel with
  | zero =>
    intro M C p h
    unfold sumLoop at h
    split at h
    · cases h; simp
    · cases h
  | succ fuel ih =>
    intro M C p h
    unfold sumLoop at h
    split at h
    · cases h; simp
    · obtain ⟨Mc, -, h⟩ := bind_ok.1 h
      obtain ⟨mask, -, h⟩ := bind_ok.1 h
      obtain ⟨row, -, h⟩ := bind_ok.1 h
      obtain ⟨M', -, h⟩ := bind_ok.1 h
      obtain ⟨⟨C1, p1⟩, h1, h⟩ := bind_ok.1 h
      cases h
      have := ih h1
      simp only [List.length_cons]
      omega

theorem sum_rows {M P : Cpm K} {vars : List (Variable K)} {flag : Bool}
    (h : M.sum vars flag = .ok P) : P.C.length ≤ M.C.length := by
  unfold Cpm.sum sumBody at h
  obtain ⟨vars', -, h⟩ := bind_ok.1 h
  obtain ⟨C, hC, h⟩ := bind_ok.1 h
  obtain ⟨M0, h0, h⟩ := bind_ok.1 h
  obtain ⟨⟨C1, p1⟩, h1, h⟩ := bind_ok.1 h
  have e0 := (mk'_checked h0).1
  have hlen : M0.C.length = M.C.length := by
    rw [e0]; exact (mapM_ok_forall₂ hC).length_eq.symm
  have hr := sumLoop_rows _ h1
  rw [hlen] at hr
  simp only at h
  by_cases hv : vars' = []
  · simp only [if_pos hv] at h; cases h
  · simp only [if_neg hv] at h
    obtain ⟨Ms, hm, h⟩ := bind_ok.1 h
    have em := (mk'_checked hm).1
    have hMs : Ms.C.length ≤ M.C.length := by rw [em]; exact hr
    split at h
    · cases h; exact hMs
    · obtain ⟨Cs, -, h⟩ := bind_ok.1 h
      rw [(mk'_checked h).1]
      exact hMs

end Basic

section Product
variable [LinearOrder K]

theorem flatMap_rows {β : Type} (bs : List (List (List ℕ) × β)) (n : ℕ)
    (h : ∀ b ∈ bs, b.1.length ≤ n) : (bs.flatMap fun b => b.1).length ≤ bs.length * n := by
  induction bs with
  | nil => simp
  | cons b bs ih =>
    have h1 := h b (by simp)
    have h2 := ih fun b hb => h b (by simp [hb])
    simp only [List.flatMap_cons, List.length_append, List.length_cons, Nat.succ_mul]
    omega

theorem productRows_rows {S M : Cpm K} {iv : List (Option ℕ)} {cv : List (Variable K)}
    {nc i2 : List ℕ} {C : List (List ℕ)} {p : List ℚ}
    (h : productRows S M iv cv nc i2 = .ok (C, p)) : C.length ≤ S.C.length * M.C.length := by
  unfold productRows at h
  split at h
  · cases h; simp
  · obtain ⟨bs, hb, h⟩ := bind_ok.1 h
    obtain ⟨C1, hC, h⟩ := bind_ok.1 h
    have hlen : C1.length = (bs.flatMap fun b => b.1).length := (mapM_ok_forall₂ hC).length_eq.symm
    have hf := mapM_ok_forall₂ hb
    have hbs : ∀ b ∈ bs, b.1.length ≤ M.C.length := by
      intro b hbm
      obtain ⟨n, hn, rfl⟩ := List.mem_iff_getElem.1 hbm
      have hn' : n < (List.range S.C.length).length := by rw [hf.length_eq]; exact hn
      have hi := hf.get hn' hn
      obtain ⟨r, -, hi⟩ := bind_ok.1 hi
      obtain ⟨c1, -, hi⟩ := bind_ok.1 hi
      obtain ⟨c1n, -, hi⟩ := bind_ok.1 hi
      obtain ⟨Mc, hc, hi⟩ := bind_ok.1 hi
      obtain ⟨pi, -, hi⟩ := bind_ok.1 hi
      have hi' : (map (fun x => x ++ c1n) Mc.C, map (fun y => map (fun x => x * y) Mc.p) pi) = bs[n] := by
        exact Except.ok.inj hi
      rw [← hi']
      simpa using condition_rows hc
    have hsum : (bs.flatMap fun b => b.1).length ≤ bs.length * M.C.length :=
      flatMap_rows bs _ hbs
    have hl : bs.length = S.C.length := by simpa using hf.length_eq.symm
    simp only at h
    split at h
    · cases h
    · cases h
      rw [hlen, ← hl]
      exact hsum

theorem sort_rows {M P : Cpm K} (h : M.sort = .ok P) (hs : M.sampleIdx = []) :
    P.C.length = M.C.length := by
  unfold Cpm.sort at h
  obtain ⟨C, hC, h⟩ := bind_ok.1 h
  obtain ⟨_, -, h⟩ := bind_ok.1 h
  obtain ⟨p, -, h⟩ := bind_ok.1 h
  obtain ⟨_, -, h⟩ := bind_ok.1 h
  obtain ⟨q, -, h⟩ := bind_ok.1 h
  obtain ⟨_, -, h⟩ := bind_ok.1 h
  obtain ⟨si, -, h⟩ := bind_ok.1 h
  obtain ⟨_, -, h⟩ := bind_ok.1 h
  cases h
  show C.length = _
  rw [takeRows_length hC, if_pos hs]
  unfold argsortOn
  simp

theorem productCore_rows {S M P : Cpm K} (h : productCore S M = .ok P) :
    P.C.length ≤ S.C.length * M.C.length := by
  unfold productCore at h
  obtain ⟨_, -, h⟩ := bind_ok.1 h
  simp only at h
  split at h
  · cases h
  · obtain ⟨cv, -, h⟩ := bind_ok.1 h
    obtain ⟨nv, -, h⟩ := bind_ok.1 h
    obtain ⟨⟨C, p⟩, hr, h⟩ := bind_ok.1 h
    obtain ⟨M1, h1, h⟩ := bind_ok.1 h
    obtain ⟨M2, h2, h⟩ := bind_ok.1 h
    have e1 := (mk'_checked h1).1
    have hrow := productRows_rows hr
    have hM2 : M2.C.length ≤ S.C.length * M.C.length := by
      rw [sort_rows h2 (by rw [e1]), e1]
      exact hrow
    split at h
    · cases h; exact hM2
    · obtain ⟨⟨Cs, q, ps⟩, -, h⟩ := bind_ok.1 h
      rw [(mk'_checked h).1]
      exact hM2

theorem product_rows {S M P : Cpm K} (h : S.product M = .ok P) :
    P.C.length ≤ S.C.length * M.C.length := by
  unfold Cpm.product at h
  split at h
  · rw [Nat.mul_comm]; exact productCore_rows h
  · exact productCore_rows h

/-- Number of rows, at least one. -/
def rows1 (M : Cpm K) : ℕ := max 1 M.C.length

theorem rows1_pos (M : Cpm K) : 1 ≤ rows1 M := le_max_left _ _

theorem fold_rows (l : List (Cpm K)) : ∀ {P Q : Cpm K},
    l.foldlM (fun prod cx => prod.product cx) P = .ok Q → rows1 Q ≤ rows1 P * (l.map rows1).prod := by
  induction l with
  | nil => intro P Q h; cases h; simp
  | cons a l ih =>
    intro P Q h
    rw [List.foldlM_cons] at h
    obtain ⟨P1, h1, h⟩ := bind_ok.1 h
    have h2 : rows1 P1 ≤ rows1 P * rows1 a := by
      refine max_le (Nat.mul_le_mul (rows1_pos P) (rows1_pos a)) ?_
      exact (product_rows h1).trans (Nat.mul_le_mul (le_max_right _ _) (le_max_right _ _))
    refine (ih h).trans ?_
    rw [List.map_cons, List.prod_cons, ← Nat.mul_assoc]
    exact Nat.mul_le_mul_right _ h2

theorem productList_rows {l : List (Cpm K)} {P : Cpm K} (h : productList l = .ok P) :
    rows1 P ≤ (l.map rows1).prod := by
  cases l with
  | nil => cases h
  | cons a l =>
    rw [List.map_cons, List.prod_cons]
    exact fold_rows l h

theorem prod_pos1 (l : List (Cpm K)) : 1 ≤ (l.map rows1).prod := by
  induction l with
  | nil => simp
  | cons a l ih =>
    rw [List.map_cons, List.prod_cons]
    exact Nat.mul_le_mul (rows1_pos a) ih

theorem mask_prod (l : List (Cpm K)) (mask : List Bool) :
    ((maskRows mask l).map rows1).prod * ((maskRows (mask.map not) l).map rows1).prod ≤
      (l.map rows1).prod := by
  induction l generalizing mask with
  | nil => simp [maskRows]
  | cons a l ih =>
    cases mask with
    | nil => simpa [maskRows] using prod_pos1 (a :: l)
    | cons b mask =>
      have h := ih mask
      cases b
      · have e1 : maskRows (false :: mask) (a :: l) = maskRows mask l := rfl
        have e2 : maskRows ((false :: mask).map not) (a :: l) = a :: maskRows (mask.map not) l := rfl
        rw [e1, e2, List.map_cons, List.prod_cons, List.map_cons, List.prod_cons, Nat.mul_left_comm]
        exact Nat.mul_le_mul_left _ h
      · have e1 : maskRows (true :: mask) (a :: l) = a :: maskRows mask l := rfl
        have e2 : maskRows ((true :: mask).map not) (a :: l) = maskRows (mask.map not) l := rfl
        rw [e1, e2, List.map_cons, List.prod_cons, List.map_cons, List.prod_cons, Nat.mul_assoc]
        exact Nat.mul_le_mul_left _ h

theorem elimStep_rows {l l1 : List (Cpm K)} {v : Variable K} (h : elimStep l v = .ok l1) :
    (l1.map rows1).prod ≤ (l.map rows1).prod := by
  unfold elimStep at h
  obtain ⟨P, hP, h⟩ := bind_ok.1 h
  obtain ⟨Q, hQ, h⟩ := bind_ok.1 h
  cases h
  rw [List.map_cons, List.prod_cons]
  refine (Nat.mul_le_mul_right _ ?_).trans (mask_prod l (isInScope [v] l))
  exact (max_le_max le_rfl (sum_rows hQ)).trans (productList_rows hP)

theorem elimRows_le : ∀ (ve : List (Variable K)) (l : List (Cpm K)),
    elimRows l ve ≤ ve.length * (l.map rows1).prod := by
  intro ve
  induction ve with
  | nil => intro l; simp [elimRows]
  | cons v ve ih =>
    intro l
    rw [elimRows, List.length_cons, Nat.succ_mul, Nat.add_comm]
    refine Nat.add_le_add ?_ ?_
    · cases h : elimStep l v with
      | error e => simp
      | ok l1 => exact (ih l1).trans (Nat.mul_le_mul_left _ (elimStep_rows h))
    · cases h : productList (maskRows (isInScope [v] l) l) with
      | error e => simp [tableRows]
      | ok P =>
        have h1 := productList_rows h
        have h2 := mask_prod l (isInScope [v] l)
        have h3 := prod_pos1 (maskRows ((isInScope [v] l).map not) l)
        calc tableRows (.ok P) = P.C.length := rfl
          _ ≤ rows1 P := le_max_right _ _
          _ ≤ _ := h1
          _ ≤ _ := Nat.le_mul_of_pos_right _ h3
          _ ≤ _ := h2

end Product

end BNS
