import Verif.Spec.CpmRound
import Verif.Proofs.Monad
import Mathlib.Data.List.Forall2

/-!
# Helper lemmas: the CPM operations keep relations between probabilities

No operation looks at the value of a probability; it is enough that the relation is kept by the
product and by the sum.
-/

namespace BNS

set_option linter.unusedSectionVars false

open List

section Out
variable {α β γ δ : Type} {R : α → β → Prop} {S : γ → δ → Prop}

theorem Outcome.bind {x : Except Err α} {y : Except Err β} {f : α → Except Err γ}
    {g : β → Except Err δ} (h : Outcome R x y) (hfg : ∀ a b, R a b → Outcome S (f a) (g b)) :
    Outcome S (x >>= f) (y >>= g) := by
  cases x with
  | error e => cases y with
    | error e' => cases h; exact rfl
    | ok b => exact h.elim
  | ok a => cases y with
    | error e' => exact h.elim
    | ok b => exact hfg a b h

/-- The same, keeping where the results come from. -/
theorem Outcome.bind' {x : Except Err α} {y : Except Err β} {f : α → Except Err γ}
    {g : β → Except Err δ} (h : Outcome R x y)
    (hfg : ∀ a b, x = .ok a → y = .ok b → R a b → Outcome S (f a) (g b)) :
    Outcome S (x >>= f) (y >>= g) := by
  cases x with
  | error e => cases y with
    | error e' => cases h; exact rfl
    | ok b => exact h.elim
  | ok a => cases y with
    | error e' => exact h.elim
    | ok b => exact hfg a b rfl rfl h

theorem Outcome.bind_self {x : Except Err α} {f : α → Except Err γ} {g : α → Except Err δ}
    (hfg : ∀ a, x = .ok a → Outcome S (f a) (g a)) : Outcome S (x >>= f) (x >>= g) := by
  cases x with
  | error e => exact rfl
  | ok a => exact hfg a rfl

theorem Outcome.mono {R' : α → β → Prop} {x : Except Err α} {y : Except Err β}
    (h : Outcome R x y) (hr : ∀ a b, R a b → R' a b) : Outcome R' x y := by
  cases x with
  | error e => cases y with
    | error e' => exact h
    | ok b => exact h.elim
  | ok a => cases y with
    | error e' => exact h.elim
    | ok b => exact hr a b h

theorem Outcome.of_ok {x : Except Err α} {y : Except Err β} {b : β}
    (h : Outcome R x y) (hy : y = .ok b) : ∃ a, x = .ok a ∧ R a b := by
  subst hy
  cases x with
  | error e => exact h.elim
  | ok a => exact ⟨a, rfl, h⟩

theorem Outcome.mapM {ι : Type} {f : ι → Except Err α} {g : ι → Except Err β} (l : List ι)
    (h : ∀ i ∈ l, Outcome R (f i) (g i)) : Outcome (Forall₂ R) (l.mapM f) (l.mapM g) := by
  induction l with
  | nil => exact Forall₂.nil
  | cons a l ih =>
    rw [List.mapM_cons, List.mapM_cons]
    refine (h a (by simp)).bind fun x y hxy => ?_
    refine (ih fun i hi => h i (by simp [hi])).bind fun xs ys hxs => ?_
    exact Forall₂.cons hxy hxs

theorem pyGet_rel {X' : List α} {X : List β} (h : Forall₂ R X' X) (i : ℕ) :
    Outcome R (pyGet X' i) (pyGet X i) := by
  unfold pyGet
  induction h generalizing i with
  | nil => exact rfl
  | cons h1 h2 ih =>
    cases i with
    | zero => exact h1
    | succ i => simpa using ih i

theorem takeRows_rel {X' : List α} {X : List β} (h : Forall₂ R X' X) (idx : List ℕ) :
    Outcome (Forall₂ R) (takeRows X' idx) (takeRows X idx) :=
  Outcome.mapM idx fun i _ => pyGet_rel h i

theorem takeRowsOpt_rel {X' : List α} {X : List β} (h : Forall₂ R X' X) (idx : List ℕ) :
    Outcome (Forall₂ R) (takeRowsOpt X' idx) (takeRowsOpt X idx) := by
  cases h with
  | nil => exact Forall₂.nil
  | cons h1 h2 => exact takeRows_rel (Forall₂.cons h1 h2) idx

theorem maskRows_rel {X' : List α} {X : List β} (h : Forall₂ R X' X) (mask : List Bool) :
    Forall₂ R (maskRows mask X') (maskRows mask X) := by
  unfold maskRows
  induction h generalizing mask with
  | nil => simp
  | cons h1 h2 ih =>
    cases mask with
    | nil => simp
    | cons b mask =>
      cases b
      · simpa using ih mask
      · simpa using ⟨h1, ih mask⟩

theorem forall₂_nil_iff {X' : List α} {X : List β} (h : Forall₂ R X' X) : X' = [] ↔ X = [] := by
  cases h <;> simp

end Out

section Basic
variable {K : Type} [DecidableEq K] {R : ℚ → ℚ → Prop}

theorem pyAssert_rel {γ δ : Type} {S : γ → δ → Prop} {a b : Prop} [Decidable a] [Decidable b]
    (h : a ↔ b) {f : Unit → Except Err γ} {g : Unit → Except Err δ}
    (hfg : Outcome S (f ()) (g ())) : Outcome S (pyAssert a >>= f) (pyAssert b >>= g) := by
  have : pyAssert a = pyAssert b := by unfold pyAssert; simp only [h]
  rw [this]
  exact Outcome.bind_self fun _ _ => hfg

theorem SameTable.eq {M' M : Cpm K} (h : SameTable R M' M) : M' = { M with p := M'.p } := by
  obtain ⟨h1, h2, h3, -, ⟨h5, h6, h7, h8⟩, -⟩ := h
  cases M'
  cases M
  simp only at *
  subst h1 h2 h3 h5 h6 h7 h8
  rfl

theorem SameTable.withP {M : Cpm K} {p' : List ℚ} (h : Forall₂ R p' M.p) (hs : M.Cs.flatten = []) :
    SameTable R { M with p := p' } M := ⟨rfl, rfl, rfl, h, ⟨rfl, rfl, rfl, rfl⟩, hs⟩

theorem mk'_rel {M' M : Cpm K} (h : SameTable R M' M) :
    Outcome (SameTable R) (Cpm.mk' M') (Cpm.mk' M) := by
  have hp := forall₂_nil_iff h.p
  have hl := h.p.length_eq
  have he := h.eq
  unfold Cpm.mk'
  refine pyAssert_rel (by rw [h.noChild, h.vars]) ?_
  rw [h.vars, h.C]
  refine Outcome.bind_self fun _ _ => pyAssert_rel (by rw [hp, hl]) ?_
  rw [h.samples.1, h.samples.2.1, h.samples.2.2.1, h.samples.2.2.2]
  refine Outcome.bind_self fun _ _ => Outcome.bind_self fun _ _ => Outcome.bind_self fun _ _ =>
    Outcome.bind_self fun _ _ => h

theorem getSubset_rel {M' M : Cpm K} (h : SameTable R M' M) (rows : List ℕ) (flag : Bool) :
    Outcome (SameTable R) (M'.getSubset rows flag) (M.getSubset rows flag) := by
  unfold Cpm.getSubset
  rw [h.C]
  refine Outcome.bind_self fun rs _ => (takeRowsOpt_rel h.p rs).bind fun p' p hp =>
    Outcome.bind_self fun C _ => mk'_rel ?_
  exact ⟨h.vars, h.noChild, rfl, hp, h.samples, h.noCs⟩

theorem isCompatibleM_same {M' M : Cpm K} (h : SameTable R M' M) {N' N : Cpm K}
    (hv : N'.vars = N.vars) (hC : N'.C = N.C) (hs : N'.Cs = N.Cs) (flag : Bool) :
    M'.isCompatibleM N' flag = M.isCompatibleM N flag := by
  unfold Cpm.isCompatibleM
  rw [hv, hC, hs, h.vars, h.C]

theorem condition_rel {M' M : Cpm K} (h : SameTable R M' M) (vars : List (Variable K))
    (states : List ℕ) :
    Outcome (SameTable R) (M'.condition vars states) (M.condition vars states) := by
  have hp := forall₂_nil_iff h.p
  unfold Cpm.condition
  rw [h.vars, h.C]
  refine Outcome.bind_self fun mask _ => ?_
  refine Outcome.bind_self fun cv _ => Outcome.bind_self fun cs _ => Outcome.bind_self fun Cc _ => ?_
  have hr : Forall₂ R (if M'.p = [] then [] else maskRows mask M'.p)
      (if M.p = [] then [] else maskRows mask M.p) := by
    by_cases hm : M.p = []
    · rw [if_pos hm, if_pos (hp.2 hm)]; exact Forall₂.nil
    · rw [if_neg hm, if_neg (fun e => hm (hp.1 e))]
      exact maskRows_rel h.p mask
  refine Outcome.bind_self fun _ _ => ?_
  refine pyAssert_rel (by rw [forall₂_nil_iff hr, hr.length_eq]) ?_
  rw [if_pos (by rw [h.samples.1]; exact h.noCs), if_pos h.noCs]
  exact ⟨rfl, h.noChild, rfl, hr, h.samples, h.noCs⟩

theorem sort_rel {M' M : Cpm K} (h : SameTable R M' M) :
    Outcome (SameTable R) M'.sort M.sort := by
  unfold Cpm.sort
  rw [h.C, h.vars, h.samples.2.2.2, h.samples.2.1, h.samples.1]
  refine Outcome.bind_self fun C _ => Outcome.bind_self fun _ _ => ?_
  refine (takeRowsOpt_rel h.p _).bind fun p' p hp => ?_
  refine pyAssert_rel (by rw [forall₂_nil_iff hp, hp.length_eq]) ?_
  refine Outcome.bind_self fun _ _ => Outcome.bind_self fun _ _ => Outcome.bind_self fun _ _ =>
    Outcome.bind_self fun _ _ => ?_
  exact ⟨rfl, h.noChild, rfl, hp, ⟨rfl, rfl, h.samples.2.2.1, rfl⟩, h.noCs⟩

variable {A : Arith} {S T : ℚ → ℚ → Prop}

theorem maskRows_length {α : Type} (mask : List Bool) (X : List α) :
    (maskRows mask X).length ≤ X.length := by
  unfold maskRows
  exact (List.length_filterMap_le _ _).trans (by simp)

theorem mk'_checked {M P : Cpm K} (h : Cpm.mk' M = .ok P) :
    P = M ∧ (M.p = [] ∨ M.p.length = M.C.length) := by
  unfold Cpm.mk' at h
  obtain ⟨_, -, h⟩ := bind_ok.1 h
  obtain ⟨_, -, h⟩ := bind_ok.1 h
  obtain ⟨_, h3, h⟩ := bind_ok.1 h
  obtain ⟨_, -, h⟩ := bind_ok.1 h
  obtain ⟨_, -, h⟩ := bind_ok.1 h
  obtain ⟨_, -, h⟩ := bind_ok.1 h
  obtain ⟨_, -, h⟩ := bind_ok.1 h
  cases h
  refine ⟨rfl, ?_⟩
  by_contra hc
  rw [pyAssert, if_neg hc] at h3
  cases h3

theorem takeRows_length {α : Type} {X Y : List α} {idx : List ℕ} (h : takeRows X idx = .ok Y) :
    Y.length = idx.length := (mapM_ok_forall₂ h).length_eq.symm

theorem getSubset_len {M P : Cpm K} {rows : List ℕ} (h : M.getSubset rows false = .ok P) :
    P.C.length ≤ M.C.length := by
  unfold Cpm.getSubset subsetRows at h
  simp only [Bool.false_eq_true, if_false] at h
  obtain ⟨rs, h0, h⟩ := bind_ok.1 h
  cases h0
  obtain ⟨p, hp, h⟩ := bind_ok.1 h
  obtain ⟨C, hC, h⟩ := bind_ok.1 h
  rw [(mk'_checked h).1]
  show C.length ≤ _
  rw [takeRows_length hC]
  have h1 : ∀ l : List ℕ, (firstOccOn id l).length ≤ l.length := by
    intro l
    induction l with
    | nil => simp [firstOccOn]
    | cons a l ih =>
      simp only [firstOccOn, List.length_cons]
      have := List.length_filter_le (fun b : ℕ => decide (id b ≠ id a)) (firstOccOn id l)
      omega
  unfold setdiffOn
  refine (List.length_filter_le _ _).trans ((h1 _).trans (by simp))

theorem getSubset_plen {M P : Cpm K} {rows : List ℕ} {flag : Bool}
    (h : M.getSubset rows flag = .ok P) : P.p.length ≤ P.C.length := by
  unfold Cpm.getSubset at h
  obtain ⟨rs, h0, h⟩ := bind_ok.1 h
  obtain ⟨p, hp, h⟩ := bind_ok.1 h
  obtain ⟨C, hC, h⟩ := bind_ok.1 h
  obtain ⟨e, h⟩ := mk'_checked h
  rw [e]
  rcases h with h | h
  · rw [h]; simp
  · exact h.le

/-- A pair of a table and its column of probabilities. -/
def TableRel (R : ℚ → ℚ → Prop) (a b : List (List ℕ) × List ℚ) : Prop :=
  a.1 = b.1 ∧ Forall₂ R a.2 b.2

theorem sumLoop_rel {n : ℕ}
    (hsum : ∀ l' l, Forall₂ R l' l → l.length ≤ n → S (A.sum l') l.sum) :
    ∀ (fuel : ℕ) (M' M : Cpm K), SameTable R M' M → M.C.length ≤ n → M.p.length ≤ n →
      Outcome (TableRel S) (sumLoopR A fuel M') (sumLoop fuel M) := by
  intro fuel
  induction fuel with
  | zero =>
    intro M' M h _ _
    unfold sumLoopR sumLoop
    rw [h.C]
    by_cases hc : M.C.flatten = []
    · simp only [if_pos hc]; exact ⟨rfl, Forall₂.nil⟩
    · simp only [if_neg hc]; exact rfl
  | succ fuel ih =>
    intro M' M h hn hp
    unfold sumLoopR sumLoop
    rw [h.C]
    by_cases hc : M.C.flatten = []
    · simp only [if_pos hc]; exact ⟨rfl, Forall₂.nil⟩
    simp only [if_neg hc]
    refine (getSubset_rel h [0] true).bind fun N' N hN => ?_
    rw [isCompatibleM_same h hN.vars hN.C hN.samples.1]
    refine Outcome.bind_self fun mask _ => Outcome.bind_self fun row _ => ?_
    refine (getSubset_rel h (whereTrue mask) false).bind' fun P' P _ h2 this => ?_
    have l1 := getSubset_len h2
    have l2 := getSubset_plen h2
    refine (ih P' P this (by omega) (by omega)).bind fun a b hab => ?_
    refine ⟨by rw [hab.1], ?_⟩
    by_cases hm : M.p = []
    · rw [if_pos hm, if_pos ((forall₂_nil_iff h.p).2 hm)]
      simpa using hab.2
    · rw [if_neg hm, if_neg (fun e => hm ((forall₂_nil_iff h.p).1 e))]
      refine Forall₂.cons (hsum _ _ (maskRows_rel h.p mask) ?_) hab.2
      exact (maskRows_length _ _).trans hp

theorem sum_rel {M' M : Cpm K} (h : SameTable R M' M)
    (hsum : ∀ l' l, Forall₂ R l' l → l.length ≤ M.C.length → S (A.sum l') l.sum)
    (vars : List (Variable K)) (flag : Bool) :
    Outcome (SameTable S) (M'.sumR A vars flag) (M.sum vars flag) := by
  unfold Cpm.sumR Cpm.sum
  have hr : sumRemain M' vars flag = sumRemain M vars flag := by
    unfold sumRemain
    rw [h.vars, h.noChild]
  rw [hr]
  generalize (sumRemain M vars flag).1 = rv
  generalize (sumRemain M vars flag).2 = ri
  unfold sumBodyR sumBody
  rw [h.vars, h.noChild, h.C, h.samples.1, h.samples.2.1, h.samples.2.2.1, h.samples.2.2.2]
  refine Outcome.bind_self fun vars' _ => ?_
  cases hC : takeCols M.C (ri ++ range' M.noChild (M.vars.length - M.noChild)) with
  | error e => exact rfl
  | ok C =>
    rw [ok_bind, ok_bind]
    have hlen : C.length = M.C.length := (mapM_ok_forall₂ hC).length_eq.symm
    have h0 : SameTable R
        { vars := vars', noChild := (ri ++ range' M.noChild (M.vars.length - M.noChild)).length,
          C := C, p := M'.p, q := M.q, sampleIdx := M.sampleIdx }
        { vars := vars', noChild := (ri ++ range' M.noChild (M.vars.length - M.noChild)).length,
          C := C, p := M.p, q := M.q, sampleIdx := M.sampleIdx } :=
      ⟨rfl, rfl, rfl, h.p, ⟨rfl, rfl, rfl, rfl⟩, rfl⟩
    refine (mk'_rel h0).bind' fun M0' M0 _ hy hm => ?_
    obtain ⟨e0, hp0⟩ := mk'_checked hy
    have hC0 : M0.C.length = M.C.length := by rw [e0]; exact hlen
    have hp1 : M0.p.length ≤ M.C.length := by
      rw [e0]
      rcases hp0 with hp0 | hp0
      · simp only at hp0 ⊢; rw [hp0]; simp
      · exact (hp0.trans hlen).le
    rw [hm.C]
    refine (sumLoop_rel hsum M0.C.length M0' M0 hm hC0.le hp1).bind fun a b hab => ?_
    by_cases hv : vars' = []
    · simp only [if_pos hv]; exact rfl
    simp only [if_neg hv]
    simp only [if_pos h.noCs]
    refine (mk'_rel (R := S) ?_).bind fun _ _ hh => hh
    exact ⟨rfl, rfl, hab.1, hab.2, ⟨rfl, rfl, rfl, rfl⟩, rfl⟩

theorem getProb_rel {M' M : Cpm K} (h : SameTable R M' M)
    (hsum : ∀ l' l, Forall₂ R l' l → l.length ≤ M.C.length → S (A.sum l') l.sum)
    (vars : List (Variable K)) (states : List ℕ) (flag : Bool) :
    Outcome S (M'.getProbR A vars states flag) (M.getProb vars states flag) := by
  unfold Cpm.getProbR Cpm.getProb
  refine Outcome.bind_self fun _ _ => Outcome.bind_self fun Mc _ => ?_
  rw [isCompatibleM_same h rfl rfl rfl]
  refine Outcome.bind_self fun mask _ => ?_
  refine (getSubset_rel h (whereTrue mask) flag).bind' fun P' P _ hy hr => ?_
  refine hsum _ _ hr.p ((getSubset_plen hy).trans ?_)
  cases flag with
  | false => exact getSubset_len hy
  | true =>
    unfold Cpm.getSubset subsetRows at hy
    simp only [if_true] at hy
    obtain ⟨rs, h0, hy⟩ := bind_ok.1 hy
    obtain ⟨p, -, hy⟩ := bind_ok.1 hy
    obtain ⟨C, hC, hy⟩ := bind_ok.1 hy
    rw [(mk'_checked hy).1]
    show C.length ≤ _
    rw [takeRows_length hC]
    split at h0
    · rename_i hlt
      cases h0
      have hnd : (whereTrue mask).Nodup := List.nodup_range.filter _
      have hsub : (whereTrue mask) ⊆ List.range M.C.length := fun i hi =>
        List.mem_range.2 (hlt i hi)
      simpa using (hnd.subperm hsub).length_le
    · cases h0

end Basic

section Product
variable {K : Type} [LinearOrder K] {A : Arith} {R S T : ℚ → ℚ → Prop}

theorem productRows_rel {X' X Y' Y : Cpm K} (hX : SameTable R X' X) (hY : SameTable S Y' Y)
    (hmul : ∀ x' x y' y, S x' x → R y' y → T (A.mul x' y') (x * y)) (idxVars : List (Option ℕ))
    (comVars : List (Variable K)) (notCom idx2 : List ℕ) :
    Outcome (TableRel T) (productRowsR A X' Y' idxVars comVars notCom idx2)
      (productRows X Y idxVars comVars notCom idx2) := by
  unfold productRowsR productRows
  rw [hX.C]
  by_cases hc : X.C.flatten = []
  · simp only [if_pos hc]; exact ⟨rfl, Forall₂.nil⟩
  simp only [if_neg hc]
  refine (Outcome.mapM (R := fun (a b : List (List ℕ) × List (List ℚ)) =>
    a.1 = b.1 ∧ Forall₂ (Forall₂ T) a.2 b.2) _ fun i _ => ?_).bind fun bs' bs hb => ?_
  · refine Outcome.bind_self fun r _ => Outcome.bind_self fun c1 _ => Outcome.bind_self fun c1n _ => ?_
    refine (condition_rel hY comVars c1).bind fun N' N hN => ?_
    refine (takeRowsOpt_rel hX.p [i]).bind fun y' y hy => ?_
    refine ⟨by show _ = _; rw [hN.C], ?_⟩
    show Forall₂ (Forall₂ T) (y'.map _) (y.map _)
    rw [List.forall₂_map_left_iff, List.forall₂_map_right_iff]
    refine hy.imp fun a b hab => ?_
    rw [List.forall₂_map_left_iff, List.forall₂_map_right_iff]
    exact hN.p.imp fun c d hcd => hmul _ _ _ _ hcd hab
  · have e1 : (bs'.flatMap fun b => b.1) = bs.flatMap fun b => b.1 := by
      induction hb with
      | nil => rfl
      | cons h1 h2 ih => simp only [List.flatMap_cons, h1.1, ih]
    have e2 : Forall₂ (Forall₂ T) (bs'.flatMap fun b => b.2) (bs.flatMap fun b => b.2) := by
      induction hb with
      | nil => exact Forall₂.nil
      | cons h1 h2 ih =>
        simp only [List.flatMap_cons]
        exact List.rel_append h1.2 (ih (by simpa [h1.1] using e1))
    rw [e1]
    refine Outcome.bind_self fun C _ => ?_
    by_cases hn : (bs.flatMap fun b => b.2) = []
    · rw [if_pos hn, if_pos ((forall₂_nil_iff e2).2 hn)]; exact rfl
    · rw [if_neg hn, if_neg (fun e => hn ((forall₂_nil_iff e2).1 e))]
      exact ⟨rfl, List.rel_flatten e2⟩

theorem productCore_rel {X' X Y' Y : Cpm K} (hX : SameTable R X' X) (hY : SameTable S Y' Y)
    (hR : R 1 1) (hS : S 1 1)
    (hmul : ∀ x' x y' y, S x' x → R y' y → T (A.mul x' y') (x * y)) :
    Outcome (SameTable T) (productCoreR A X' Y') (productCore X Y) := by
  have ones : ∀ {Q : ℚ → ℚ → Prop} (l : List (List ℕ)), Q 1 1 →
      Forall₂ Q (l.map fun _ => (1 : ℚ)) (l.map fun _ => (1 : ℚ)) := by
    intro Q l hQ
    induction l with
    | nil => exact Forall₂.nil
    | cons a l ih => exact Forall₂.cons hQ ih
  have nX := forall₂_nil_iff hX.p
  have nY := forall₂_nil_iff hY.p
  have hYp : Forall₂ S (if X'.p ≠ [] ∧ Y'.p = [] then Y'.C.map (fun _ => (1 : ℚ)) else Y'.p)
      (if X.p ≠ [] ∧ Y.p = [] then Y.C.map (fun _ => (1 : ℚ)) else Y.p) := by
    simp only [ne_eq, nX, nY, hY.C]
    split
    · exact ones _ hS
    · exact hY.p
  have hXp : Forall₂ R (if X'.p = [] ∧ Y'.p ≠ [] then X'.C.map (fun _ => (1 : ℚ)) else X'.p)
      (if X.p = [] ∧ Y.p ≠ [] then X.C.map (fun _ => (1 : ℚ)) else X.p) := by
    simp only [ne_eq, nX, nY, hX.C]
    split
    · exact ones _ hR
    · exact hX.p
  unfold productCoreR productCore
  generalize (if X'.p ≠ [] ∧ Y'.p = [] then Y'.C.map (fun _ => (1 : ℚ)) else Y'.p) = py' at *
  generalize (if X.p ≠ [] ∧ Y.p = [] then Y.C.map (fun _ => (1 : ℚ)) else Y.p) = py at *
  generalize (if X'.p = [] ∧ Y'.p ≠ [] then X'.C.map (fun _ => (1 : ℚ)) else X'.p) = px' at *
  generalize (if X.p = [] ∧ Y.p ≠ [] then X.C.map (fun _ => (1 : ℚ)) else X.p) = px at *
  have hX2 : SameTable R { X' with p := px' } { X with p := px } :=
    ⟨hX.vars, hX.noChild, hX.C, hXp, hX.samples, hX.noCs⟩
  have hY2 : SameTable S { Y' with p := py' } { Y with p := py } :=
    ⟨hY.vars, hY.noChild, hY.C, hYp, hY.samples, hY.noCs⟩
  refine pyAssert_rel (by rw [hX.vars, hX.noChild, hY.vars, hY.noChild]) ?_
  simp only [hX.vars, hX.noChild, hX.C, hX.samples.1, hY.vars, hY.noChild, hY.samples.1] at hX2 hY2 ⊢
  by_cases hc : X.C.flatten = [] ∧ X.Cs.flatten = []
  · simp only [if_pos hc]; exact rfl
  simp only [if_neg hc]
  refine Outcome.bind_self fun cv _ => Outcome.bind_self fun nv _ => ?_
  refine (productRows_rel hX2 hY2 hmul _ _ _ _).bind fun a b hab => ?_
  obtain ⟨aC, ap⟩ := a
  obtain ⟨bC, bp⟩ := b
  obtain ⟨e, hp⟩ := hab
  simp only at e hp
  subst e
  refine (mk'_rel (R := T) (M' := { C := aC, p := ap, .. }) (M := { C := aC, p := bp, .. })
    ⟨rfl, rfl, rfl, hp, ⟨rfl, rfl, rfl, rfl⟩, rfl⟩).bind fun N' N hN => ?_
  refine (sort_rel hN).bind fun N' N hN => ?_
  rw [if_pos (Or.inl hX.noCs), if_pos (Or.inl hX.noCs)]
  exact hN

end Product

end BNS
