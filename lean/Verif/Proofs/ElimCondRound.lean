import Verif.Model.ElimCondRound
import Verif.Proofs.ObserveRound

/-!
# Helper lemmas: `merge` and `variable_elim_cond` keep relations between probabilities
-/

namespace BNS

set_option linter.unusedSectionVars false

open List

theorem forall₂_set {α β : Type} {R : α → β → Prop} {l' : List α} {l : List β} (h : Forall₂ R l' l)
    {a : α} {b : β} (hab : R a b) (i : ℕ) : Forall₂ R (l'.set i a) (l.set i b) := by
  induction h generalizing i with
  | nil => exact Forall₂.nil
  | cons h1 h2 ih =>
    cases i with
    | zero => exact Forall₂.cons hab h2
    | succ i => exact Forall₂.cons h1 (ih i)

theorem zip_rel {α : Type} {R : ℚ → ℚ → Prop} {p' p : List ℚ} (h : Forall₂ R p' p) (C : List α) :
    Forall₂ (fun x' x : α × ℚ => x'.1 = x.1 ∧ R x'.2 x.2) (C.zip p') (C.zip p) := by
  induction h generalizing C with
  | nil => simp
  | cons h1 _ ih =>
    cases C with
    | nil => exact Forall₂.nil
    | cons a C => exact Forall₂.cons ⟨rfl, h1⟩ (ih C)

section Basic
variable {K : Type} [DecidableEq K] {A : Arith} {R : ℕ → ℚ → ℚ → Prop}

theorem mergeFold_rel (hR : Counted A R) {b : ℕ} (C : List (List ℕ)) {l' l : List (List ℕ × ℚ)}
    (h : Forall₂ (fun x' x : List ℕ × ℚ => x'.1 = x.1 ∧ R b x'.2 x.2) l' l) :
    ∀ {n : ℕ} {p' p : List ℚ}, b ≤ n → Forall₂ (R n) p' p →
      Outcome (Forall₂ (R (n + 2 * l.length)))
        (l'.foldlM (fun p cx => do
          let i ← pyIndex C cx.1
          let old ← pyGet p i
          return p.set i (A.sum [old, cx.2])) p')
        (l.foldlM (fun p cx => do
          let i ← pyIndex C cx.1
          let old ← pyGet p i
          return p.set i (old + cx.2)) p : Except Err (List ℚ)) := by
  induction h with
  | nil => intro n p' p _ h; exact h
  | @cons x' x l' l h1 h2 ih =>
    intro n p' p hb h
    rw [List.foldlM_cons, List.foldlM_cons]
    have step : Outcome (Forall₂ (R (n + 2))) (do
          let i ← pyIndex C x'.1
          let old ← pyGet p' i
          return p'.set i (A.sum [old, x'.2])) (do
          let i ← pyIndex C x.1
          let old ← pyGet p i
          return p.set i (old + x.2) : Except Err (List ℚ)) := by
      rw [h1.1]
      refine Outcome.bind_self fun i _ => (pyGet_rel h i).bind fun o' o ho => ?_
      refine forall₂_set (h.imp fun _ _ => hR.mono _ _ _ _ (by omega)) ?_ i
      have := hR.sum n 2 [o', x'.2] [o, x.2]
        (Forall₂.cons ho (Forall₂.cons (hR.mono _ _ _ _ hb h1.2) Forall₂.nil)) (by simp)
      simpa using this
    refine step.bind fun q' q hq => (ih (by omega) hq).mono fun a c hac => hac.imp fun _ _ =>
      hR.mono _ _ _ _ ?_
    rw [List.length_cons]; omega

theorem merge_rel (hR : Counted A R) {n b : ℕ} (hb : b ≤ n) {X' X Y' Y : Cpm K}
    (hX : SameTable (R n) X' X) (hY : SameTable (R b) Y' Y) :
    Outcome (fun z' z => SameTable (R (n + 2 * Y.C.length)) z'.2 z.2) (X'.mergeR A Y') (X.merge Y) := by
  unfold Cpm.mergeR Cpm.merge Cpm.getNames
  rw [hX.vars, hY.vars, hX.C, hY.C, hX.samples.1, hY.samples.1, hX.samples.2.1, hY.samples.2.1,
    hX.samples.2.2.1, hY.samples.2.2.1, hX.samples.2.2.2, hY.samples.2.2.2]
  refine Outcome.bind_self fun _ _ => ?_
  refine (mergeFold_rel hR X.C (zip_rel hY.p Y.C) hb hX.p).bind fun p' p hp => ?_
  split
  · exact rfl
  · refine Outcome.bind_self fun _ _ => Outcome.bind_self fun _ _ => Outcome.bind_self fun _ _ =>
      Outcome.bind_self fun _ _ => ?_
    refine ⟨rfl, hX.noChild, rfl, hp.imp fun _ _ => hR.mono _ _ _ _ ?_, ⟨rfl, rfl, rfl, rfl⟩, ?_⟩
    · rw [List.length_zip]
      have := Nat.min_le_left Y.C.length Y.p.length
      omega
    · show (X.Cs ++ Y.Cs).flatten = []
      rw [List.flatten_append, hX.noCs, hY.noCs, List.append_nil]

theorem conditionAll_rel {S : ℚ → ℚ → Prop} {l' l : List (Cpm K)} (h : Forall₂ (SameTable S) l' l)
    (vars : List (Variable K)) (states : List ℕ) :
    Outcome (Forall₂ (SameTable S)) (conditionAll l' vars states) (conditionAll l vars states) :=
  Outcome.mapM₂ h fun _ _ hM => condition_rel hM vars states

end Basic

section Elim
variable {K : Type} [LinearOrder K] {A : Arith} {R : ℕ → ℚ → ℚ → Prop}

theorem conditionAll_rows {l l1 : List (Cpm K)} {vars : List (Variable K)} {states : List ℕ}
    (h : conditionAll l vars states = .ok l1) :
    l1.length = l.length ∧ (l1.map rows1).prod ≤ (l.map rows1).prod := by
  unfold conditionAll at h
  have hf := mapM_ok_forall₂ h
  clear h
  induction hf with
  | nil => simp
  | cons h1 _ ih =>
    refine ⟨by simp [ih.1], ?_⟩
    rw [List.map_cons, List.prod_cons, List.map_cons, List.prod_cons]
    exact Nat.mul_le_mul (max_le_max le_rfl (condition_rows h1)) ih.2

/-- Related outcomes of one row. -/
def RowRel (S : ℚ → ℚ → Prop) (z' z : Option (Cpm K) × Option (List ℕ)) : Prop :=
  z'.2 = z.2 ∧ Option.Rel (SameTable S) z'.1 z.1

theorem elimCondRow_rel (hR : Counted A R) {k t n c : ℕ} {cpms' cpms : List (Cpm K)}
    (h : Forall₂ (SameTable (R k)) cpms' cpms) (varis : List (Variable K)) (cNames : List K)
    {P' P : Cpm K} (hP : SameTable (R t) P' P) (hn : (cpms.map rows1).prod ≤ n) (hc : P.C.length ≤ c)
    (idv : Option (List ℕ)) (cx : List ℕ) :
    Outcome (fun z' z => RowRel (R (cpms.length * k + (cpms.length - 1) + varis.length * n + t + 1)) z' z ∧
        ∀ M, z.1 = some M → M.C.length ≤ n * c)
      (elimCondRowR A cpms' varis cNames P' idv cx) (elimCondRow cpms varis cNames P idv cx) := by
  unfold elimCondRowR elimCondRow
  rw [hP.vars]
  refine (condition_rel hP P.vars cx).bind' fun Q' Q _ hQe hQ => ?_
  refine (conditionAll_rel h P.vars cx).bind' fun l' l _ hle hl => ?_
  obtain ⟨r1, r2⟩ := conditionAll_rows hle
  refine (elim_rel hR hl varis).bind' fun E' E _ hEe hE => ?_
  have hE' : SameTable (R (cpms.length * k + (cpms.length - 1) + varis.length * n)) E' E := by
    refine hE.mono fun _ _ => hR.mono _ _ _ _ ?_
    unfold elimRoundings
    rw [r1]
    have := (elimRows_le varis l).trans (Nat.mul_le_mul_left _ (r2.trans hn))
    omega
  refine (product_rel hR hE' hQ).bind' fun M' M _ hMe hM => ?_
  have hrows : M.C.length ≤ n * c :=
    (product_rows hMe).trans (Nat.mul_le_mul ((elim_result_rows hEe).trans (r2.trans hn))
      ((condition_rows hQe).trans hc))
  have hgc : M'.getColInd cNames = M.getColInd cNames := by
    unfold Cpm.getColInd Cpm.getNames
    rw [hM.vars]
  rw [hgc]
  refine Outcome.bind_self fun idx _ => ?_
  rw [hM.vars, hM.C, hM.noChild]
  simp only
  split
  · exact ⟨⟨rfl, Option.Rel.none⟩, by simp⟩
  · refine Outcome.bind_self fun vars' _ => Outcome.bind_self fun C' hC' => Outcome.bind_self fun _ _ => ?_
    have hs : SameTable (R (cpms.length * k + (cpms.length - 1) + varis.length * n + t + 1))
        ({ vars := vars', noChild := M.noChild - idx.length, C := C', p := M'.p } : Cpm K)
        { vars := vars', noChild := M.noChild - idx.length, C := C', p := M.p } :=
      ⟨rfl, rfl, rfl, hM.p, ⟨rfl, rfl, rfl, rfl⟩, rfl⟩
    refine (mk'_rel hs).bind' fun N' N _ hNe hN => ⟨⟨rfl, Option.Rel.some hN⟩, ?_⟩
    intro N1 hN1
    cases hN1
    rw [mk'_eq hNe]
    have : C'.length = M.C.length := (mapM_ok_forall₂ hC').length_eq.symm
    simpa [this] using hrows

theorem elimCondLoop_rel (hR : Counted A R) {k t n c : ℕ} {cpms' cpms : List (Cpm K)}
    (h : Forall₂ (SameTable (R k)) cpms' cpms) (varis : List (Variable K)) (cNames : List K)
    {P' P : Cpm K} (hP : SameTable (R t) P' P) (hn : (cpms.map rows1).prod ≤ n) (hc : P.C.length ≤ c) :
    ∀ (rows : List (List ℕ)) (idv : Option (List ℕ)) {m : ℕ} {M' M : Option (Cpm K)},
      cpms.length * k + (cpms.length - 1) + varis.length * n + t + 1 ≤ m →
      Option.Rel (SameTable (R m)) M' M →
      Outcome (Option.Rel (SameTable (R (m + rows.length * (2 * (n * c))))))
        (elimCondLoopR A cpms' varis cNames P' rows idv M') (elimCondLoop cpms varis cNames P rows idv M) := by
  have up : ∀ {a b : ℕ} {X' X : Option (Cpm K)}, a ≤ b → Option.Rel (SameTable (R a)) X' X →
      Option.Rel (SameTable (R b)) X' X := by
    intro a b X' X hab hX
    cases hX with
    | none => exact Option.Rel.none
    | some hX => exact Option.Rel.some (hX.mono fun _ _ => hR.mono _ _ _ _ hab)
  intro rows
  induction rows with
  | nil =>
    intro idv m M' M _ hM
    exact up (by simp) hM
  | cons cx rest ih =>
    intro idv m M' M hm hM
    unfold elimCondLoopR elimCondLoop
    have hle : ∀ {a}, a ≤ m + 2 * (n * c) →
        a + rest.length * (2 * (n * c)) ≤ m + (cx :: rest).length * (2 * (n * c)) := by
      intro a ha
      generalize 2 * (n * c) = w at ha ⊢
      rw [List.length_cons, Nat.succ_mul]
      omega
    refine (elimCondRow_rel hR h varis cNames hP hn hc idv cx).bind fun z' z hz => ?_
    obtain ⟨⟨hz2, hz1⟩, hzr⟩ := hz
    obtain ⟨c2', idv'⟩ := z'
    obtain ⟨c2, idv2⟩ := z
    simp only at hz2 hz1 hzr
    subst hz2
    cases hz1 with
    | none =>
      cases hM with
      | none => exact (ih idv' hm Option.Rel.none).mono fun a b hab => up (hle (by omega)) hab
      | some hM => exact (ih idv' hm (Option.Rel.some hM)).mono fun a b hab => up (hle (by omega)) hab
    | @some X' X hX =>
      cases hM with
      | none => exact (ih idv' hm (up hm (Option.Rel.some hX))).mono fun a b hab => up (hle (by omega)) hab
      | @some Y' Y hY =>
        refine (merge_rel hR hm hY hX).bind fun w' w hw => ?_
        have hX2 := hzr X rfl
        refine (ih idv' (by omega) (Option.Rel.some hw)).mono fun a b hab => up (hle ?_) hab
        omega

theorem variableElimCond_rel (hR : Counted A R) {k : ℕ} {cpms' cpms cond' cond : List (Cpm K)}
    (h : Forall₂ (SameTable (R k)) cpms' cpms) (hcond : Forall₂ (SameTable (R k)) cond' cond)
    (varis : List (Variable K)) :
    Outcome (Option.Rel (SameTable (R (condRoundings k cpms varis cond))))
      (variableElimCondR A cpms' varis cond') (variableElimCond cpms varis cond) := by
  unfold variableElimCondR variableElimCond
  have hnames : (cond'.flatMap fun M => M.getNames) = cond.flatMap fun M => M.getNames := by
    clear h
    induction hcond with
    | nil => rfl
    | cons h1 _ ih =>
      rw [List.flatMap_cons, List.flatMap_cons, ih]
      congr 1
      unfold Cpm.getNames
      rw [h1.vars]
  rw [hnames]
  refine (productList_rel hR (Counts.of_forall hcond)).bind' fun P' P _ hPe hP => ?_
  have hPr : P.C.length ≤ (cond.map rows1).prod := (le_max_right _ _).trans (productList_rows hPe)
  rw [hP.C]
  have := elimCondLoop_rel hR h varis (firstOccOn id (cond.flatMap fun M => M.getNames)) hP le_rfl hPr P.C
    none le_rfl Option.Rel.none
  refine this.mono fun a b hab => ?_
  cases hab with
  | none => exact Option.Rel.none
  | some hab =>
    refine Option.Rel.some (hab.mono fun _ _ => hR.mono _ _ _ _ ?_)
    have hne : 1 ≤ cond.length := productList_ne hPe
    have e1 : condRoundings k cpms varis cond = (cpms.length + cond.length) * (k + 1) +
        varis.length * (cpms.map rows1).prod +
        (cond.map rows1).prod * (2 * ((cpms.map rows1).prod * (cond.map rows1).prod)) := rfl
    rw [e1, Nat.add_mul, Nat.mul_add, Nat.mul_add]
    have := Nat.mul_le_mul_right (2 * ((cpms.map rows1).prod * (cond.map rows1).prod)) hPr
    omega

end Elim

end BNS
