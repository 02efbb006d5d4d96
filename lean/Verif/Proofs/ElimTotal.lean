import Verif.Proofs.ElimInv
import Verif.Proofs.ElimCond
import Verif.Props.Elim

/-! When `variable_elim_cond` returns: the columns of its parts do not depend on the rows, and its
rows are the assignments the network covers. -/

namespace BNS

set_option linter.unusedSectionVars false

section
variable {K : Type} [LinearOrder K] {U : K → Variable K}

/-- The same columns. -/
def SameShape (A B : Cpm K) : Prop := A.vars = B.vars ∧ A.noChild = B.noChild

theorem SameShape.names {A B : Cpm K} (h : SameShape A B) : A.getNames = B.getNames := by
  unfold Cpm.getNames; rw [h.1]

theorem SameShape.childNames {A B : Cpm K} (h : SameShape A B) :
    BNS.childNames A = BNS.childNames B := by
  unfold BNS.childNames; rw [h.1, h.2]

theorem newV_same {S S' M M' : Cpm K} (h1 : SameShape S S') (h2 : SameShape M M') :
    newV S M = newV S' M' ∧ newChildV S M = newChildV S' M' := by
  unfold newV newParentV newChildV
  rw [h1.1, h1.2, h2.1, h2.2]
  exact ⟨rfl, rfl⟩

theorem product_shape {S M R : Cpm K} (hS : WF U S) (hM : WF U M)
    (hd : ∀ k ∈ childNames S, k ∉ childNames M) (h : S.product M = .ok R) :
    R.vars = (if S.vars.length > M.vars.length then newV M S else newV S M) ∧
    R.noChild = (if S.vars.length > M.vars.length then newChildV M S else newChildV S M).length := by
  have hd' : ∀ k ∈ childNames M, k ∉ childNames S := fun k h1 h2 => hd k h2 h1
  unfold Cpm.product at h
  by_cases hl : S.vars.length > M.vars.length
  · simp only [if_pos hl] at h ⊢
    by_cases he : M.C.flatten = []
    · rw [productCore_empty hd' hM he] at h; cases h
    · rw [productCore_ok hM hS hd' he] at h; cases h; exact ⟨rfl, rfl⟩
  · simp only [if_neg hl] at h ⊢
    by_cases he : S.C.flatten = []
    · rw [productCore_empty hd hS he] at h; cases h
    · rw [productCore_ok hS hM hd he] at h; cases h; exact ⟨rfl, rfl⟩

theorem product_same {S S' M M' R R' : Cpm K} (hS : WF U S) (hM : WF U M)
    (hd : ∀ k ∈ childNames S, k ∉ childNames M) (hS' : WF U S') (hM' : WF U M')
    (h1 : SameShape S S') (h2 : SameShape M M')
    (h : S.product M = .ok R) (h' : S'.product M' = .ok R') : SameShape R R' := by
  obtain ⟨a1, a2⟩ := product_shape hS hM hd h
  obtain ⟨b1, b2⟩ := product_shape hS' hM' (by rw [← h1.childNames, ← h2.childNames]; exact hd) h'
  rw [← h1.1, ← h2.1] at b1 b2
  refine ⟨a1.trans (Eq.trans ?_ b1.symm), a2.trans (Eq.trans ?_ b2.symm)⟩
  · split
    · exact (newV_same h2 h1).1
    · exact (newV_same h1 h2).1
  · split
    · rw [(newV_same h2 h1).2]
    · rw [(newV_same h1 h2).2]

theorem foldl_product_same {Ms Ms' : List (Cpm K)} (h : List.Forall₂ SameShape Ms Ms') :
    ∀ {l l' : List (Cpm K)} {P P' Q Q' : Cpm K}, ProdSpec U l P → ProdSpec U l' P' →
      (∀ M ∈ Ms, WF U M) → (∀ M ∈ Ms', WF U M) → ChildDisjoint (l ++ Ms) →
      ChildDisjoint (l' ++ Ms') → SameShape P P' →
      Ms.foldlM (fun prod cx => prod.product cx) P = .ok Q →
      Ms'.foldlM (fun prod cx => prod.product cx) P' = .ok Q' → SameShape Q Q' := by
  induction h with
  | nil => intro l l' P P' Q Q' _ _ _ _ _ _ hs h1 h2; cases h1; cases h2; exact hs
  | @cons M M' Ms Ms' hM _ ih =>
    intro l l' P P' Q Q' hP hP' hw hw' hd hd' hs h1 h2
    rw [List.foldlM_cons, bind_ok] at h1 h2
    obtain ⟨R, r1, h1⟩ := h1
    obtain ⟨R', r1', h2⟩ := h2
    have key : ∀ {l : List (Cpm K)} {P M : Cpm K} {Ms : List (Cpm K)}, ProdSpec U l P →
        ChildDisjoint (l ++ M :: Ms) → ∀ k ∈ childNames P, k ∉ childNames M := by
      intro l P M Ms hP hd k hk
      rw [hP.child.mem_iff] at hk
      obtain ⟨A, hA, hkA⟩ := List.mem_flatMap.1 hk
      exact (List.pairwise_append.1 hd).2.2 A hA M (by simp) k hkA
    have s1 := product_ok_spec hP.wf (hw M (by simp)) (key hP hd) r1
    have s1' := product_ok_spec hP'.wf (hw' M' (by simp)) (key hP' hd') r1'
    refine ih (hP.append (ProdSpec.single (hw M (by simp))) s1)
      (hP'.append (ProdSpec.single (hw' M' (by simp))) s1') (fun N hN => hw N (by simp [hN]))
      (fun N hN => hw' N (by simp [hN])) (by simpa using hd) (by simpa using hd') ?_ h1 h2
    exact product_same hP.wf (hw M (by simp)) (key hP hd) hP'.wf (hw' M' (by simp)) hs hM r1 r1'

theorem productList_same {l l' : List (Cpm K)} (h : List.Forall₂ SameShape l l') {P P' : Cpm K}
    (hw : ∀ M ∈ l, WF U M) (hw' : ∀ M ∈ l', WF U M) (hd : ChildDisjoint l) (hd' : ChildDisjoint l')
    (h1 : productList l = .ok P) (h2 : productList l' = .ok P') : SameShape P P' := by
  cases h with
  | nil => cases h1
  | cons hM hMs =>
    exact foldl_product_same hMs (ProdSpec.single (hw _ (by simp)))
      (ProdSpec.single (hw' _ (by simp))) (fun N hN => hw N (by simp [hN]))
      (fun N hN => hw' N (by simp [hN])) hd hd' hM h1 h2

theorem sum_same {M M' Q Q' : Cpm K} {v : Variable K} (hM : WF U M) (hM' : WF U M')
    (h : SameShape M M') (h1 : M.sum [v] true = .ok Q) (h2 : M'.sum [v] true = .ok Q') :
    SameShape Q Q' := by
  obtain ⟨Q1, a1, a2, a3, -⟩ := sumAny_ok hM [v] (sum_ok_left hM h1)
  obtain ⟨Q2, b1, b2, b3, -⟩ := sumAny_ok hM' [v] (sum_ok_left hM' h2)
  rw [h1] at a1; cases a1
  rw [h2] at b1; cases b1
  rw [← h.1, ← h.2] at b2 b3
  exact ⟨a2.trans b2.symm, a3.trans b3.symm⟩

theorem filter_same {l l' : List (Cpm K)} (h : List.Forall₂ SameShape l l') (f : List K → Bool) :
    List.Forall₂ SameShape (l.filter fun M => f M.getNames) (l'.filter fun M => f M.getNames) := by
  induction h with
  | nil => exact .nil
  | cons hM _ ih =>
    simp only [List.filter_cons, hM.names]
    split
    · exact .cons hM ih
    · exact ih

/-- What one step that succeeds consists of. -/
theorem elimStep_parts {l l' : List (Cpm K)} (hl : NetOK U l) {v : Variable K}
    (h : elimStep l v = .ok l') :
    ∃ P Q, productList (l.filter (inScope v)) = .ok P ∧ P.sum [v] true = .ok Q ∧
      l' = Q :: (l.filter fun M => !inScope v M) ∧ ProdSpec U (l.filter (inScope v)) P := by
  unfold elimStep at h
  simp only [isInScope_one] at h
  rw [maskRows_self] at h
  obtain ⟨P, hP, h1⟩ := bind_ok.1 h
  obtain ⟨Q, hQ, h2⟩ := bind_ok.1 h1
  rw [List.map_map, maskRows_self] at h2
  cases h2
  have hdsel : ChildDisjoint (l.filter (inScope v)) :=
    (List.pairwise_append.1 (childDisjoint_perm (scope_split v l).symm hl.disjoint)).1
  exact ⟨P, Q, hP, hQ, rfl, productList_ok (fun M hM => hl.wf M (List.mem_filter.1 hM).1) hdsel hP⟩

theorem elimStep_same {l l' m m' : List (Cpm K)} (hl : NetOK U l) (hm : NetOK U m)
    (hs : List.Forall₂ SameShape l m) {v : Variable K}
    (h : elimStep l v = .ok l') (h' : elimStep m v = .ok m') : List.Forall₂ SameShape l' m' := by
  obtain ⟨P, Q, hP, hQ, rfl, sP⟩ := elimStep_parts hl h
  obtain ⟨P', Q', hP', hQ', rfl, sP'⟩ := elimStep_parts hm h'
  have hf : ∀ M : Cpm K, inScope v M = decide (v.name ∈ M.getNames) := by
    intro M; rw [Bool.eq_iff_iff, inScope_iff]; simp
  have hdl : ChildDisjoint (l.filter (inScope v)) :=
    (List.pairwise_append.1 (childDisjoint_perm (scope_split v l).symm hl.disjoint)).1
  have hdm : ChildDisjoint (m.filter (inScope v)) :=
    (List.pairwise_append.1 (childDisjoint_perm (scope_split v m).symm hm.disjoint)).1
  refine .cons ?_ ?_
  · refine sum_same sP.wf sP'.wf (productList_same ?_ (fun M hM => hl.wf M (List.mem_filter.1 hM).1)
      (fun M hM => hm.wf M (List.mem_filter.1 hM).1) hdl hdm hP hP') hQ hQ'
    have := filter_same hs fun ns => decide (v.name ∈ ns)
    simpa only [← hf] using this
  · have := filter_same hs fun ns => !decide (v.name ∈ ns)
    simpa only [← hf] using this

theorem elimStep_child {l l' : List (Cpm K)} (hl : NetOK U l) {v : Variable K}
    (hv : ∃ M ∈ l, v.name ∈ childNames M) (h : elimStep l v = .ok l') (k : K) :
    (∃ M ∈ l', k ∈ childNames M) ↔ (∃ M ∈ l, k ∈ childNames M) ∧ k ≠ v.name := by
  have := (elimStep_of_ok hl hv h).2.2.1.mem_iff (a := k)
  rw [List.mem_flatMap, List.mem_filter, List.mem_flatMap] at this
  simpa using this

theorem elimList_same (ve : List (Variable K)) : ∀ {l l' m m' : List (Cpm K)}, NetOK U l → NetOK U m →
    (ve.map Variable.name).Nodup → (∀ v ∈ ve, ∃ M ∈ l, v.name ∈ childNames M) →
    (∀ v ∈ ve, ∃ M ∈ m, v.name ∈ childNames M) → List.Forall₂ SameShape l m →
    variableElimList l ve = .ok l' → variableElimList m ve = .ok m' →
    List.Forall₂ SameShape l' m' := by
  induction ve with
  | nil => intro l l' m m' _ _ _ _ _ hs h h'; cases h; cases h'; exact hs
  | cons v ve ih =>
    intro l l' m m' hl hm hn hdl hdm hs h h'
    rw [List.map_cons, List.nodup_cons] at hn
    unfold variableElimList at h h'
    rw [List.foldlM_cons, bind_ok] at h h'
    obtain ⟨l1, h1, h⟩ := h
    obtain ⟨m1, h1', h'⟩ := h'
    refine ih (elimStep_of_ok hl (hdl v (by simp)) h1).1 (elimStep_of_ok hm (hdm v (by simp)) h1').1
      hn.2 ?_ ?_ (elimStep_same hl hm hs h1 h1') h h'
    · exact fun w hw => (elimStep_child hl (hdl v (by simp)) h1 _).2 ⟨hdl w (by simp [hw]),
        fun e => hn.1 (e ▸ List.mem_map_of_mem hw)⟩
    · exact fun w hw => (elimStep_child hm (hdm v (by simp)) h1' _).2 ⟨hdm w (by simp [hw]),
        fun e => hn.1 (e ▸ List.mem_map_of_mem hw)⟩

theorem variableElim_same {l m : List (Cpm K)} {ve : List (Variable K)} {E E' : Cpm K}
    (hl : NetOK U l) (hm : NetOK U m) (hn : (ve.map Variable.name).Nodup)
    (hdl : ∀ v ∈ ve, ∃ M ∈ l, v.name ∈ childNames M)
    (hdm : ∀ v ∈ ve, ∃ M ∈ m, v.name ∈ childNames M) (hs : List.Forall₂ SameShape l m)
    (h : variableElim l ve = .ok E) (h' : variableElim m ve = .ok E') : SameShape E E' := by
  unfold variableElim at h h'
  rw [bind_ok] at h h'
  obtain ⟨l', h1, h⟩ := h
  obtain ⟨m', h1', h'⟩ := h'
  have a := (elimList_of_ok ve hl hn hdl h1).1
  have b := (elimList_of_ok ve hm hn hdm h1').1
  exact productList_same (elimList_same ve hl hm hn hdl hdm hs h1 h1') a.wf b.wf a.disjoint
    b.disjoint h h'

/-- What is covered after one step was covered before, for some state of the variable eliminated. -/
theorem elimStep_covers {l l' : List (Cpm K)} (hl : NetOK U l) {v : Variable K} (h : elimStep l v = .ok l') {x : K → ℕ}
    (hx : ∀ M ∈ l', Covers M x) :
    ∃ y, (∀ M ∈ l, Covers M y) ∧ ∀ k, k ≠ v.name → y k = x k := by
  obtain ⟨P, Q, hP, hQ, rfl, sP⟩ := elimStep_parts hl h
  obtain ⟨Q', q1, q2, q3, q4, q5, q6, -⟩ := sumAny_ok sP.wf [v] (sum_ok_left sP.wf hQ)
  rw [hQ] at q1
  cases q1
  have hsub : ∀ w ∈ Q.vars, w ∈ P.vars := by
    intro w hw
    rw [q2] at hw
    rcases List.mem_append.1 hw with hw | hw
    · exact List.mem_of_mem_take (List.mem_filter.1 hw).1
    · exact List.mem_of_mem_drop hw
  obtain ⟨y, hy, hyx⟩ := covers_proj sP.wf q4 hsub q6 (hx Q (by simp))
  have hQn : ∀ k ∈ P.getNames, k ≠ v.name → k ∈ Q.getNames := by
    intro k hk hkv
    obtain ⟨w, hw, rfl⟩ := List.mem_map.1 hk
    refine List.mem_map_of_mem ?_
    rw [q2]
    rw [← List.take_append_drop P.noChild P.vars] at hw
    rcases List.mem_append.1 hw with hw | hw
    · exact List.mem_append.2 (.inl (List.mem_filter.2 ⟨hw, by simpa using hkv⟩))
    · exact List.mem_append.2 (.inr hw)
  refine ⟨fun k => if k = v.name then y k else x k, fun M hM => ?_, fun k hk => by simp [hk]⟩
  by_cases hvM : v.name ∈ M.getNames
  · have hMs : M ∈ l.filter (inScope v) := List.mem_filter.2 ⟨hM, (inScope_iff v M).2 hvM⟩
    refine (covers_congr fun k hk => ?_).1 ((sP.covers y).1 hy M hMs)
    by_cases hkv : k = v.name
    · simp [hkv]
    · simp only [hkv, if_false]
      exact hyx k (hQn k ((sP.names k).2 ⟨M, hMs, hk⟩) hkv)
  · have hMr : M ∈ l.filter (fun M => !inScope v M) := by
      refine List.mem_filter.2 ⟨hM, ?_⟩
      rw [Bool.not_eq_true', Bool.eq_false_iff, Ne, inScope_iff]
      exact hvM
    refine (covers_congr fun k hk => ?_).1 (hx M (List.mem_cons_of_mem _ hMr))
    have : k ≠ v.name := fun e => hvM (e ▸ hk)
    simp [this]

theorem elimStep_covers' {l l' : List (Cpm K)} (hl : NetOK U l) {v : Variable K}
    (hv : ∃ M ∈ l, v.name ∈ childNames M) (h : elimStep l v = .ok l') {x : K → ℕ}
    (hx : ∀ M ∈ l, Covers M x) : ∀ M ∈ l', Covers M x := by
  obtain ⟨P, Q, hP, hQ, rfl, sP⟩ := elimStep_parts hl h
  have hvP : v.name ∈ childNames P := by
    obtain ⟨M0, hM0, hvM0⟩ := hv
    rw [sP.child.mem_iff]
    refine List.mem_flatMap.2 ⟨M0, List.mem_filter.2 ⟨hM0, (inScope_iff v M0).2 ?_⟩, hvM0⟩
    rw [getNames_eq]; exact List.mem_append.2 (.inl hvM0)
  have hother : ∃ k ∈ P.getNames, k ≠ v.name := by
    obtain ⟨w, hw⟩ := List.exists_mem_of_ne_nil _ (sum_ok_left sP.wf hQ)
    rcases List.mem_append.1 hw with hw | hw
    · obtain ⟨h1, h2⟩ := List.mem_filter.1 hw
      exact ⟨w.name, List.mem_map_of_mem (List.mem_of_mem_take h1), by simpa using h2⟩
    · refine ⟨w.name, List.mem_map_of_mem (List.mem_of_mem_drop hw), fun e => ?_⟩
      have hd := sP.wf.nodup
      rw [show P.vars.map Variable.name = childNames P ++ parentNames P from getNames_eq P,
        List.nodup_append] at hd
      exact hd.2.2 _ hvP _ (List.mem_map_of_mem hw) e.symm
  obtain ⟨l2, e1, -, e3, -⟩ := elimStep_core hl hv hP hother
  rw [h] at e1
  cases e1
  exact e3 x hx

/-- The assignments covered after an elimination are those covered before, whatever the states of the
variables eliminated. -/
theorem elimList_covers (ve : List (Variable K)) : ∀ {l l' : List (Cpm K)}, NetOK U l →
    (ve.map Variable.name).Nodup → (∀ v ∈ ve, ∃ M ∈ l, v.name ∈ childNames M) →
    variableElimList l ve = .ok l' → ∀ {x : K → ℕ}, (∀ M ∈ l', Covers M x) ↔
      ∃ y, (∀ M ∈ l, Covers M y) ∧ ∀ k, k ∉ ve.map Variable.name → y k = x k := by
  induction ve with
  | nil =>
    intro l l' _ _ _ h x; cases h
    constructor
    · intro hx; exact ⟨x, hx, fun k _ => rfl⟩
    · rintro ⟨y, hy, hyx⟩
      have : y = x := funext fun k => hyx k (by simp)
      rw [← this]; exact hy
  | cons v ve ih =>
    intro l l' hl hn hdl h x
    rw [List.map_cons, List.nodup_cons] at hn
    unfold variableElimList at h
    rw [List.foldlM_cons, bind_ok] at h
    obtain ⟨l1, h1, h⟩ := h
    have hv := hdl v (by simp)
    have hl1 := elimStep_of_ok hl hv h1
    rw [ih hl1.1 hn.2 (fun w hw => (elimStep_child hl hv h1 _).2 ⟨hdl w (by simp [hw]),
        fun e => hn.1 (e ▸ List.mem_map_of_mem hw)⟩) h]
    constructor
    · rintro ⟨y, hy, hyx⟩
      obtain ⟨z, hz, hzy⟩ := elimStep_covers hl h1 hy
      refine ⟨z, hz, fun k hk => ?_⟩
      rw [List.map_cons, List.mem_cons, not_or] at hk
      rw [hzy k hk.1, hyx k hk.2]
    · rintro ⟨y, hy, hyx⟩
      -- the value of `v` does not matter any more
      refine ⟨fun k => if k = v.name then x k else y k, fun M hM => ?_, fun k hk => ?_⟩
      · refine (covers_congr fun k hk => ?_).1 (elimStep_covers' hl hv h1 hy M hM)
        have : k ≠ v.name := ((hl1.2.2.2 k).1 ⟨M, hM, hk⟩).2
        simp [this]
      · by_cases hkv : k = v.name
        · simp [hkv]
        · simp only [hkv, if_false]
          exact hyx k (by simp [hkv, hk])

theorem variableElim_covers {l : List (Cpm K)} {ve : List (Variable K)} {E : Cpm K}
    (hl : NetOK U l) (hn : (ve.map Variable.name).Nodup)
    (hdl : ∀ v ∈ ve, ∃ M ∈ l, v.name ∈ childNames M) (h : variableElim l ve = .ok E) (x : K → ℕ) :
    Covers E x ↔ ∃ y, (∀ M ∈ l, Covers M y) ∧ ∀ k, k ∉ ve.map Variable.name → y k = x k := by
  unfold variableElim at h
  rw [bind_ok] at h
  obtain ⟨l', h1, h⟩ := h
  have a := (elimList_of_ok ve hl hn hdl h1).1
  rw [(productList_ok a.wf a.disjoint h).covers, elimList_covers ve hl hn hdl h1]

/-- What conditioning needs to return for every row. -/
structure CondTot (U : K → Variable K) (cpms : List (Cpm K)) (varis : List (Variable K))
    (P : Cpm K) : Prop where
  cond : CondNet U cpms varis P
  ne : cpms ≠ []
  scope : ∀ M ∈ cpms, M.vars ≠ []
  pvars : P.vars ≠ []
  env : ∀ v ∈ varis, U v.name = v
  linked : ∀ v ∈ varis, Linked cpms (fun k => k ∉ varis.map Variable.name) v.name
  covered : ∀ cx ∈ P.C, ∃ z, RowMatches P.vars cx z ∧ ∀ M ∈ cpms, Covers M z
  closed : ∀ M ∈ cpms, ∀ k ∈ M.getNames, (∃ N ∈ cpms, k ∈ childNames N) ∨ k ∈ P.getNames

/-- The CPM of one row, before its columns are dropped. -/
structure RowRes (U : K → Variable K) (cpms : List (Cpm K)) (varis : List (Variable K))
    (P : Cpm K) (cx : List ℕ) (M : Cpm K) : Prop where
  ok : ∃ E, variableElim (cpms.map fun M => condPure M P.vars cx) varis = .ok E ∧
    E.product (condPure P P.vars cx) = .ok M
  spec : CondSpec U cpms varis P cx M
  covers : ∀ x, Covers M x ↔ RowMatches P.vars cx x ∧ ∃ y, (∀ N ∈ cpms, Covers N y) ∧
    ∀ k, k ∉ varis.map Variable.name → y k = x k

variable {cpms : List (Cpm K)} {varis : List (Variable K)} {P : Cpm K}

theorem consistent_all {cx : List ℕ} {x : K → ℕ} :
    Consistent P.getNames P.vars cx x ↔ RowMatches P.vars cx x := by
  unfold Consistent RowMatches
  refine forall₂_congr fun p hp => ?_
  have : p.1.name ∈ P.getNames := List.mem_map_of_mem (List.of_mem_zip hp).1
  simp [this]

theorem defined_cond (h : CondNet U cpms varis P) (cx : List ℕ) :
    ∀ v ∈ varis, ∃ M ∈ cpms.map fun M => condPure M P.vars cx, v.name ∈ childNames M := by
  intro v hv
  obtain ⟨N, hN, hc⟩ := h.defined v hv
  exact ⟨_, List.mem_map_of_mem hN, hc⟩

theorem elim_child_disj (h : CondNet U cpms varis P) {cx : List ℕ} (hcx : cx ∈ P.C) {E : Cpm K}
    (hE : variableElim (cpms.map fun M => condPure M P.vars cx) varis = .ok E) :
    ∀ k ∈ childNames E, k ∉ childNames (condPure P P.vars cx) := by
  have e4 := (variableElim_of_ok (condNet_ok h.net h.wf hcx) h.nodup (defined_cond h cx) hE).2.2.2.1
  have hch : ((cpms.map fun M => condPure M P.vars cx).flatMap childNames) =
      cpms.flatMap childNames := by
    rw [List.flatMap_map]; rfl
  rw [hch] at e4
  intro k hk
  rw [e4.mem_iff, List.mem_filter, List.mem_flatMap] at hk
  obtain ⟨⟨N, hN, hc⟩, -⟩ := hk
  exact h.disj N hN k hc

theorem exists_row (h : CondTot U cpms varis P) {cx : List ℕ} (hcx : cx ∈ P.C) :
    ∃ M, RowRes U cpms varis P cx M := by
  have hc := h.cond
  have hev := fun names => evidence_row (U := U) hc.wf hcx names
  obtain ⟨z, hz, hzc⟩ := h.covered cx hcx
  have hnet1 := condNet_ok hc.net hc.wf hcx
  have hcov : ∀ N ∈ cpms, ∀ x, Covers (condPure N P.vars cx) x ↔
      Consistent N.getNames P.vars cx x ∧ Covers N x := fun N hN x =>
    condPure_covers (hc.net.wf N hN) (hev _) hc.wf.nodup x
  have hcovz : ∀ M ∈ cpms.map fun M => condPure M P.vars cx, Covers M z := by
    intro M hM
    obtain ⟨N, hN, rfl⟩ := List.mem_map.1 hM
    exact (hcov N hN z).2 ⟨fun p hp _ => hz p hp, hzc N hN⟩
  have hshare : ∀ a b, Share cpms a b → Share (cpms.map fun M => condPure M P.vars cx) a b := by
    rintro a b ⟨M, hM, h1, h2⟩
    exact ⟨_, List.mem_map_of_mem hM, h1, h2⟩
  have hok : ElimOK U (cpms.map fun M => condPure M P.vars cx) varis :=
    { net := hnet1
      ne := by simpa using h.ne
      scope := by
        intro M hM
        obtain ⟨N, hN, rfl⟩ := List.mem_map.1 hM
        exact h.scope N hN
      covered := ⟨z, hcovz⟩
      nodup := hc.nodup
      env := h.env
      defined := defined_cond hc cx
      linked := by
        intro v hv
        obtain ⟨q, hq, hl⟩ := h.linked v hv
        exact ⟨q, hq, Relation.ReflTransGen.mono hshare _ _ hl⟩ }
  obtain ⟨E, hE, eW, -, -, -, eN⟩ := C15_elimination_partial _ _ hok
  have hEc := variableElim_covers hnet1 hc.nodup (defined_cond hc cx) hE
  have hPW := condPure_WF hc.wf (hev P.getNames) hc.wf.nodup
  have hPc : ∀ x, Covers (condPure P P.vars cx) x ↔ RowMatches P.vars cx x := by
    intro x
    rw [condPure_covers hc.wf (hev _) hc.wf.nodup, consistent_all]
    exact ⟨fun h => h.1, fun h => ⟨h, cx, hcx, h⟩⟩
  have hdj := elim_child_disj hc hcx hE
  have hEv : E.vars ≠ [] := by
    have : ∃ k, k ∈ E.getNames := by
      by_cases hv : varis = []
      · obtain ⟨N, hN⟩ := List.exists_mem_of_ne_nil _ h.ne
        obtain ⟨w, hw⟩ := List.exists_mem_of_ne_nil _ (h.scope N hN)
        exact ⟨w.name, (eN _).2 ⟨⟨_, List.mem_map_of_mem hN, List.mem_map_of_mem hw⟩, by simp [hv]⟩⟩
      · obtain ⟨v, hv⟩ := List.exists_mem_of_ne_nil _ hv
        obtain ⟨q, hq, hl⟩ := hok.linked v hv
        refine ⟨q, (eN q).2 ⟨?_, hq⟩⟩
        rcases hl.cases_tail with e | ⟨b, -, M, hM, -, h2⟩
        · obtain ⟨M, hM, hk⟩ := defined_cond hc cx v hv
          refine ⟨M, hM, ?_⟩
          rw [e, getNames_eq]; exact List.mem_append.2 (.inl hk)
        · exact ⟨M, hM, h2⟩
    rintro e
    obtain ⟨k, hk⟩ := this
    simp [Cpm.getNames, e] at hk
  have hEz : Covers E z := (hEc z).2 ⟨z, hcovz, fun k _ => rfl⟩
  obtain ⟨M, hM⟩ : ∃ M, E.product (condPure P P.vars cx) = .ok M := by
    rcases product_spec eW hPW hdj with ⟨-, h1⟩ | ⟨M, h1, -⟩
    · exfalso
      split at h1
      · exact flatten_ne_of_covers hPW h.pvars ((hPc z).2 hz) h1
      · exact flatten_ne_of_covers eW hEv hEz h1
    · exact ⟨M, h1⟩
  have hs := condSpec_of_ok hc hcx hE hM
  refine ⟨M, ⟨E, hE, hM⟩, hs, fun x => ?_⟩
  have hp := product_ok_spec eW hPW hdj hM
  have : Covers M x ↔ Covers E x ∧ RowMatches P.vars cx x := by
    rw [hp.covers, ← hPc]
    simp
  rw [this, hEc, and_comm]
  refine and_congr_right fun hm => ?_
  constructor
  · rintro ⟨y, hy, hyx⟩
    refine ⟨y, fun N hN => ?_, hyx⟩
    exact ((hcov N hN y).1 (hy _ (List.mem_map_of_mem hN))).2
  · rintro ⟨y, hy, hyx⟩
    refine ⟨y, fun M hM => ?_, hyx⟩
    obtain ⟨N, hN, rfl⟩ := List.mem_map.1 hM
    have hmy : RowMatches P.vars cx y := (rowMatches_congr fun k hk =>
      hyx k fun hc' => hc.varis_not k hc' hk).2 hm
    exact (hcov N hN y).2 ⟨fun p hp _ => hmy p hp, hy N hN⟩

theorem row_same (h : CondTot U cpms varis P) {cx cx' : List ℕ} (hcx : cx ∈ P.C) (hcx' : cx' ∈ P.C)
    {M M' : Cpm K} (hM : RowRes U cpms varis P cx M) (hM' : RowRes U cpms varis P cx' M') :
    SameShape M M' := by
  have hc := h.cond
  obtain ⟨E, hE, hEM⟩ := hM.ok
  obtain ⟨E', hE', hEM'⟩ := hM'.ok
  have n1 := condNet_ok hc.net hc.wf hcx
  have n2 := condNet_ok hc.net hc.wf hcx'
  have hf : List.Forall₂ SameShape (cpms.map fun M => condPure M P.vars cx)
      (cpms.map fun M => condPure M P.vars cx') := by
    rw [List.forall₂_map_left_iff, List.forall₂_map_right_iff]
    exact List.forall₂_same.2 fun M _ => ⟨rfl, rfl⟩
  have hsE := variableElim_same n1 n2 hc.nodup (defined_cond hc cx) (defined_cond hc cx') hf hE hE'
  exact product_same (variableElim_of_ok n1 hc.nodup (defined_cond hc cx) hE).1
    (condPure_WF hc.wf (evidence_row hc.wf hcx _) hc.wf.nodup) (elim_child_disj hc hcx hE)
    (variableElim_of_ok n2 hc.nodup (defined_cond hc cx') hE').1
    (condPure_WF hc.wf (evidence_row hc.wf hcx' _) hc.wf.nodup) hsE ⟨rfl, rfl⟩ hEM hEM'

/-- The columns that are left. -/
def keepIdx (M : Cpm K) (cNames : List K) : List ℕ :=
  (List.range M.vars.length).filter fun i => i ∉ cNames.map fun k => M.getNames.idxOf k

def keepVars (M : Cpm K) (cNames : List K) : List (Variable K) :=
  M.vars.filter fun v => v.name ∉ cNames

def dropCols (M : Cpm K) (cNames : List K) : Cpm K :=
  { vars := keepVars M cNames, noChild := M.noChild - cNames.length
    C := M.C.map (projRow M (keepVars M cNames)), p := M.p }

theorem keep_take {M : Cpm K} (h : WF U M) {cNames : List K} (hm : ∀ k ∈ cNames, k ∈ M.getNames) :
    takeRows M.vars (keepIdx M cNames) = .ok (keepVars M cNames) := by
  have hlt : ∀ i ∈ keepIdx M cNames, i < M.vars.length := by
    intro i hi
    exact List.mem_range.1 (List.mem_filter.1 hi).1
  cases hv : M.vars with
  | nil =>
    unfold keepIdx keepVars
    rw [hv]; rfl
  | cons d l =>
    have h1 := takeRows_ok d hlt
    rw [hv] at h1
    rw [h1]
    congr 1
    rw [← hv] at h1 ⊢
    exact takeRows_complement h.nodup cNames hm h1

theorem mem_keepVars {M : Cpm K} {cNames : List K} {k : K} :
    k ∈ (keepVars M cNames).map Variable.name ↔ k ∈ M.getNames ∧ k ∉ cNames := by
  unfold keepVars
  constructor
  · intro hk
    obtain ⟨v, hv, rfl⟩ := List.mem_map.1 hk
    obtain ⟨h1, h2⟩ := List.mem_filter.1 hv
    exact ⟨List.mem_map_of_mem h1, by simpa using h2⟩
  · rintro ⟨hk, hk2⟩
    obtain ⟨v, hv, rfl⟩ := List.mem_map.1 hk
    exact List.mem_map_of_mem (List.mem_filter.2 ⟨hv, by simpa using hk2⟩)

theorem child_count {M : Cpm K} {cNames : List K} (hn : cNames.Nodup)
    (hm : ∀ k ∈ cNames, k ∈ childNames M) : cNames.length ≤ M.noChild := by
  have := (List.subperm_of_subset hn hm).length_le
  unfold childNames at this
  rw [List.length_map, List.length_take] at this
  omega

theorem drop_spec (h : CondTot U cpms varis P) {cNames : List K} (hn : cNames.Nodup)
    (hcN : ∀ k, k ∈ cNames ↔ k ∈ P.getNames) {cx : List ℕ} {M : Cpm K}
    (hM : RowRes U cpms varis P cx M) : ProjSpec U cpms varis P cx (dropCols M cNames) := by
  have hcperm : cNames.Perm P.getNames := (List.perm_ext_iff_of_nodup hn h.cond.wf.nodup).2 hcN
  have hle := child_count hn fun k hk => by
    rw [hM.spec.child.mem_iff, List.mem_append]
    exact .inr (h.cond.child k ((hcN k).1 hk))
  have hl : cNames.length = P.vars.length := by rw [hcperm.length_eq]; simp [Cpm.getNames]
  refine projSpec h.cond hM.spec (fun v hv => (List.mem_filter.1 hv).1)
    (hM.spec.wf.nodup.sublist (List.filter_sublist.map _)) (fun k => ?_) (by omega)
  change k ∈ (keepVars M cNames).map Variable.name ↔ _
  rw [mem_keepVars, hcN, hM.spec.names]
  generalize (∃ N ∈ cpms, k ∈ N.getNames) = a
  by_cases hb : k ∈ P.getNames <;> simp [hb]

/-- One row, evaluated. -/
theorem row_eval (h : CondTot U cpms varis P) {cNames : List K} (hn : cNames.Nodup)
    (hcN : ∀ k, k ∈ cNames ↔ k ∈ P.getNames) {cx : List ℕ} (hcx : cx ∈ P.C) {M : Cpm K}
    (hM : RowRes U cpms varis P cx M) {idv : Option (List ℕ)}
    (hi : idv = none ∨ idv = some (keepIdx M cNames)) :
    elimCondRow cpms varis cNames P idv cx = if keepIdx M cNames = [] then .ok (none, none)
      else .ok (some (dropCols M cNames), some (keepIdx M cNames)) := by
  have hc := h.cond
  obtain ⟨E, hE, hEM⟩ := hM.ok
  have hW := hM.spec.wf
  have hch : ∀ k ∈ cNames, k ∈ childNames M := fun k hk => by
    rw [hM.spec.child.mem_iff, List.mem_append]
    exact .inr (hc.child k ((hcN k).1 hk))
  have hnm : ∀ k ∈ cNames, k ∈ M.getNames := fun k hk => by
    rw [getNames_eq]; exact List.mem_append.2 (.inl (hch k hk))
  have hidx : M.getColInd cNames = .ok (cNames.map fun k => M.getNames.idxOf k) := by
    unfold Cpm.getColInd
    rw [pyAssert_true hn, ok_bind]
    refine mapM_ok fun k hk => ?_
    rw [pyIndex_eq, if_pos (hnm k hk)]
  have hidv : idv.getD ((List.range M.vars.length).filter fun i =>
      i ∉ cNames.map fun k => M.getNames.idxOf k) = keepIdx M cNames := by
    rcases hi with rfl | rfl <;> rfl
  unfold elimCondRow
  rw [condition_ok hc.wf (evidence_row hc.wf hcx _) hc.wf.nodup, ok_bind,
    conditionAll_ok hc.net.wf hc.wf hcx, ok_bind, hE, ok_bind, hEM, ok_bind, hidx, ok_bind]
  simp only [hidv]
  by_cases he : keepIdx M cNames = []
  · simp only [he, if_true]; rfl
  · simp only [he, if_false]
    have hp := drop_spec h hn hcN hM
    rw [keep_take hW hnm, ok_bind, takeCols_proj hW (keep_take hW hnm), ok_bind,
      pyAssert_true (by rw [List.length_map]; exact child_count hn hch), ok_bind]
    have : Cpm.mk' ({ vars := keepVars M cNames, noChild := M.noChild - (cNames.map fun k =>
        M.getNames.idxOf k).length, C := M.C.map (projRow M (keepVars M cNames)), p := M.p } : Cpm K) =
        .ok (dropCols M cNames) := by
      rw [List.length_map]
      exact mk'_ok hp.wf.rowLen hp.wf.entry hp.wf.child (.inr hp.wf.pLen) rfl
    rw [this, ok_bind]
    rfl

/-- The rows left are the covered assignments, read off in the columns left. -/
theorem drop_rows (h : CondTot U cpms varis P) {cNames : List K} {cx : List ℕ} {M : Cpm K}
    (hM : RowRes U cpms varis P cx M) (r : List ℕ) :
    r ∈ (dropCols M cNames).C ↔
      ∃ x, Covers M x ∧ r = (keepVars M cNames).map fun v => x v.name := by
  have hW := hM.spec.wf
  have hall : ∀ v ∈ M.vars, v ∈ M.vars.take M.noChild := by
    intro v hv
    have hk : v.name ∈ childNames M := by
      rw [hM.spec.child.mem_iff, List.mem_append]
      rcases (hM.spec.names v.name).1 (List.mem_map_of_mem hv) with ⟨⟨N, hN, h1⟩, h2⟩ | h1
      · rcases h.closed N hN _ h1 with ⟨N', hN', h3⟩ | h3
        · exact .inl (List.mem_filter.2 ⟨List.mem_flatMap.2 ⟨N', hN', h3⟩, by simpa using h2⟩)
        · exact .inr (h.cond.child _ h3)
      · exact .inr (h.cond.child _ h1)
    obtain ⟨w, hw, hwe⟩ := List.mem_map.1 hk
    have : w = v := by rw [← hW.env w (List.mem_of_mem_take hw), ← hW.env v hv, hwe]
    rw [← this]; exact hw
  have hb := (childBasic_iff hW).1 hM.spec.basic
  have hrow : ∀ r ∈ M.C, ∀ x, RowMatches M.vars r x ↔ ∀ v ∈ M.vars, x v.name = val M.getNames r v.name := by
    intro r hr x
    rw [rowMatches_iff hW.nodup (hW.rowLen r hr)]
    refine forall₂_congr fun v hv => ?_
    rw [show M.vars.map Variable.name = M.getNames from rfl,
      stateSet_basic (hW.table v hv) (hb r hr v (hall v hv)), Finset.mem_singleton]
  change r ∈ M.C.map (projRow M (keepVars M cNames)) ↔ _
  constructor
  · intro hr
    obtain ⟨r0, hr0, rfl⟩ := List.mem_map.1 hr
    refine ⟨fun k => val M.getNames r0 k, ⟨r0, hr0, (hrow r0 hr0 _).2 fun v _ => rfl⟩, rfl⟩
  · rintro ⟨x, ⟨r0, hr0, hm⟩, rfl⟩
    refine List.mem_map.2 ⟨r0, hr0, ?_⟩
    unfold projRow
    refine List.map_congr_left fun v hv => ?_
    exact ((hrow r0 hr0 x).1 hm v (List.mem_filter.1 hv).1).symm

/-- The later rows, all of them found in the first CPM. -/
theorem loop_total (h : CondTot U cpms varis P) {cNames : List K} (hn : cNames.Nodup)
    (hcN : ∀ k, k ∈ cNames ↔ k ∈ P.getNames) {iv : List ℕ} (hiv : iv ≠ []) {V : List (Variable K)}
    {F : List ℕ → Cpm K} : ∀ (rows : List (List ℕ)),
    (∀ cx ∈ rows, cx ∈ P.C ∧ RowRes U cpms varis P cx (F cx) ∧ keepIdx (F cx) cNames = iv ∧
      keepVars (F cx) cNames = V) → ∀ {A : Cpm K}, WF U A → A.vars = V →
    ((∀ cx ∈ rows, ∀ r ∈ (dropCols (F cx) cNames).C, r ∈ A.C) →
      ∃ R, elimCondLoop cpms varis cNames P rows (some iv) (some A) = .ok (some R)) ∧
    ((∃ cx ∈ rows, ∃ r ∈ (dropCols (F cx) cNames).C, r ∉ A.C) →
      elimCondLoop cpms varis cNames P rows (some iv) (some A) = .error .value) := by
  intro rows
  induction rows with
  | nil => intro _ A _ _; exact ⟨fun _ => ⟨A, rfl⟩, fun ⟨cx, hcx, _⟩ => by simp at hcx⟩
  | cons cx rows ih =>
    intro hF A hA hAV
    obtain ⟨hcx, hres, hk, hv⟩ := hF cx (by simp)
    have hrow := row_eval h hn hcN hcx hres (idv := some iv) (.inr (by rw [hk]))
    rw [hk, if_neg hiv] at hrow
    have hp := drop_spec h hn hcN hres
    have hvars : A.vars = (dropCols (F cx) cNames).vars := hAV.trans hv.symm
    by_cases hsub : ∀ r ∈ (dropCols (F cx) cNames).C, r ∈ A.C
    · obtain ⟨A', R, m1, m2, m3, -, m5, -⟩ := C14_merge_partial A _ hA hp.wf hvars hsub
      have hstep : elimCondLoop cpms varis cNames P (cx :: rows) (some iv) (some A) =
          elimCondLoop cpms varis cNames P rows (some iv) (some R) := by
        rw [elimCondLoop, hrow, ok_bind]
        simp only [m1, ok_bind]
      rw [hstep]
      have := ih (fun c hc => hF c (by simp [hc])) m2 (m3.trans hAV)
      rw [m5] at this
      refine ⟨fun hall => this.1 fun c hc => hall c (by simp [hc]), ?_⟩
      rintro ⟨c, hc, hbad⟩
      refine this.2 ⟨c, ?_, hbad⟩
      rcases List.mem_cons.1 hc with rfl | hc
      · obtain ⟨r, hr, hr2⟩ := hbad
        exact absurd (hsub r hr) hr2
      · exact hc
    · refine ⟨fun hall => absurd (hall cx (by simp)) hsub, fun _ => ?_⟩
      push Not at hsub
      rw [elimCondLoop, hrow, ok_bind]
      simp only [C14_missing_row_raises A _ hA hp.wf hvars hsub, error_bind]

theorem keep_same {M M' : Cpm K} (h : SameShape M M') (cNames : List K) :
    keepIdx M cNames = keepIdx M' cNames ∧ keepVars M cNames = keepVars M' cNames := by
  unfold keepIdx keepVars
  rw [h.1, h.names]
  exact ⟨rfl, rfl⟩

end
end BNS
