import Verif.Proofs.ElimTotal

/-! Helper lemmas: the order of the columns of products and of eliminations. -/

namespace BNS

set_option linter.unusedSectionVars false

section
variable {K : Type} [LinearOrder K] {U : K → Variable K}

/-- The children come in the order of their names. -/
def SortedChild (M : Cpm K) : Prop := (childNames M).Pairwise (· ≤ ·)

theorem sortVars_sorted (l : List (Variable K)) : ((sortVars l).map Variable.name).Pairwise (· ≤ ·) := by
  rw [List.pairwise_map]
  exact List.pairwise_insertionSort (fun a b : Variable K => a.name ≤ b.name) l

theorem product_sorted {S M R : Cpm K} (hS : WF U S) (hM : WF U M)
    (hd : ∀ k ∈ childNames S, k ∉ childNames M) (h : S.product M = .ok R) : SortedChild R := by
  obtain ⟨h1, h2⟩ := product_shape hS hM hd h
  unfold SortedChild childNames
  rw [h1, h2]
  split
  · unfold newV
    rw [List.take_left]
    exact sortVars_sorted _
  · unfold newV
    rw [List.take_left]
    exact sortVars_sorted _

theorem foldl_product_sorted (Ms : List (Cpm K)) : ∀ {l : List (Cpm K)} {P Q : Cpm K}, ProdSpec U l P →
    (∀ M ∈ Ms, WF U M) → ChildDisjoint (l ++ Ms) → SortedChild P →
    Ms.foldlM (fun prod cx => prod.product cx) P = .ok Q → SortedChild Q := by
  induction Ms with
  | nil => intro l P Q _ _ _ hs h; cases h; exact hs
  | cons M Ms ih =>
    intro l P Q hP hw hd _ h
    rw [List.foldlM_cons, bind_ok] at h
    obtain ⟨R, r1, h⟩ := h
    have key : ∀ k ∈ childNames P, k ∉ childNames M := by
      intro k hk
      rw [hP.child.mem_iff] at hk
      obtain ⟨A, hA, hkA⟩ := List.mem_flatMap.1 hk
      exact (List.pairwise_append.1 hd).2.2 A hA M (by simp) k hkA
    have s1 := product_ok_spec hP.wf (hw M (by simp)) key r1
    exact ih (hP.append (ProdSpec.single (hw M (by simp))) s1) (fun N hN => hw N (by simp [hN]))
      (by simpa using hd) (product_sorted hP.wf (hw M (by simp)) key r1) h

theorem productList_sorted {l : List (Cpm K)} {P : Cpm K} (hw : ∀ M ∈ l, WF U M)
    (hd : ChildDisjoint l) (hs : ∀ M ∈ l, SortedChild M) (h : productList l = .ok P) :
    SortedChild P := by
  cases l with
  | nil => cases h
  | cons M Ms =>
    exact foldl_product_sorted Ms (ProdSpec.single (hw M (by simp))) (fun N hN => hw N (by simp [hN]))
      hd (hs M (by simp)) h

theorem sum_sorted {M Q : Cpm K} {v : Variable K} (hM : WF U M) (hs : SortedChild M)
    (h : M.sum [v] true = .ok Q) : SortedChild Q := by
  obtain ⟨Q1, a1, a2, a3, -⟩ := sumAny_ok hM [v] (sum_ok_left hM h)
  rw [h] at a1; cases a1
  unfold SortedChild childNames at hs ⊢
  rw [a2, a3, List.take_left]
  exact List.Pairwise.sublist (List.filter_sublist.map _) hs

theorem elimStep_sorted {l l' : List (Cpm K)} (hl : NetOK U l) {v : Variable K}
    (hs : ∀ M ∈ l, SortedChild M) (h : elimStep l v = .ok l') : ∀ M ∈ l', SortedChild M := by
  obtain ⟨P, Q, hP, hQ, rfl, sP⟩ := elimStep_parts hl h
  have hdl : ChildDisjoint (l.filter (inScope v)) :=
    (List.pairwise_append.1 (childDisjoint_perm (scope_split v l).symm hl.disjoint)).1
  intro M hM
  rcases List.mem_cons.1 hM with rfl | hM
  · exact sum_sorted sP.wf (productList_sorted (fun N hN => hl.wf N (List.mem_filter.1 hN).1) hdl
      (fun N hN => hs N (List.mem_filter.1 hN).1) hP) hQ
  · exact hs M (List.mem_filter.1 hM).1

theorem elimList_sorted (ve : List (Variable K)) : ∀ {l l' : List (Cpm K)}, NetOK U l →
    (ve.map Variable.name).Nodup → (∀ v ∈ ve, ∃ M ∈ l, v.name ∈ childNames M) →
    (∀ M ∈ l, SortedChild M) → variableElimList l ve = .ok l' → ∀ M ∈ l', SortedChild M := by
  induction ve with
  | nil => intro l l' _ _ _ hs h; cases h; exact hs
  | cons v ve ih =>
    intro l l' hl hn hdl hs h
    rw [List.map_cons, List.nodup_cons] at hn
    unfold variableElimList at h
    rw [List.foldlM_cons, bind_ok] at h
    obtain ⟨l1, h1, h⟩ := h
    refine ih (elimStep_of_ok hl (hdl v (by simp)) h1).1 hn.2 ?_ (elimStep_sorted hl hs h1) h
    exact fun w hw => (elimStep_child hl (hdl v (by simp)) h1 _).2 ⟨hdl w (by simp [hw]),
      fun e => hn.1 (e ▸ List.mem_map_of_mem hw)⟩

theorem variableElim_sorted {l : List (Cpm K)} {ve : List (Variable K)} {E : Cpm K}
    (hl : NetOK U l) (hn : (ve.map Variable.name).Nodup)
    (hdl : ∀ v ∈ ve, ∃ M ∈ l, v.name ∈ childNames M) (hs : ∀ M ∈ l, SortedChild M)
    (h : variableElim l ve = .ok E) : SortedChild E := by
  unfold variableElim at h
  rw [bind_ok] at h
  obtain ⟨l', h1, h⟩ := h
  have a := (elimList_of_ok ve hl hn hdl h1).1
  exact productList_sorted a.wf a.disjoint (elimList_sorted ve hl hn hdl hs h1) h

end

end BNS
