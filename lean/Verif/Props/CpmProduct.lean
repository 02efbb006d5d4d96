import Verif.Proofs.CpmProdList
import Verif.Examples.Cpm

/-!
# Properties C06 and C07: products of CPMs

`dens M x` (Spec/Cpm.lean) is the probability the table `M` gives to the assignment `x`: the sum
over the rows that cover `x`.
-/

namespace BNS

variable {K : Type} [LinearOrder K] {U : K → Variable K}

/-! ## C06 -/

/-- For well-formed CPMs with no common child and at least one row and column each, `product`
succeeds and denotes the pointwise product, whichever operand has more columns. -/
theorem C06_product (S M : Cpm K) (hS : WF U S) (hM : WF U M)
    (hd : ∀ k ∈ childNames S, k ∉ childNames M)
    (hS0 : S.C ≠ [] ∧ S.vars ≠ []) (hM0 : M.C ≠ [] ∧ M.vars ≠ []) :
    ∃ P, S.product M = .ok P ∧ WF U P ∧ ∀ x, dens P x = dens S x * dens M x := by
  rcases product_spec hS hM hd with h | ⟨P, h, hs⟩
  · exfalso
    have h2 := h.2
    split at h2
    · exact hM0.1 ((flatten_ne_nil hM hM0.2).1 h2)
    · exact hS0.1 ((flatten_ne_nil hS hS0.2).1 h2)
  · exact ⟨P, h, hs.wf, fun x => by rw [hs.dens]; simp⟩

/-- Whenever `product` returns, it returns the pointwise product (no assumption on emptiness), and
the only other outcome is an `UnboundLocalError` on an empty operand. -/
theorem C06_product_or_unbound (S M : Cpm K) (hS : WF U S) (hM : WF U M)
    (hd : ∀ k ∈ childNames S, k ∉ childNames M) :
    (S.product M = .error .unbound ∧ (S.C.flatten = [] ∨ M.C.flatten = [])) ∨
    ∃ P, S.product M = .ok P ∧ WF U P ∧ ∀ x, dens P x = dens S x * dens M x := by
  rcases product_spec hS hM hd with h | ⟨P, h, hs⟩
  · refine .inl ⟨h.1, ?_⟩
    have h2 := h.2
    split at h2
    · exact .inr h2
    · exact .inl h2
  · exact .inr ⟨P, h, hs.wf, fun x => by rw [hs.dens]; simp⟩

/-- CPMs sharing a child are refused. -/
theorem C06_common_child_rejected (S M : Cpm K)
    (hc : ∃ k ∈ childNames S, k ∈ childNames M) : S.product M = .error .assertion :=
  product_common_child hc

/-- An empty table cannot be multiplied, although its product is the empty table. -/
theorem C06_empty_operand_raises :
    WF Ex.U Ex.E ∧ WF Ex.U Ex.B ∧ (∀ k ∈ childNames Ex.E, k ∉ childNames Ex.B) ∧
      Ex.E.product Ex.B = .error .unbound := by
  decide +kernel

example : ∃ P, Ex.B.product Ex.A = .ok P ∧ dens P (fun _ => 0) = 1/50 :=
  ⟨_, rfl, by decide +kernel⟩

/-! ## C07 -/

/-- The two orders of a product denote the same function. -/
theorem C07_comm (S M P Q : Cpm K) (hS : WF U S) (hM : WF U M)
    (hd : ∀ k ∈ childNames S, k ∉ childNames M)
    (hP : S.product M = .ok P) (hQ : M.product S = .ok Q) :
    (∀ x, dens P x = dens Q x) ∧ (childNames P).Perm (childNames Q) ∧
      ∀ k, k ∈ parentNames P ↔ k ∈ parentNames Q := by
  have h1 := product_ok_spec hS hM hd hP
  have h2 := (product_ok_spec hM hS (fun k a b => hd k b a) hQ).perm (List.Perm.swap _ _ _)
  refine ⟨fun x => by rw [h1.dens, h2.dens], h1.child.trans h2.child.symm, fun k => ?_⟩
  rw [mem_parentNames h1.wf, mem_parentNames h2.wf, h1.names, h2.names, h1.child.mem_iff,
    h2.child.mem_iff]

/-- Both groupings of a triple product denote the same function. -/
theorem C07_assoc (A B D AB BD L R : Cpm K) (hA : WF U A) (hB : WF U B) (hD : WF U D)
    (hd : ChildDisjoint [A, B, D])
    (h1 : A.product B = .ok AB) (h2 : AB.product D = .ok L)
    (h3 : B.product D = .ok BD) (h4 : A.product BD = .ok R) :
    ∀ x, dens L x = dens A x * dens B x * dens D x ∧ dens R x = dens L x := by
  simp only [ChildDisjoint, List.pairwise_cons, List.mem_cons, List.not_mem_nil, or_false,
    forall_eq_or_imp, forall_eq] at hd
  obtain ⟨⟨dAB, dAD⟩, dBD, -⟩ := hd
  have e1 := product_ok_spec hA hB dAB h1
  have e3 := product_ok_spec hB hD dBD h3
  have dABD : ∀ k ∈ childNames AB, k ∉ childNames D := by
    intro k hk
    rw [e1.child.mem_iff] at hk
    simp only [List.flatMap_cons, List.flatMap_nil, List.append_nil, List.mem_append] at hk
    rcases hk with hk | hk
    · exact dAD k hk
    · exact dBD k hk
  have dABD' : ∀ k ∈ childNames A, k ∉ childNames BD := by
    intro k hk hk'
    rw [e3.child.mem_iff] at hk'
    simp only [List.flatMap_cons, List.flatMap_nil, List.append_nil, List.mem_append] at hk'
    rcases hk' with hk' | hk'
    · exact dAB k hk hk'
    · exact dAD k hk hk'
  have e2 := e1.append (ProdSpec.single hD) (product_ok_spec e1.wf hD dABD h2)
  have e4 := (ProdSpec.single hA).append e3 (product_ok_spec hA e3.wf dABD' h4)
  intro x
  rw [e2.dens, e4.dens]
  simp [mul_assoc]

/-- The product of a list denotes the product of its members, has exactly their children as
children and their other variables as parents. -/
theorem C07_list_product (l : List (Cpm K)) (P : Cpm K) (hwf : ∀ M ∈ l, WF U M)
    (hd : ChildDisjoint l) (h : productList l = .ok P) :
    WF U P ∧ (∀ x, dens P x = (l.map fun M => dens M x).prod) ∧
      (childNames P).Perm (l.flatMap childNames) ∧
      (∀ k, k ∈ parentNames P ↔ (∃ M ∈ l, k ∈ parentNames M) ∧ ∀ M ∈ l, k ∉ childNames M) := by
  have hs := productList_ok hwf hd h
  refine ⟨hs.wf, hs.dens, hs.child, fun k => ?_⟩
  rw [mem_parentNames hs.wf, hs.names, hs.child.mem_iff]
  have hc : (k ∉ l.flatMap childNames) ↔ ∀ M ∈ l, k ∉ childNames M := by
    rw [List.mem_flatMap]; push Not; rfl
  rw [hc]
  refine and_congr_left fun hnc => ?_
  constructor
  · rintro ⟨M, hM, hk⟩; exact ⟨M, hM, (mem_parentNames (hwf M hM) k).2 ⟨hk, hnc M hM⟩⟩
  · rintro ⟨M, hM, hk⟩; exact ⟨M, hM, ((mem_parentNames (hwf M hM) k).1 hk).1⟩

/-- The product of a non-empty list succeeds as soon as one assignment is covered by every
member (true of any list of conditional distributions). -/
theorem C07_list_succeeds (l : List (Cpm K)) (hne : l ≠ []) (x : K → ℕ)
    (hwf : ∀ M ∈ l, WF U M ∧ M.vars ≠ [] ∧ Covers M x) (hd : ChildDisjoint l) :
    ∃ P, productList l = .ok P := productList_total hne x hwf hd

/-- The order of the list does not matter. -/
theorem C07_list_order (l l' : List (Cpm K)) (P P' : Cpm K) (hl : l.Perm l')
    (hwf : ∀ M ∈ l, WF U M) (hd : ChildDisjoint l)
    (h : productList l = .ok P) (h' : productList l' = .ok P') :
    (∀ x, dens P x = dens P' x) ∧ (childNames P).Perm (childNames P') ∧
      ∀ k, k ∈ parentNames P ↔ k ∈ parentNames P' := by
  have hs := productList_ok hwf hd h
  have hd' : ChildDisjoint l' := by
    unfold ChildDisjoint at *
    exact (hl.pairwise_iff fun {a b} hab k hb ha => hab k ha hb).1 hd
  have hs' := productList_ok (fun M hM => hwf M (hl.mem_iff.2 hM)) hd' h'
  have hs'' := hs.perm hl
  refine ⟨fun x => by rw [hs''.dens, hs'.dens], hs''.child.trans hs'.child.symm, fun k => ?_⟩
  rw [mem_parentNames hs.wf, mem_parentNames hs'.wf, hs''.names, hs'.names, hs''.child.mem_iff,
    hs'.child.mem_iff]

example : ∃ P, productList [Ex.B, Ex.D, Ex.A] = .ok P := 
  C07_list_succeeds (U := Ex.U) _ (by simp) (fun _ => 0) (by decide +kernel) (by decide +kernel)

end BNS
