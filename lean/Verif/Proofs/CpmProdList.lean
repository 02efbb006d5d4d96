import Verif.Proofs.CpmMarg

/-! Products of two and of many CPMs. -/

namespace BNS

open List

set_option linter.unusedSectionVars false
set_option linter.unnecessarySimpa false

section
variable {K : Type} [LinearOrder K] {U : K → Variable K} {S M : Cpm K}

/-- What "P is the product of the CPMs in `l`" means. -/
structure ProdSpec (U : K → Variable K) (l : List (Cpm K)) (P : Cpm K) : Prop where
  wf : WF U P
  dens : ∀ x, dens P x = (l.map fun M => BNS.dens M x).prod
  child : (childNames P).Perm (l.flatMap childNames)
  names : ∀ k, k ∈ P.getNames ↔ ∃ M ∈ l, k ∈ M.getNames
  covers : ∀ x, Covers P x ↔ ∀ M ∈ l, Covers M x
  basic : (∀ M ∈ l, ChildBasic M) → ChildBasic P
  disjoint : (∀ M ∈ l, RowsDisjoint M) → RowsDisjoint P

/-- Disjoint rows in both operands give disjoint joined rows. -/
theorem prodPure_disjoint (hS : WF U S) (hM : WF U M) (hd : ∀ k ∈ childNames S, k ∉ childNames M)
    (dS : RowsDisjoint S) (dM : RowsDisjoint M) : RowsDisjoint (prodPure S M) := by
  have hjoin : ∀ r ∈ S.C, ∀ r0 ∈ M.C, (∀ t ∈ checkList M.getNames (comV S M) (comS S M r),
      rowTest t r0 = true) → ∀ x, RowMatches (newV S M) (reorder S M (condRow (checkList M.getNames
        (comV S M) (comS S M r)) r0 ++ notComS S M r)) x → RowMatches S.vars r x ∧
        RowMatches M.vars r0 x := by
    intro r hr r0 hr0 hc x hm
    have he := com_evidence (M := M) hS hr
    obtain ⟨h1, h2⟩ := (reorder_matches hS hM hd hr
      (by rw [condRow_length, hM.rowLen r0 hr0]) x).1 hm
    obtain ⟨h3, h4⟩ := (condRow_matches hM he (comV_nodup hS) x r0 hr0).1 ⟨hc, h1⟩
    exact ⟨(matches_split hS hr x).2 ⟨h3, h2⟩, h4⟩
  have hC : (prodPure S M).C = S.C.flatMap fun r =>
      ((M.C.filter fun r0 => (checkList M.getNames (comV S M) (comS S M r)).all
        fun t => rowTest t r0).map fun r0 => reorder S M (condRow (checkList M.getNames
        (comV S M) (comS S M r)) r0 ++ notComS S M r)) := by
    have hb : ∀ rp ∈ S.C.zip S.p, (block S M rp.1 rp.2).map Prod.fst =
        ((M.C.filter fun r0 => (checkList M.getNames (comV S M) (comS S M rp.1)).all
        fun t => rowTest t r0).map fun r0 => reorder S M (condRow (checkList M.getNames
        (comV S M) (comS S M rp.1)) r0 ++ notComS S M rp.1)) := by
      intro rp hrp
      have hwf := condPure_WF hM (com_evidence (M := M) hS (List.of_mem_zip hrp).1) (comV_nodup hS)
      unfold block
      rw [List.map_map]
      have : (Prod.fst ∘ fun cp : List ℕ × ℚ => (reorder S M (cp.1 ++ notComS S M rp.1),
          cp.2 * rp.2)) = (fun r' => reorder S M (r' ++ notComS S M rp.1)) ∘ Prod.fst := rfl
      rw [this, ← List.map_map, List.map_fst_zip (by rw [hwf.pLen])]
      unfold condPure
      simp only [List.map_map]
      rfl
    have h1 : (prodPure S M).C = (S.C.zip S.p).flatMap fun rp =>
        (block S M rp.1 rp.2).map Prod.fst := by
      simp only [prodPure]; rw [List.map_flatMap]
    have h2 : S.C = (S.C.zip S.p).map Prod.fst := (List.map_fst_zip (by rw [hS.pLen])).symm
    rw [h1]
    conv_rhs => rw [h2]
    rw [List.flatMap_map]
    rw [List.flatMap_def, List.flatMap_def]
    congr 1
    exact List.map_congr_left hb
  unfold RowsDisjoint
  rw [hC, show (prodPure S M).vars = newV S M from rfl, List.pairwise_flatMap]
  refine ⟨fun r hr => ?_, List.Pairwise.imp_of_mem ?_ dS⟩
  · rw [List.pairwise_map]
    refine List.Pairwise.imp_of_mem ?_ (List.Pairwise.filter _ dM)
    intro a b ha hb hab x hx
    obtain ⟨ha1, ha2⟩ := List.mem_filter.1 ha
    obtain ⟨hb1, hb2⟩ := List.mem_filter.1 hb
    exact hab x ⟨(hjoin r hr a ha1 (List.all_eq_true.1 ha2) x hx.1).2,
      (hjoin r hr b hb1 (List.all_eq_true.1 hb2) x hx.2).2⟩
  · intro r r' hr hr' hrr a ha b hb x hx
    obtain ⟨a0, ha0, rfl⟩ := List.mem_map.1 ha
    obtain ⟨b0, hb0, rfl⟩ := List.mem_map.1 hb
    obtain ⟨ha1, ha2⟩ := List.mem_filter.1 ha0
    obtain ⟨hb1, hb2⟩ := List.mem_filter.1 hb0
    exact hrr x ⟨(hjoin r hr a0 ha1 (List.all_eq_true.1 ha2) x hx.1).1,
      (hjoin r' hr' b0 hb1 (List.all_eq_true.1 hb2) x hx.2).1⟩

theorem disjoint_sortPure (h : RowsDisjoint M) : RowsDisjoint (sortPure M) :=
  (sortPure_C_perm M).symm.pairwise h fun hab x hx => hab x ⟨hx.2, hx.1⟩

theorem covers_sortPure (x : K → ℕ) : Covers (sortPure M) x ↔ Covers M x := by
  unfold Covers
  constructor
  · rintro ⟨r, hr, h⟩; exact ⟨r, (sortPure_C_perm M).subset hr, h⟩
  · rintro ⟨r, hr, h⟩; exact ⟨r, (sortPure_C_perm M).mem_iff.2 hr, h⟩

theorem childBasic_sortPure (h : ChildBasic M) : ChildBasic (sortPure M) :=
  fun r hr => h r ((sortPure_C_perm M).subset hr)

theorem childNames_prodPure : childNames (prodPure S M) = (newChildV S M).map Variable.name := by
  unfold childNames prodPure newV
  simp

theorem prodPure_spec (hS : WF U S) (hM : WF U M) (hd : ∀ k ∈ childNames S, k ∉ childNames M) :
    ProdSpec U [S, M] (sortPure (prodPure S M)) := by
  have hwf := prodPure_WF hS hM hd
  refine ⟨sortPure_WF hwf, ?_, ?_, ?_, ?_, ?_, ?_⟩
  · intro x
    rw [dens_perm (M := prodPure S M) (N := sortPure (prodPure S M)) rfl
      (sortPure_rows_perm hwf), dens_prodPure hS hM hd]
    simp
  · have : childNames (sortPure (prodPure S M)) = childNames (prodPure S M) := rfl
    rw [this, childNames_prodPure]
    unfold newChildV
    refine ((sortVars_perm _).map _).trans ?_
    simp [childNames]
  · intro k
    have : (sortPure (prodPure S M)).getNames = newNames S M := rfl
    rw [this, mem_newNames]
    simp
  · intro x
    rw [covers_sortPure, prodPure_covers hS hM hd]
    simp
  · intro hb
    exact childBasic_sortPure (prodPure_childBasic hS hM hd (hb S (by simp)) (hb M (by simp)))
  · intro hb
    exact disjoint_sortPure (prodPure_disjoint hS hM hd (hb S (by simp)) (hb M (by simp)))

theorem ProdSpec.perm {l l' : List (Cpm K)} {P : Cpm K} (h : ProdSpec U l P) (hp : l.Perm l') :
    ProdSpec U l' P := by
  refine ⟨h.wf, fun x => ?_, h.child.trans (hp.flatMap_right _), fun k => ?_, fun x => ?_, fun hb => ?_,
    fun hb => h.disjoint fun M hM => hb M (hp.subset hM)⟩
  · rw [h.dens]; exact (hp.map _).prod_eq
  · rw [h.names]; exact exists_congr fun M => by rw [hp.mem_iff]
  · rw [h.covers]; exact forall_congr' fun M => by rw [hp.mem_iff]
  · exact h.basic fun M hM => hb M (hp.subset hM)

/-- `product` on well-formed CPMs without a common child: it succeeds unless the operand with
fewer columns is empty, and then it is the product. -/
theorem product_spec (hS : WF U S) (hM : WF U M) (hd : ∀ k ∈ childNames S, k ∉ childNames M) :
    (S.product M = .error .unbound ∧
      (if S.vars.length > M.vars.length then M else S).C.flatten = []) ∨
    (∃ P, S.product M = .ok P ∧ ProdSpec U [S, M] P) := by
  have hd' : ∀ k ∈ childNames M, k ∉ childNames S := fun k h1 h2 => hd k h2 h1
  unfold Cpm.product
  by_cases h : S.vars.length > M.vars.length
  · simp only [if_pos h]
    by_cases he : M.C.flatten = []
    · exact .inl ⟨productCore_empty hd' hM he, he⟩
    · exact .inr ⟨_, productCore_ok hM hS hd' he,
        (prodPure_spec hM hS hd').perm (List.Perm.swap _ _ _)⟩
  · simp only [if_neg h]
    by_cases he : S.C.flatten = []
    · exact .inl ⟨productCore_empty hd hS he, he⟩
    · exact .inr ⟨_, productCore_ok hS hM hd he, prodPure_spec hS hM hd⟩

theorem product_ok_spec (hS : WF U S) (hM : WF U M) (hd : ∀ k ∈ childNames S, k ∉ childNames M)
    {P : Cpm K} (h : S.product M = .ok P) : ProdSpec U [S, M] P := by
  rcases product_spec hS hM hd with h' | ⟨P', h', hs⟩
  · rw [h'.1] at h; exact absurd h (by simp)
  · rw [h'] at h; cases h; exact hs

theorem flatten_ne_of_covers (hM : WF U M) (hne : M.vars ≠ []) {x : K → ℕ} (hx : Covers M x) :
    M.C.flatten ≠ [] := by
  rw [Ne, flatten_ne_nil hM hne]
  obtain ⟨r, hr, -⟩ := hx
  exact List.ne_nil_of_mem hr

theorem ProdSpec.append {l l' : List (Cpm K)} {P Q R : Cpm K} (hP : ProdSpec U l P)
    (hQ : ProdSpec U l' Q) (hR : ProdSpec U [P, Q] R) : ProdSpec U (l ++ l') R := by
  refine ⟨hR.wf, fun x => ?_, ?_, fun k => ?_, fun x => ?_, fun hb => ?_, fun hb => ?_⟩
  · rw [hR.dens]; simp [hP.dens, hQ.dens]
  · refine hR.child.trans ?_
    simp only [List.flatMap_cons, List.flatMap_nil, List.append_nil, List.flatMap_append]
    exact hP.child.append hQ.child
  · rw [hR.names]
    simp only [List.mem_cons, List.not_mem_nil, or_false, exists_eq_left,
      hP.names, hQ.names, List.mem_append, or_and_right, exists_or]
  · rw [hR.covers]
    simp only [List.mem_cons, List.not_mem_nil, or_false, forall_eq,
      hP.covers, hQ.covers, List.mem_append, or_imp, forall_and]
  · refine hR.basic fun M hM => ?_
    simp only [List.mem_cons, List.not_mem_nil, or_false] at hM
    rcases hM with rfl | rfl
    · exact hP.basic fun M hM => hb M (by simp [hM])
    · exact hQ.basic fun M hM => hb M (by simp [hM])
  · refine hR.disjoint fun M hM => ?_
    simp only [List.mem_cons, List.not_mem_nil, or_false] at hM
    rcases hM with rfl | rfl
    · exact hP.disjoint fun M hM => hb M (by simp [hM])
    · exact hQ.disjoint fun M hM => hb M (by simp [hM])

theorem ProdSpec.single (hM : WF U M) : ProdSpec U [M] M :=
  ⟨hM, by simp, by simp, by simp, by simp, by simp, by simp⟩

theorem ProdSpec.vars_ne {l : List (Cpm K)} {P : Cpm K} (h : ProdSpec U l P)
    (hl : ∃ M ∈ l, M.vars ≠ []) : P.vars ≠ [] := by
  obtain ⟨M, hM, hne⟩ := hl
  obtain ⟨v, hv⟩ := List.exists_mem_of_ne_nil _ hne
  have := (h.names v.name).2 ⟨M, hM, List.mem_map_of_mem hv⟩
  intro e
  simp [Cpm.getNames, e] at this

theorem foldl_product_ok (Ms : List (Cpm K)) : ∀ (l : List (Cpm K)) (P Q : Cpm K),
    ProdSpec U l P → (∀ M ∈ Ms, WF U M) → ChildDisjoint (l ++ Ms) →
    Ms.foldlM (fun prod cx => prod.product cx) P = .ok Q → ProdSpec U (l ++ Ms) Q := by
  induction Ms with
  | nil =>
    intro l P Q hP _ _ h
    rw [List.foldlM_nil] at h
    cases h
    simpa using hP
  | cons M Ms ih =>
    intro l P Q hP hwf hd h
    rw [List.foldlM_cons] at h
    cases hPM : P.product M with
    | error e => rw [hPM] at h; cases h
    | ok R =>
      rw [hPM, ok_bind] at h
      have hdPM : ∀ k ∈ childNames P, k ∉ childNames M := by
        intro k hk
        rw [hP.child.mem_iff] at hk
        obtain ⟨A, hA, hkA⟩ := List.mem_flatMap.1 hk
        exact (List.pairwise_append.1 hd).2.2 A hA M (by simp) k hkA
      have hR := (hP.append (ProdSpec.single (hwf M (by simp))))
        (product_ok_spec hP.wf (hwf M (by simp)) hdPM hPM)
      have := ih (l ++ [M]) R Q hR (fun N hN => hwf N (by simp [hN])) (by simpa using hd) h
      simpa using this

theorem foldl_product_total (x : K → ℕ) (Ms : List (Cpm K)) : ∀ (l : List (Cpm K)) (P : Cpm K),
    ProdSpec U l P → (∃ M ∈ l, M.vars ≠ []) → (∀ M ∈ Ms, WF U M ∧ M.vars ≠ [] ∧ Covers M x) →
    Covers P x → ChildDisjoint (l ++ Ms) →
    ∃ Q, Ms.foldlM (fun prod cx => prod.product cx) P = .ok Q := by
  induction Ms with
  | nil => intro l P hP _ _ _ _; exact ⟨P, rfl⟩
  | cons M Ms ih =>
    intro l P hP hl hwf hc hd
    have hM := hwf M (by simp)
    have hdPM : ∀ k ∈ childNames P, k ∉ childNames M := by
      intro k hk
      rw [hP.child.mem_iff] at hk
      obtain ⟨A, hA, hkA⟩ := List.mem_flatMap.1 hk
      exact (List.pairwise_append.1 hd).2.2 A hA M (by simp) k hkA
    rcases product_spec hP.wf hM.1 hdPM with h | ⟨R, hR, hs⟩
    · exfalso
      have h2 := h.2
      split at h2
      · exact flatten_ne_of_covers hM.1 hM.2.1 hM.2.2 h2
      · exact flatten_ne_of_covers hP.wf (hP.vars_ne hl) hc h2
    · rw [List.foldlM_cons, hR, ok_bind]
      have hR' := hP.append (ProdSpec.single hM.1) hs
      refine ih (l ++ [M]) R hR' ?_ (fun N hN => hwf N (by simp [hN])) ?_ (by simpa using hd)
      · obtain ⟨A, hA, h⟩ := hl; exact ⟨A, by simp [hA], h⟩
      · rw [hs.covers]; simp [hc, hM.2.2]

theorem productList_ok {l : List (Cpm K)} {P : Cpm K} (hwf : ∀ M ∈ l, WF U M)
    (hd : ChildDisjoint l) (h : productList l = .ok P) : ProdSpec U l P := by
  cases l with
  | nil => cases h
  | cons M Ms =>
    exact foldl_product_ok Ms [M] M P (ProdSpec.single (hwf M (by simp)))
      (fun N hN => hwf N (by simp [hN])) hd h

theorem productList_total {l : List (Cpm K)} (hne : l ≠ []) (x : K → ℕ)
    (hwf : ∀ M ∈ l, WF U M ∧ M.vars ≠ [] ∧ Covers M x) (hd : ChildDisjoint l) :
    ∃ P, productList l = .ok P := by
  cases l with
  | nil => exact absurd rfl hne
  | cons M Ms =>
    have hM := hwf M (by simp)
    exact foldl_product_total x Ms [M] M (ProdSpec.single hM.1) ⟨M, by simp, hM.2.1⟩
      (fun N hN => hwf N (by simp [hN])) hM.2.2 hd

theorem mem_parentNames (h : WF U M) (k : K) :
    k ∈ parentNames M ↔ k ∈ M.getNames ∧ k ∉ childNames M := by
  have hd := h.nodup
  have he : M.vars.map Variable.name = childNames M ++ parentNames M := by
    unfold childNames parentNames
    rw [← List.map_append, List.take_append_drop]
  rw [he, List.nodup_append] at hd
  unfold Cpm.getNames
  rw [he, List.mem_append]
  constructor
  · intro hk; exact ⟨.inr hk, fun hc => hd.2.2 k hc k hk rfl⟩
  · rintro ⟨h1 | h1, h2⟩
    · exact absurd h1 h2
    · exact h1

theorem product_common_child
    (hc : ∃ k ∈ childNames S, k ∈ childNames M) : S.product M = .error .assertion := by
  obtain ⟨k, h1, h2⟩ := hc
  obtain ⟨v, hv, rfl⟩ := List.mem_map.1 h1
  obtain ⟨w, hw, he⟩ := List.mem_map.1 h2
  unfold Cpm.product
  split
  · unfold productCore
    rw [pyAssert_false (fun h => h w hw v hv he)]
    rfl
  · unfold productCore
    rw [pyAssert_false (fun h => h v hv w hw he.symm)]
    rfl

end
end BNS
