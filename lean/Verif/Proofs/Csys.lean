import Verif.Spec.Csys
import Verif.Props.Variable
import Mathlib.Order.Interval.Finset.Nat

/-!
# Lemmas on the conversion of branches to an event matrix
-/

namespace BNS

set_option linter.unusedSectionVars false

variable {K : Type} [DecidableEq K]

theorem TablesExtend.refl (varis : K → Option (Variable K)) : TablesExtend varis varis :=
  fun _ => .inl rfl

theorem TablesExtend.trans {a b c : K → Option (Variable K)} (h1 : TablesExtend a b)
    (h2 : TablesExtend b c) : TablesExtend a c := by
  intro k
  rcases h1 k with h | ⟨v, B, B', e1, e2, e3, e4⟩
  · rw [← h]; exact h2 k
  · rcases h2 k with h | ⟨w, C, C', f1, f2, f3, f4⟩
    · rw [h]; exact .inr ⟨v, B, B', e1, e2, e3, e4⟩
    · rw [e3] at f1
      cases f1
      cases f2
      exact .inr ⟨v, B, C', e1, e2, f3, e4.trans f4⟩

/-- In the table of component `k`, index `c` is the set `S`. -/
def ColOK (varis : K → Option (Variable K)) (k : K) (c : ℕ) (S : Finset ℕ) : Prop :=
  ∃ v B, varis k = some v ∧ v.name = k ∧ v.B = some B ∧ B[c]? = some S

theorem ColOK.extend {varis varis' : K → Option (Variable K)} {k : K} {c : ℕ} {S : Finset ℕ}
    (h : ColOK varis k c S) (he : TablesExtend varis varis') : ColOK varis' k c S := by
  obtain ⟨v, B, h1, h2, h3, h4⟩ := h
  rcases he k with e | ⟨w, C, C', e1, e2, e3, e4⟩
  · exact ⟨v, B, e.trans h1, h2, h3, h4⟩
  · rw [h1] at e1
    cases e1
    rw [h3] at e2
    cases e2
    refine ⟨_, C', e3, h2, rfl, ?_⟩
    obtain ⟨t, rfl⟩ := e4
    rw [List.getElem?_append_left]
    · exact h4
    · exact (List.getElem?_eq_some_iff.1 h4).1

theorem TablesOK.extend {vs : List (K × ℕ)} {varis varis' : K → Option (Variable K)}
    (h : TablesOK vs varis) (he : TablesExtend varis varis') : TablesOK vs varis' := by
  intro kn hkn
  obtain ⟨v, B, h1, h2, h3, h4⟩ := h kn hkn
  rcases he kn.1 with e | ⟨w, C, C', e1, e2, e3, e4⟩
  · exact ⟨v, B, e.trans h1, h2, h3, h4⟩
  · rw [h1] at e1
    cases e1
    rw [h3] at e2
    cases e2
    refine ⟨_, C', e3, h2, rfl, fun i hi => ?_⟩
    obtain ⟨t, rfl⟩ := e4
    rw [List.getElem?_append_left]
    · exact h4 i hi
    · exact (List.getElem?_eq_some_iff.1 (h4 i hi)).1

theorem range_toFinset (d u : ℕ) (h : d < u) :
    (List.range' d (u + 1 - d)).toFinset = Finset.Icc d u := by
  ext i
  simp only [List.mem_toFinset, List.mem_range'_1, Finset.mem_Icc]
  omega

theorem getCLoop_ok (b : Branch K) (vs : List (K × ℕ)) (varis : K → Option (Variable K))
    (ht : TablesOK vs varis) (hb : BoxOK vs b) :
    ∃ varis' cs, getCLoop b (vs.map Prod.fst) varis = .ok (varis', cs) ∧
      TablesExtend varis varis' ∧
      List.Forall₂ (fun kn c => ColOK varis' kn.1 c (Finset.Icc (b.down kn.1) (b.up kn.1))) vs cs := by
  induction vs generalizing varis with
  | nil => exact ⟨varis, [], rfl, .refl _, .nil⟩
  | cons kn vs ih =>
    obtain ⟨v, B, h1, h2, h3, h4⟩ := ht kn (by simp)
    obtain ⟨b1, b2⟩ := hb kn (by simp)
    have ht' : TablesOK vs varis := fun k hk => ht k (by simp [hk])
    have hb' : BoxOK vs b := fun k hk => hb k (by simp [hk])
    rw [List.map_cons]
    unfold getCLoop
    by_cases hlt : b.down kn.1 < b.up kn.1
    · obtain ⟨B', c, g1, g2, g3, -⟩ := C05_never_renumbers v B h3
        (List.range' (b.down kn.1) (b.up kn.1 + 1 - b.down kn.1))
      have hext : TablesExtend varis (Function.update varis kn.1 (some { v with B := some B' })) := by
        intro k
        by_cases hk : k = kn.1
        · subst hk
          exact .inr ⟨v, B, B', h1, h3, by rw [Function.update_self], g3⟩
        · exact .inl (by rw [Function.update_of_ne hk])
      obtain ⟨varis', cs, e1, e2, e3⟩ := ih _ (ht'.extend hext) hb'
      have hd : dictGet varis kn.1 = .ok v := by unfold dictGet; rw [h1]
      rw [if_pos hlt, hd, ok_bind, g1, ok_bind, e1, ok_bind]
      refine ⟨varis', c :: cs, rfl, hext.trans e2, .cons ?_ e3⟩
      refine ColOK.extend ⟨{ v with B := some B' }, B', Function.update_self .., h2, rfl, ?_⟩ e2
      rw [g2, range_toFinset _ _ hlt]
    · obtain ⟨varis', cs, e1, e2, e3⟩ := ih varis ht' hb'
      rw [if_neg hlt, e1, ok_bind]
      refine ⟨varis', b.up kn.1 :: cs, rfl, e2, .cons ?_ e3⟩
      refine ColOK.extend ⟨v, B, h1, h2, h3, ?_⟩ e2
      have : b.down kn.1 = b.up kn.1 := by omega
      rw [h4 _ b2, this, Finset.Icc_self]

theorem rowMatches_of_cols {varis : K → Option (Variable K)} {b : Branch K} {vs : List (K × ℕ)}
    {cs : List ℕ} (h : List.Forall₂ (fun kn c => ColOK varis kn.1 c
      (Finset.Icc (b.down kn.1) (b.up kn.1))) vs cs) (x : K → ℕ) :
    RowMatches (compVars vs varis) cs x ↔ InBox vs b x := by
  induction h with
  | nil => simp [RowMatches, InBox, compVars]
  | @cons kn c vs cs h _ ih =>
    obtain ⟨v, B, h1, h2, h3, h4⟩ := h
    have hcv : compVars (kn :: vs) varis = v :: compVars vs varis := by
      unfold compVars
      rw [List.filterMap_cons]
      simp only [h1]
    have hs : stateSet v c = Finset.Icc (b.down kn.1) (b.up kn.1) := by
      unfold stateSet
      rw [h3]
      simp only
      rw [List.getD_eq_getElem?_getD, h4]
      rfl
    rw [hcv]
    unfold RowMatches InBox at ih ⊢
    rw [List.zip_cons_cons, List.forall_mem_cons, List.forall_mem_cons, ih]
    simp only [hs, h2, Finset.mem_Icc]

theorem getCsysLoop_ok (vs : List (K × ℕ)) (lbl : St → Option ℕ) (brs : List (Branch K))
    (varis : K → Option (Variable K)) (ht : TablesOK vs varis) (hb : ∀ b ∈ brs, BoxOK vs b)
    (hl : ∀ b ∈ brs, lbl b.label ≠ none) :
    ∃ C varis', getCsysLoop (vs.map Prod.fst) lbl brs varis = .ok (C, varis') ∧
      TablesExtend varis varis' ∧
      List.Forall₂ (fun b row => ∃ s cs, lbl b.label = some s ∧ row = s :: cs ∧
        List.Forall₂ (fun kn c => ColOK varis' kn.1 c (Finset.Icc (b.down kn.1) (b.up kn.1)))
          vs cs) brs C := by
  induction brs generalizing varis with
  | nil => exact ⟨[], varis, rfl, .refl _, .nil⟩
  | cons b brs ih =>
    obtain ⟨varis1, cs, e1, e2, e3⟩ := getCLoop_ok b vs varis ht (hb b (by simp))
    obtain ⟨C, varis2, f1, f2, f3⟩ := ih varis1 (ht.extend e2) (fun b hb' => hb b (by simp [hb']))
      (fun b hb' => hl b (by simp [hb']))
    obtain ⟨s, hs⟩ := Option.ne_none_iff_exists'.1 (hl b (by simp))
    have hd : dictGet lbl (if b.downState = b.upState then b.downState else .u) = .ok s := by
      have : lbl (if b.downState = b.upState then b.downState else .u) = some s := hs
      unfold dictGet
      rw [this]
    have hc : b.getC (vs.map Prod.fst) varis lbl = .ok (varis1, s :: cs) := by
      unfold Branch.getC
      rw [hd, ok_bind, e1, ok_bind]
      rfl
    unfold getCsysLoop
    rw [hc, ok_bind]
    simp only
    rw [f1, ok_bind]
    exact ⟨_, _, rfl, e2.trans f2, .cons ⟨s, cs, hs, rfl, e3.imp fun _ _ h => h.extend f2⟩ f3⟩

/-- Complete tables are not changed. -/
theorem getCLoop_same (b : Branch K) (vs : List (K × ℕ)) (varis : K → Option (Variable K))
    (ht : ∀ kn ∈ vs, ∃ v, varis kn.1 = some v ∧ v.B = some (genB kn.2)) (hb : BoxOK vs b)
    {varis' : K → Option (Variable K)} {cs : List ℕ}
    (h : getCLoop b (vs.map Prod.fst) varis = .ok (varis', cs)) : varis' = varis := by
  induction vs generalizing varis cs with
  | nil => cases h; rfl
  | cons kn vs ih =>
    obtain ⟨v, h1, h2⟩ := ht kn (by simp)
    obtain ⟨b1, b2⟩ := hb kn (by simp)
    have ht' : ∀ kn ∈ vs, ∃ v, varis kn.1 = some v ∧ v.B = some (genB kn.2) :=
      fun k hk => ht k (by simp [hk])
    have hb' : BoxOK vs b := fun k hk => hb k (by simp [hk])
    rw [List.map_cons] at h
    unfold getCLoop at h
    by_cases hlt : b.down kn.1 < b.up kn.1
    · obtain ⟨B', c, g1, g2, g3, g4, -⟩ := C05_never_renumbers v _ h2
        (List.range' (b.down kn.1) (b.up kn.1 + 1 - b.down kn.1))
      have hm : (List.range' (b.down kn.1) (b.up kn.1 + 1 - b.down kn.1)).toFinset ∈ genB kn.2 := by
        rw [range_toFinset _ _ hlt, mem_genB]
        refine ⟨⟨b.down kn.1, by simp; omega⟩, fun i hi => ?_⟩
        rw [Finset.mem_Icc] at hi
        omega
      have hB := g4 hm
      have hv : ({ v with B := some B' } : Variable K) = v := by rw [hB, ← h2]
      rw [hv] at g1
      have hd : dictGet varis kn.1 = .ok v := by unfold dictGet; rw [h1]
      have hu : Function.update varis kn.1 (some v) = varis := by
        rw [← h1, Function.update_eq_self]
      rw [if_pos hlt, hd, ok_bind, g1, ok_bind] at h
      simp only [hu] at h
      cases hr : getCLoop b (vs.map Prod.fst) varis with
      | error e => rw [hr] at h; cases h
      | ok r =>
        obtain ⟨r1, r2⟩ := r
        rw [hr, ok_bind] at h
        cases h
        exact ih varis ht' hb' hr
    · rw [if_neg hlt] at h
      cases hr : getCLoop b (vs.map Prod.fst) varis with
      | error e => rw [hr] at h; cases h
      | ok r =>
        obtain ⟨r1, r2⟩ := r
        rw [hr, ok_bind] at h
        cases h
        exact ih varis ht' hb' hr

theorem getCsysLoop_same (vs : List (K × ℕ)) (lbl : St → Option ℕ) (brs : List (Branch K))
    (varis : K → Option (Variable K))
    (ht : ∀ kn ∈ vs, ∃ v, varis kn.1 = some v ∧ v.B = some (genB kn.2))
    (hb : ∀ b ∈ brs, BoxOK vs b) {C : List (List ℕ)} {varis' : K → Option (Variable K)}
    (h : getCsysLoop (vs.map Prod.fst) lbl brs varis = .ok (C, varis')) : varis' = varis := by
  induction brs generalizing varis C with
  | nil => cases h; rfl
  | cons b brs ih =>
    unfold getCsysLoop Branch.getC at h
    cases hd : dictGet lbl (if b.downState = b.upState then b.downState else .u) with
    | error e => rw [hd] at h; cases h
    | ok s =>
      rw [hd, ok_bind] at h
      cases hr : getCLoop b (vs.map Prod.fst) varis with
      | error e => rw [hr] at h; cases h
      | ok r =>
        obtain ⟨r1, r2⟩ := r
        rw [hr, ok_bind] at h
        have := getCLoop_same b vs varis ht (hb b (by simp)) hr
        subst this
        rw [pure_ok, ok_bind] at h
        cases hs : getCsysLoop (vs.map Prod.fst) lbl brs r1 with
        | error e => simp only at h; rw [hs] at h; cases h
        | ok q =>
          obtain ⟨q1, q2⟩ := q
          simp only at h
          rw [hs, ok_bind] at h
          cases h
          exact ih r1 ht (fun b hb' => hb b (by simp [hb'])) hs

end BNS
