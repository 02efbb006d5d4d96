import Verif.Proofs.SysNet
import Verif.Props.Csys
import Verif.Props.BrcResume

/-!
# Lemmas: a run's branches as the system event of a network
-/

namespace BNS

set_option linter.unusedSectionVars false

section
variable {K : Type} [DecidableEq K] {Φ : (K → ℕ) → Bool}

theorem countP_forall₂ {α β : Type} {R : α → β → Prop} {p : α → Bool} {q : β → Bool} {l : List α}
    {m : List β} (h : List.Forall₂ R l m) (hpq : ∀ a b, R a b → p a = q b) :
    l.countP p = m.countP q := by
  induction h with
  | nil => rfl
  | cons h _ ih => rw [List.countP_cons, List.countP_cons, ih, hpq _ _ h]

theorem exists_forall₂ {α β : Type} {R : α → β → Prop} {p : α → Prop} {q : β → Prop} {l : List α}
    {m : List β} (h : List.Forall₂ R l m) (hpq : ∀ a b, R a b → (p a ↔ q b)) :
    (∃ a ∈ l, p a) ↔ ∃ b ∈ m, q b := by
  induction h with
  | nil => simp
  | cons h _ ih => rw [List.exists_mem_cons_iff, List.exists_mem_cons_iff, ih, hpq _ _ h]

theorem mem_zip_forall₂ {α β γ : Type} {R : α → β → Prop} {f : α → γ} {l : List α} {m : List β}
    (h : List.Forall₂ R l m) {vc : γ × β} (hm : vc ∈ (l.map f).zip m) :
    ∃ a ∈ l, vc.1 = f a ∧ R a vc.2 := by
  induction h with
  | nil => simp at hm
  | cons h _ ih =>
    rw [List.map_cons, List.zip_cons_cons, List.mem_cons] at hm
    rcases hm with rfl | hm
    · exact ⟨_, List.mem_cons_self, rfl, h⟩
    · obtain ⟨a, ha, e⟩ := ih hm
      exact ⟨a, List.mem_cons_of_mem _ ha, e⟩

theorem Partition.unique {vs : List (K × ℕ)} {brs : List (Branch K)} (h : Partition vs brs)
    {x : K → ℕ} (hx : InSpace vs x) {b b' : Branch K} (hb : b ∈ brs) (hb' : b' ∈ brs)
    (hin : InBox vs b x) (hin' : InBox vs b' x) : b = b' := by
  have h1 := h.2 x hx
  rw [List.countP_eq_length_filter] at h1
  obtain ⟨a, ha⟩ := List.length_eq_one_iff.1 h1
  have e1 : b ∈ brs.filter (fun b => decide (InBox vs b x)) := by simp [hb, hin]
  have e2 : b' ∈ brs.filter (fun b => decide (InBox vs b x)) := by simp [hb', hin']
  rw [ha, List.mem_singleton] at e1 e2
  rw [e1, e2]

theorem probOf_three {vs : List (K × ℕ)} (hv : VarisOK vs) {probs : K → ℕ → ℚ}
    (hp : ProbOK vs probs) (E F G : (K → ℕ) → Prop) [DecidablePred E] [DecidablePred F]
    [DecidablePred G] (h : ∀ x, InSpace vs x →
      E x ∧ ¬ F x ∧ ¬ G x ∨ ¬ E x ∧ F x ∧ ¬ G x ∨ ¬ E x ∧ ¬ F x ∧ G x) :
    probOf vs probs E + probOf vs probs F + probOf vs probs G = 1 := by
  rw [← probOf_true hv hp]
  unfold probOf
  rw [← sumOver_add, ← sumOver_add]
  refine sumOver_congr' vs hv.nodup _ fun y hy _ => ?_
  rcases h y hy with ⟨h1, h2, h3⟩ | ⟨h1, h2, h3⟩ | ⟨h1, h2, h3⟩ <;> simp [h1, h2, h3]

/-- The event matrix of a partition into branches: one row per branch, with the branch's box. -/
theorem csys_rows {U : K → Variable K} {vs : List (K × ℕ)} {sys : K} {m : ℕ}
    (h : SysVars U vs sys m) {bs : List (Branch K)} (hp : Partition vs bs)
    {varis : K → Option (Variable K)} (hv : ∀ kn ∈ vs, varis kn.1 = some (U kn.1))
    {lbl : St → Option ℕ} (hl : ∀ b ∈ bs, ∃ j, lbl b.label = some j ∧ j < m) :
    ∃ C, getCsys (vs.map Prod.fst) bs varis lbl = .ok (C, varis) ∧ EventsOK U vs m C ∧
      List.Forall₂ (fun b row => ∃ s cs, lbl b.label = some s ∧ row = s :: cs ∧
        (∀ x, RowMatches (compVariables U vs) cs x ↔ InBox vs b x)) bs C := by
  have hne : bs ≠ [] := by
    rintro rfl
    have := hp.2 (fun _ => 0) (fun kn hkn => h.varis.pos kn hkn)
    simp at this
  have ht' : ∀ kn ∈ vs, ∃ v, varis kn.1 = some v ∧ v.B = some (genB kn.2) :=
    fun kn hkn => ⟨_, hv kn hkn, h.table kn hkn⟩
  have ht : TablesOK vs varis := fun kn hkn =>
    ⟨_, _, hv kn hkn, h.name kn hkn, h.table kn hkn, fun i hi => by
      exact genB_getElem_lt _ _ hi⟩
  obtain ⟨C, varis', e1, -, e3⟩ := getCsysLoop_ok vs lbl bs varis ht hp.1
    (fun b hb => by obtain ⟨j, hj, -⟩ := hl b hb; rw [hj]; simp)
  have e0 : getCsys (vs.map Prod.fst) bs varis lbl = .ok (C, varis') := by
    unfold getCsys
    rw [if_neg hne, e1]
  have hsame := C32_complete_unchanged vs bs varis lbl ht' hp.1 e0
  subst hsame
  have hcv : compVars vs varis' = compVariables U vs := by
    unfold compVars compVariables
    rw [← List.filterMap_eq_map]
    exact List.filterMap_congr fun kn hkn => hv kn hkn
  have hrow : List.Forall₂ (fun b row => ∃ s cs, lbl b.label = some s ∧ row = s :: cs ∧
        (∀ x, RowMatches (compVariables U vs) cs x ↔ InBox vs b x)) bs C :=
    e3.imp fun b row ⟨s, cs, f1, f2, f3⟩ => ⟨s, cs, f1, f2, hcv ▸ rowMatches_of_cols f3⟩
  refine ⟨C, e0, ⟨?_, ?_, ?_⟩, hrow⟩
  · rintro rfl
    exact hne (List.forall₂_nil_right_iff.1 e3)
  · intro r hr
    obtain ⟨i, hi, rfl⟩ := List.getElem_of_mem hr
    have hi' : i < bs.length := by rw [e3.length_eq]; exact hi
    obtain ⟨s, cs, f1, f2, f3⟩ := (List.forall₂_iff_get.1 e3).2 i hi' hi
    obtain ⟨j, g1, g2⟩ := hl _ (List.get_mem bs ⟨i, hi'⟩)
    rw [f1] at g1
    cases g1
    refine ⟨s, cs, f2, g2, f3.length_eq.symm, fun vc hvc => ?_⟩
    obtain ⟨kn, hkn, g3, v, B, g4, -, g5, g6⟩ := mem_zip_forall₂ f3 hvc
    rw [hv kn hkn] at g4
    cases g4
    rw [h.table kn hkn] at g5
    cases g5
    have := (List.getElem?_eq_some_iff.1 g6).1
    rw [length_genB] at this
    rw [g3, h.size kn hkn]
    omega
  · intro x hx
    rw [← countP_forall₂ hrow (p := fun b => decide (InBox vs b x))]
    · exact le_of_eq (hp.2 x hx)
    · rintro b row ⟨s, cs, -, rfl, g⟩
      simp only [List.tail_cons, g x]

/-- The event matrix of a partition into branches. -/
theorem csys_events {U : K → Variable K} {vs : List (K × ℕ)} {sys : K} {m : ℕ}
    (h : SysVars U vs sys m) {bs : List (Branch K)} (hp : Partition vs bs)
    {varis : K → Option (Variable K)} (hv : ∀ kn ∈ vs, varis kn.1 = some (U kn.1))
    {lbl : St → Option ℕ} (hl : ∀ b ∈ bs, ∃ j, lbl b.label = some j ∧ j < m) :
    ∃ C, getCsys (vs.map Prod.fst) bs varis lbl = .ok (C, varis) ∧ EventsOK U vs m C ∧
      ∀ j x, SysState U vs C j x ↔ ∃ b ∈ bs, lbl b.label = some j ∧ InBox vs b x := by
  obtain ⟨C, e1, e2, hrow⟩ := csys_rows h hp hv hl
  refine ⟨C, e1, e2, fun j x => ?_⟩
  unfold SysState
  refine (exists_forall₂ hrow fun b row ⟨s, cs, g1, g2, g⟩ => ?_).symm
  subst g2
  rw [List.tail_cons, g x, g1]
  simp [eq_comm]

/-- A branch's label, if it says failure or survival, is right for the whole branch. -/
theorem label_sound {vs : List (K × ℕ)} (hc : Coherent vs Φ) {b : Branch K} (hl : LabelsOK Φ b)
    {x : K → ℕ} (hx : InBox vs b x) :
    (b.label = .f → Φ x = false) ∧ (b.label = .s → Φ x = true) := by
  unfold Branch.label
  constructor
  · intro e
    split at e
    · rename_i h1
      have hu : b.upState = .f := by rw [← h1]; exact e
      have h2 := hl.2.2 hu
      by_contra h3
      rw [Bool.not_eq_false] at h3
      rw [hc x b.up (fun kn hkn => (hx kn hkn).2) h3] at h2
      exact absurd h2 (by simp)
    · cases e
  · intro e
    split at e
    · exact hc b.down x (fun kn hkn => (hx kn hkn).1) (hl.1.1 e)
    · cases e

/-- A box has a vector with some chosen coordinates just when they are within its limits. -/
theorem box_choice {vs : List (K × ℕ)} {b : Branch K} {x : K → ℕ}
    (hx : InBox vs b x) (q : List ((K × ℕ) × ℕ)) (hq : ∀ a ∈ q, a.1 ∈ vs)
    (hqn : (q.map fun a => a.1.1).Nodup) :
    (∃ y, InBox vs b y ∧ ∀ a ∈ q, y a.1.1 = a.2) ↔
      ∀ a ∈ q, b.down a.1.1 ≤ a.2 ∧ a.2 ≤ b.up a.1.1 := by
  constructor
  · rintro ⟨y, hy, h⟩ a ha
    rw [← h a ha]
    exact hy _ (hq a ha)
  · intro h
    clear hq
    induction q with
    | nil => exact ⟨x, hx, by simp⟩
    | cons a q ih =>
      rw [List.map_cons, List.nodup_cons] at hqn
      obtain ⟨y, hy, hya⟩ := ih hqn.2 fun a' ha' => h a' (List.mem_cons_of_mem _ ha')
      refine ⟨Function.update y a.1.1 a.2, fun kn hkn => ?_, fun a' ha' => ?_⟩
      · by_cases e : kn.1 = a.1.1
        · rw [e, Function.update_self]
          exact h a List.mem_cons_self
        · rw [Function.update_of_ne e]
          exact hy kn hkn
      · rcases List.mem_cons.1 ha' with rfl | ha'
        · exact Function.update_self ..
        · rw [Function.update_of_ne, hya a' ha']
          intro e
          exact hqn.1 (List.mem_map.2 ⟨a', ha', e⟩)

end

end BNS
