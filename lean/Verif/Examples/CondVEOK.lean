import Verif.Examples.CondVE
import Verif.Proofs.CondVE
import Verif.Props.Order
import Mathlib.Data.List.Sections

/-! The example networks satisfy the hypotheses: a check that can be evaluated. -/

namespace BNS.Ex

open BNS

/-- Two rows have a column without a common basic state. -/
def rowsCheck (M : Cpm ℕ) : Prop :=
  M.C.Pairwise fun r r' => ∃ p ∈ M.vars.zip (r.zip r'), Disjoint (stateSet p.1 p.2.1) (stateSet p.1 p.2.2)

instance (M : Cpm ℕ) : Decidable (rowsCheck M) := by unfold rowsCheck; infer_instance

theorem rows_of_check {M : Cpm ℕ} (h : rowsCheck M) : RowsDisjoint M := by
  refine List.Pairwise.imp ?_ h
  rintro r r' ⟨⟨v, a, b⟩, hp, hd⟩ x ⟨h1, h2⟩
  have ha : (v, a) ∈ M.vars.zip r := by
    obtain ⟨i, hi, he⟩ := List.mem_iff_getElem.1 hp
    rw [List.getElem_zip, List.getElem_zip, Prod.mk.injEq, Prod.mk.injEq] at he
    rw [List.length_zip, List.length_zip] at hi
    exact List.mem_iff_getElem.2 ⟨i, by rw [List.length_zip]; omega, by
      rw [List.getElem_zip, Prod.mk.injEq]; exact ⟨he.1, he.2.1⟩⟩
  have hb : (v, b) ∈ M.vars.zip r' := by
    obtain ⟨i, hi, he⟩ := List.mem_iff_getElem.1 hp
    rw [List.getElem_zip, List.getElem_zip, Prod.mk.injEq, Prod.mk.injEq] at he
    rw [List.length_zip, List.length_zip] at hi
    exact List.mem_iff_getElem.2 ⟨i, by rw [List.length_zip]; omega, by
      rw [List.getElem_zip, Prod.mk.injEq]; exact ⟨he.1, he.2.2⟩⟩
  exact Finset.disjoint_left.1 hd (h1 _ ha) (h2 _ hb)

/-- Every combination of basic states is covered. -/
def fullCheck (M : Cpm ℕ) : Prop :=
  ∀ r ∈ (M.vars.map fun v => List.range v.values.length).sections, Covers M (assignment M.vars r)

instance (M : Cpm ℕ) : Decidable (fullCheck M) := by unfold fullCheck Covers; infer_instance

theorem full_of_check {M : Cpm ℕ} (hw : WF U M) (h : fullCheck M) (x : ℕ → ℕ)
    (hx : ∀ j ∈ M.vars.map Variable.name, x j < (U j).values.length) : Covers M x := by
  have h1 := h (M.vars.map fun v => x v.name) (by
    rw [List.mem_sections]
    rw [List.forall₂_map_left_iff, List.forall₂_map_right_iff, List.forall₂_same]
    intro v hv
    rw [List.mem_range]
    have := hx v.name (List.mem_map_of_mem hv)
    rwa [hw.env v hv] at this)
  refine (covers_congr fun k hk => ?_).1 h1
  unfold assignment
  have hlt := List.idxOf_lt_length_iff.2 hk
  unfold Cpm.getNames at hlt hk
  have e : (M.vars.map fun v => x v.name) = (M.vars.map Variable.name).map x := by simp
  rw [e, List.getD_eq_getElem?_getD, List.getElem?_map, List.getElem?_eq_getElem hlt]
  simp

/-- The parents of a name, as a list. -/
def parsOf (d : List (ℕ × Cpm ℕ)) (k : ℕ) : List ℕ :=
  match d.lookup k with
  | some M => (M.vars.drop M.noChild).map Variable.name
  | none => []

theorem parentOf_iff (d : List (ℕ × Cpm ℕ)) (k j : ℕ) : ParentOf d k j ↔ j ∈ parsOf d k := by
  unfold ParentOf parsOf
  cases h : d.lookup k <;> simp

theorem mem_of_lookup {d : List (ℕ × Cpm ℕ)} {k : ℕ} {M : Cpm ℕ} (h : d.lookup k = some M) :
    (k, M) ∈ d := by
  induction d with
  | nil => cases h
  | cons a d ih =>
    rw [List.lookup_cons] at h
    by_cases hk : k = a.1
    · subst hk
      simp at h
      subst h
      simp
    · have h1 : (k == a.1) = false := by simpa using hk
      rw [h1] at h
      exact List.mem_cons_of_mem _ (ih h)

/-- All the hypotheses of `CondVEOK`, as a check. -/
structure Check (d : List (ℕ × Cpm ℕ)) (cond veOrd inf : List ℕ) (sys : ℕ) : Prop where
  cpm : ∀ km ∈ d, WF U km.2 ∧ ChildBasic km.2 ∧ rowsCheck km.2 ∧ childNames km.2 = [km.1] ∧
    (U km.1).values ≠ [] ∧ (km.1 ≠ sys → fullCheck km.2)
  evid : cond.Nodup ∧ (∀ k ∈ cond, ∀ j ∈ parsOf d k, j ∈ cond) ∧ sys ∉ cond ∧
    ∀ j ∈ parsOf d sys, j ∉ cond
  leaf : ∀ k ∈ inf, sys ∉ parsOf d k
  comps : ∀ j ∈ parsOf d sys, ∀ k ∈ inf, k ≠ sys → j ∉ parsOf d k
  complete : ∀ k ∈ inf, k = sys ∨ k ∈ cond ∨ k ∈ veOrd ∨ k ∈ parsOf d sys
  joint : ∀ k ∈ parsOf d sys, k ∉ veOrd → ∀ j ∈ parsOf d k, j ∈ cond

theorem condVEOK_of_check {d : List (ℕ × Cpm ℕ)} {cond veOrd inf : List ℕ} {sys : ℕ}
    (hinf : getInfVars d [sys] none = .ok inf) (h : Check d cond veOrd inf sys)
    (hdef : ∀ k ∈ inf, (d.lookup k).isSome) :
    CondVEOK U d hV cond veOrd sys := by
  have hrel : ∀ k, Relevant d [sys] k → k ∈ inf := by
    have hd : ∀ k, Relevant d [sys] k → ∃ M, d.lookup k = some M := by
      by_contra hn
      push Not at hn
      obtain ⟨k, hk, hk2⟩ := hn
      have hnone : d.lookup k = none := by
        cases e : d.lookup k with
        | none => rfl
        | some M => exact absurd e (hk2 M)
      rw [(C42_relevant d [sys]).2 ⟨k, hk, hnone⟩] at hinf
      cases hinf
    obtain ⟨r, e1, e2, -⟩ := (C42_relevant d [sys]).1 hd
    rw [hinf] at e1
    cases e1
    exact fun k hk => (e2 k).2 hk
  refine
    { wf := fun k M hM => (h.cpm _ (mem_of_lookup hM)).1
      basic := fun k M hM => (h.cpm _ (mem_of_lookup hM)).2.1
      rows := fun k M hM => rows_of_check (h.cpm _ (mem_of_lookup hM)).2.2.1
      child := fun k M hM => (h.cpm _ (mem_of_lookup hM)).2.2.2.1
      pos := fun k M hM => (h.cpm _ (mem_of_lookup hM)).2.2.2.2.1
      full := fun k M hM hk => full_of_check (h.cpm _ (mem_of_lookup hM)).1
        ((h.cpm _ (mem_of_lookup hM)).2.2.2.2.2 hk)
      varis := ?_
      condNodup := h.evid.1
      condClosed := fun k hk j hj => h.evid.2.1 k hk j ((parentOf_iff d k j).1 hj)
      condSys := h.evid.2.2.1
      direct := fun j hj => h.evid.2.2.2 j ((parentOf_iff d sys j).1 hj)
      leaf := fun k hk hs => h.leaf k (hrel k hk) ((parentOf_iff d k sys).1 hs)
      comps := fun j k hj hk hs hp => h.comps j ((parentOf_iff d sys j).1 hj) k (hrel k hk) hs
        ((parentOf_iff d k j).1 hp)
      complete := fun k hk => by rw [parentOf_iff]; exact h.complete k (hrel k hk)
      joint := fun k hk hv j hj => h.joint k ((parentOf_iff d sys k).1 hk) hv j
        ((parentOf_iff d k j).1 hj) }
  intro k v hv
  unfold hV at hv
  rw [lookup_map_pair] at hv
  by_cases hk : k ∈ [0, 1, 3, 4, 5]
  · rw [if_pos hk] at hv; cases hv; rfl
  · rw [if_neg hk] at hv; cases hv

theorem hD_ok : CondVEOK U hD hV [0] [0, 1, 3] 4 :=
  condVEOK_of_check (inf := [4, 1, 3, 0]) (by decide +kernel)
    ⟨by decide +kernel, by decide +kernel, by decide +kernel, by decide +kernel, by decide +kernel,
      by decide +kernel⟩ (by decide +kernel)

theorem hD_joint_ok : CondVEOK U hD hV [0] [0, 3] 4 :=
  condVEOK_of_check (inf := [4, 1, 3, 0]) (by decide +kernel)
    ⟨by decide +kernel, by decide +kernel, by decide +kernel, by decide +kernel, by decide +kernel,
      by decide +kernel⟩ (by decide +kernel)

theorem hD5_ok : CondVEOK U hD5 hV [0] [0, 5, 1, 3] 4 :=
  condVEOK_of_check (inf := [4, 1, 3, 5, 0]) (by decide +kernel)
    ⟨by decide +kernel, by decide +kernel, by decide +kernel, by decide +kernel, by decide +kernel,
      by decide +kernel⟩ (by decide +kernel)

theorem hD6_ok : CondVEOK U hD6 hV [0, 5] [0, 5, 1, 3] 4 :=
  condVEOK_of_check (inf := [4, 1, 3, 0, 5]) (by decide +kernel)
    ⟨by decide +kernel, by decide +kernel, by decide +kernel, by decide +kernel, by decide +kernel,
      by decide +kernel⟩ (by decide +kernel)

end BNS.Ex
