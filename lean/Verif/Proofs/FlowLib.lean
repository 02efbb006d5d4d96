import Mathlib.Algebra.Order.BigOperators.Group.Finset
import Mathlib.Algebra.Order.BigOperators.Ring.Finset
import Mathlib.Algebra.BigOperators.Ring.Finset
import Mathlib.Algebra.Order.Field.Basic
import Mathlib.Data.Rat.Lemmas
import Mathlib.Data.Int.LeastGreatest
import Mathlib.Tactic.Linarith
import Mathlib.Tactic.Ring
import Mathlib.Tactic.FieldSimp
import Mathlib.Tactic.Push
import Mathlib.Algebra.Order.Ring.Rat
import Mathlib.Algebra.Field.Rat
import Verif.Model.Flow

/-!
# A maximum flow exists

Hence the contract `FlowLibOK` can be met: `bestFlowLib`.
-/

namespace BNS

set_option linter.unusedSectionVars false

section
variable {N : Type} [DecidableEq N]

/-! ## Paths without repetition -/

/-- A path without repetition from `s` to the index, its nodes listed backwards. -/
inductive RPath (R : N → N → Prop) (s : N) : N → List N → Prop
  | nil : RPath R s s [s]
  | cons {u v : N} {p : List N} : RPath R s u p → R u v → v ∉ p → RPath R s v (v :: p)

theorem RPath.head {R : N → N → Prop} {s v : N} {p : List N} (h : RPath R s v p) :
    ∃ q, p = v :: q := by
  cases h with
  | nil => exact ⟨[], rfl⟩
  | cons _ _ _ => exact ⟨_, rfl⟩

theorem RPath.sub {R : N → N → Prop} {s v : N} {p : List N} (h : RPath R s v p) :
    ∀ w ∈ p, ∃ p', RPath R s w p' := by
  induction h with
  | nil => intro w hw; simp at hw; subst hw; exact ⟨_, .nil⟩
  | cons h1 h2 h3 ih =>
    intro w hw
    rcases List.mem_cons.1 hw with rfl | hw
    · exact ⟨_, .cons h1 h2 h3⟩
    · exact ih w hw

theorem RPath.step {R : N → N → Prop} {s u v : N} {p : List N} (h : RPath R s u p) (hr : R u v) :
    ∃ p', RPath R s v p' := by
  by_cases hv : v ∈ p
  · exact h.sub v hv
  · exact ⟨_, .cons h hr hv⟩

theorem RPath.nodes {R : N → N → Prop} {s t : N} {p : List N} (hp : RPath R s t p) {nodes : Finset N}
    (hs : s ∈ nodes) (hR : ∀ u v, R u v → v ∈ nodes) : ∀ w ∈ p, w ∈ nodes := by
  induction hp with
  | nil => intro w hw; simp at hw; exact hw ▸ hs
  | cons h1 h2 h3 ih =>
    intro w hw
    rcases List.mem_cons.1 hw with rfl | hw
    · exact hR _ _ h2
    · exact ih w hw

/-- One unit sent along a path listed backwards. -/
def unitFlow : List N → N → N → ℤ
  | a :: b :: q, u, v => (if u = b ∧ v = a then 1 else 0) - (if u = a ∧ v = b then 1 else 0)
      + unitFlow (b :: q) u v
  | _, _, _ => 0

theorem unitFlow_anti (p : List N) (u v : N) : unitFlow p u v = - unitFlow p v u := by
  induction p with
  | nil => simp [unitFlow]
  | cons a p ih =>
    cases p with
    | nil => simp [unitFlow]
    | cons b q =>
      simp only [unitFlow]
      rw [ih]
      simp only [and_comm (a := v = b), and_comm (a := v = a)]
      ring

theorem unitFlow_notMem (p : List N) (u v : N) (h : u ∉ p) : unitFlow p u v = 0 := by
  induction p with
  | nil => simp [unitFlow]
  | cons a p ih =>
    cases p with
    | nil => simp [unitFlow]
    | cons b q =>
      simp only [List.mem_cons, not_or] at h
      simp only [unitFlow]
      rw [ih (by simp [h.2.1, h.2.2]), if_neg (fun hh => h.2.1 hh.1), if_neg (fun hh => h.1 hh.1)]
      simp

theorem unitFlow_le {R : N → N → Prop} {s t : N} {p : List N} (h : RPath R s t p) (u v : N) :
    unitFlow p u v ≤ 0 ∨ (unitFlow p u v = 1 ∧ R u v) := by
  induction h with
  | nil => left; simp [unitFlow]
  | @cons a b p h1 h2 h3 ih =>
    obtain ⟨q, rfl⟩ := h1.head
    have hab : b ≠ a := fun h => h3 (by simp [h])
    simp only [unitFlow]
    by_cases e1 : u = a ∧ v = b
    · right
      have e2 : ¬ (u = b ∧ v = a) := fun h => hab (h.1.symm.trans e1.1)
      rw [if_pos e1, if_neg e2, unitFlow_anti, unitFlow_notMem _ _ _ (e1.2 ▸ h3)]
      exact ⟨by simp, e1.1 ▸ e1.2 ▸ h2⟩
    · by_cases e2 : u = b ∧ v = a
      · left
        rw [if_neg e1, if_pos e2, unitFlow_notMem _ _ _ (e2.1 ▸ h3)]
        simp
      · rw [if_neg e1, if_neg e2]
        simpa using ih

theorem unitFlow_sum {R : N → N → Prop} {s t : N} {p : List N} (h : RPath R s t p) (nodes : Finset N)
    (hp : ∀ w ∈ p, w ∈ nodes) (u : N) :
    ∑ v ∈ nodes, unitFlow p u v = (if u = s then 1 else 0) - (if u = t then 1 else 0) := by
  induction h with
  | nil => simp [unitFlow]
  | @cons a b p h1 h2 h3 ih =>
    obtain ⟨q, rfl⟩ := h1.head
    have ih := ih fun w hw => hp w (List.mem_cons_of_mem _ hw)
    have hb : b ∈ nodes := hp b (by simp)
    have ha : a ∈ nodes := hp a (by simp)
    simp only [unitFlow, Finset.sum_add_distrib, Finset.sum_sub_distrib]
    rw [ih]
    have key : ∀ (x y : N), y ∈ nodes → ∑ v ∈ nodes, (if u = x ∧ v = y then (1 : ℤ) else 0)
        = if u = x then 1 else 0 := by
      intro x y hy
      by_cases hx : u = x
      · simp [hx, hy]
      · simp [hx]
    rw [key a b hb, key b a ha]
    ring

/-! ## Cuts -/

variable {nodes : Finset N} {c : N → N → ℚ} {s t : N}

theorem sum_anti (S : Finset N) (g : N → N → ℚ) (h : ∀ u v, g u v = - g v u) :
    ∑ u ∈ S, ∑ v ∈ S, g u v = 0 := by
  have h1 : ∑ u ∈ S, ∑ v ∈ S, g u v = - ∑ u ∈ S, ∑ v ∈ S, g u v := by
    conv_lhs => rw [Finset.sum_comm]
    rw [← Finset.sum_neg_distrib]
    refine Finset.sum_congr rfl fun u _ => ?_
    rw [← Finset.sum_neg_distrib]
    exact Finset.sum_congr rfl fun v _ => h v u
  linarith

theorem IsFlow.cut {g : N → N → ℚ} {val : ℚ} (h : IsFlow nodes c s t g val) (S : Finset N)
    (hS : S ⊆ nodes) (hs : s ∈ S) (ht : t ∉ S) :
    val = ∑ u ∈ S, ∑ v ∈ nodes \ S, g u v := by
  have h1 : ∑ u ∈ S, ∑ v ∈ nodes, g u v = val := by
    rw [Finset.sum_eq_single s]
    · exact h.out
    · intro u hu hus
      exact h.cons u (hS hu) hus (fun hh => ht (hh ▸ hu))
    · intro hh; exact absurd hs hh
  have h2 : ∑ u ∈ S, ∑ v ∈ nodes, g u v
      = ∑ u ∈ S, ∑ v ∈ nodes \ S, g u v + ∑ u ∈ S, ∑ v ∈ S, g u v := by
    rw [← Finset.sum_add_distrib]
    exact Finset.sum_congr rfl fun u _ => (Finset.sum_sdiff hS).symm
  rw [sum_anti S g h.anti, add_zero] at h2
  rw [← h1, h2]

theorem IsFlow.scale {g : N → N → ℚ} {val : ℚ} (h : IsFlow nodes c s t g val) {a : ℚ} (ha : 0 ≤ a) :
    IsFlow nodes (fun u v => a * c u v) s t (fun u v => a * g u v) (a * val) where
  anti u v := by rw [h.anti u v]; ring
  cap u v := mul_le_mul_of_nonneg_left (h.cap u v) ha
  cons u hu h1 h2 := by rw [← Finset.mul_sum, h.cons u hu h1 h2, mul_zero]
  out := by rw [← Finset.mul_sum, h.out]

/-- With integer capacities there is a maximum flow. -/
theorem exists_max_int (C : N → N → ℤ) (hC : ∀ u v, 0 ≤ C u v) (hs : s ∈ nodes) (hst : s ≠ t) :
    ∃ g val, IsFlow nodes (fun u v => (C u v : ℚ)) s t g val ∧
      ∀ g' val', IsFlow nodes (fun u v => (C u v : ℚ)) s t g' val' → val' ≤ val := by
  classical
  let P : ℤ → Prop := fun z => ∃ g : N → N → ℤ,
    IsFlow nodes (fun u v => (C u v : ℚ)) s t (fun u v => (g u v : ℚ)) z
  obtain ⟨z, ⟨g, hg⟩, hz⟩ : ∃ z, P z ∧ ∀ z', P z' → z' ≤ z := by
    refine Int.exists_greatest_of_bdd ⟨∑ v ∈ nodes, C s v, ?_⟩ ⟨0, fun _ _ => 0, ?_⟩
    · rintro z ⟨g, hg⟩
      have h1 := hg.out
      have h2 : ∑ v ∈ nodes, (g s v : ℚ) ≤ ∑ v ∈ nodes, (C s v : ℚ) :=
        Finset.sum_le_sum fun v _ => hg.cap s v
      rw [h1] at h2
      exact_mod_cast h2
    · exact ⟨fun _ _ => by simp, fun u v => by simpa using hC u v, fun _ _ _ _ => by simp, by simp⟩
  refine ⟨_, z, hg, ?_⟩
  let R : N → N → Prop := fun u v => v ∈ nodes ∧ g u v < C u v
  let S : Finset N := nodes.filter fun u => ∃ p, RPath R s u p
  have hsS : s ∈ S := Finset.mem_filter.2 ⟨hs, [s], .nil⟩
  have htS : t ∉ S := by
    intro ht
    obtain ⟨-, p, hp⟩ := Finset.mem_filter.1 ht
    have hpn : ∀ w ∈ p, w ∈ nodes := hp.nodes hs fun _ _ h => h.1
    have hsum := unitFlow_sum hp nodes hpn
    have : P (z + 1) := by
      refine ⟨fun u v => g u v + unitFlow p u v, ?_, ?_, ?_, ?_⟩
      · intro u v
        have h1 := hg.anti u v
        have h1' : g u v = - g v u := by exact_mod_cast h1
        have h2 := unitFlow_anti p u v
        have : g u v + unitFlow p u v = - (g v u + unitFlow p v u) := by omega
        exact_mod_cast this
      · intro u v
        have h1 : g u v ≤ C u v := by exact_mod_cast hg.cap u v
        have h2 := unitFlow_le hp u v
        have : g u v + unitFlow p u v ≤ C u v := by
          rcases h2 with h2 | ⟨h2, -, h3⟩
          · omega
          · omega
        exact_mod_cast this
      · intro u hu h1 h2
        have h3 : ∑ v ∈ nodes, g u v = 0 := by exact_mod_cast hg.cons u hu h1 h2
        have : ∑ v ∈ nodes, (g u v + unitFlow p u v) = 0 := by
          rw [Finset.sum_add_distrib, h3, hsum u, if_neg h1, if_neg h2]; simp
        exact_mod_cast this
      · have h3 : ∑ v ∈ nodes, g s v = z := by exact_mod_cast hg.out
        have : ∑ v ∈ nodes, (g s v + unitFlow p s v) = z + 1 := by
          rw [Finset.sum_add_distrib, h3, hsum s, if_pos rfl, if_neg hst]; simp
        exact_mod_cast this
    have := hz _ this
    omega
  have hsub : S ⊆ nodes := Finset.filter_subset _ _
  intro g' val' hg'
  rw [hg'.cut S hsub hsS htS, hg.cut S hsub hsS htS]
  refine Finset.sum_le_sum fun u hu => Finset.sum_le_sum fun v hv => ?_
  obtain ⟨hv1, hv2⟩ := Finset.mem_sdiff.1 hv
  obtain ⟨-, p, hp⟩ := Finset.mem_filter.1 hu
  have hnot : ¬ g u v < C u v := fun hlt =>
    hv2 (Finset.mem_filter.2 ⟨hv1, hp.step (show R u v from ⟨hv1, hlt⟩)⟩)
  have h1 : (C u v : ℚ) ≤ (g u v : ℚ) := by exact_mod_cast not_lt.1 hnot
  exact (hg'.cap u v).trans h1

/-- A common multiple of the denominators of the capacities between nodes. -/
theorem exists_denom (nodes : Finset N) (c : N → N → ℚ) (h0 : ∀ u v, u ∉ nodes ∨ v ∉ nodes → c u v = 0) :
    ∃ D : ℚ, 0 < D ∧ ∃ C : N → N → ℤ, ∀ u v, D * c u v = C u v := by
  let D : ℕ := ∏ u ∈ nodes, ∏ v ∈ nodes, (c u v).den
  refine ⟨D, ?_, ?_⟩
  · have : 0 < D := Finset.prod_pos fun u _ => Finset.prod_pos fun v _ => (c u v).den_pos
    exact_mod_cast this
  · have : ∀ u v, ∃ z : ℤ, (D : ℚ) * c u v = z := by
      intro u v
      by_cases hu : u ∈ nodes
      · by_cases hv : v ∈ nodes
        · obtain ⟨m, hm⟩ : (c u v).den ∣ D :=
            (Finset.dvd_prod_of_mem (fun v => (c u v).den) hv).trans
              (Finset.dvd_prod_of_mem (fun u => ∏ v ∈ nodes, (c u v).den) hu)
          refine ⟨m * (c u v).num, ?_⟩
          have h1 : ((c u v).den : ℚ) * c u v = (c u v).num := by
            rw [mul_comm]; exact Rat.mul_den_eq_num _
          rw [hm]
          push_cast
          rw [← h1]; ring
        · exact ⟨0, by rw [h0 u v (.inr hv)]; simp⟩
      · exact ⟨0, by rw [h0 u v (.inl hu)]; simp⟩
    choose C hC using this
    exact ⟨C, hC⟩

theorem exists_max_flow (hc : ∀ u v, 0 ≤ c u v) (h0 : ∀ u v, u ∉ nodes ∨ v ∉ nodes → c u v = 0)
    (hs : s ∈ nodes) (hst : s ≠ t) :
    ∃ g val, IsFlow nodes c s t g val ∧ ∀ g' val', IsFlow nodes c s t g' val' → val' ≤ val := by
  obtain ⟨D, hD, C, hC⟩ := exists_denom nodes c h0
  have hcap : (fun u v => (C u v : ℚ)) = fun u v => D * c u v := by
    funext u v; exact (hC u v).symm
  have hC0 : ∀ u v, 0 ≤ C u v := by
    intro u v
    have : (0 : ℚ) ≤ C u v := by rw [← hC]; exact mul_nonneg hD.le (hc u v)
    exact_mod_cast this
  obtain ⟨g, val, h1, h2⟩ := exists_max_int C hC0 hs hst
  rw [hcap] at h1 h2
  refine ⟨fun u v => D⁻¹ * g u v, D⁻¹ * val, ?_, ?_⟩
  · have := h1.scale (inv_nonneg.2 hD.le)
    have e : (fun u v => D⁻¹ * (D * c u v)) = c := by
      funext u v; rw [← mul_assoc, inv_mul_cancel₀ hD.ne', one_mul]
    rwa [e] at this
  · intro g' val' h'
    have := h2 _ _ (h'.scale hD.le)
    have h3 : D⁻¹ * (D * val') ≤ D⁻¹ * val := mul_le_mul_of_nonneg_left this (inv_nonneg.2 hD.le)
    rwa [← mul_assoc, inv_mul_cancel₀ hD.ne', one_mul] at h3

/-! ## A library -/

theorem capOf_nonneg {G : CapGraph N} (h : ∀ e ∈ G, 0 ≤ e.2.2) (u v : N) : 0 ≤ capOf G u v := by
  unfold capOf
  cases hf : G.find? fun e => decide (Joins e u v) with
  | none => exact le_refl _
  | some e => exact h e (List.mem_of_find?_eq_some hf)

theorem mem_nodesOf {G : CapGraph N} {n : N} : n ∈ nodesOf G ↔ ∃ e ∈ G, e.1 = n ∨ e.2.1 = n := by
  simp only [nodesOf, List.mem_toFinset, List.mem_flatMap, List.mem_cons, List.not_mem_nil, or_false]
  constructor <;> rintro ⟨e, he, h⟩ <;> exact ⟨e, he, h.imp Eq.symm Eq.symm⟩

theorem capOf_outside (G : CapGraph N) (u v : N) (h : u ∉ nodesOf G ∨ v ∉ nodesOf G) :
    capOf G u v = 0 := by
  unfold capOf
  cases hf : G.find? fun e => decide (Joins e u v) with
  | none => rfl
  | some e =>
    exfalso
    have he := List.mem_of_find?_eq_some hf
    have hj : Joins e u v := by simpa using List.find?_some hf
    rcases h with h | h <;> refine h (mem_nodesOf.2 ⟨e, he, ?_⟩) <;>
      rcases hj with ⟨h1, h2⟩ | ⟨h1, h2⟩ <;> simp [h1, h2]

open Classical in
/-- Some maximum flow, where there is one. -/
noncomputable def bestFlowLib : FlowLib N := fun G s t =>
  if h : (∃ r : (N → N → ℚ) × ℚ, IsFlow (nodesOf G) (capOf G) s t r.1 r.2 ∧
      ∀ g' val', IsFlow (nodesOf G) (capOf G) s t g' val' → val' ≤ r.2) ∧
      s ∈ nodesOf G ∧ t ∈ nodesOf G ∧ s ≠ t
  then .ok (h.1.choose.2, fun u v => max (h.1.choose.1 u v) 0)
  else .error .graph

theorem bestFlowLib_ok : FlowLibOK (bestFlowLib : FlowLib N) where
  best G s t hG hs ht hst := by
    obtain ⟨g, val, h1, h2⟩ := exists_max_flow (capOf_nonneg hG) (capOf_outside G) hs hst
    have h : (∃ r : (N → N → ℚ) × ℚ, IsFlow (nodesOf G) (capOf G) s t r.1 r.2 ∧
      ∀ g' val', IsFlow (nodesOf G) (capOf G) s t g' val' → val' ≤ r.2) ∧
      s ∈ nodesOf G ∧ t ∈ nodesOf G ∧ s ≠ t := ⟨⟨(g, val), h1, h2⟩, hs, ht, hst⟩
    refine ⟨h.1.choose.2, h.1.choose.1, ?_, h.1.choose_spec.1, h.1.choose_spec.2⟩
    unfold bestFlowLib
    rw [dif_pos h]
  raises G s t h := by
    unfold bestFlowLib
    rw [dif_neg]
    rintro ⟨-, h1, h2, h3⟩
    rcases h with h | h | h
    · exact h h1
    · exact h h2
    · exact h3 h

end

end BNS
