import Verif.Proofs.BrcBox
import Mathlib.Algebra.BigOperators.Group.List.Basic

/-! Helper lemmas: probabilities with the components in another order and with further components. -/

namespace BNS

set_option linter.unusedSectionVars false

variable {K : Type} [DecidableEq K]

theorem weight_append (vs ws : List (K × ℕ)) (p : K → ℕ → ℚ) (x : K → ℕ) :
    weight (vs ++ ws) p x = weight vs p x * weight ws p x := by
  simp [weight]

theorem sum_weight {ws : List (K × ℕ)} (hn : (ws.map Prod.fst).Nodup) {p : K → ℕ → ℚ}
    (ht : ∀ kn ∈ ws, ∑ i ∈ Finset.range kn.2, p kn.1 i = 1) (x : K → ℕ) :
    sumOver ws (weight ws p) x = 1 := by
  have h := sumOver_prod ws hn p x
  have e : (fun y : K → ℕ => (ws.map fun kn => p kn.1 (y kn.1)).prod) = weight ws p := rfl
  rw [e] at h
  rw [h, List.map_congr_left ht]
  simp

/-- An event about the components `vs` has the same probability whatever the order of the components
and whichever components are added. -/
theorem probOf_extra {vs vs' extra : List (K × ℕ)} (hperm : vs'.Perm (vs ++ extra))
    (hv' : VarisOK vs') {p p' : K → ℕ → ℚ} (hp' : ProbOK vs' p')
    (hpp : ∀ kn ∈ vs, ∀ i < kn.2, p' kn.1 i = p kn.1 i) {E : (K → ℕ) → Prop} [DecidablePred E]
    (hE : ∀ x y, (∀ kn ∈ vs, x kn.1 = y kn.1) → E x → E y) :
    probOf vs' p' E = probOf vs p E := by
  have hn : ((vs ++ extra).map Prod.fst).Nodup := (hperm.map Prod.fst).nodup_iff.1 hv'.nodup
  rw [List.map_append, List.nodup_append] at hn
  obtain ⟨hn1, hn2, hdis⟩ := hn
  have hEq : ∀ x y, (∀ kn ∈ vs, x kn.1 = y kn.1) → (E x ↔ E y) :=
    fun x y h => ⟨hE x y h, hE y x fun kn hk => (h kn hk).symm⟩
  unfold probOf
  rw [sumOver_perm hperm hv'.nodup, sumOver_append]
  have h1 : (fun y : K → ℕ => if E y then weight vs' p' y else 0) =
      fun y => (if E y then weight vs p' y else 0) * weight extra p' y := by
    funext y
    have : weight vs' p' y = weight vs p' y * weight extra p' y := by
      rw [← weight_append]
      exact (hperm.map fun kn => p' kn.1 (y kn.1)).prod_eq
    by_cases hy : E y <;> simp [hy, this]
  rw [h1]
  refine sumOver_congr' vs hn1 _ fun y hy _ => ?_
  rw [sumOver_mul_indep extra (weight extra p') (fun y => if E y then weight vs p' y else 0) y,
    sum_weight hn2 (fun kn hk => hp'.total kn (hperm.mem_iff.2 (List.mem_append_right _ hk))), mul_one]
  · have : weight vs p' y = weight vs p y := by
      unfold weight
      rw [List.map_congr_left fun kn hk => hpp kn hk _ (hy kn hk)]
    rw [this]
  · intro z z' hz
    have hz' : ∀ kn ∈ vs, z kn.1 = z' kn.1 := by
      intro kn hk
      refine hz _ fun hm => ?_
      exact hdis _ (List.mem_map_of_mem hk) _ hm rfl
    have hw : weight vs p' z = weight vs p' z' := by
      unfold weight
      rw [List.map_congr_left fun kn hk => by rw [hz' kn hk]]
    rw [hw]
    exact if_congr (hEq z z' hz') rfl rfl

end BNS
