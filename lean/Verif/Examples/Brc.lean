import Verif.Spec.Brc
import Mathlib.Tactic.NormNum
import Mathlib.Algebra.BigOperators.Fin

/-!
# Concrete BRC inputs used to show that the theorems' hypotheses are met

Three components with 2, 3 and 2 states; the system survives when component 0 works and component 1
is at least in state 1 or component 2 works.
-/

namespace BNS.Ex

/-- The components. -/
def vs : List (ℕ × ℕ) := [(0, 2), (1, 3), (2, 2)]

/-- The system. -/
def Φ (x : ℕ → ℕ) : Bool := decide (1 ≤ x 0 ∧ (1 ≤ x 1 ∨ 1 ≤ x 2))

/-- Component probabilities. -/
def probs (k i : ℕ) : ℚ :=
  match k, i with
  | 0, 0 => 1 / 10
  | 0, 1 => 9 / 10
  | 1, 0 => 2 / 10
  | 1, 1 => 3 / 10
  | 1, 2 => 5 / 10
  | 2, 0 => 3 / 10
  | 2, 1 => 7 / 10
  | _, _ => 0

/-- A system function without minimal states. -/
def sysFun (x : ℕ → ℕ) : SysRes ℕ := { val := 0, st := if Φ x then .s else .f, min := [] }

/-- Some rules. -/
def rules : Rules ℕ := { s := [[(0, 1), (1, 1)]], f := [[(0, 0)]] }

theorem vs_ok : VarisOK vs := ⟨by decide, by decide⟩

theorem coherent : Coherent vs Φ := by
  intro x y h hx
  have h0 := h (0, 2) (by decide)
  have h1 := h (1, 3) (by decide)
  have h2 := h (2, 2) (by decide)
  simp only [Φ, decide_eq_true_eq] at hx ⊢
  simp only at h0 h1 h2
  omega

theorem probs_ok : ProbOK vs probs := by
  refine ⟨?_, ?_⟩
  · decide +kernel
  · decide +kernel

theorem sysFun_ok : SysOK vs Φ sysFun :=
  ⟨fun _ _ => rfl, fun _ _ h => absurd rfl h, fun _ _ h => absurd rfl h, fun _ _ h => absurd rfl h⟩

theorem rules_dict : RulesDict vs rules := by
  intro r hr
  simp only [rules, List.cons_append, List.nil_append, List.mem_cons, List.not_mem_nil,
    or_false] at hr
  rcases hr with rfl | rfl
  · exact ⟨by decide, by decide⟩
  · exact ⟨by decide, by decide⟩

theorem rules_valid : RulesValid vs Φ rules := by
  constructor
  · intro r hr x _ ha
    simp only [rules, List.mem_singleton] at hr
    subst hr
    have h0 := ha (0, 1) (by decide)
    have h1 := ha (1, 1) (by decide)
    simp only at h0 h1
    simp only [Φ, decide_eq_true_eq]
    omega
  · intro r hr x _ ha
    simp only [rules, List.mem_singleton] at hr
    subst hr
    have h0 := ha (0, 0) (by decide)
    simp only at h0
    simp only [Φ, decide_eq_false_iff_not]
    omega

end BNS.Ex
