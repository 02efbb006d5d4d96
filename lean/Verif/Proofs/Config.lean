import Verif.Proofs.Files
import Verif.Model.Config

/-!
# Lemmas about dictionaries of configuration entries
-/

namespace BNS

set_option linter.unusedSectionVars false

section
variable {K : Type} [DecidableEq K]

theorem cfg_lookup_mem {V : Type} {A : Type} [DecidableEq A] {d : List (A × V)} {k : A} {v : V}
    (h : d.lookup k = some v) : k ∈ d.map Prod.fst := by
  induction d with
  | nil => simp at h
  | cons e d ih =>
    rw [List.lookup_cons] at h
    by_cases hk : k = e.1
    · simp [hk]
    · have : (k == e.1) = false := by simpa using hk
      rw [this] at h
      simp [ih h]

theorem cfg_mem_lookup {V : Type} {A : Type} [DecidableEq A] {d : List (A × V)} {k : A}
    (h : k ∈ d.map Prod.fst) : ∃ v, d.lookup k = some v := by
  induction d with
  | nil => simp at h
  | cons e d ih =>
    rw [List.lookup_cons]
    by_cases hk : k = e.1
    · simp [hk]
    · have : (k == e.1) = false := by simpa using hk
      rw [this]
      simp only [List.map_cons, List.mem_cons, hk, false_or] at h
      exact ih h

theorem cfg_lookup_pop {d : List (CfgKey K × CfgVal K)} {k k' : CfgKey K} (h : k ≠ k') :
    (cfgPop d k').lookup k = d.lookup k := by
  induction d with
  | nil => rfl
  | cons e d ih =>
    unfold cfgPop at ih ⊢
    by_cases he : e.1 = k'
    · rw [List.filter_cons_of_neg (by simp [he]), ih, List.lookup_cons]
      have : (k == e.1) = false := by rw [he]; simpa using h
      rw [this]
    · rw [List.filter_cons_of_pos (by simp [he]), List.lookup_cons, List.lookup_cons, ih]

theorem cfg_foldl_pop (d : List (CfgKey K × CfgVal K)) (ks : List (CfgKey K)) :
    ks.foldl cfgPop d = d.filter fun e => e.1 ∉ ks := by
  induction ks generalizing d with
  | nil => simp
  | cons k ks ih =>
    rw [List.foldl_cons, ih, cfgPop, List.filter_filter]
    refine List.filter_congr fun e _ => ?_
    by_cases h1 : e.1 = k <;> by_cases h2 : e.1 ∈ ks <;> simp [h1, h2]

end

end BNS
