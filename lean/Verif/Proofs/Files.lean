import Verif.Model.Files
import Verif.Proofs.ReadModel
import Verif.Proofs.ByOd
import Mathlib.Analysis.Real.Sqrt

/-!
# Lemmas on the functions that write files
-/

namespace BNS

set_option linter.unusedSectionVars false

section
variable {K V : Type} [DecidableEq K]

theorem itemSet_fresh {d : List (K × V)} {k : K} (h : k ∉ d.map Prod.fst) (v : V) :
    itemSet d k v = d ++ [(k, v)] := by
  unfold itemSet
  rw [if_neg h]

theorem jsonItems_go (key : K → K) (d acc : List (K × V))
    (hn : (acc.map Prod.fst ++ d.map fun kv => key kv.1).Nodup) :
    d.foldl (fun acc kv => itemSet acc (key kv.1) kv.2) acc =
      acc ++ d.map fun kv => (key kv.1, kv.2) := by
  induction d generalizing acc with
  | nil => simp
  | cons a d ih =>
    rw [List.foldl_cons, itemSet_fresh, ih]
    · simp
    · simpa using hn
    · intro hmem
      rw [List.map_cons, List.nodup_append] at hn
      exact hn.2.2 _ hmem _ List.mem_cons_self rfl

/-- Keys that stay distinct: every entry survives, with its key converted. -/
theorem jsonItems_map (key : K → K) {d : List (K × V)} (hn : (d.map fun kv => key kv.1).Nodup) :
    jsonItems key d = d.map fun kv => (key kv.1, kv.2) := by
  unfold jsonItems
  rw [jsonItems_go key d [] (by simpa using hn)]
  simp

theorem jsonItems_same {key : K → K} {d : List (K × V)} (hn : (d.map Prod.fst).Nodup)
    (hk : ∀ kv ∈ d, key kv.1 = kv.1) : jsonItems key d = d := by
  have h1 : (d.map fun kv => key kv.1) = d.map Prod.fst := List.map_congr_left hk
  rw [jsonItems_map key (by rw [h1]; exact hn)]
  conv_rhs => rw [← List.map_id d]
  exact List.map_congr_left fun kv h => by rw [hk kv h]; rfl

theorem itemsGet_some {d : List (K × V)} {k : K} {v : V} (h : d.lookup k = some v) :
    itemsGet d k = .ok v := by
  unfold itemsGet dictGet
  simp only [h]

theorem itemsGet_none {d : List (K × V)} {k : K} (h : d.lookup k = none) :
    itemsGet d k = .error .key := by
  unfold itemsGet dictGet
  simp only [h]

theorem lookup_itemSet (d : List (K × V)) (k j : K) (v : V) :
    (itemSet d k v).lookup j = if j = k then some v else d.lookup j := by
  unfold itemSet
  split
  · rename_i hmem
    induction d with
    | nil => simp at hmem
    | cons a d ih =>
      rw [List.map_cons, List.lookup_cons, List.lookup_cons]
      by_cases hak : a.1 = k
      · rw [if_pos hak]
        by_cases hjk : j = k
        · subst hjk; simp
        · rw [if_neg hjk]
          have h1 : (j == k) = false := beq_false_of_ne hjk
          have h2 : (j == a.1) = false := beq_false_of_ne (hak ▸ hjk)
          simp only [h1, h2]
          by_cases hin : k ∈ d.map Prod.fst
          · rw [ih hin, if_neg hjk]
          · congr 1
            conv_rhs => rw [← List.map_id d]
            refine List.map_congr_left fun kv hkv => ?_
            have hne : kv.1 ≠ k := fun e => hin (by rw [← e]; exact List.mem_map_of_mem hkv)
            rw [if_neg hne]
            rfl
      · rw [if_neg hak]
        have hin : k ∈ d.map Prod.fst := by
          rw [List.map_cons] at hmem
          exact (List.mem_cons.1 hmem).resolve_left (Ne.symm hak)
        rw [ih hin]
        by_cases hja : j = a.1
        · have hjk : j ≠ k := by rw [hja]; exact hak
          have h2 : (j == a.1) = true := by rw [hja]; exact beq_self_eq_true _
          simp only [h2, if_neg hjk]
        · have h2 : (j == a.1) = false := beq_false_of_ne hja
          simp only [h2]
  · rename_i hmem
    induction d with
    | nil =>
      rw [List.nil_append, List.lookup_cons]
      by_cases hjk : j = k
      · subst hjk; simp
      · rw [beq_false_of_ne hjk, if_neg hjk]
    | cons a d ih =>
      rw [List.map_cons, List.mem_cons, not_or] at hmem
      rw [List.cons_append, List.lookup_cons, List.lookup_cons, ih hmem.2]
      by_cases hja : j = a.1
      · subst hja
        simp [Ne.symm hmem.1]
      · have h2 : (j == a.1) = false := beq_false_of_ne hja
        simp only [h2]

theorem lookup_itemsUpdate (d v : List (K × V)) (hn : (v.map Prod.fst).Nodup) (j : K) :
    (itemsUpdate d v).lookup j = (v.lookup j).or (d.lookup j) := by
  unfold itemsUpdate
  induction v generalizing d with
  | nil => simp
  | cons a v ih =>
    rw [List.map_cons, List.nodup_cons] at hn
    rw [List.foldl_cons, ih _ hn.2, lookup_itemSet, List.lookup_cons]
    by_cases hja : j = a.1
    · subst hja
      have : v.lookup a.1 = none := by
        rw [List.lookup_eq_none_iff]
        intro p hp
        simp only [bne_iff_ne, ne_eq]
        intro e
        exact hn.1 (e ▸ List.mem_map_of_mem hp)
      simp [this]
    · have h2 : (j == a.1) = false := beq_false_of_ne hja
      rw [if_neg hja]
      simp only [h2]

end

/-! ### Lengths in the plane -/

theorem sqrt_triangle (x y z w : ℝ) :
    √((x + z) ^ 2 + (y + w) ^ 2) ≤ √(x ^ 2 + y ^ 2) + √(z ^ 2 + w ^ 2) := by
  rw [Real.sqrt_le_left (by positivity)]
  have h1 := Real.sq_sqrt (show 0 ≤ x ^ 2 + y ^ 2 by positivity)
  have h2 := Real.sq_sqrt (show 0 ≤ z ^ 2 + w ^ 2 by positivity)
  have h3 : x * z + y * w ≤ √(x ^ 2 + y ^ 2) * √(z ^ 2 + w ^ 2) := by
    rw [← Real.sqrt_mul (by positivity)]
    refine Real.le_sqrt_of_sq_le ?_
    nlinarith [sq_nonneg (x * w - y * z)]
  nlinarith

theorem arcLength_triangle (p q r : ℝ × ℝ) :
    arcLength Real.sqrt p r ≤ arcLength Real.sqrt p q + arcLength Real.sqrt q r := by
  have := sqrt_triangle (p.1 - q.1) (p.2 - q.2) (q.1 - r.1) (q.2 - r.2)
  unfold arcLength
  rwa [sub_add_sub_cancel, sub_add_sub_cancel] at this

theorem arcLength_comm (p q : ℝ × ℝ) : arcLength Real.sqrt p q = arcLength Real.sqrt q p := by
  unfold arcLength
  congr 1
  ring

end BNS
