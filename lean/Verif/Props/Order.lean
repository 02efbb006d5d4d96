import Verif.Proofs.Order
import Verif.Proofs.SampleOrder
import Verif.Examples.Cpm

/-!
# Properties C42 (relevant variables) and C43 (sampling order)
-/

namespace BNS

set_option linter.unusedSectionVars false

variable {K : Type} [DecidableEq K]

/-- `get_inf_vars` terminates on every network, cyclic or not.  When every relevant name has a CPM
it returns the given names followed by new ones, each once: exactly the given names and their
ancestors.  When some relevant name has no CPM it raises `KeyError`. -/
theorem C42_relevant (cpms : List (K × Cpm K)) (varis : List K) :
    ((∀ k, Relevant cpms varis k → ∃ M, cpms.lookup k = some M) →
      ∃ r, getInfVars cpms varis none = .ok r ∧ (∀ k, k ∈ r ↔ Relevant cpms varis k) ∧
        (varis.Nodup → r.Nodup) ∧ varis <+: r) ∧
    ((∃ k, Relevant cpms varis k ∧ cpms.lookup k = none) →
      getInfVars cpms varis none = .error .key) := by
  rcases eq_or_ne varis [] with rfl | hv
  · refine ⟨fun _ => ⟨[], ?_, ?_, ?_, ?_⟩, ?_⟩
    · unfold getInfVars
      cases h : cpms.length + ([] : List K).length <;> rfl
    · intro k; simp [Relevant]
    · simp
    · simp
    · rintro ⟨k, ⟨v, hv, -⟩, -⟩
      simp at hv
  have h0 : InfInv cpms varis [] [] varis :=
    { split := by simp
      nodup := List.nodup_nil
      fresh := by simp
      known := by simp
      reach := fun k hk => ⟨k, by simpa using hk, .refl⟩
      closed := by simp }
  have h := infLoop_spec cpms varis hv _ [] varis [] h0 (by rw [List.length_nil, Nat.add_zero])
  unfold getInfVars
  rcases h with ⟨ext, h1, h2⟩ | ⟨h1, k, hk, hl⟩
  · refine ⟨fun _ => ⟨varis ++ ext, ?_, fun k => h2.complete, fun hn => ?_, List.prefix_append _ _⟩,
      ?_⟩
    · rw [h1]; rfl
    · refine List.nodup_append.2 ⟨hn, h2.nodup, ?_⟩
      rintro a ha b hb rfl
      exact h2.fresh a hb ha
    · rintro ⟨k, hk, hl⟩
      obtain ⟨M, hM⟩ := h2.known k (h2.complete.2 hk)
      rw [hM] at hl
      cases hl
  · refine ⟨fun hall => ?_, fun _ => by rw [h1]; rfl⟩
    obtain ⟨M, hM⟩ := hall k hk
    rw [hM] at hl
    cases hl

/-- With an elimination order, the same names sorted by their position in it (absent names last);
ties keep the order of discovery. -/
theorem C42_ordered (cpms : List (K × Cpm K)) (varis o : List K)
    (h : ∀ k, Relevant cpms varis k → ∃ M, cpms.lookup k = some M) :
    ∃ r, getInfVars cpms varis (some o) = .ok r ∧ (∀ k, k ∈ r ↔ Relevant cpms varis k) ∧
      (varis.Nodup → r.Nodup) ∧
      r.Pairwise (fun a b => b ∈ o → a ∈ o ∧ o.idxOf a ≤ o.idxOf b) := by
  obtain ⟨r, h1, h2, h3, -⟩ := (C42_relevant cpms varis).1 h
  have hr : infLoop cpms (cpms.length + varis.length) varis [] = .ok r := by
    unfold getInfVars at h1
    obtain ⟨r', e1, e2⟩ := bind_ok.1 h1
    cases e2
    exact e1
  have hp := List.perm_insertionSort (fun a b : K => o.idxOf a ≤ o.idxOf b) r
  refine ⟨r.insertionSort fun a b => o.idxOf a ≤ o.idxOf b, ?_, fun k => ?_, fun hn => ?_, ?_⟩
  · unfold getInfVars
    rw [hr]; rfl
  · rw [hp.mem_iff, h2]
  · exact hp.nodup_iff.2 (h3 hn)
  · have : Std.Total (fun a b : K => o.idxOf a ≤ o.idxOf b) := ⟨fun a b => le_total _ _⟩
    have : IsTrans K (fun a b : K => o.idxOf a ≤ o.idxOf b) := ⟨fun _ _ _ => le_trans⟩
    refine (List.pairwise_insertionSort (fun a b : K => o.idxOf a ≤ o.idxOf b) r).imp ?_
    intro a b hab hb
    exact ⟨List.idxOf_lt_length_iff.1 (hab.trans_lt (List.idxOf_lt_length_iff.2 hb)), hab⟩

/-- Non-vacuity of C42, and a cyclic network: 0 and 2 are each other's parent, 1 depends on both. -/
def Ex.cyc : List (ℕ × Cpm ℕ) :=
  [(0, { vars := [Ex.U 0, Ex.U 2], noChild := 1, C := [], p := [] }), (2, Ex.B), (1, Ex.D),
    (5, { vars := [Ex.U 5, Ex.U 1], noChild := 1, C := [], p := [] })]

example : (∀ k, Relevant Ex.cyc [1] k → ∃ M, Ex.cyc.lookup k = some M) ∧
    getInfVars Ex.cyc [1] none = .ok [1, 2, 0] ∧
    getInfVars Ex.cyc [1] (some [0, 1]) = .ok [0, 1, 2] := by
  refine ⟨?_, by decide +kernel, by decide +kernel⟩
  rintro k ⟨v, hv, hr⟩
  have : k ∈ [0, 1, 2] := by
    induction hr with
    | refl => simp at hv; simp [hv]
    | tail _ hp ih =>
      obtain ⟨M, hM, hp⟩ := hp
      simp only [List.mem_cons, List.not_mem_nil, or_false] at ih
      rcases ih with rfl | rfl | rfl
      · obtain rfl : _ = M := Option.some.inj hM
        revert hp
        simp [Ex.U, Variable.mk']
        grind
      · obtain rfl : _ = M := Option.some.inj hM
        revert hp
        simp [Ex.D, Ex.U, Variable.mk']
        grind
      · obtain rfl : _ = M := Option.some.inj hM
        revert hp
        simp [Ex.B, Ex.U, Variable.mk']
        grind
  simp only [List.mem_cons, List.not_mem_nil, or_false] at this
  rcases this with rfl | rfl | rfl <;> exact ⟨_, rfl⟩

/-- For an acyclic network in which every parent is the child of some CPM and no variable is defined
twice, the order lists every CPM exactly once, each after the CPMs that define its parents; the
variables are listed in that order, and `var_add_order` gives for each the position of its CPM in
the order. -/
theorem C43_topological (cpms : List (Cpm K)) (h : OrderOK cpms) :
    (getSampleOrder cpms).order.Perm (List.range cpms.length) ∧
    (∀ before i after, (getSampleOrder cpms).order = before ++ i :: after →
      ∀ v ∈ parentsAt cpms i, ∃ j ∈ before, v ∈ (childrenAt cpms j).map Variable.name) ∧
    (getSampleOrder cpms).vars = (getSampleOrder cpms).order.flatMap (childrenAt cpms) ∧
    (getSampleOrder cpms).addOrder = (getSampleOrder cpms).order.zipIdx.flatMap
      fun p => (childrenAt cpms p.1).map fun _ => p.2 := by
  obtain ⟨st, hst, e⟩ := getSampleOrder_inv h
  rw [e]
  refine ⟨?_, hst.before, hst.vars, hst.add⟩
  have hlen := hst.perm.length_eq
  rw [List.length_append, List.length_map, List.length_range, hst.len] at hlen
  have : st.1 = [] := List.length_eq_zero_iff.1 (by omega)
  have hp := hst.perm
  rwa [this, List.map_nil, List.append_nil] at hp

/-- Non-vacuity of C43: the example network, listed in the wrong order. -/
theorem Ex.order_ok : OrderOK [Ex.D, Ex.B, Ex.A] where
  acyclic := by
    -- a CPM depends on later ones only
    have hlt : ∀ a b : Fin 3, DependsOn [Ex.D, Ex.B, Ex.A][a] [Ex.D, Ex.B, Ex.A][b] → a < b := by
      unfold DependsOn
      decide +kernel
    intro i hi
    have : ∀ a b : Fin 3, Relation.TransGen
        (fun a b : Fin 3 => DependsOn [Ex.D, Ex.B, Ex.A][a] [Ex.D, Ex.B, Ex.A][b]) a b → a < b := by
      intro a b hab
      induction hab with
      | single h => exact hlt _ _ h
      | tail _ h ih => exact ih.trans (hlt _ _ h)
    exact lt_irrefl _ (this i i hi)
  defined := by decide +kernel
  disjoint := by decide +kernel

example : (getSampleOrder [Ex.D, Ex.B, Ex.A]).order = [2, 1, 0] := by decide +kernel

end BNS
