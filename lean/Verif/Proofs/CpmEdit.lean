import Verif.Spec.CpmEdit
import Verif.Proofs.Monad
import Mathlib.Tactic.Tauto

/-!
# Lemmas on the attributes of CPMs
-/

namespace BNS

set_option linter.unusedSectionVars false

section
variable {K : Type}

/-- What both checks of a matrix compute. -/
theorem checkMat_iff (bound : Variable K → ℕ) (scope : List (Variable K)) (C : List (List ℕ)) :
    (if C.flatten = [] then (.ok () : Except Err Unit)
      else if ¬ C.Pairwise (fun a b => a.length = b.length) then .error .value
      else if C.all (fun r => r.length = scope.length) &&
        C.all (fun r => (scope.zip r).all fun vs => vs.2 ≤ bound vs.1) then .ok ()
      else .error .assertion) = .ok () ↔ MatOK bound scope C := by
  unfold MatOK
  by_cases h0 : C.flatten = []
  · simp [h0]
  · rw [if_neg h0]
    constructor
    · intro h
      split at h
      · cases h
      · split at h
        · rename_i h2
          simp only [Bool.and_eq_true, List.all_eq_true, decide_eq_true_eq] at h2
          refine Or.inr fun r hr => ⟨h2.1 r hr, fun i v x hv hx => ?_⟩
          exact h2.2 r hr (v, x) (List.mem_of_getElem? (List.getElem?_zip_eq_some.2 ⟨hv, hx⟩))
        · cases h
    · rintro (h | h)
      · exact absurd h h0
      · have h1 : C.Pairwise (fun a b => a.length = b.length) := by
          rw [List.pairwise_iff_getElem]
          intro i j hi hj _
          rw [(h _ (List.getElem_mem hi)).1, (h _ (List.getElem_mem hj)).1]
        rw [if_neg (not_not.2 h1), if_pos]
        simp only [Bool.and_eq_true, List.all_eq_true, decide_eq_true_eq]
        refine ⟨fun r hr => (h r hr).1, fun r hr vs hvs => ?_⟩
        obtain ⟨i, hi⟩ := List.getElem?_of_mem hvs
        have := List.getElem?_zip_eq_some.1 hi
        exact (h r hr).2 i vs.1 vs.2 this.1 this.2

theorem checkC_iff (scope : List (Variable K)) (C : List (List ℕ)) :
    checkC scope C = .ok () ↔ MatOK (fun v => 2 ^ v.values.length - 1) scope C :=
  checkMat_iff (fun v => 2 ^ v.values.length - 1) scope C

theorem checkCs_iff (scope : List (Variable K)) (C : List (List ℕ)) :
    checkCs scope C = .ok () ↔ MatOK (fun v => v.values.length) scope C :=
  checkMat_iff (fun v => v.values.length) scope C

theorem pyAssert_iff {b : Prop} [Decidable b] : pyAssert b = .ok () ↔ b := by
  unfold pyAssert
  by_cases h : b <;> simp [h]

/-- A check followed by a result. -/
theorem check_then {α : Type} {e : Except Err Unit} {x y : α} :
    (e >>= fun _ => (pure x : Except Err α)) = .ok y ↔ e = .ok () ∧ x = y := by
  cases e with
  | error e => simp [bind, Except.bind]
  | ok u => simp [bind, Except.bind, pure, Except.pure]

theorem MatOK.of_lengths {bound : ℕ → ℕ} {vs ws : List (Variable K)} {C : List (List ℕ)}
    (h : MatOK (fun v => bound v.values.length) vs C)
    (hl : ws.map (fun v => v.values.length) = vs.map fun v => v.values.length) :
    MatOK (fun v => bound v.values.length) ws C := by
  rcases h with h | h
  · exact .inl h
  · have hlen : ws.length = vs.length := by simpa using congrArg List.length hl
    refine .inr fun r hr => ⟨by rw [(h r hr).1, hlen], fun i v x hv hx => ?_⟩
    have hi : i < vs.length := by
      rw [← hlen]
      exact (List.getElem?_eq_some_iff.1 hv).1
    have h1 : (ws.map fun v => v.values.length)[i]? = (vs.map fun v => v.values.length)[i]? := by
      rw [hl]
    rw [List.getElem?_map, List.getElem?_map, hv, List.getElem?_eq_getElem hi] at h1
    simp only [Option.map_some, Option.some.injEq] at h1
    show x ≤ bound v.values.length
    rw [h1]
    exact (h r hr).2 i _ x (List.getElem?_eq_getElem hi) hx

theorem perRow_of_length {α : Type} {x : List α} {C D : List (List ℕ)} (h : PerRow x C)
    (hl : D.length = C.length) : PerRow x D := by
  rcases h with h | h
  · exact .inl h
  · exact .inr (by rw [h, hl])

/-- A refused assignment leaves the object as it was; an accepted one is what `assign` says. -/
theorem edit_cases (M : Cpm K) (op : CpmOp K) : M.edit op = M ∨ M.assign op = .ok (M.edit op) := by
  unfold Cpm.edit
  cases M.assign op <;> simp

theorem assign_safe {M M' : Cpm K} {op : CpmOp K} (hM : FieldsFit M) (hs : Safe M op)
    (h : M.assign op = .ok M') : FieldsFit M' := by
  cases op with
  | scope vs =>
    simp only [Cpm.assign, Except.ok.injEq] at h
    subst h
    have hlen : vs.length = M.vars.length := by simpa using congrArg List.length hs
    exact ⟨by simpa [hlen] using hM.child, hM.mat.of_lengths (bound := fun n => 2 ^ n - 1) hs, hM.prob,
      hM.samples.of_lengths (bound := fun n => n) hs, hM.weights, hM.probs, hM.numbers⟩
  | noChild n =>
    simp only [Cpm.assign, check_then, pyAssert_iff] at h
    obtain ⟨h, rfl⟩ := h
    exact ⟨h, hM.mat, hM.prob, hM.samples, hM.weights, hM.probs, hM.numbers⟩
  | C a =>
    obtain ⟨⟨r, rfl⟩, hl⟩ := hs
    simp only [Cpm.assign, check_then, checkArrC, checkC_iff] at h
    obtain ⟨h, rfl⟩ := h
    refine ⟨hM.child, h, ?_, hM.samples, hM.weights, hM.probs, hM.numbers⟩
    rcases hl with hl | hl
    · exact .inl hl
    · exact perRow_of_length hM.prob hl
  | p p =>
    simp only [Cpm.assign, check_then, pyAssert_iff] at h
    obtain ⟨h, rfl⟩ := h
    exact ⟨hM.child, hM.mat, h, hM.samples, hM.weights, hM.probs, hM.numbers⟩
  | Cs a =>
    obtain ⟨⟨r, rfl⟩, hl⟩ := hs
    simp only [Cpm.assign, check_then, checkArrCs, checkCs_iff] at h
    obtain ⟨h, rfl⟩ := h
    rcases hl with ⟨h1, h2, h3⟩ | ⟨h0, hl⟩
    · exact ⟨hM.child, hM.mat, hM.prob, h, .inr (.inl h1), .inr (.inl h2), .inr (.inl h3)⟩
    · exact ⟨hM.child, hM.mat, hM.prob, h,
        .inr (perRow_of_length (hM.weights.resolve_left h0) hl),
        .inr (perRow_of_length (hM.probs.resolve_left h0) hl),
        .inr (perRow_of_length (hM.numbers.resolve_left h0) hl)⟩
  | q q =>
    simp only [Cpm.assign, check_then, pyAssert_iff] at h
    obtain ⟨h, rfl⟩ := h
    refine ⟨hM.child, hM.mat, hM.prob, hM.samples, ?_, hM.probs, hM.numbers⟩
    unfold PerRow; tauto
  | ps ps =>
    simp only [Cpm.assign, check_then, pyAssert_iff] at h
    obtain ⟨h, rfl⟩ := h
    refine ⟨hM.child, hM.mat, hM.prob, hM.samples, hM.weights, ?_, hM.numbers⟩
    unfold PerRow; tauto
  | sampleIdx idx =>
    simp only [Cpm.assign, check_then, pyAssert_iff] at h
    obtain ⟨h, rfl⟩ := h
    refine ⟨hM.child, hM.mat, hM.prob, hM.samples, hM.weights, hM.probs, ?_⟩
    unfold PerRow; tauto

end

end BNS
