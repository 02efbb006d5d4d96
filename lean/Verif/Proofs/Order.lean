import Verif.Spec.Order
import Verif.Model.Operation
import Verif.Proofs.Monad
import Mathlib.Data.List.Nodup
import Mathlib.Data.List.Dedup

/-! Helper lemmas for the worklist of `get_inf_vars`. -/

namespace BNS

variable {K : Type} [DecidableEq K]

/-- What the inner `for p in scope` loop adds. -/
theorem pushParents (inf : List K) (scope cp : List K) :
    ∃ ext, scope.foldl (fun cp p => if p ∉ inf ∧ p ∉ cp then cp ++ [p] else cp) cp = cp ++ ext ∧
      ext.Nodup ∧ (∀ k ∈ ext, k ∈ scope ∧ k ∉ inf ∧ k ∉ cp) ∧
      ∀ k ∈ scope, k ∈ inf ∨ k ∈ cp ++ ext := by
  induction scope generalizing cp with
  | nil => exact ⟨[], by simp⟩
  | cons p scope ih =>
    rw [List.foldl_cons]
    by_cases hp : p ∉ inf ∧ p ∉ cp
    · rw [if_pos hp]
      obtain ⟨ext, h1, h2, h3, h4⟩ := ih (cp ++ [p])
      refine ⟨p :: ext, by rw [h1, List.append_assoc]; rfl, ?_, ?_, ?_⟩
      · exact List.nodup_cons.2 ⟨fun h => (h3 p h).2.2 (by simp), h2⟩
      · intro k hk
        rcases List.mem_cons.1 hk with rfl | hk
        · exact ⟨by simp, hp.1, hp.2⟩
        · obtain ⟨a, b, c⟩ := h3 k hk
          exact ⟨List.mem_cons_of_mem _ a, b, fun h => c (by simp [h])⟩
      · intro k hk
        rcases List.mem_cons.1 hk with rfl | hk
        · right; simp
        · rcases h4 k hk with h | h
          · exact .inl h
          · right; simpa [List.append_assoc] using h
    · rw [if_neg hp]
      obtain ⟨ext, h1, h2, h3, h4⟩ := ih cp
      refine ⟨ext, h1, h2, fun k hk => ⟨List.mem_cons_of_mem _ (h3 k hk).1, (h3 k hk).2⟩, ?_⟩
      intro k hk
      rcases List.mem_cons.1 hk with rfl | hk
      · by_cases h : k ∈ inf
        · exact .inl h
        · right
          have : k ∈ cp := by
            by_contra hc
            exact hp ⟨h, hc⟩
          simp [this]
      · exact h4 k hk

theorem lookup_mem_keys {V : Type} {l : List (K × V)} {k : K} {v : V} (h : l.lookup k = some v) :
    k ∈ l.map Prod.fst := by
  induction l with
  | nil => simp at h
  | cons a l ih =>
    obtain ⟨a, b⟩ := a
    rw [List.lookup_cons] at h
    by_cases hk : k = a
    · simp [hk]
    · have : (k == a) = false := by simpa using hk
      rw [this] at h
      exact List.mem_cons_of_mem _ (ih h)

/-- The state of the worklist: `inf ++ cp` is the given names followed by new ones. -/
structure InfInv (cpms : List (K × Cpm K)) (varis ext inf cp : List K) : Prop where
  split : inf ++ cp = varis ++ ext
  nodup : ext.Nodup
  fresh : ∀ k ∈ ext, k ∉ varis
  known : ∀ k ∈ inf, ∃ M, cpms.lookup k = some M
  reach : ∀ k ∈ inf ++ cp, Relevant cpms varis k
  closed : ∀ a ∈ inf, ∀ b, ParentOf cpms a b → b ∈ inf ++ cp

theorem InfInv.length_le {cpms : List (K × Cpm K)} {varis ext inf cp : List K}
    (h : InfInv cpms varis ext inf cp) (hv : varis ≠ []) (hi : inf ≠ []) :
    inf.length < cpms.length + varis.length := by
  obtain ⟨v, vs, rfl⟩ := List.exists_cons_of_ne_nil hv
  obtain ⟨i, is, rfl⟩ := List.exists_cons_of_ne_nil hi
  have hiv : i = v := by
    have := h.split
    simp only [List.cons_append, List.cons.injEq] at this
    exact this.1
  subst hiv
  -- the part of `inf` beyond the given names
  have htake : (i :: is) = ((i :: vs) ++ ext).take (i :: is).length := by
    rw [← h.split, List.take_left]
  by_contra hc
  push Not at hc
  have hsub : ((i :: is).drop (i :: vs).length) = ext.take ((i :: is).length - (i :: vs).length) := by
    conv_lhs => rw [htake]
    rw [List.drop_take, List.drop_left]
  have hnd : ((i :: is).drop (i :: vs).length).Nodup := by
    rw [hsub]; exact h.nodup.sublist (List.take_sublist _ _)
  have hni : i ∉ (i :: is).drop (i :: vs).length := by
    rw [hsub]
    intro hm
    exact h.fresh i (List.mem_of_mem_take hm) (by simp)
  have hnd' : (i :: (i :: is).drop (i :: vs).length).Nodup := List.nodup_cons.2 ⟨hni, hnd⟩
  have hsubset : (i :: (i :: is).drop (i :: vs).length) ⊆ cpms.map Prod.fst := by
    intro k hk
    have : k ∈ i :: is := by
      rcases List.mem_cons.1 hk with rfl | hk
      · simp
      · exact List.mem_of_mem_drop hk
    obtain ⟨M, hM⟩ := h.known k this
    exact lookup_mem_keys hM
  have := (hnd'.subperm hsubset).length_le
  simp only [List.length_cons, List.length_drop, List.length_map] at this hc
  omega

theorem infLoop_spec (cpms : List (K × Cpm K)) (varis : List K) (hv : varis ≠ []) :
    ∀ (n : ℕ) (ext cp inf : List K), InfInv cpms varis ext inf cp →
      n + inf.length = cpms.length + varis.length →
      (∃ ext', infLoop cpms n cp inf = .ok (varis ++ ext') ∧
        InfInv cpms varis ext' (varis ++ ext') []) ∨
      (infLoop cpms n cp inf = .error .key ∧
        ∃ k, Relevant cpms varis k ∧ cpms.lookup k = none) := by
  intro n
  induction n with
  | zero =>
    intro ext cp inf h hn
    have hi : inf ≠ [] := by
      rintro rfl
      have : varis.length = 0 := by simp at hn; omega
      exact hv (List.length_eq_zero_iff.1 this)
    have := h.length_le hv hi
    omega
  | succ n ih =>
    intro ext cp inf h hn
    cases cp with
    | nil =>
      left
      have := h.split
      rw [List.append_nil] at this
      subst this
      exact ⟨ext, rfl, h⟩
    | cons v cp =>
      rw [infLoop]
      cases hM : cpms.lookup v with
      | none =>
        right
        exact ⟨rfl, v, h.reach v (by simp), hM⟩
      | some M =>
        obtain ⟨new, p1, p2, p3, p4⟩ :=
          pushParents (inf ++ [v]) ((M.vars.drop M.noChild).map Variable.name) cp
        simp only [p1]
        refine ih (ext ++ new) _ _ ?_ (by rw [List.length_append]; simp; omega)
        have hold : ∀ k ∈ new, k ∉ varis ++ ext := by
          intro k hk
          rw [← h.split]
          obtain ⟨-, a, b⟩ := p3 k hk
          simp only [List.mem_append, List.mem_cons] at a b ⊢
          tauto
        refine ⟨?_, ?_, ?_, ?_, ?_, ?_⟩
        · rw [← List.append_assoc varis, ← h.split]; simp
        · refine List.nodup_append.2 ⟨h.nodup, p2, ?_⟩
          rintro a ha b hb rfl
          exact hold a hb (by simp [ha])
        · intro k hk
          rcases List.mem_append.1 hk with hk | hk
          · exact h.fresh k hk
          · exact fun hc => hold k hk (by simp [hc])
        · intro k hk
          rcases List.mem_append.1 hk with hk | hk
          · exact h.known k hk
          · rw [List.mem_singleton.1 hk]; exact ⟨M, hM⟩
        · intro k hk
          have : k ∈ inf ++ v :: cp ∨ k ∈ new := by
            simp only [List.mem_append, List.mem_cons, List.not_mem_nil, or_false] at hk ⊢
            tauto
          rcases this with hk | hk
          · exact h.reach k hk
          · obtain ⟨w, hw, hwr⟩ := h.reach v (by simp)
            exact ⟨w, hw, hwr.tail ⟨M, hM, (p3 k hk).1⟩⟩
        · intro a ha b hb
          rcases List.mem_append.1 ha with ha | ha
          · have := h.closed a ha b hb
            simp only [List.mem_append, List.mem_cons, List.not_mem_nil, or_false] at this ⊢
            tauto
          · rw [List.mem_singleton] at ha
            subst ha
            obtain ⟨M', hM', hb⟩ := hb
            rw [hM] at hM'
            cases hM'
            rcases p4 b hb with h | h <;>
            · simp only [List.mem_append, List.mem_cons, List.not_mem_nil, or_false] at h ⊢
              tauto

theorem InfInv.complete {cpms : List (K × Cpm K)} {varis ext inf : List K}
    (h : InfInv cpms varis ext inf []) {k : K} : k ∈ inf ↔ Relevant cpms varis k := by
  refine ⟨fun hk => h.reach k (by simpa using hk), ?_⟩
  rintro ⟨v, hv, hr⟩
  induction hr with
  | refl =>
    have : v ∈ varis ++ ext := by simp [hv]
    rw [← h.split] at this
    simpa using this
  | tail _ hp ih => simpa using h.closed _ ih _ hp

end BNS
