import Verif.Proofs.Variable
import Verif.Model.Cpm

/-! Helper lemmas: loops that do not raise are pure maps and folds. -/

namespace BNS

open List

theorem mapM_ok {α β : Type} {f : α → Except Err β} {g : α → β} {l : List α}
    (h : ∀ x ∈ l, f x = .ok (g x)) : l.mapM f = .ok (l.map g) := by
  induction l with
  | nil => rfl
  | cons a l ih =>
    rw [List.mapM_cons, h a (by simp), ih (fun x hx => h x (by simp [hx]))]
    rfl

theorem mapM_ok_forall₂ {α β : Type} {f : α → Except Err β} {xs : List α} {ys : List β}
    (h : xs.mapM f = .ok ys) : List.Forall₂ (fun x y => f x = .ok y) xs ys := by
  induction xs generalizing ys with
  | nil => rw [List.mapM_nil] at h; cases h; exact .nil
  | cons x xs ih =>
    rw [List.mapM_cons] at h
    cases hx : f x with
    | error e => rw [hx] at h; cases h
    | ok y =>
      rw [hx] at h
      cases hxs : xs.mapM f with
      | error e => rw [hxs] at h; cases h
      | ok zs => rw [hxs] at h; cases h; exact .cons hx (ih hxs)

theorem mapM_error {α β : Type} {f : α → Except Err β} {xs : List α} {e : Err}
    (h : ∃ x ∈ xs, f x = .error e) (h2 : ∀ x ∈ xs, ∀ e', f x = .error e' → e' = e) :
    xs.mapM f = .error e := by
  induction xs with
  | nil => simp at h
  | cons x xs ih =>
    rw [List.mapM_cons]
    cases hx : f x with
    | error e' => rw [h2 x (by simp) e' hx]; rfl
    | ok y =>
      rw [ok_bind, ih]
      · rfl
      · obtain ⟨z, hz, he⟩ := h
        rcases List.mem_cons.1 hz with rfl | hz
        · rw [hx] at he; cases he
        · exact ⟨z, hz, he⟩
      · exact fun z hz => h2 z (by simp [hz])

theorem foldlM_ok {α β : Type} {f : β → α → Except Err β} {g : β → α → β} {P : β → Prop}
    {l : List α} {b : β} (hb : P b)
    (h : ∀ acc, P acc → ∀ x ∈ l, f acc x = .ok (g acc x) ∧ P (g acc x)) :
    l.foldlM f b = .ok (l.foldl g b) ∧ P (l.foldl g b) := by
  induction l generalizing b with
  | nil => exact ⟨rfl, hb⟩
  | cons a l ih =>
    obtain ⟨h1, h2⟩ := h b hb a (by simp)
    rw [List.foldlM_cons, h1, ok_bind, List.foldl_cons]
    exact ih h2 (fun acc hacc x hx => h acc hacc x (by simp [hx]))

theorem pyGet_lt {α : Type} {xs : List α} {i : ℕ} (h : i < xs.length) (d : α) :
    pyGet xs i = .ok (xs.getD i d) := by
  simp [pyGet, h]

theorem takeRows_ok {α : Type} {X : List α} {idx : List ℕ} (d : α)
    (h : ∀ i ∈ idx, i < X.length) : takeRows X idx = .ok (idx.map fun i => X.getD i d) :=
  mapM_ok fun i hi => pyGet_lt (h i hi) d

theorem takeCols_ok {C : List (List ℕ)} {idx : List ℕ}
    (h : ∀ r ∈ C, ∀ i ∈ idx, i < r.length) :
    takeCols C idx = .ok (C.map fun r => idx.map fun i => r.getD i 0) :=
  mapM_ok fun r hr => mapM_ok fun i hi => pyGet_lt (h r hr i hi) 0

theorem column_ok {C : List (List ℕ)} {i : ℕ} (h : ∀ r ∈ C, i < r.length) :
    column C i = .ok (C.map fun r => r.getD i 0) :=
  mapM_ok fun r hr => pyGet_lt (h r hr) 0

theorem bind_ok {α β : Type} {x : Except Err α} {f : α → Except Err β} {b : β} :
    (x >>= f) = .ok b ↔ ∃ a, x = .ok a ∧ f a = .ok b := by
  cases x with
  | error e => exact ⟨fun h => (by cases h), fun ⟨a, h, _⟩ => (by cases h)⟩
  | ok a => exact ⟨fun h => ⟨a, rfl, h⟩, fun ⟨a', h, h'⟩ => (by cases h; exact h')⟩

/-- A computation known by evaluation to return a value satisfying a decidable predicate. -/
def okAnd {α : Type} (x : Except Err α) (P : α → Prop) [DecidablePred P] : Bool :=
  match x with
  | .ok a => decide (P a)
  | .error _ => false

theorem exists_ok {α : Type} {x : Except Err α} {P : α → Prop} [DecidablePred P]
    (h : okAnd x P = true) : ∃ a, x = .ok a ∧ P a := by
  cases x with
  | ok a => exact ⟨a, rfl, of_decide_eq_true h⟩
  | error e => cases h

theorem pyAssert_true {b : Prop} [Decidable b] (h : b) : pyAssert b = .ok () := by
  simp [pyAssert, h]

theorem pyAssert_false {b : Prop} [Decidable b] (h : ¬ b) : pyAssert b = .error .assertion := by
  simp [pyAssert, h]

theorem mk'_eq {K : Type} [DecidableEq K] {X Y : Cpm K} (h : Cpm.mk' X = .ok Y) : Y = X := by
  unfold Cpm.mk' at h
  simp only [bind_ok] at h
  obtain ⟨_, _, _, _, _, _, _, _, _, _, _, _, _, _, h⟩ := h
  cases h
  rfl

end BNS
