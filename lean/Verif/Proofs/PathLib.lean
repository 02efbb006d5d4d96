import Verif.Proofs.Trans
import Mathlib.Data.List.MinMax
import Mathlib.Data.Finset.Card
import Mathlib.Data.List.NodupEquivFin

/-!
# The contract of the shortest-path functions can be met

A search over all walks with at most as many steps as there are nodes satisfies `PathLibOK`.  The
theorems on `sf_min_path` hold for every function that satisfies the contract; this one shows that
there is such a function, and computes the examples.
-/

set_option linter.unusedSectionVars false

namespace BNS

variable {K : Type} [DecidableEq K]

/-- Length of the lightest edge from `u` to `v`. -/
def stepCost (G : NGraph K) (wt : NEdge K → ℚ) (u v : K) : ℚ :=
  match (G.between u v).argmin wt with
  | some e => wt e
  | none => 0

def walkSum (G : NGraph K) (wt : NEdge K → ℚ) : List K → ℚ
  | u :: v :: p => stepCost G wt u v + walkSum G wt (v :: p)
  | _ => 0

/-- The walks with at most `n` steps. -/
def walksFrom (G : NGraph K) : ℕ → K → List (List K)
  | 0, u => [[u]]
  | n + 1, u => [u] :: (G.nodes.filter fun v => decide (∃ e ∈ G.edges, Links G.directed e u v)).flatMap
      fun v => (walksFrom G n v).map (u :: ·)

/-- Search over all short walks. -/
def enumLib : PathLib K := fun G wt ss t =>
  if ss = [] then .error .value
  else if ¬ (∀ s ∈ ss, s ∈ G.nodes) ∨ t ∉ G.nodes then .error .graph
  else match ((ss.flatMap (walksFrom G G.nodes.length)).filter fun p => p.getLast? = some t).argmin
      (walkSum G wt) with
    | some p => .ok (walkSum G wt p, p)
    | none => .error .noPath

theorem stepCost_spec {G : NGraph K} (wt : NEdge K → ℚ) {u v : K}
    (h : ∃ e ∈ G.edges, Links G.directed e u v) : ∃ e ∈ G.edges, Links G.directed e u v ∧
      (∀ e' ∈ G.edges, Links G.directed e' u v → wt e ≤ wt e') ∧ stepCost G wt u v = wt e := by
  obtain ⟨e, he, hl⟩ := h
  have hm : e ∈ G.between u v := by simp [NGraph.between, he, hl]
  cases ha : (G.between u v).argmin wt with
  | none =>
    rw [List.argmin_eq_none] at ha
    rw [ha] at hm
    simp at hm
  | some a =>
    have h1 : a ∈ G.between u v := List.argmin_mem ha
    simp only [NGraph.between, List.mem_filter, decide_eq_true_eq] at h1
    refine ⟨a, h1.1, h1.2, fun e' he' hl' => ?_, by rw [stepCost, ha]⟩
    exact List.le_of_mem_argmin (by simp [NGraph.between, he', hl'] : e' ∈ G.between u v) ha

theorem walkSum_spec {G : NGraph K} (wt : NEdge K → ℚ) {p : List K}
    (h : p.IsChain fun u v => ∃ e ∈ G.edges, Links G.directed e u v) :
    WalkCost G wt p (walkSum G wt p) := by
  induction p with
  | nil => rfl
  | cons u p ih =>
    cases p with
    | nil => rfl
    | cons v p =>
      rw [List.isChain_cons_cons] at h
      obtain ⟨e, h1, h2, h3, h4⟩ := stepCost_spec wt h.1
      refine ⟨e, h1, h2, h3, ?_⟩
      have : walkSum G wt (u :: v :: p) - wt e = walkSum G wt (v :: p) := by
        rw [walkSum, h4]; linarith
      rw [this]
      exact ih h.2

theorem WalkCost.unique {G : NGraph K} {wt : NEdge K → ℚ} {p : List K} {c c' : ℚ}
    (h : WalkCost G wt p c) (h' : WalkCost G wt p c') : c = c' := by
  induction p generalizing c c' with
  | nil => exact Eq.trans h h'.symm
  | cons u p ih =>
    cases p with
    | nil => exact Eq.trans h h'.symm
    | cons v p =>
      obtain ⟨e, h1, h2, h3, h4⟩ := h
      obtain ⟨e', h1', h2', h3', h4'⟩ := h'
      have := ih h4 h4'
      have a1 := h3 e' h1' h2'
      have a2 := h3' e h1 h2
      linarith

theorem stepCost_nonneg {G : NGraph K} {wt : NEdge K → ℚ} (h0 : ∀ e ∈ G.edges, 0 ≤ wt e) (u v : K) :
    0 ≤ stepCost G wt u v := by
  rw [stepCost]
  split
  · rename_i e he
    have h1 : e ∈ G.between u v := List.argmin_mem he
    simp only [NGraph.between, List.mem_filter] at h1
    exact h0 e h1.1
  · exact le_refl _

theorem walkSum_suffix {G : NGraph K} {wt : NEdge K → ℚ} (h0 : ∀ e ∈ G.edges, 0 ≤ wt e)
    (l1 l2 : List K) : walkSum G wt l2 ≤ walkSum G wt (l1 ++ l2) := by
  induction l1 with
  | nil => exact le_refl _
  | cons a l1 ih =>
    refine ih.trans ?_
    rw [List.cons_append]
    cases h : l1 ++ l2 with
    | nil => exact le_refl _
    | cons b l =>
      have := stepCost_nonneg h0 a b
      rw [walkSum]
      linarith

/-- A walk can be shortened to one that visits no node twice. -/
theorem exists_nodup_walk {G : NGraph K} {wt : NEdge K → ℚ} (h0 : ∀ e ∈ G.edges, 0 ≤ wt e) {s t : K}
    {p : List K} (h : IsWalk G s t p) :
    ∃ p', IsWalk G s t p' ∧ p'.Nodup ∧ walkSum G wt p' ≤ walkSum G wt p := by
  induction p generalizing s with
  | nil => simp [IsWalk] at h
  | cons a p ih =>
    obtain ⟨h1, h2, h3, h4⟩ := h
    simp only [List.head?_cons, Option.some.injEq] at h1
    subst h1
    cases p with
    | nil => exact ⟨[a], ⟨rfl, h2, h3, h4⟩, by simp, le_refl _⟩
    | cons b p =>
      rw [List.isChain_cons_cons] at h4
      rw [List.getLast?_cons_cons] at h2
      obtain ⟨q, ⟨g1, g2, g3, g4⟩, g5, g6⟩ :=
        ih ⟨rfl, h2, fun x hx => h3 x (List.mem_cons_of_mem _ hx), h4.2⟩
      cases q with
      | nil => simp at g1
      | cons b' q =>
        simp only [List.head?_cons, Option.some.injEq] at g1
        subst g1
        by_cases ha : a ∈ b' :: q
        · obtain ⟨l1, l2, hl⟩ := List.append_of_mem ha
          refine ⟨a :: l2, ⟨rfl, ?_, ?_, ?_⟩, ?_, ?_⟩
          · rw [hl, List.getLast?_append_cons] at g2
            exact g2
          · intro x hx
            exact g3 x (by rw [hl]; exact List.mem_append_right _ hx)
          · rw [hl] at g4
            exact g4.right_of_append
          · rw [hl] at g5
            exact g5.of_append_right
          · have e1 := walkSum_suffix (wt := wt) h0 l1 (a :: l2)
            rw [← hl] at e1
            have := stepCost_nonneg h0 a b'
            rw [walkSum]
            linarith
        · refine ⟨a :: b' :: q, ⟨rfl, by rw [List.getLast?_cons_cons]; exact g2, ?_, ?_⟩, ?_, ?_⟩
          · intro x hx
            rcases List.mem_cons.1 hx with rfl | hx
            · exact h3 _ (by simp)
            · exact g3 x hx
          · exact List.isChain_cons_cons.2 ⟨h4.1, g4⟩
          · exact List.nodup_cons.2 ⟨ha, g5⟩
          · rw [walkSum, walkSum]
            linarith

theorem mem_walksFrom {G : NGraph K} : ∀ (n : ℕ) (u : K) (p : List K), u ∈ G.nodes →
    (p ∈ walksFrom G n u ↔ p.head? = some u ∧ (∀ x ∈ p, x ∈ G.nodes) ∧
      (p.IsChain fun u v => ∃ e ∈ G.edges, Links G.directed e u v) ∧ p.length ≤ n + 1) := by
  intro n
  induction n with
  | zero =>
    intro u p hu
    simp only [walksFrom, List.mem_singleton]
    constructor
    · rintro rfl; simpa using hu
    · rintro ⟨h1, -, -, h4⟩
      match p, h1, h4 with
      | [a], h1, _ => simpa using h1
  | succ n ih =>
    intro u p hu
    simp only [walksFrom, List.mem_cons, List.mem_flatMap, List.mem_filter, decide_eq_true_eq,
      List.mem_map]
    constructor
    · rintro (rfl | ⟨v, ⟨hv, hl⟩, q, hq, rfl⟩)
      · simpa using hu
      · obtain ⟨h1, h2, h3, h4⟩ := (ih v q hv).1 hq
        refine ⟨rfl, ?_, ?_, by simpa using h4⟩
        · intro x hx
          rcases List.mem_cons.1 hx with rfl | hx
          · exact hu
          · exact h2 x hx
        · cases q with
          | nil => simp
          | cons b q =>
            simp only [List.head?_cons, Option.some.injEq] at h1
            subst h1
            exact List.isChain_cons_cons.2 ⟨hl, h3⟩
    · rintro ⟨h1, h2, h3, h4⟩
      match p, h1, h2, h3, h4 with
      | [a], h1, _, _, _ => left; simpa using h1
      | a :: b :: q, h1, h2, h3, h4 =>
        simp only [List.head?_cons, Option.some.injEq] at h1
        subst h1
        rw [List.isChain_cons_cons] at h3
        have hb := h2 b (by simp)
        refine .inr ⟨b, ⟨hb, h3.1⟩, b :: q, (ih b _ hb).2 ⟨rfl, fun x hx => h2 x (by
          exact List.mem_cons_of_mem _ hx), h3.2, by simpa using h4⟩, rfl⟩

theorem nodup_length_le {l m : List K} (h : l.Nodup) (hs : ∀ x ∈ l, x ∈ m) : l.length ≤ m.length := by
  have h1 : l.toFinset ⊆ m.toFinset := fun x hx => by
    simp only [List.mem_toFinset] at hx ⊢; exact hs x hx
  calc l.length = l.toFinset.card := (List.toFinset_card_of_nodup h).symm
    _ ≤ m.toFinset.card := Finset.card_le_card h1
    _ ≤ m.length := List.toFinset_card_le m

theorem enumLib_ok : PathLibOK (enumLib : PathLib K) := by
  have cand : ∀ (G : NGraph K) (wt : NEdge K → ℚ) (ss : List K) (t : K) (s : K) (p : List K),
      (∀ e ∈ G.edges, 0 ≤ wt e) → s ∈ ss → s ∈ G.nodes → IsWalk G s t p →
      ∃ p' ∈ (ss.flatMap (walksFrom G G.nodes.length)).filter (fun p => p.getLast? = some t),
        walkSum G wt p' ≤ walkSum G wt p := by
    intro G wt ss t s p h0 hs hsn hp
    obtain ⟨p', ⟨g1, g2, g3, g4⟩, g5, g6⟩ := exists_nodup_walk h0 hp
    refine ⟨p', ?_, g6⟩
    rw [List.mem_filter]
    refine ⟨List.mem_flatMap.2 ⟨s, hs, (mem_walksFrom _ _ _ hsn).2 ⟨g1, g3, g4, ?_⟩⟩, by simpa using g2⟩
    exact (nodup_length_le g5 g3).trans (Nat.le_succ _)
  constructor
  · intro G wt ss t d p h0 h
    rw [enumLib] at h
    split at h
    · cases h
    split at h
    · cases h
    rename_i hns
    push Not at hns
    split at h
    · rename_i q hq
      cases h
      have hq1 := List.argmin_mem hq
      rw [List.mem_filter, List.mem_flatMap] at hq1
      obtain ⟨⟨s, hs, hw⟩, hl⟩ := hq1
      obtain ⟨k1, k2, k3, -⟩ := (mem_walksFrom _ _ _ (hns.1 s hs)).1 hw
      refine ⟨⟨s, hs, k1, by simpa using hl, k2, k3⟩, walkSum_spec wt k3, fun s' hs' p' d' hw' hc' => ?_⟩
      obtain ⟨q', hq', hle⟩ := cand G wt ss t s' p' h0 hs' (hns.1 s' hs') hw'
      have e1 := List.le_of_mem_argmin hq' hq
      have e2 := (walkSum_spec wt hw'.2.2.2).unique hc'
      linarith
    · cases h
  · intro G wt ss t h0 hss ⟨s, hs, p, hp⟩
    have ht : t ∈ G.nodes := hp.2.2.1 t (List.mem_of_getLast? hp.2.1)
    rw [enumLib, if_neg (by rintro rfl; simp at hs), if_neg (by push Not; exact ⟨hss, ht⟩)]
    obtain ⟨q, hq, -⟩ := cand G wt ss t s p h0 hs (hss s hs) hp
    split
    · exact ⟨_, rfl⟩
    · rename_i hn
      rw [List.argmin_eq_none] at hn
      rw [hn] at hq
      simp at hq
  · intro G wt ss t h0 hss ht hne hno
    rw [enumLib, if_neg hne, if_neg (by push Not; exact ⟨hss, ht⟩)]
    split
    · rename_i q hq
      exfalso
      have hq1 := List.argmin_mem hq
      rw [List.mem_filter, List.mem_flatMap] at hq1
      obtain ⟨⟨s, hs, hw⟩, hl⟩ := hq1
      obtain ⟨k1, k2, k3, -⟩ := (mem_walksFrom _ _ _ (hss s hs)).1 hw
      exact hno s hs q ⟨k1, by simpa using hl, k2, k3⟩
    · rfl
  · intro G wt ss t hne h
    right
    rw [enumLib, if_neg hne, if_pos h]

end BNS
