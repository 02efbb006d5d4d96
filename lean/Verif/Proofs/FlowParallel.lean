import Verif.Proofs.MaxFlowDemo
import Verif.Spec.FlowParallel

/-!
# Lemmas on flow networks with parallel components
-/

set_option linter.unusedSectionVars false

namespace BNS

variable {K N : Type} [DecidableEq K] [DecidableEq N]
variable {bi : Bool} {vs : List (K × ℕ)} {ends : K → N × N}
variable {varis : List (K × Variable K)} {o d newT : N}

theorem SameLink.refl (a : K) : SameLink bi ends a a := .inl rfl

theorem SameLink.symm {a b : K} (h : SameLink bi ends a b) : SameLink bi ends b a := by
  rcases h with h | ⟨h1, h2⟩
  · exact .inl h.symm
  · exact .inr ⟨h1, by rw [h2, Prod.swap_swap]⟩

theorem SameLink.trans {a b c : K} (h : SameLink bi ends a b) (h' : SameLink bi ends b c) :
    SameLink bi ends a c := by
  rcases h with h | ⟨h1, h2⟩ <;> rcases h' with h' | ⟨h1', h2'⟩
  · exact .inl (h.trans h')
  · exact .inr ⟨h1', h.trans h2'⟩
  · exact .inr ⟨h1, by rw [h2, h']⟩
  · exact .inl (by rw [h2, h2', Prod.swap_swap])

theorem lastLinks_cons (a : K × ℕ) (l : List (K × ℕ)) : lastLinks bi ends (a :: l) =
    if ∃ b ∈ l, SameLink bi ends a.1 b.1 then lastLinks bi ends l else a :: lastLinks bi ends l := rfl

theorem lastLinks_sublist (l : List (K × ℕ)) : (lastLinks bi ends l).Sublist l := by
  induction l with
  | nil => exact List.Sublist.slnil
  | cons a l ih =>
    rw [lastLinks_cons]
    split
    · exact ih.cons a
    · exact ih.cons_cons a

theorem lastLinks_pairwise (l : List (K × ℕ)) :
    (lastLinks bi ends l).Pairwise fun a b => ¬ SameLink bi ends a.1 b.1 := by
  induction l with
  | nil => exact List.Pairwise.nil
  | cons a l ih =>
    rw [lastLinks_cons]
    split
    · exact ih
    · rename_i h
      rw [List.pairwise_cons]
      exact ⟨fun b hb hs => h ⟨b, (lastLinks_sublist l).subset hb, hs⟩, ih⟩

theorem lastLinks_repr {l : List (K × ℕ)} {a : K × ℕ} (ha : a ∈ l) :
    ∃ b ∈ lastLinks bi ends l, SameLink bi ends a.1 b.1 := by
  induction l generalizing a with
  | nil => cases ha
  | cons c l ih =>
    rw [lastLinks_cons]
    rcases List.mem_cons.1 ha with rfl | ha
    · split
      · rename_i h
        obtain ⟨b, hb, hs⟩ := h
        obtain ⟨b', hb', hs'⟩ := ih hb
        exact ⟨b', hb', hs.trans hs'⟩
      · exact ⟨a, by simp, .refl _⟩
    · obtain ⟨b, hb, hs⟩ := ih ha
      refine ⟨b, ?_, hs⟩
      split
      · exact hb
      · exact List.mem_cons_of_mem _ hb

/-- The component carries from `u` to `v`. -/
def LinksTo (bi : Bool) (ends : K → N × N) (u v : N) (k : K) : Prop :=
  ends k = (u, v) ∨ (bi = true ∧ ends k = (v, u))

instance (u v : N) (k : K) : Decidable (LinksTo bi ends u v k) := by unfold LinksTo; infer_instance

theorem LinksTo.same {u v : N} {a b : K} (ha : LinksTo bi ends u v a) (hb : LinksTo bi ends u v b) :
    SameLink bi ends a b := by
  rcases ha with ha | ⟨h1, ha⟩ <;> rcases hb with hb | ⟨h2, hb⟩
  · exact .inl (ha.trans hb.symm)
  · exact .inr ⟨h2, by rw [ha, hb]; rfl⟩
  · exact .inr ⟨h1, by rw [ha, hb]; rfl⟩
  · exact .inl (ha.trans hb.symm)

theorem LinksTo.of_same {u v : N} {a b : K} (ha : LinksTo bi ends u v a) (h : SameLink bi ends a b) :
    LinksTo bi ends u v b := by
  rcases ha with ha | ⟨h1, ha⟩ <;> rcases h with h | ⟨h2, h⟩
  · exact .inl (h.symm.trans ha)
  · refine .inr ⟨h2, ?_⟩
    rw [← Prod.swap_swap (ends b), ← h, ha]; rfl
  · exact .inr ⟨h1, h.symm.trans ha⟩
  · refine .inl ?_
    rw [← Prod.swap_swap (ends b), ← h, ha]; rfl

theorem lastLinks_find (l : List (K × ℕ)) (u v : N) :
    (lastLinks bi ends l).find? (fun a => decide (LinksTo bi ends u v a.1)) =
      l.reverse.find? fun a => decide (LinksTo bi ends u v a.1) := by
  induction l with
  | nil => rfl
  | cons a l ih =>
    rw [lastLinks_cons, List.reverse_cons, List.find?_append, ← ih]
    by_cases hl : LinksTo bi ends u v a.1
    · split
      · rename_i h
        obtain ⟨b, hb, hs⟩ := h
        obtain ⟨c, hc, hs'⟩ := lastLinks_repr (bi := bi) (ends := ends) hb
        have : ((lastLinks bi ends l).find? fun a => decide (LinksTo bi ends u v a.1)).isSome := by
          rw [List.find?_isSome]
          exact ⟨c, hc, by simpa using hl.of_same (hs.trans hs')⟩
        obtain ⟨w, hw⟩ := Option.isSome_iff_exists.1 this
        rw [hw]; rfl
      · rename_i h
        have : ((lastLinks bi ends l).find? fun a => decide (LinksTo bi ends u v a.1)) = none := by
          rw [List.find?_eq_none]
          intro c hc hl'
          exact h ⟨c, (lastLinks_sublist l).subset hc, hl.same (by simpa using hl')⟩
        rw [this, List.find?_cons, List.find?_cons]
        simp [hl]
    · have h1 : [a].find? (fun a => decide (LinksTo bi ends u v a.1)) = none := by simp [hl]
      rw [h1, Option.or_none]
      split
      · rfl
      · rw [List.find?_cons]
        simp [hl]

/-! ### Capacities of graphs -/

/-- The edge carries from `u` to `v`. -/
def EdgeTo (bi : Bool) (u v : N) (e : N × N × ℚ) : Prop :=
  (e.1 = u ∧ e.2.1 = v) ∨ (bi = true ∧ e.1 = v ∧ e.2.1 = u)

instance (u v : N) (e : N × N × ℚ) : Decidable (EdgeTo bi u v e) := by unfold EdgeTo; infer_instance

theorem edgeTo_joins (u v : N) (e : N × N × ℚ) : EdgeTo true u v e ↔ Joins e u v := by
  unfold EdgeTo Joins
  simp only [true_and]

theorem edgeTo_from (u v : N) (e : N × N × ℚ) : EdgeTo false u v e ↔ e.1 = u ∧ e.2.1 = v := by
  unfold EdgeTo
  simp only [Bool.false_eq_true, false_and, or_false]

theorem capIn_eq (bi : Bool) (G : CapGraph N) (u v : N) : capIn bi G u v =
    ((G.find? fun e => decide (EdgeTo bi u v e)).map fun e => e.2.2).getD 0 := by
  cases bi with
  | true =>
    have : (fun e : N × N × ℚ => decide (EdgeTo true u v e)) = fun e => decide (Joins e u v) := by
      funext e
      exact decide_eq_decide.2 (edgeTo_joins u v e)
    rw [this]
    simp only [capIn, if_true, capOf]
    cases G.find? fun e => decide (Joins e u v) <;> rfl
  | false =>
    have : (fun e : N × N × ℚ => decide (EdgeTo false u v e)) =
        fun e => decide (e.1 = u ∧ e.2.1 = v) := by
      funext e
      exact decide_eq_decide.2 (edgeTo_from u v e)
    rw [this]
    simp only [capIn, Bool.false_eq_true, if_false]
    cases G.find? fun e => decide (e.1 = u ∧ e.2.1 = v) <;> rfl

theorem addEdgeIn_eq (bi : Bool) (G : CapGraph N) (u v : N) (c : ℚ) : addEdgeIn bi G u v c =
    if G.any fun e => decide (EdgeTo bi u v e) then
      G.map fun e => if EdgeTo bi u v e then (e.1, e.2.1, c) else e
    else G ++ [(u, v, c)] := by
  cases bi with
  | true => simp only [addEdgeIn, addEdge, if_true, edgeTo_joins]
  | false => simp only [addEdgeIn, Bool.false_eq_true, if_false, edgeTo_from]

theorem EdgeTo.change {u v : N} {e e' : N × N × ℚ} (h1 : e.1 = e'.1) (h2 : e.2.1 = e'.2.1) :
    EdgeTo bi u v e ↔ EdgeTo bi u v e' := by
  unfold EdgeTo
  rw [h1, h2]

/-- An edge that carries from `u` to `v` and from `a` to `b`. -/
theorem EdgeTo.both {u v a b : N} {e : N × N × ℚ} (h : EdgeTo bi u v e) (c : ℚ) :
    EdgeTo bi a b e ↔ EdgeTo bi a b (u, v, c) := by
  unfold EdgeTo at h ⊢
  rcases h with ⟨h1, h2⟩ | ⟨hb, h1, h2⟩
  · rw [h1, h2]
  · rw [h1, h2, hb]
    simp only [true_and]
    constructor
    · rintro (⟨p, q⟩ | ⟨p, q⟩)
      · exact .inr ⟨q, p⟩
      · exact .inl ⟨q, p⟩
    · rintro (⟨p, q⟩ | ⟨p, q⟩)
      · exact .inr ⟨q, p⟩
      · exact .inl ⟨q, p⟩

theorem capIn_addEdgeIn (G : CapGraph N) (u v a b : N) (c : ℚ) :
    capIn bi (addEdgeIn bi G u v c) a b =
      if EdgeTo bi a b (u, v, c) then c else capIn bi G a b := by
  rw [capIn_eq, capIn_eq, addEdgeIn_eq]
  split
  · rename_i h
    rw [List.any_eq_true] at h
    have hchange : ∀ e : N × N × ℚ, EdgeTo bi a b (if EdgeTo bi u v e then (e.1, e.2.1, c) else e) ↔
        EdgeTo bi a b e := by
      intro e
      split
      · exact EdgeTo.change rfl rfl
      · exact Iff.rfl
    have hfun : ((fun e => decide (EdgeTo bi a b e)) ∘ fun e : N × N × ℚ =>
        if EdgeTo bi u v e then (e.1, e.2.1, c) else e) = fun e => decide (EdgeTo bi a b e) := by
      funext e
      simp only [Function.comp]
      exact decide_eq_decide.2 (hchange e)
    rw [List.find?_map, hfun, Option.map_map]
    split
    · rename_i hab
      obtain ⟨e0, he0, h0⟩ := h
      have h0 : EdgeTo bi u v e0 := by simpa using h0
      have : (G.find? fun e => decide (EdgeTo bi a b e)).isSome := by
        rw [List.find?_isSome]
        exact ⟨e0, he0, by simpa using (h0.both c).2 hab⟩
      obtain ⟨w, hw⟩ := Option.isSome_iff_exists.1 this
      have hw1 : EdgeTo bi a b w := by simpa using List.find?_some hw
      rw [hw]
      have hw2 : EdgeTo bi u v w := by
        unfold EdgeTo at hw1 hab ⊢
        simp only at hab
        rcases hab with ⟨rfl, rfl⟩ | ⟨hb, rfl, rfl⟩
        · exact hw1
        · rcases hw1 with ⟨p, q⟩ | ⟨-, p, q⟩
          · exact .inr ⟨hb, p, q⟩
          · exact .inl ⟨p, q⟩
      simp [hw2]
    · rename_i hab
      cases hw : G.find? fun e => decide (EdgeTo bi a b e) with
      | none => rfl
      | some w =>
        have hw1 : EdgeTo bi a b w := by simpa using List.find?_some hw
        have hw2 : ¬ EdgeTo bi u v w := fun h => hab ((h.both c).1 hw1)
        simp [hw2]
  · rename_i h
    rw [List.find?_append]
    split
    · rename_i hab
      have : (G.find? fun e => decide (EdgeTo bi a b e)) = none := by
        rw [List.find?_eq_none]
        intro e he hh
        have hh : EdgeTo bi a b e := by simpa using hh
        apply h
        rw [List.any_eq_true]
        refine ⟨e, he, ?_⟩
        simp only [decide_eq_true_eq]
        unfold EdgeTo at hh hab ⊢
        simp only at hab
        rcases hab with ⟨rfl, rfl⟩ | ⟨hb, rfl, rfl⟩
        · exact hh
        · rcases hh with ⟨p, q⟩ | ⟨-, p, q⟩
          · exact .inr ⟨hb, p, q⟩
          · exact .inl ⟨p, q⟩
      rw [this]
      simp [hab]
    · rename_i hab
      have : [(u, v, c)].find? (fun e => decide (EdgeTo bi a b e)) = none := by simp [hab]
      rw [this, Option.or_none]

theorem nodes_addEdgeIn (G : CapGraph N) (u v : N) (c : ℚ) (n : N) :
    n ∈ nodesOf (addEdgeIn bi G u v c) ↔ n = u ∨ n = v ∨ n ∈ nodesOf G := by
  rw [mem_nodesOf, mem_nodesOf, addEdgeIn_eq]
  split
  · rename_i h
    rw [List.any_eq_true] at h
    obtain ⟨e0, he0, h0⟩ := h
    have h0 : EdgeTo bi u v e0 := by simpa using h0
    have hk : ∀ e : N × N × ℚ, (if EdgeTo bi u v e then (e.1, e.2.1, c) else e).1 = e.1 ∧
        (if EdgeTo bi u v e then (e.1, e.2.1, c) else e).2.1 = e.2.1 := by
      intro e; split <;> exact ⟨rfl, rfl⟩
    constructor
    · rintro ⟨e, he, hn⟩
      obtain ⟨e', he', rfl⟩ := List.mem_map.1 he
      rw [(hk e').1, (hk e').2] at hn
      exact .inr (.inr ⟨e', he', hn⟩)
    · intro hn
      have hex : ∃ e ∈ G, e.1 = n ∨ e.2.1 = n := by
        rcases hn with rfl | rfl | hn
        · rcases h0 with ⟨p, -⟩ | ⟨-, -, p⟩
          · exact ⟨e0, he0, .inl p⟩
          · exact ⟨e0, he0, .inr p⟩
        · rcases h0 with ⟨-, p⟩ | ⟨-, p, -⟩
          · exact ⟨e0, he0, .inr p⟩
          · exact ⟨e0, he0, .inl p⟩
        · exact hn
      obtain ⟨e, he, hh⟩ := hex
      refine ⟨_, List.mem_map_of_mem he, ?_⟩
      rw [(hk e).1, (hk e).2]
      exact hh
  · constructor
    · rintro ⟨e, he, hn⟩
      rcases List.mem_append.1 he with he | he
      · exact .inr (.inr ⟨e, he, hn⟩)
      · rw [List.mem_singleton.1 he] at hn
        rcases hn with hn | hn
        · exact .inl hn.symm
        · exact .inr (.inl hn.symm)
    · rintro (rfl | rfl | ⟨e, he, hn⟩)
      · exact ⟨_, List.mem_append_right _ (List.mem_singleton.2 rfl), .inl rfl⟩
      · exact ⟨_, List.mem_append_right _ (List.mem_singleton.2 rfl), .inr rfl⟩
      · exact ⟨e, List.mem_append_left _ he, hn⟩

theorem nonneg_addEdgeIn {G : CapGraph N} (hG : ∀ e ∈ G, 0 ≤ e.2.2) (u v : N) {c : ℚ} (hc : 0 ≤ c) :
    ∀ e ∈ addEdgeIn bi G u v c, 0 ≤ e.2.2 := by
  rw [addEdgeIn_eq]
  intro e he
  split at he
  · obtain ⟨e', he', rfl⟩ := List.mem_map.1 he
    split
    · exact hc
    · exact hG e' he'
  · rcases List.mem_append.1 he with he | he
    · exact hG e he
    · rw [List.mem_singleton.1 he]; exact hc

/-! ### The graph of the components -/

/-- The graph after the components of the list. -/
def linkGraph (bi : Bool) (ends : K → N × N) (cap : K → ℚ) (l : List (K × ℕ)) (G : CapGraph N) :
    CapGraph N := l.foldl (fun G kn => addEdgeIn bi G (ends kn.1).1 (ends kn.1).2 (cap kn.1)) G

theorem edgeTo_links {k : K} {c : ℚ} {a b : N} :
    EdgeTo bi a b ((ends k).1, (ends k).2, c) ↔ LinksTo bi ends a b k := by
  unfold EdgeTo LinksTo
  rw [Prod.ext_iff, Prod.ext_iff]

theorem capIn_linkGraph (cap : K → ℚ) (l : List (K × ℕ)) (G : CapGraph N) (a b : N) :
    capIn bi (linkGraph bi ends cap l G) a b =
      ((l.reverse.find? fun kn => decide (LinksTo bi ends a b kn.1)).map fun kn => cap kn.1).getD
        (capIn bi G a b) := by
  induction l generalizing G with
  | nil => rfl
  | cons kn l ih =>
    have h : linkGraph bi ends cap (kn :: l) G =
      linkGraph bi ends cap l (addEdgeIn bi G (ends kn.1).1 (ends kn.1).2 (cap kn.1)) := rfl
    rw [h, ih, List.reverse_cons, List.find?_append]
    cases hf : l.reverse.find? fun kn => decide (LinksTo bi ends a b kn.1) with
    | some w => rfl
    | none =>
      rw [capIn_addEdgeIn]
      simp only [edgeTo_links]
      by_cases hl : LinksTo bi ends a b kn.1
      · simp [hl]
      · simp [hl]

theorem nodes_linkGraph (cap : K → ℚ) (l : List (K × ℕ)) (G : CapGraph N) (n : N) :
    n ∈ nodesOf (linkGraph bi ends cap l G) ↔
      (∃ kn ∈ l, (ends kn.1).1 = n ∨ (ends kn.1).2 = n) ∨ n ∈ nodesOf G := by
  induction l generalizing G with
  | nil => simp [linkGraph]
  | cons kn l ih =>
    have h : linkGraph bi ends cap (kn :: l) G =
      linkGraph bi ends cap l (addEdgeIn bi G (ends kn.1).1 (ends kn.1).2 (cap kn.1)) := rfl
    rw [h, ih, nodes_addEdgeIn]
    simp only [List.mem_cons, exists_eq_or_imp, eq_comm (a := n)]
    rw [or_comm (a := (ends kn.1).1 = n ∨ (ends kn.1).2 = n), or_assoc, or_assoc]

theorem nonneg_linkGraph {cap : K → ℚ} {l : List (K × ℕ)} (hc : ∀ kn ∈ l, 0 ≤ cap kn.1) {G : CapGraph N}
    (hG : ∀ e ∈ G, 0 ≤ e.2.2) : ∀ e ∈ linkGraph bi ends cap l G, 0 ≤ e.2.2 := by
  induction l generalizing G with
  | nil => exact hG
  | cons kn l ih =>
    exact ih (fun k hk => hc k (by simp [hk])) (nonneg_addEdgeIn hG _ _ (hc kn (by simp)))

theorem capIn_netGraph (cap : K → ℚ) (l : List (K × ℕ)) (target : ℚ) (a b : N) :
    capIn bi (netGraph (l.map Prod.fst) ends cap d newT target) a b =
      ((l.find? fun kn => decide (LinksTo bi ends a b kn.1)).map fun kn => cap kn.1).getD
        (if EdgeTo bi a b (d, newT, target) then target else 0) := by
  rw [capIn_eq]
  unfold netGraph
  rw [List.map_map, List.find?_append, List.find?_map]
  have hfun : ((fun e => decide (EdgeTo bi a b e)) ∘
      ((fun k => ((ends k).1, (ends k).2, cap k)) ∘ (Prod.fst : K × ℕ → K))) =
      fun kn => decide (LinksTo bi ends a b kn.1) := by
    funext kn
    simp only [Function.comp]
    exact decide_eq_decide.2 edgeTo_links
  rw [hfun]
  cases l.find? fun kn => decide (LinksTo bi ends a b kn.1) with
  | some w => rfl
  | none =>
    by_cases h : EdgeTo bi a b (d, newT, target)
    · simp [h]
    · simp [h]

theorem linksTo_fresh (hN : ParNetOK vs ends varis o d newT) {c : ℚ} {a b : N}
    (h : EdgeTo bi a b (d, newT, c)) {kn : K × ℕ} (hk : kn ∈ vs) : ¬ LinksTo bi ends a b kn.1 := by
  have hf := hN.fresh kn hk
  unfold EdgeTo at h
  unfold LinksTo
  simp only at h
  rw [Prod.ext_iff, Prod.ext_iff]
  simp only
  rcases h with ⟨rfl, rfl⟩ | ⟨-, rfl, rfl⟩
  · rintro (⟨-, q⟩ | ⟨-, p, -⟩)
    · exact hf.2 q
    · exact hf.1 p
  · rintro (⟨p, -⟩ | ⟨-, -, q⟩)
    · exact hf.1 p
    · exact hf.2 q

/-- The graph of all components has the capacities of the graph of the last ones. -/
theorem par_cap (hN : ParNetOK vs ends varis o d newT) (cap : K → ℚ) (target : ℚ) :
    capIn bi (addEdgeIn bi (linkGraph bi ends cap vs []) d newT target) =
      capIn bi (netGraph ((lastLinks bi ends vs).map Prod.fst) ends cap d newT target) := by
  funext a b
  rw [capIn_addEdgeIn, capIn_linkGraph, capIn_netGraph, lastLinks_find]
  have h0 : capIn bi ([] : CapGraph N) a b = 0 := by rw [capIn_eq]; rfl
  rw [h0]
  by_cases h : EdgeTo bi a b (d, newT, target)
  · have : (vs.reverse.find? fun kn => decide (LinksTo bi ends a b kn.1)) = none := by
      rw [List.find?_eq_none]
      intro kn hk hl
      exact linksTo_fresh hN h (List.mem_reverse.1 hk) (by simpa using hl)
    rw [this, if_pos h, if_pos h]
    rfl
  · rw [if_neg h, if_neg h]

theorem par_nodes (vs : List (K × ℕ)) (ends : K → N × N) (d newT : N) (cap : K → ℚ) (target : ℚ) :
    nodesOf (addEdgeIn bi (linkGraph bi ends cap vs []) d newT target) =
      nodesOf (netGraph ((lastLinks bi ends vs).map Prod.fst) ends cap d newT target) := by
  ext n
  rw [nodes_addEdgeIn, nodes_linkGraph, mem_netGraph_nodes]
  have h0 : n ∉ nodesOf ([] : CapGraph N) := by simp [nodesOf]
  simp only [h0, or_false, eq_comm (a := n)]
  have : (∃ kn ∈ vs, (ends kn.1).1 = n ∨ (ends kn.1).2 = n) ↔
      ∃ k ∈ (lastLinks bi ends vs).map Prod.fst, (ends k).1 = n ∨ (ends k).2 = n := by
    constructor
    · rintro ⟨kn, hk, hn⟩
      obtain ⟨b, hb, hs⟩ := lastLinks_repr (bi := bi) (ends := ends) hk
      refine ⟨b.1, List.mem_map_of_mem hb, ?_⟩
      rcases hs with hs | ⟨-, hs⟩
      · rw [← hs]; exact hn
      · rw [← Prod.swap_swap (ends b.1), ← hs]
        exact hn.symm
    · rintro ⟨k, hk, hn⟩
      obtain ⟨kn, hk', rfl⟩ := List.mem_map.1 hk
      exact ⟨kn, (lastLinks_sublist vs).subset hk', hn⟩
  rw [this, ← or_assoc, or_comm]

/-- The network of the last components has no parallel ones. -/
theorem par_net (hN : ParNetOK vs ends varis o d newT) :
    DirNetOK bi (lastLinks bi ends vs) ends varis o d newT where
  nodup := hN.nodup.sublist ((lastLinks_sublist vs).map _)
  values kn hk := hN.values kn ((lastLinks_sublist vs).subset hk)
  single := by
    refine (lastLinks_pairwise vs).imp fun {a b} h => ⟨fun hh => h (.inl hh), fun hb hh => h (.inr ⟨hb, hh⟩)⟩
  fresh kn hk := hN.fresh kn ((lastLinks_sublist vs).subset hk)
  origin := by
    obtain ⟨kn, hk, hn⟩ := hN.origin
    obtain ⟨b, hb, hs⟩ := lastLinks_repr (bi := bi) (ends := ends) hk
    refine ⟨b, hb, ?_⟩
    rcases hs with hs | ⟨-, hs⟩
    · rw [← hs]; exact hn
    · rw [← Prod.swap_swap (ends b.1), ← hs]
      exact hn.symm
  od := hN.od
  dest := hN.dest

theorem netOut_sublist {ks ks' : List K} (h : ks'.Sublist ks) (hn : ks.Nodup) (φ : K → ℚ) (n : N) :
    netOut ks ends (fun k => if k ∈ ks' then φ k else 0) n = netOut ks' ends φ n := by
  have key : ∀ (ks ks' : List K), ks'.Sublist ks → ∀ (S : List K), (∀ k ∈ ks', k ∈ S) →
      (∀ k ∈ ks, k ∈ S → k ∈ ks') → ks.Nodup →
      netOut ks ends (fun k => if k ∈ S then φ k else 0) n = netOut ks' ends φ n := by
    intro ks ks' h
    induction h with
    | slnil => intros; rfl
    | cons a h ih =>
      rename_i l₁ l₂
      intro S h1 h2 hn
      have hcons : netOut (a :: l₂) ends (fun k => if k ∈ S then φ k else 0) n =
          ((if (ends a).1 = n then (if a ∈ S then φ a else 0) else 0) -
            (if (ends a).2 = n then (if a ∈ S then φ a else 0) else 0)) +
          netOut l₂ ends (fun k => if k ∈ S then φ k else 0) n := rfl
      rw [List.nodup_cons] at hn
      have ha : a ∉ S := fun ha => hn.1 (h.subset (h2 a (by simp) ha))
      rw [hcons, ih S h1 (fun k hk => h2 k (by simp [hk])) hn.2]
      simp [ha]
    | cons_cons a h ih =>
      rename_i l₁ l₂
      intro S h1 h2 hn
      have hcons : netOut (a :: l₂) ends (fun k => if k ∈ S then φ k else 0) n =
          ((if (ends a).1 = n then (if a ∈ S then φ a else 0) else 0) -
            (if (ends a).2 = n then (if a ∈ S then φ a else 0) else 0)) +
          netOut l₂ ends (fun k => if k ∈ S then φ k else 0) n := rfl
      have hcons' : netOut (a :: l₁) ends φ n =
          ((if (ends a).1 = n then φ a else 0) - (if (ends a).2 = n then φ a else 0)) +
          netOut l₁ ends φ n := rfl
      rw [List.nodup_cons] at hn
      rw [hcons, hcons', ih S (fun k hk => h1 k (by simp [hk])) (fun k hk hS => ?_) hn.2]
      · simp [h1 a (by simp)]
      · rcases List.mem_cons.1 (h2 k (by simp [hk]) hS) with rfl | h'
        · exact absurd hk hn.1
        · exact h'
  exact key ks ks' h ks' (fun _ hk => hk) (fun _ _ hk => hk) hn

theorem ParNetOK.capNonneg (h : ParNetOK vs ends varis o d newT) {k : K}
    (hk : k ∈ vs.map Prod.fst) (s : ℕ) : 0 ≤ capAt varis k s := by
  obtain ⟨kn, hkn, rfl⟩ := List.mem_map.1 hk
  obtain ⟨v, hv, -, h0, -⟩ := h.values kn hkn
  by_cases hne : v.values = []
  · simp [capAt, hv, hne]
  · exact h0 _ (capAt_mem hv hne s)

/-- What the last components can send, all of them can. -/
theorem par_canSend (hN : ParNetOK vs ends varis o d newT) {F : ℚ} {x : K → ℕ}
    (h : CanSendIn bi (lastLinks bi ends vs) ends varis o d F x) :
    CanSendIn bi vs ends varis o d F x := by
  obtain ⟨φ, h1, h2, h3⟩ := h
  have hs : ((lastLinks bi ends vs).map Prod.fst).Sublist (vs.map Prod.fst) :=
    (lastLinks_sublist vs).map _
  refine ⟨fun k => if k ∈ (lastLinks bi ends vs).map Prod.fst then φ k else 0, fun k hk => ?_, ?_, ?_⟩
  · dsimp only
    split
    · rename_i h; exact h1 k h
    · exact Fits.zero (hN.capNonneg hk _)
  · intro n ho hd
    rw [netOut_sublist hs hN.nodup]
    exact h2 n ho hd
  · rw [netOut_sublist hs hN.nodup]
    exact h3

/-- A maximum flow of the graph of all components. -/
theorem par_best (hN : ParNetOK vs ends varis o d newT) {target : ℚ} (ht : 0 ≤ target) {x : K → ℕ}
    {g : N → N → ℚ} {val : ℚ}
    (hf : IsFlow (nodesOf (addEdgeIn bi (linkGraph bi ends (fun k => capAt varis k (x k)) vs []) d newT
        target))
      (capIn bi (addEdgeIn bi (linkGraph bi ends (fun k => capAt varis k (x k)) vs []) d newT target))
      o newT g val)
    (hbest : ∀ g' val', IsFlow (nodesOf (addEdgeIn bi (linkGraph bi ends (fun k => capAt varis k (x k))
        vs []) d newT target))
      (capIn bi (addEdgeIn bi (linkGraph bi ends (fun k => capAt varis k (x k)) vs []) d newT target))
      o newT g' val' → val' ≤ val) :
    val ≤ target ∧ (∀ k ∈ (lastLinks bi ends vs).map Prod.fst,
        Fits bi (carried bi g (ends k)) (capAt varis k (x k))) ∧
      (∀ n, n ≠ o → n ≠ d → netOut ((lastLinks bi ends vs).map Prod.fst) ends
        (fun k => carried bi g (ends k)) n = 0) ∧
      netOut ((lastLinks bi ends vs).map Prod.fst) ends (fun k => carried bi g (ends k)) o = val ∧
      (∀ F, F ≤ target → CanSendIn bi (lastLinks bi ends vs) ends varis o d F x → F ≤ val) := by
  have hN' := par_net (bi := bi) hN
  rw [par_cap hN, par_nodes vs ends] at hf
  have hbest' : ∀ g' val', IsFlow (nodesOf (netGraph ((lastLinks bi ends vs).map Prod.fst) ends
      (fun k => capAt varis k (x k)) d newT target)) (capIn bi (netGraph
      ((lastLinks bi ends vs).map Prod.fst) ends (fun k => capAt varis k (x k)) d newT target))
      o newT g' val' → val' ≤ val := by
    intro g' val' h
    rw [← par_cap hN, ← par_nodes vs ends] at h
    exact hbest g' val' h
  obtain ⟨f1, f2, f3, f4⟩ := demo_supports hN' (fun k hk => hN'.capNonneg hk _) ht hf
  refine ⟨f4, f1, f2, f3, ?_⟩
  intro F hF hs
  have h0 : ∀ F', 0 ≤ F' → F' ≤ target → CanSendIn bi (lastLinks bi ends vs) ends varis o d F' x →
      F' ≤ val := by
    intro F' h0 hF' hs'
    obtain ⟨φ, p1, p2, p3⟩ := SupportsIn.down hs' h0 (le_refl _)
    obtain ⟨g', hg'⟩ := demo_flow (target := target) hN' p1 p2 (by rw [p3]; exact h0)
      (by rw [p3]; exact hF')
    rw [p3] at hg'
    exact hbest' _ _ hg'
  by_cases hF0 : 0 ≤ F
  · exact h0 F hF0 hF hs
  · have hz : CanSendIn bi (lastLinks bi ends vs) ends varis o d 0 x :=
      ⟨fun _ => 0, fun k hk => Fits.zero (hN'.capNonneg hk _),
        fun n _ _ => netOut_zero _ _ n, (netOut_zero _ _ o).ge⟩
    have := h0 0 (le_refl _) ht hz
    push Not at hF0
    linarith

theorem par_lookup {x : K → ℕ} {kn : K × ℕ} (hk : kn ∈ vs) :
    itemsGet (compsOf vs x) kn.1 = .ok (x kn.1) := by
  have : ∀ l : List (K × ℕ), kn ∈ l → (compsOf l x).lookup kn.1 = some (x kn.1) := by
    intro l
    induction l with
    | nil => intro h; cases h
    | cons a l ih =>
      intro h
      have hc : compsOf (a :: l) x = (a.1, x a.1) :: compsOf l x := rfl
      rw [hc, List.lookup_cons]
      by_cases ha : kn.1 = a.1
      · rw [ha]; simp
      · rw [show (kn.1 == a.1) = false by simpa using ha]
        rcases List.mem_cons.1 h with rfl | h
        · exact absurd rfl ha
        · exact ih h
  simp [itemsGet, dictGet, this vs hk]

theorem par_demoGraph (hN : ParNetOK vs ends varis o d newT) {x : K → ℕ} (hx : InSpace vs x) :
    (vs.map fun kn => (kn.1, ends kn.1)).foldlM (demoEdge bi (compsOf vs x) varis) [] =
      .ok (linkGraph bi ends (fun k => capAt varis k (x k)) vs []) := by
  have main : ∀ (l : List (K × ℕ)) (G : CapGraph N), (∀ kn ∈ l, kn ∈ vs) →
      (l.map fun kn => (kn.1, ends kn.1)).foldlM (demoEdge bi (compsOf vs x) varis) G =
        .ok (linkGraph bi ends (fun k => capAt varis k (x k)) l G) := by
    intro l
    induction l with
    | nil => intro G _; rfl
    | cons kn l ih =>
      intro G hl
      have hk := hl kn (by simp)
      obtain ⟨v, hv, hlen, -, -⟩ := hN.values kn hk
      have h2 : itemsGet varis kn.1 = .ok v := by simp [itemsGet, dictGet, hv]
      have h3 := capAt_lt hv (s := x kn.1) (by rw [hlen]; exact hx kn hk)
      have he : demoEdge bi (compsOf vs x) varis G (kn.1, ends kn.1) =
          .ok (addEdgeIn bi G (ends kn.1).1 (ends kn.1).2 (capAt varis kn.1 (x kn.1))) := by
        simp only [demoEdge]
        rw [h2, ok_bind, par_lookup hk, ok_bind, h3, ok_bind]
        rfl
      rw [List.map_cons, List.foldlM_cons, he, ok_bind, ih _ fun k hk => hl k (by simp [hk])]
      rfl
  exact main vs [] fun _ h => h

theorem par_flowGraph (hN : ParNetOK vs ends varis o d newT) {edges : List (K × N × N)}
    (hd : ∀ kn ∈ vs, edges.lookup kn.1 = some (ends kn.1)) {x : K → ℕ} (hx : InSpace vs x) :
    (compsOf vs x).foldlM (flowEdge edges varis) [] =
      .ok (linkGraph true ends (fun k => capAt varis k (x k)) vs []) := by
  have main : ∀ (l : List (K × ℕ)) (G : CapGraph N), (∀ kn ∈ l, kn ∈ vs) →
      (compsOf l x).foldlM (flowEdge edges varis) G =
        .ok (linkGraph true ends (fun k => capAt varis k (x k)) l G) := by
    intro l
    induction l with
    | nil => intro G _; rfl
    | cons kn l ih =>
      intro G hl
      have hk := hl kn (by simp)
      obtain ⟨v, hv, hlen, -, -⟩ := hN.values kn hk
      have h1 : itemsGet edges kn.1 = .ok (ends kn.1) := by simp [itemsGet, dictGet, hd kn hk]
      have h2 : itemsGet varis kn.1 = .ok v := by simp [itemsGet, dictGet, hv]
      have h3 := capAt_lt hv (s := x kn.1) (by rw [hlen]; exact hx kn hk)
      have he : flowEdge edges varis G (kn.1, x kn.1) =
          .ok (addEdge G (ends kn.1).1 (ends kn.1).2 (capAt varis kn.1 (x kn.1))) := by
        simp only [flowEdge]
        rw [h1, ok_bind, h2, ok_bind, h3, ok_bind]
        rfl
      have hc : compsOf (kn :: l) x = (kn.1, x kn.1) :: compsOf l x := rfl
      rw [hc, List.foldlM_cons, he, ok_bind, ih _ fun k hk => hl k (by simp [hk])]
      rfl
  exact main vs [] fun _ h => h

/-- A component whose values are all below what is carried between its nodes: another component
between them has more. -/
theorem par_short (hN : ParNetOK vs ends varis o d newT) {x : K → ℕ} (hx : InSpace vs x)
    {g : N → N → ℚ} (ha : ∀ u v, g u v = - g v u)
    (hfit : ∀ k ∈ (lastLinks bi ends vs).map Prod.fst,
      Fits bi (carried bi g (ends k)) (capAt varis k (x k))) {kn : K × ℕ} (hk : kn ∈ vs)
    {v : Variable K} (hv : varis.lookup kn.1 = some v)
    (h : v.values.findIdx? (fun c => decide (|carried bi g (ends kn.1)| ≤ c)) = none) :
    ∃ k' ∈ vs.map Prod.fst, k' ≠ kn.1 ∧ SameLink bi ends kn.1 k' ∧
      ∀ i, i < kn.2 → capAt varis kn.1 i < capAt varis k' (x k') := by
  obtain ⟨b, hb, hs⟩ := lastLinks_repr (bi := bi) (ends := ends) hk
  have hbv := (lastLinks_sublist vs).subset hb
  have heq : |carried bi g (ends kn.1)| = |carried bi g (ends b.1)| := by
    rcases hs with hs | ⟨hb, hs⟩
    · rw [hs]
    · subst hb
      simp only [carried, if_true, hs, Prod.fst_swap, Prod.snd_swap]
      rw [ha, abs_neg]
  have hle : |carried bi g (ends kn.1)| ≤ capAt varis b.1 (x b.1) := by
    rw [heq]
    exact (hfit b.1 (List.mem_map_of_mem hb)).abs
  obtain ⟨v', hv', hlen, -, -⟩ := hN.values kn hk
  have hvv : v' = v := by rw [hv] at hv'; exact (Option.some.inj hv').symm
  subst hvv
  rw [List.findIdx?_eq_none_iff] at h
  have hlt : ∀ i, i < kn.2 → capAt varis kn.1 i < |carried bi g (ends kn.1)| := by
    intro i hi
    have hi' : i < v'.values.length := by rw [hlen]; exact hi
    have hc : capAt varis kn.1 i = v'.values[i] := by simp [capAt, hv, hi']
    have := h _ (List.getElem_mem hi')
    rw [hc]
    simpa using this
  refine ⟨b.1, List.mem_map_of_mem hbv, ?_, hs, fun i hi => lt_of_lt_of_le (hlt i hi) hle⟩
  intro hh
  have := hlt (x kn.1) (hx kn hk)
  rw [hh] at hle
  linarith

end BNS
