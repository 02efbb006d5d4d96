import Verif.Model.Paths
import Verif.Spec.Paths
import Verif.Proofs.Trans
import Verif.Proofs.PathLib

/-! Simple paths: helper lemmas. -/

namespace BNS

set_option linter.unusedSectionVars false

section
variable {K : Type}

theorem Route.nodes_unique {G : NGraph K} {u v v' : K} {es ns ns'}
    (h : Route G u es ns v) (h' : Route G u es ns' v') : ns = ns' ∧ v = v' := by
  induction h generalizing ns' v' with
  | nil hu => cases h' with | nil => exact ⟨rfl, rfl⟩
  | @cons u m v e es ns hu h1 h2 h3 ih =>
    cases h' with
    | @cons _ m' _ _ _ ns2 _ g1 g2 g3 =>
      have hm : m = m' := by
        rcases h2 with ⟨a, b⟩ | ⟨-, a, b⟩ <;> rcases g2 with ⟨c, d⟩ | ⟨-, c, d⟩
        · rw [← b, d]
        · rw [← b, ← c, a, d]
        · rw [← a, ← d, c, b]
        · rw [← a, c]
      subst hm
      obtain ⟨rfl, rfl⟩ := ih g3
      exact ⟨rfl, rfl⟩

/-- The rest of a route from one of its nodes. -/
theorem Route.from {G : NGraph K} {u v : K} {es ns} (h : Route G u es ns v) {w : K} (hw : w ∈ ns) :
    ∃ es' ns', Route G w es' ns' v ∧ es'.Sublist es ∧ ns'.Sublist ns := by
  induction h with
  | nil hu =>
    simp only [List.mem_singleton] at hw
    subst hw
    exact ⟨_, _, .nil hu, .refl _, .refl _⟩
  | cons hu h1 h2 h3 ih =>
    rcases List.mem_cons.1 hw with rfl | hw
    · exact ⟨_, _, .cons hu h1 h2 h3, .refl _, .refl _⟩
    · obtain ⟨es', ns', a, b, c⟩ := ih hw
      exact ⟨es', ns', a, b.cons _, c.cons _⟩

/-- Leaving out cycles. -/
theorem Route.simple [DecidableEq K] {G : NGraph K} {u v : K} {es ns} (h : Route G u es ns v) :
    ∃ es', SimpleRoute G u v es' ∧ es'.Sublist es := by
  induction h with
  | nil hu => exact ⟨[], ⟨_, .nil hu, by simp⟩, .refl _⟩
  | @cons u m v e es ns hu h1 h2 h3 ih =>
    obtain ⟨es', ⟨ns', hr, hn⟩, hs⟩ := ih
    by_cases hm : u ∈ ns'
    · obtain ⟨es2, ns2, a, b, c⟩ := hr.from hm
      exact ⟨es2, ⟨ns2, a, c.nodup hn⟩, (b.trans hs).cons _⟩
    · exact ⟨e :: es', ⟨u :: ns', .cons hu h1 h2 hr, List.nodup_cons.2 ⟨hm, hn⟩⟩, hs.cons_cons e⟩

/-- In a graph that is not a multigraph a walk is followed by its only edges. -/
theorem mapM_stepEdge [DecidableEq K] {G : NGraph K} (hG : GraphOK G) (hm : G.multi = false) {u v : K}
    {es ns} (h : Route G u es ns v) :
    (ns.zip ns.tail).mapM (fun uv => stepEdge G uv.1 uv.2) = .ok es := by
  induction h with
  | nil hu => rfl
  | @cons u m v e es ns hu he hl h' ih =>
    obtain ⟨t, rfl⟩ := h'.head
    simp only [List.tail_cons, List.zip_cons_cons, List.mapM_cons] at ih ⊢
    have hb : ∃ l, G.between u m = e :: l := by
      have h1 : e ∈ G.between u m := by simp [NGraph.between, he, hl]
      cases hc : G.between u m with
      | nil => rw [hc] at h1; cases h1
      | cons a l =>
        have ha : a ∈ G.between u m := by rw [hc]; simp
        simp only [NGraph.between, List.mem_filter, decide_eq_true_eq] at ha
        exact ⟨l, by rw [only_edge hG hm ha.1 he ha.2 hl]⟩
    obtain ⟨l, hb⟩ := hb
    have h1 : stepEdge G u m = .ok e := by
      unfold stepEdge
      rw [hm, hb]
      rfl
    rw [h1, ok_bind, ih, ok_bind]
    rfl

theorem pathEntry_ok [DecidableEq K] {G : NGraph K} (hG : GraphOK G) (hm : G.multi = false) {u v : K}
    {es ns} (h : Route G u es ns v) : pathEntry G ns = .ok (routeEntry es) := by
  unfold pathEntry
  rw [mapM_stepEdge hG hm h]
  rfl

/-- The simple paths of networkx as routes. -/
theorem routes_of_paths [DecidableEq K] {G : NGraph K} (hG : GraphOK G) (hm : G.multi = false) {o d : K}
    {ps : List (List K)} (hn : ps.Nodup) (hp : ∀ p, p ∈ ps ↔ IsWalk G o d p ∧ p.Nodup) :
    ∃ rs : List (List (NEdge K)), rs.Nodup ∧ (∀ es, es ∈ rs ↔ SimpleRoute G o d es) ∧
      ps.mapM (pathEntry G) = .ok (rs.map routeEntry) := by
  have key : ∀ qs : List (List K), qs.Nodup → (∀ p ∈ qs, IsWalk G o d p ∧ p.Nodup) →
      ∃ rs : List (List (NEdge K)), rs.Nodup ∧
        (∀ es, es ∈ rs ↔ ∃ ns ∈ qs, Route G o es ns d) ∧
        qs.mapM (pathEntry G) = .ok (rs.map routeEntry) := by
    intro qs
    induction qs with
    | nil => exact fun _ _ => ⟨[], by simp, by simp, rfl⟩
    | cons p qs ih =>
      intro h1 h2
      obtain ⟨rs, a, b, c⟩ := ih (List.nodup_cons.1 h1).2 fun q hq => h2 q (by simp [hq])
      obtain ⟨es, he, -⟩ := edgeFromNodes_spec (h2 p (by simp)).1
      refine ⟨es :: rs, List.nodup_cons.2 ⟨fun hm => ?_, a⟩, fun es' => ?_, ?_⟩
      · obtain ⟨ns, hns, hr⟩ := (b es).1 hm
        rw [(he.nodes_unique hr).1] at h1
        exact (List.nodup_cons.1 h1).1 hns
      · rw [List.mem_cons, b]
        constructor
        · rintro (rfl | ⟨ns, hns, hr⟩)
          · exact ⟨p, by simp, he⟩
          · exact ⟨ns, by simp [hns], hr⟩
        · rintro ⟨ns, hns, hr⟩
          rcases List.mem_cons.1 hns with rfl | hns
          · exact .inl (hr.unique hG hm he)
          · exact .inr ⟨ns, hns, hr⟩
      · rw [List.mapM_cons, pathEntry_ok hG hm he, ok_bind, c, ok_bind]
        rfl
  obtain ⟨rs, a, b, c⟩ := key ps hn fun p h => (hp p).1 h
  refine ⟨rs, a, fun es => ?_, c⟩
  rw [b]
  constructor
  · rintro ⟨ns, hns, hr⟩
    exact ⟨ns, hr, ((hp ns).1 hns).2⟩
  · rintro ⟨ns, hr, hnd⟩
    exact ⟨ns, (hp ns).2 ⟨hr.isWalk, hnd⟩, hr⟩

/-! ### The dictionary of paths -/

section
variable {B X : Type} [DecidableEq B] [BEq B] [LawfulBEq B]

theorem keys_appendTo (d : List (B × List X)) (od : B) (x : X) (k : B) :
    k ∈ (appendTo d od x).map Prod.fst ↔ k ∈ d.map Prod.fst ∨ k = od := by
  unfold appendTo
  split
  · rename_i h
    have : ((d.map fun kl => if kl.1 = od then (od, kl.2 ++ [x]) else kl).map Prod.fst) =
        d.map Prod.fst := by
      rw [List.map_map]
      apply List.map_congr_left
      intro kl _
      simp only [Function.comp]
      split
      · rename_i e; exact e.symm
      · rfl
    rw [this]
    constructor
    · exact .inl
    · rintro (h' | rfl)
      · exact h'
      · exact h
  · simp

theorem lookup_isSome_iff (d : List (B × X)) (k : B) :
    (d.lookup k).isSome ↔ k ∈ d.map Prod.fst := by
  induction d with
  | nil => simp
  | cons a d ih =>
    rw [List.lookup_cons]
    by_cases h : k = a.1
    · simp [h]
    · have h1 : (k == a.1) = false := by simpa using h
      rw [h1]
      simp only [List.map_cons, List.mem_cons, h, false_or]
      exact ih

theorem lookup_appendTo (d : List (B × List X)) (od : B) (x : X) (k : B) :
    (appendTo d od x).lookup k =
      if k = od then some ((d.lookup od).getD [] ++ [x]) else d.lookup k := by
  unfold appendTo
  split
  · rename_i h
    have key : ∀ d : List (B × List X), (d.map fun kl => if kl.1 = od then (od, kl.2 ++ [x]) else kl).lookup k =
        if k = od then (d.lookup od).map (· ++ [x]) else d.lookup k := by
      intro d
      induction d with
      | nil => simp
      | cons a d ih =>
        rw [List.map_cons, List.lookup_cons, List.lookup_cons, List.lookup_cons, ih]
        by_cases h1 : a.1 = od
        · rw [if_pos h1]
          by_cases h2 : k = od
          · simp [h1, h2]
          · have e1 : (k == od) = false := by simpa using h2
            have e2 : (k == a.1) = false := by rw [h1]; exact e1
            simp [e1, e2, h2]
        · rw [if_neg h1]
          by_cases h2 : k = a.1
          · have : ¬ k = od := fun e => h1 (h2 ▸ e)
            simp [h2, h1]
          · have e1 : (k == a.1) = false := by simpa using h2
            have e2 : (od == a.1) = false := by simpa using fun e => h1 e.symm
            rw [e1, e2]
    rw [key]
    by_cases h2 : k = od
    · rw [if_pos h2, if_pos h2]
      have := (lookup_isSome_iff d od).2 h
      cases hl : d.lookup od with
      | none => rw [hl] at this; cases this
      | some l => rfl
    · rw [if_neg h2, if_neg h2]
  · rename_i h
    have hn : d.lookup od = none := by
      cases hl : d.lookup od with
      | none => rfl
      | some l => exact absurd ((lookup_isSome_iff d od).1 (by rw [hl]; rfl)) h
    rw [List.lookup_append]
    by_cases h2 : k = od
    · subst h2
      simp [hn]
    · have e1 : (k == od) = false := by simpa using h2
      simp [List.lookup_cons, e1, h2]

theorem lookup_appendAll (xs : List X) (d : List (B × List X)) (od k : B) :
    (xs.foldl (fun d x => appendTo d od x) d).lookup k =
      if k = od ∧ xs ≠ [] then some ((d.lookup od).getD [] ++ xs) else d.lookup k := by
  induction xs generalizing d with
  | nil => simp
  | cons x xs ih =>
    rw [List.foldl_cons, ih, lookup_appendTo, lookup_appendTo, if_pos rfl]
    by_cases h : k = od
    · by_cases hx : xs = []
      · simp [h, hx]
      · simp [h, hx, List.append_assoc]
    · simp [h]

end

/-- The dictionary returned by `get_all_paths_and_times`, for any list of entries per pair. -/
theorem getAllPaths_lookup [DecidableEq K] {lib : SimplePathLib K} {G : NGraph K} {ods : List (K × K)}
    {f : K × K → List (List K × ℚ)}
    (h : ∀ od ∈ ods, ∃ ps, lib G od.1 od.2 = .ok ps ∧ ps.mapM (pathEntry G) = .ok (f od)) :
    ∃ r, getAllPaths lib ods G = .ok r ∧ ∀ k, r.lookup k =
      if k ∈ ods ∧ f k ≠ [] then some (List.replicate (ods.count k) (f k)).flatten else none := by
  have key : ∀ (ods : List (K × K)) (acc : List ((K × K) × List (List K × ℚ))),
      (∀ od ∈ ods, ∃ ps, lib G od.1 od.2 = .ok ps ∧ ps.mapM (pathEntry G) = .ok (f od)) →
      ∃ r, ods.foldlM (fun acc od => do
        let ps ← lib G od.1 od.2
        let xs ← ps.mapM (pathEntry G)
        return xs.foldl (fun d x => appendTo d od x) acc) acc = .ok r ∧ ∀ k, r.lookup k =
        if k ∈ ods ∧ f k ≠ [] then
          some ((acc.lookup k).getD [] ++ (List.replicate (ods.count k) (f k)).flatten)
        else acc.lookup k := by
    intro ods
    induction ods with
    | nil => exact fun acc _ => ⟨acc, rfl, fun k => by simp⟩
    | cons od ods ih =>
      intro acc h
      obtain ⟨ps, h1, h2⟩ := h od (by simp)
      obtain ⟨r, h3, h4⟩ := ih ((f od).foldl (fun d x => appendTo d od x) acc)
        fun od' ho => h od' (by simp [ho])
      refine ⟨r, ?_, fun k => ?_⟩
      · rw [List.foldlM_cons, h1, ok_bind, h2, ok_bind]
        exact h3
      · rw [h4, lookup_appendAll]
        by_cases hf : f k = []
        · by_cases hk : k = od
          · subst hk; simp [hf]
          · simp [hf, hk]
        · by_cases hk : k = od
          · subst hk
            by_cases hm : k ∈ ods
            · simp [hf, hm, List.replicate_succ, List.append_assoc]
            · simp [hf, hm, List.count_eq_zero_of_not_mem hm]
          · have : ¬ od = k := fun e => hk e.symm
            by_cases hm : k ∈ ods
            · simp [hf, hm, hk, List.count_cons_of_ne this]
            · simp [hf, hm, hk]
  obtain ⟨r, h1, h2⟩ := key ods [] h
  refine ⟨r, h1, fun k => ?_⟩
  rw [h2]
  simp

/-- Fastest path in the list of simple paths and fastest route. -/
theorem travelTime_iff [DecidableEq K] {G : NGraph K} (hw : ∀ e ∈ G.edges, 0 ≤ e.weight) {o d : K}
    (hod : o ≠ d) {l : List (List K × ℚ)}
    (hl : ∀ x, x ∈ l ↔ ∃ es, SimpleRoute G o d es ∧ x = routeEntry es) (x : K → ℕ) (t : Option ℚ) :
    TravelTime (l.map fun y => (y.1, some y.2)) x 1 t ↔ FastestRoute G x o d t := by
  have hopen : ∀ es, SimpleRoute G o d es → (Surv x 1 (routeEntry es).1 ↔ Open x es) := by
    rintro es ⟨ns, hr, -⟩
    unfold Surv Open routeEntry
    constructor
    · rintro ⟨-, h⟩ e he
      exact h _ (List.mem_map_of_mem he)
    · intro h
      refine ⟨fun hn => ?_, fun e he => ?_⟩
      · rw [List.map_eq_nil_iff] at hn
        subst hn
        cases hr
        exact hod rfl
      · obtain ⟨e', he', rfl⟩ := List.mem_map.1 he
        exact h e' he'
  have hmem : ∀ p, p ∈ (l.map fun y => (y.1, (some y.2 : Option ℚ))) ↔ ∃ es, SimpleRoute G o d es ∧
      p = ((routeEntry es).1, some (routeEntry es).2) := by
    intro p
    rw [List.mem_map]
    constructor
    · rintro ⟨y, hy, rfl⟩
      obtain ⟨es, h1, rfl⟩ := (hl y).1 hy
      exact ⟨es, h1, rfl⟩
    · rintro ⟨es, h1, rfl⟩
      exact ⟨_, (hl _).2 ⟨es, h1, rfl⟩, rfl⟩
  have hsub : ∀ es ns, Route G o es ns d → Open x es → ∃ es', SimpleRoute G o d es' ∧ Open x es' ∧
      (es'.map NEdge.weight).sum ≤ (es.map NEdge.weight).sum := by
    intro es ns hr ho
    obtain ⟨es', h1, h2⟩ := hr.simple
    refine ⟨es', h1, fun e he => ho e (h2.subset he), ?_⟩
    apply (h2.map NEdge.weight).sum_le_sum
    intro w hw'
    obtain ⟨e, he, rfl⟩ := List.mem_map.1 hw'
    exact hw e (hr.edges e he)
  unfold TravelTime FastestRoute
  have hnone : (∀ p ∈ (l.map fun y => (y.1, (some y.2 : Option ℚ))), ¬ Surv x 1 p.1) ↔
      ∀ es ns, Route G o es ns d → ¬ Open x es := by
    constructor
    · intro h es ns hr ho
      obtain ⟨es', h1, h2, -⟩ := hsub es ns hr ho
      exact h _ ((hmem _).2 ⟨es', h1, rfl⟩) ((hopen es' h1).2 h2)
    · intro h p hp hs
      obtain ⟨es, h1, rfl⟩ := (hmem p).1 hp
      have h2 := (hopen es h1).1 hs
      obtain ⟨ns, hr, -⟩ := h1
      exact h es ns hr h2
  rw [hnone]
  refine and_congr_right fun _ => ?_
  constructor
  · rintro ⟨h1, h2⟩ c rfl
    obtain ⟨p, hp, hs, hc⟩ := h1 (by simp)
    obtain ⟨es, h3, rfl⟩ := (hmem p).1 hp
    refine ⟨?_, fun es' ns' hr ho => ?_⟩
    · obtain ⟨ns, hr, hn⟩ := h3
      exact ⟨es, ns, hr, (hopen es ⟨ns, hr, hn⟩).1 hs, Option.some.inj hc⟩
    · obtain ⟨es2, g1, g2, g3⟩ := hsub es' ns' hr ho
      have := h2 _ ((hmem _).2 ⟨es2, g1, rfl⟩) ((hopen es2 g1).2 g2)
      exact le_trans this g3
  · intro h
    cases t with
    | none =>
      rename_i h0
      refine ⟨fun hn => absurd rfl hn, fun p hp hs => ?_⟩
      exact absurd hs (hnone.2 (h0.1 rfl) p hp)
    | some c =>
      obtain ⟨⟨es, ns, hr, ho, hc⟩, h2⟩ := h c rfl
      refine ⟨fun _ => ?_, fun p hp hs => ?_⟩
      · obtain ⟨es', g1, g2, g3⟩ := hsub es ns hr ho
        refine ⟨_, (hmem _).2 ⟨es', g1, rfl⟩, (hopen es' g1).2 g2, ?_⟩
        obtain ⟨ns', hr', -⟩ := g1
        have := h2 es' ns' hr' g2
        exact congrArg some (le_antisymm (g3.trans hc.le) this)
      · obtain ⟨es', g1, rfl⟩ := (hmem p).1 hp
        have g2 := (hopen es' g1).1 hs
        obtain ⟨ns', hr', -⟩ := g1
        exact h2 es' ns' hr' g2

end
end BNS
