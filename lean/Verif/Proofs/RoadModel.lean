import Verif.Proofs.ReadModel
import Verif.Spec.RoadModel

/-!
# Lemmas on model files with one origin and destination
-/

namespace BNS

set_option linter.unusedSectionVars false

section
variable {K : Type} [DecidableEq K]

theorem nodup_labels {G : NGraph K} {o d : K} {es : List (NEdge K)}
    (hn : (G.edges.map NEdge.label).Nodup) (h : SimpleRoute G o d es) :
    (es.map NEdge.label).Nodup := by
  obtain ⟨ns, hr, hnd⟩ := h
  have hinj : ∀ e ∈ G.edges, ∀ e' ∈ G.edges, e.label = e'.label → e = e' := fun e he e' he' hl =>
    List.inj_on_of_nodup_map hn he he' hl
  -- an edge of the rest of the route has both ends among its nodes
  have hends : ∀ {u v : K} {es ns}, Route G u es ns v → ∀ e ∈ es, e.src ∈ ns ∧ e.dst ∈ ns := by
    intro u v es ns hr
    induction hr with
    | nil _ => simp
    | cons _ _ hl h' ih =>
      intro e he
      obtain ⟨t, rfl⟩ := h'.head
      rcases List.mem_cons.1 he with rfl | he
      · rcases hl with ⟨a, b⟩ | ⟨-, a, b⟩ <;> rw [a, b] <;> simp
      · have := ih e he
        exact ⟨List.mem_cons_of_mem _ this.1, List.mem_cons_of_mem _ this.2⟩
  induction hr with
  | nil _ => simp
  | @cons u m v e es ns hu he hl h' ih =>
    rw [List.map_cons, List.nodup_cons]
    rw [List.nodup_cons] at hnd
    refine ⟨fun hmem => ?_, ih hnd.2⟩
    obtain ⟨e', he', hle⟩ := List.mem_map.1 hmem
    have := hinj e' (h'.edges e' he') e he hle
    subst this
    have h3 := hends h' e' he'
    rcases hl with ⟨a, b⟩ | ⟨-, a, b⟩
    · exact hnd.1 (a ▸ h3.1)
    · exact hnd.1 (b ▸ h3.2)

theorem readModel_simple {m : NetJson K} (h1 : m.gtype ≠ some .other)
    (h2 : m.gtype ≠ some .multigraph ∧ m.gtype ≠ some .multidigraph)
    (h3 : NoParallel (m.gtype = some .digraph) m.conns) :
    ∃ nodes : List K, (∀ n, n ∈ nodes ↔ n ∈ (fileGraph m).nodes) ∧
      GraphOK { fileGraph m with nodes := nodes } ∧
      readModel m = .ok
        { G := { fileGraph m with nodes := nodes }, comps := m.comps, conns := m.conns, ods := m.ods } := by
  set G0 : NGraph K :=
    { directed := m.gtype = some .digraph, multi := false, nodes := [], edges := [] } with hG0
  have he : emptyGraph m.gtype = .ok G0 := by
    rw [hG0]
    match hg : m.gtype with
    | none => rfl
    | some .graph => rfl
    | some .digraph => rfl
    | some .multigraph => exact absurd hg h2.1
    | some .multidigraph => exact absurd hg h2.2
    | some .other => exact absurd hg h1
  have hG : GraphOK G0 := ⟨by simp [hG0], by simp [hG0], by simp [hG0]⟩
  have hg := addEdges_graphOK hG m.conns
  obtain ⟨hd, hmu⟩ := addEdges_flags G0 m.conns
  have hed : (m.conns.foldl addConn G0).edges = (fileGraph m).edges :=
    edges_addEdges (.inl ⟨rfl, h3⟩) rfl
  have hGeq : { m.conns.foldl addConn G0 with
      nodes := (m.comps.map Prod.fst).foldl addNode (m.conns.foldl addConn G0).nodes } =
      { fileGraph m with nodes := (m.comps.map Prod.fst).foldl addNode (m.conns.foldl addConn G0).nodes } := by
    have e1 : (m.conns.foldl addConn G0).directed = (fileGraph m).directed := hd
    have e2 : (m.conns.foldl addConn G0).multi = (fileGraph m).multi := hmu
    simp only [e1, e2, hed]
  refine ⟨(m.comps.map Prod.fst).foldl addNode (m.conns.foldl addConn G0).nodes, fun n => ?_, ?_, ?_⟩
  · rw [mem_addNodes, mem_nodes_addEdges]
    unfold fileGraph
    simp only [hG0, List.not_mem_nil, false_or, List.mem_dedup, List.mem_append, List.mem_flatMap, List.mem_cons, or_false]
    exact or_comm
  · rw [← hGeq]
    refine ⟨fun e h => ?_, hg.simple, hg.keys⟩
    rw [mem_addNodes, mem_addNodes]
    exact ⟨.inl (hg.ends e h).1, .inl (hg.ends e h).2⟩
  · unfold readModel
    rw [he, ok_bind]
    rw [← hGeq]
    rfl

theorem route_nodes {G : NGraph K} {nodes : List K} (h : ∀ n, n ∈ nodes ↔ n ∈ G.nodes) {o d : K} {es ns} :
    Route { G with nodes := nodes } o es ns d ↔ Route G o es ns d := by
  constructor
  · intro hr
    induction hr with
    | nil hu => exact .nil ((h _).1 hu)
    | cons hu he hl _ ih => exact .cons ((h _).1 hu) he hl ih
  · intro hr
    induction hr with
    | nil hu => exact .nil ((h _).2 hu)
    | cons hu he hl _ ih => exact .cons ((h _).2 hu) he hl ih

theorem modelGivenOd_varis {edges : List K} {damage : List ℚ} {scen : List (K × List ℚ)} {od : K}
    {pt : List (List K × Option ℚ)} {brs : List (BBranch K)} {cpms : List (K × Cpm K)}
    {varis : List (K × Variable K)} (h : modelGivenOd edges damage scen od pt brs = .ok (cpms, varis)) :
    itemGet varis od = .ok (odVariable od pt) := by
  have key : ∀ (d : List (K × Variable K)) (v : Variable K), itemGet (itemSet d od v) od = .ok v := by
    intro d v
    unfold itemGet itemSet
    by_cases hm : od ∈ d.map Prod.fst
    · rw [if_pos hm]
      have : (d.map fun kv => if kv.1 = od then (od, v) else kv).find? (fun kv => kv.1 = od) =
          some (od, v) := by
        induction d with
        | nil => cases hm
        | cons a d ih =>
          rw [List.map_cons]
          by_cases ha : a.1 = od
          · rw [if_pos ha, List.find?_cons_of_pos (by simp)]
          · rw [if_neg ha, List.find?_cons_of_neg (by simpa using ha)]
            refine ih ?_
            rw [List.map_cons, List.mem_cons] at hm
            exact hm.resolve_left fun e => ha e.symm
      rw [this]
    · rw [if_neg hm]
      have : (d ++ [(od, v)]).find? (fun kv => kv.1 = od) = some (od, v) := by
        rw [List.find?_append]
        have hn : d.find? (fun kv => kv.1 = od) = none := by
          rw [List.find?_eq_none]
          intro kv hkv e
          exact hm ((by simpa using e : kv.1 = od) ▸ List.mem_map_of_mem hkv)
        rw [hn]
        simp
      rw [this]
  unfold modelGivenOd at h
  simp only at h
  obtain ⟨a, -, h1⟩ := bind_ok.1 h
  obtain ⟨b, -, h2⟩ := bind_ok.1 h1
  obtain ⟨c, -, h3⟩ := bind_ok.1 h2
  obtain ⟨M, -, h4⟩ := bind_ok.1 h3
  cases h4
  exact key _ _

/-- Checks on the simple routes of a given graph, by enumeration. -/
theorem simple_of_enum {G : NGraph K} (hG : GraphOK G) (hm : G.multi = false) {o d : K}
    (ho : o ∈ G.nodes) (hd : d ∈ G.nodes) (hne : o ≠ d) {L : List (List K × ℚ)}
    (h : (do let ps ← enumSimple G o d; ps.mapM (pathEntry G)) = Except.ok L) :
    (∀ es, SimpleRoute G o d es → routeEntry es ∈ L) ∧
    (∀ x ∈ L, ∃ es, SimpleRoute G o d es ∧ routeEntry es = x) ∧
    ∀ rs : List (List (NEdge K)), rs.Nodup → (∀ es ∈ rs, SimpleRoute G o d es) →
      rs.length ≤ L.length := by
  obtain ⟨ps, e1, e2, e3⟩ := enumSimple_ok.paths G o d ho hd hne
  obtain ⟨rs, g1, g2, g3⟩ := routes_of_paths hG hm (e2 hm) e3
  rw [e1, ok_bind, g3] at h
  cases h
  refine ⟨fun es hes => List.mem_map_of_mem ((g2 es).2 hes), fun x hx => ?_, fun rs' hn hs => ?_⟩
  · obtain ⟨es, hes, rfl⟩ := List.mem_map.1 hx
    exact ⟨es, (g2 es).1 hes, rfl⟩
  · rw [List.length_map]
    exact (hn.subperm fun es hes => (g2 es).2 (hs es hes)).length_le

end
end BNS
