import Verif.Proofs.RoadModel
import Verif.Props.ModelPy

/-!
# Properties C71 and C72: the paths of a network; from a model file to the travel time
-/

namespace BNS

set_option linter.unusedSectionVars false

section
variable {K : Type} [DecidableEq K]

/-- `get_all_paths_and_times` on a graph that is not a multigraph: for every pair of different nodes
the dictionary has an entry if and only if there is a route, and the entry lists the labels and the
total weight of every route without repeated nodes, each as often as the pair is given (once if it is
given once). -/
theorem C71_all_paths {lib : SimplePathLib K} (hlib : SimplePathLibOK lib) {G : NGraph K}
    (hG : GraphOK G) (hm : G.multi = false) (ods : List (K × K))
    (hods : ∀ od ∈ ods, od.1 ∈ G.nodes ∧ od.2 ∈ G.nodes ∧ od.1 ≠ od.2) :
    ∃ r, getAllPaths lib ods G = .ok r ∧ (∀ od, od ∉ ods → r.lookup od = none) ∧ ∀ od ∈ ods,
      ((∀ es ns, ¬ Route G od.1 es ns od.2) → r.lookup od = none) ∧
      ((∃ es ns, Route G od.1 es ns od.2) → ∃ rs : List (List (NEdge K)), rs.Nodup ∧
        (∀ es, es ∈ rs ↔ SimpleRoute G od.1 od.2 es) ∧
        r.lookup od = some (List.replicate (ods.count od) (rs.map routeEntry)).flatten) := by
  classical
  have hp : ∀ od ∈ ods, ∃ ps, lib G od.1 od.2 = .ok ps ∧ ∃ rs : List (List (NEdge K)), rs.Nodup ∧
      (∀ es, es ∈ rs ↔ SimpleRoute G od.1 od.2 es) ∧
      ps.mapM (pathEntry G) = .ok (rs.map routeEntry) := by
    intro od ho
    obtain ⟨h1, h2, h3⟩ := hods od ho
    obtain ⟨ps, e, hn, hmem⟩ := hlib.paths G od.1 od.2 h1 h2 h3
    exact ⟨ps, e, routes_of_paths hG hm (hn hm) hmem⟩
  choose! ps hps rs hrs using hp
  obtain ⟨r, h1, h2⟩ := getAllPaths_lookup (f := fun od => (rs od).map routeEntry)
    fun od ho => ⟨ps od, hps od ho, (hrs od ho).2.2⟩
  refine ⟨r, h1, fun od ho => by rw [h2, if_neg fun h => ho h.1], fun od ho => ⟨fun hno => ?_, ?_⟩⟩
  · rw [h2, if_neg]
    rintro ⟨-, h⟩
    apply h
    rw [List.map_eq_nil_iff, List.eq_nil_iff_forall_not_mem]
    intro es hes
    obtain ⟨ns, hr, -⟩ := ((hrs od ho).2.1 es).1 hes
    exact hno es ns hr
  · rintro ⟨es, ns, hr⟩
    obtain ⟨es', h3, -⟩ := hr.simple
    refine ⟨rs od, (hrs od ho).1, (hrs od ho).2.1, ?_⟩
    have hne : (rs od).map routeEntry ≠ [] := by
      rw [ne_eq, List.map_eq_nil_iff]
      intro h4
      have := ((hrs od ho).2.1 es').2 h3
      rw [h4] at this
      cases this
    rw [h2, if_pos ⟨ho, hne⟩]

/-- The fastest of the listed paths is the fastest route: with weights that are not negative, the
least weight of a listed path all of whose arcs are in state `1` is the least weight of any such
route. -/
theorem C71_fastest {lib : SimplePathLib K} (hlib : SimplePathLibOK lib) {G : NGraph K}
    (hG : GraphOK G) (hm : G.multi = false) (hw : ∀ e ∈ G.edges, 0 ≤ e.weight) (ods : List (K × K))
    (hods : ∀ od ∈ ods, od.1 ∈ G.nodes ∧ od.2 ∈ G.nodes ∧ od.1 ≠ od.2) :
    ∃ r, getAllPaths lib ods G = .ok r ∧ ∀ od ∈ ods, ∀ l, r.lookup od = some l → ∀ x t,
      TravelTime (l.map fun y => (y.1, some y.2)) x 1 t ↔ FastestRoute G x od.1 od.2 t := by
  obtain ⟨r, h1, h2, h3⟩ := C71_all_paths hlib hG hm ods hods
  refine ⟨r, h1, fun od ho l hl x t => ?_⟩
  have hex : ∃ es ns, Route G od.1 es ns od.2 := by
    by_contra hno
    push Not at hno
    rw [(h3 od ho).1 hno] at hl
    cases hl
  obtain ⟨rs, g1, g2, g3⟩ := (h3 od ho).2 hex
  rw [g3] at hl
  cases hl
  refine travelTime_iff hw (hods od ho).2.2 (fun y => ?_) x t
  have hc : List.count od ods ≠ 0 := by
    rw [ne_eq, List.count_eq_zero]
    exact not_not.2 ho
  rw [List.mem_flatten]
  constructor
  · rintro ⟨z, hz, hy⟩
    rw [List.mem_replicate] at hz
    rw [hz.2] at hy
    obtain ⟨es, hes, rfl⟩ := List.mem_map.1 hy
    exact ⟨es, (g2 es).1 hes, rfl⟩
  · rintro ⟨es, hes, rfl⟩
    exact ⟨_, List.mem_replicate.2 ⟨hc, rfl⟩, List.mem_map_of_mem ((g2 es).2 hes)⟩

/-- In a multigraph, a pair that is connected raises `KeyError`; in any graph, an origin that is not a
node raises an exception of networkx. -/
theorem C71_raises {lib : SimplePathLib K} (hlib : SimplePathLibOK lib) {G : NGraph K} (od : K × K)
    (ods : List (K × K)) :
    (G.multi = true → od.1 ∈ G.nodes → od.2 ∈ G.nodes → od.1 ≠ od.2 →
      (∃ es ns, Route G od.1 es ns od.2) → getAllPaths lib (od :: ods) G = .error .key) ∧
    (od.1 ∉ G.nodes → getAllPaths lib (od :: ods) G = .error .graph) := by
  constructor
  · rintro hm h1 h2 h3 ⟨es, ns, hr⟩
    obtain ⟨ps, e, -, hmem⟩ := hlib.paths G od.1 od.2 h1 h2 h3
    obtain ⟨es', ⟨ns', hr', hn'⟩, -⟩ := hr.simple
    have hin := (hmem ns').2 ⟨hr'.isWalk, hn'⟩
    have herr : ∀ p ∈ ps, pathEntry G p = .error .key := by
      intro p hp
      have hw := ((hmem p).1 hp).1
      obtain ⟨a1, a2, -, -⟩ := hw
      cases p with
      | nil => cases a1
      | cons a p =>
        cases p with
        | nil =>
          simp only [List.head?_cons, Option.some.injEq, List.getLast?_singleton] at a1 a2
          exact absurd (a1.symm.trans a2) h3
        | cons b p =>
          unfold pathEntry
          have : stepEdge G a b = .error .key := by unfold stepEdge; rw [if_pos hm]
          simp only [List.tail_cons, List.zip_cons_cons, List.mapM_cons, this]
          rfl
    unfold getAllPaths
    rw [List.foldlM_cons, e, ok_bind]
    have : ps.mapM (pathEntry G) = .error .key := by
      cases ps with
      | nil => cases hin
      | cons p ps => rw [List.mapM_cons, herr p (by simp)]; rfl
    rw [this]
    rfl
  · intro h
    unfold getAllPaths
    rw [List.foldlM_cons, hlib.source G od.1 od.2 h]
    rfl

/-! ## Reading a model file -/

/-- Without parallel connections, or for a multigraph type, `read_model_from_json` returns the graph
that the file describes: every connection is an edge with its name, ends and weight.  Any other
`graph_type` text raises. -/
theorem C72_read_partial (m : NetJson K) (hn : (m.conns.map Prod.fst).Nodup) :
    (m.gtype = some .other → readModel m = .error .assertion) ∧
    ∀ directed multi, (m.gtype = none ∧ directed = false ∧ multi = false ∨
        m.gtype = some .graph ∧ directed = false ∧ multi = false ∨
        m.gtype = some .digraph ∧ directed = true ∧ multi = false ∨
        m.gtype = some .multigraph ∧ directed = false ∧ multi = true ∨
        m.gtype = some .multidigraph ∧ directed = true ∧ multi = true) →
      (multi = false → NoParallel directed m.conns) →
      ∃ inf, readModel m = .ok inf ∧ inf.ods = m.ods ∧ inf.conns = m.conns ∧ inf.comps = m.comps ∧
        GraphOK inf.G ∧ Describes directed multi (m.comps.map Prod.fst) m.conns inf.G := by
  constructor
  · intro h
    unfold readModel
    rw [h]
    rfl
  · intro directed multi ht hp
    set G0 : NGraph K := { directed := directed, multi := multi, nodes := [], edges := [] } with hG0
    have he : emptyGraph m.gtype = .ok G0 := by
      rcases ht with ⟨h, rfl, rfl⟩ | ⟨h, rfl, rfl⟩ | ⟨h, rfl, rfl⟩ | ⟨h, rfl, rfl⟩ | ⟨h, rfl, rfl⟩ <;>
        rw [h] <;> rfl
    have hG : GraphOK G0 := ⟨by simp [hG0], by simp [hG0], by simp [hG0]⟩
    have hg := addEdges_graphOK hG m.conns
    obtain ⟨hd, hmu⟩ := addEdges_flags G0 m.conns
    have hed : (m.conns.foldl addConn G0).edges = m.conns.map (connEdge multi) := by
      refine edges_addEdges ?_ rfl
      cases multi with
      | false => exact .inl ⟨rfl, hp rfl⟩
      | true => exact .inr ⟨rfl, hn⟩
    refine ⟨_, by unfold readModel; rw [he, ok_bind]; rfl, rfl, rfl, rfl, ?_, ?_⟩
    · refine ⟨fun e h => ?_, hg.simple, hg.keys⟩
      rw [mem_addNodes, mem_addNodes]
      exact ⟨.inl (hg.ends e h).1, .inl (hg.ends e h).2⟩
    · refine ⟨hd, hmu, fun n => ?_, addNodes_nodup (nodes_addEdges_nodup List.nodup_nil _) _, ?_⟩
      · rw [mem_addNodes, mem_nodes_addEdges]
        simp only [hG0, List.not_mem_nil, false_or]
        exact or_comm
      · show ((m.conns.foldl addConn G0).edges.map _) = _
        rw [hed, List.map_map]
        conv_rhs => rw [← List.map_id m.conns]
        rfl

/-- In general, for a type that is not a multigraph: two nodes are joined by an edge with the name and
weight of the last of the connections between them; the others are dropped without a message. -/
theorem C72_last_connection (m : NetJson K) (directed : Bool)
    (ht : m.gtype = none ∧ directed = false ∨ m.gtype = some .graph ∧ directed = false ∨
      m.gtype = some .digraph ∧ directed = true) :
    ∃ inf, readModel m = .ok inf ∧ GraphOK inf.G ∧ inf.G.directed = directed ∧ ∀ u v k w,
      (∃ e ∈ inf.G.edges, Links directed e u v ∧ e.label = k ∧ e.weight = w) ↔
        ∃ before c after, m.conns = before ++ c :: after ∧ ConnLinks directed c u v ∧ c.1 = k ∧
          c.2.2.2 = w ∧ ∀ c' ∈ after, ¬ ConnLinks directed c' u v := by
  set G0 : NGraph K := { directed := directed, multi := false, nodes := [], edges := [] } with hG0
  have he : emptyGraph m.gtype = .ok G0 := by
    rcases ht with ⟨h, rfl⟩ | ⟨h, rfl⟩ | ⟨h, rfl⟩ <;> rw [h] <;> rfl
  have hG : GraphOK G0 := ⟨by simp [hG0], by simp [hG0], by simp [hG0]⟩
  have hg := addEdges_graphOK hG m.conns
  refine ⟨_, by unfold readModel; rw [he, ok_bind]; rfl, ⟨fun e h => ?_, hg.simple, hg.keys⟩,
    (addEdges_flags G0 m.conns).1, fun u v k w => ?_⟩
  · rw [mem_addNodes, mem_addNodes]
    exact ⟨.inl (hg.ends e h).1, .inl (hg.ends e h).2⟩
  · refine (addEdges_last (G := G0) rfl rfl m.conns u v k w).trans ?_
    constructor
    · rintro ⟨c, h1, h2, h3⟩
      rw [List.getLast?_eq_some_iff] at h1
      obtain ⟨ys, hys⟩ := h1
      have hc : c ∈ m.conns.filter fun c => decide (ConnLinks directed c u v) := by
        show c ∈ m.conns.filter fun c => decide (ConnLinks G0.directed c u v)
        rw [hys]; simp
      obtain ⟨l1, l2, e1, e2, e3⟩ := List.filter_eq_append_iff.1 hys
      obtain ⟨a1, a2, f1, f2, f3, f4⟩ := List.filter_eq_cons_iff.1 e3
      refine ⟨l1 ++ a1, c, a2, by rw [e1, f1]; simp, by simpa using f3, h2, h3, fun c' hc' => ?_⟩
      have := List.filter_eq_nil_iff.1 f4 c' hc'
      simpa using this
    · rintro ⟨b, c, a, h1, h2, h3, h4, h5⟩
      refine ⟨c, ?_, h3, h4⟩
      have hcl : decide (ConnLinks G0.directed c u v) = true := by simpa using h2
      rw [h1, List.filter_append, List.filter_cons_of_pos (p := fun c => decide (ConnLinks G0.directed c u v)) hcl]
      have : a.filter (fun c => decide (ConnLinks G0.directed c u v)) = [] := by
        rw [List.filter_eq_nil_iff]
        intro c' hc'
        simpa using h5 c' hc'
      rw [this]
      simp

end

section
variable {K : Type} [LinearOrder K]

open Classical in
/-- From a model file to the distribution of the travel time.  For a file with one pair of an origin
and a destination (see `RoadModelOK`) and an output directory without files of the key, no step
raises, and for every scenario and every possible travel time `t` (the weight of a simple route, or
infinity) there is a state of the OD's variable whose value is `t` (infinity is shown as `-1`) and
whose computed probability, in any elimination order, is the probability that the fastest route over
the arcs in state 1 takes `t` (that there is none, for infinity).  Missing for the full claim: what
`C62_not_two_ods`, `C62_not_six_paths` and `C72_not_parallel` exclude, and an origin that is not
connected with the destination (`C71_not_disconnected`). -/
theorem C71_travel_time_partial {lib : SimplePathLib K} (hlib : SimplePathLibOK lib) {m : NetJson K}
    {damage : List ℚ} {scens : List (K × List (K × List ℚ))} {od o d : K}
    (h : RoadModelOK m damage scens od o d) (key : List Char) {dir : Dir K}
    (hdir : ∀ f ∈ dir, globMatch key f.1 = false) :
    ∃ inf r, readModel m = .ok inf ∧ setupModel lib inf damage scens key dir = .ok r ∧
      r.map Prod.fst = scens.map (fun s => (od, s.1)) ∧
      ∃ values : List (Option ℚ), (∀ t, t ∈ values ↔ t = none ∨ ∃ es, SimpleRoute (fileGraph m) o d es ∧
          t = some (es.map NEdge.weight).sum) ∧
        ∀ (i : ℕ) (s : K × List (K × List ℚ)), scens[i]? = some s → ∃ cpms varis v, r[i]? = some ((od, s.1), cpms, varis) ∧
          itemGet varis od = .ok v ∧ v.values = values.map (fun t => t.getD (-1)) ∧
          ∀ ve : List K, ve.Perm (m.conns.map Prod.fst) → ∀ t ∈ values, ∃ j P, values[j]? = some t ∧
            computeProb cpms varis ve od j true =
              .ok (probOf (binVs (m.conns.map Prod.fst)) (scenProbs s.2)
                fun x => FastestRoute (fileGraph m) x o d t, P) := by
  obtain ⟨nodes, hnodes, hG, hread⟩ := readModel_simple h.gtype h.simple h.noParallel
  set G : NGraph K := { fileGraph m with nodes := nodes } with hGdef
  have hroute : ∀ {es ns}, Route G o es ns d ↔ Route (fileGraph m) o es ns d := fun {es ns} =>
    route_nodes hnodes
  have hsimple : ∀ {es}, SimpleRoute G o d es ↔ SimpleRoute (fileGraph m) o d es := by
    intro es
    unfold SimpleRoute
    simp only [hroute]
  have hfast : ∀ x t, FastestRoute G x o d t ↔ FastestRoute (fileGraph m) x o d t := by
    intro x t
    unfold FastestRoute
    simp only [hroute]
  have hends : o ∈ G.nodes ∧ d ∈ G.nodes := by
    obtain ⟨es, ns, hr, -⟩ := h.connected
    have hr' := hroute.2 hr
    obtain ⟨t, ht⟩ := hr'.head
    have := hr'.last
    exact ⟨hr'.nodes o (by rw [ht]; simp), hr'.nodes d (List.mem_of_getLast? this)⟩
  have hw : ∀ e ∈ G.edges, 0 ≤ e.weight := by
    intro e he
    obtain ⟨c, hc, rfl⟩ := List.mem_map.1 he
    exact h.weights c hc
  have hlab : G.edges.map NEdge.label = m.conns.map Prod.fst := by
    show ((m.conns.map _).map NEdge.label) = _
    rw [List.map_map]
    rfl
  obtain ⟨d1, hd1, -, hd3⟩ := C71_all_paths hlib hG rfl [(o, d)] (by simpa using ⟨hends.1, hends.2, h.differ⟩)
  obtain ⟨rs, g1, g2, g3⟩ := (hd3 (o, d) (by simp)).2 (by
    obtain ⟨es, ns, hr, -⟩ := h.connected
    exact ⟨es, ns, hroute.2 hr⟩)
  have hl : d1.lookup (o, d) = some (rs.map routeEntry) := by
    rw [g3]
    simp
  set pt : List (List K × Option ℚ) := (rs.map routeEntry).map fun x => (x.1, some x.2) with hpt
  have hmem : ∀ y, y ∈ rs.map routeEntry ↔ ∃ es, SimpleRoute G o d es ∧ y = routeEntry es := by
    intro y
    rw [List.mem_map]
    constructor
    · rintro ⟨es, h1, rfl⟩; exact ⟨es, (g2 es).1 h1, rfl⟩
    · rintro ⟨es, h1, rfl⟩; exact ⟨es, (g2 es).2 h1, rfl⟩
  have hptm : ∀ p, p ∈ pt ↔ ∃ es, SimpleRoute G o d es ∧ p = ((routeEntry es).1, some (routeEntry es).2) := by
    intro p
    rw [hpt, List.mem_map]
    constructor
    · rintro ⟨y, hy, rfl⟩
      obtain ⟨es, h1, rfl⟩ := (hmem y).1 hy
      exact ⟨es, h1, rfl⟩
    · rintro ⟨es, h1, rfl⟩
      exact ⟨_, (hmem _).2 ⟨es, h1, rfl⟩, rfl⟩
  have hnet : ∀ sc : List (K × List ℚ), (sc.map Prod.fst).Perm (m.conns.map Prod.fst) →
      (∀ kv ∈ sc, kv.2.length = 2) → RoadNetOK (m.conns.map Prod.fst) damage sc od pt := by
    intro sc hs1 hs2
    refine
      { nodup := h.names, two := h.two, keys := hs1, scenLen := hs2
        odNew := h.odNew, ne := ?_, few := ?_, path := ?_, finite := ?_, apart := ?_ }
    · obtain ⟨es, hes⟩ := h.connected
      intro hn
      have := (hptm _).2 ⟨es, hsimple.2 hes, rfl⟩
      rw [hn] at this
      cases this
    · rw [hpt, List.length_map, List.length_map]
      exact h.few rs g1 fun es hes => hsimple.1 ((g2 es).1 hes)
    · intro p hp
      obtain ⟨es, hes, rfl⟩ := (hptm p).1 hp
      refine ⟨fun hn => ?_, nodup_labels (by rw [hlab]; exact h.names) hes, fun e he => ?_⟩
      · have : es = [] := List.map_eq_nil_iff.1 hn
        subst this
        obtain ⟨ns, hr, -⟩ := hes
        cases hr
        exact h.differ rfl
      · obtain ⟨e', he', rfl⟩ := List.mem_map.1 he
        obtain ⟨ns, hr, -⟩ := hes
        rw [← hlab]
        exact List.mem_map_of_mem (hr.edges e' he')
    · intro p hp
      obtain ⟨es, hes, rfl⟩ := (hptm p).1 hp
      simp
    · intro p hp q hq
      obtain ⟨es, hes, rfl⟩ := (hptm p).1 hp
      obtain ⟨es', hes', rfl⟩ := (hptm q).1 hq
      exact h.apart es es' (hsimple.1 hes) (hsimple.1 hes')
  have htt : ∀ x t, TravelTime pt x 1 t ↔ FastestRoute (fileGraph m) x o d t := fun x t =>
    (travelTime_iff hw h.differ hmem x t).trans (hfast x t)
  obtain ⟨brs, dir', -, -, hb, -, -⟩ := C62_travel_time_partial
    (hnet ((m.conns.map Prod.fst).map fun k => (k, [0, 0]))
      (by rw [List.map_map]; simp [Function.comp_def])
      (by intro kv hkv; obtain ⟨k, -, rfl⟩ := List.mem_map.1 hkv; rfl)) key hdir
  have hmodel : ∀ s : K × List (K × List ℚ), s ∈ scens → ∃ cv : List (K × Cpm K) × List (K × Variable K),
      modelGivenOd (m.conns.map Prod.fst) damage s.2 od pt brs = .ok cv ∧
      ∀ ve : List K, ve.Perm (m.conns.map Prod.fst) → ∀ t ∈ odValues pt, ∃ j P,
        (odValues pt)[j]? = some t ∧ computeProb cv.1 cv.2 ve od j true =
          .ok (probOf (binVs (m.conns.map Prod.fst)) (scenProbs s.2) fun x => TravelTime pt x 1 t, P) := by
    intro s hs
    obtain ⟨brs', dir'', cpms, varis, e1, e2, e3⟩ :=
      C62_travel_time_partial (hnet s.2 (h.scen s hs).1 (h.scen s hs).2) key hdir
    rw [hb] at e1
    have : brs' = brs := by
      simp only [Except.ok.injEq, Prod.mk.injEq, List.cons.injEq, true_and, and_true] at e1
      exact e1.1.symm
    subst this
    exact ⟨(cpms, varis), e2, e3⟩
  choose! cv hcv1 hcv2 using hmodel
  have hsetup : setupModel lib
      { G := G, comps := m.comps, conns := m.conns, ods := m.ods } damage scens key dir =
      .ok (scens.map fun s => ((od, s.1), (cv s).1, (cv s).2)) := by
    unfold setupModel
    simp only [h.ods, List.map_cons, List.map_nil]
    rw [hd1, ok_bind]
    have hp : pathsOf d1 (o, d) = .ok pt := by
      unfold pathsOf
      rw [hl]
    rw [List.mapM_cons, hp]
    simp only [ok_bind, pure_ok, List.mapM_nil]
    rw [hb, ok_bind]
    simp only [List.zip_cons_cons, List.zip_nil_right, List.flatMap_cons, List.flatMap_nil, List.append_nil]
    rw [List.mapM_map]
    clear hd3
    have : ∀ l : List (K × List (K × List ℚ)), (∀ s ∈ l, s ∈ scens) →
        (l.mapM fun s => do
          let (cpms, varis) ← modelGivenOd (m.conns.map Prod.fst) damage s.2 od pt brs
          return ((od, s.1), cpms, varis)) =
        Except.ok (l.map fun s => ((od, s.1), (cv s).1, (cv s).2)) := by
      intro l hl
      induction l with
      | nil => rfl
      | cons s l ih =>
        rw [List.mapM_cons, hcv1 s (hl s (by simp)), ih fun s hs => hl s (by simp [hs])]
        rfl
    exact this scens fun _ h => h
  refine ⟨_, _, hread, hsetup, ?_, odValues pt, ?_, ?_⟩
  · rw [List.map_map]
    rfl
  · intro t
    unfold odValues
    rw [List.mem_cons, (List.perm_insertionSort _ _).mem_iff, List.mem_map]
    refine or_congr Iff.rfl ⟨?_, ?_⟩
    · rintro ⟨p, hp, rfl⟩
      obtain ⟨es, hes, rfl⟩ := (hptm p).1 hp
      exact ⟨es, hsimple.1 hes, rfl⟩
    · rintro ⟨es, hes, rfl⟩
      exact ⟨_, (hptm _).2 ⟨es, hsimple.2 hes, rfl⟩, rfl⟩
  · intro i s hs
    have hsm := List.mem_of_getElem? hs
    refine ⟨(cv s).1, (cv s).2, odVariable od pt, ?_, modelGivenOd_varis (hcv1 s hsm), rfl, ?_⟩
    · rw [List.getElem?_map, hs]
      rfl
    · intro ve hve t ht
      obtain ⟨j, P, h1, h2⟩ := hcv2 s hsm ve hve t ht
      refine ⟨j, P, h1, ?_⟩
      rw [h2]
      congr 2
      exact probOf_congr (hnet s.2 (h.scen s hsm).1 (h.scen s hsm).2).sysVars.varis _ _ _
        fun x _ => htt x t

end

/-! ## Witnesses -/

namespace Ex

/-- A triangle: the direct way from 1 to 3 takes 3, the way over 2 takes 2. -/
def pFile : NetJson ℕ where
  comps := [(1, 0, 0), (2, 1, 0), (3, 1, 1)]
  conns := [(10, 1, 2, 1), (11, 2, 3, 1), (12, 1, 3, 3)]
  ods := [(9, 1, 3)]
  gtype := none

/-- Two scenarios. -/
def pScens : List (ℕ × List (ℕ × List ℚ)) :=
  [(100, [(10, [1 / 10, 9 / 10]), (11, [1 / 5, 4 / 5]), (12, [1 / 2, 1 / 2])]),
   (101, [(12, [1 / 4, 3 / 4]), (10, [0, 1]), (11, [1 / 5, 4 / 5])])]

theorem pGraph : GraphOK (fileGraph pFile) := by
  refine ⟨by decide +kernel, fun _ => ?_, fun h => absurd h (by decide)⟩
  simp only [fileGraph, pFile, List.map_cons, List.map_nil, List.pairwise_cons, List.mem_cons,
    List.not_mem_nil, or_false, forall_eq_or_imp, forall_eq, Links, List.Pairwise.nil, and_true,
    IsEmpty.forall_iff, implies_true]
  refine ⟨⟨?_, ?_⟩, ?_⟩ <;> intro u v <;> omega

theorem pEnum : (do let ps ← enumSimple (fileGraph pFile) 1 3
                    ps.mapM (pathEntry (fileGraph pFile))) =
    Except.ok [([10, 11], 2), ([12], 3)] := by decide +kernel

theorem pOK : RoadModelOK pFile [0, 1] pScens 9 1 3 := by
  obtain ⟨h1, h2, h3⟩ := simple_of_enum pGraph rfl (by decide) (by decide) (by decide) pEnum
  refine
    { gtype := by decide, noParallel := ?_, simple := by decide, names := by decide
      weights := by decide +kernel, ods := rfl, odNew := by decide, differ := by decide
      connected := ?_, few := fun rs a b => (h3 rs a b).trans (by decide), apart := ?_, two := rfl
      scen := by decide +kernel }
  · simp only [NoParallel, pFile, List.pairwise_cons, List.mem_cons, List.not_mem_nil, or_false,
      forall_eq_or_imp, forall_eq, ConnLinks, List.Pairwise.nil, and_true, IsEmpty.forall_iff,
      implies_true]
    refine ⟨⟨?_, ?_⟩, ?_⟩ <;> intro u v <;> omega
  · obtain ⟨es, hes, -⟩ := h2 ([12], 3) (by simp)
    exact ⟨es, hes⟩
  · intro es es' hes hes'
    have a := h1 es hes
    have b := h1 es' hes'
    simp only [List.mem_cons, List.not_mem_nil, or_false, routeEntry, Prod.mk.injEq] at a b
    rcases a with ⟨-, a⟩ | ⟨-, a⟩ <;> rcases b with ⟨-, b⟩ | ⟨-, b⟩ <;> rw [a, b] <;> decide +kernel

/-- The whole computation: the probability of one state of the OD in one scenario. -/
def pProb (m : NetJson ℕ) (scens : List (ℕ × List (ℕ × List ℚ))) (ve : List ℕ) (i state : ℕ) :
    Except Err ℚ := do
  let inf ← readModel m
  let r ← setupModel enumSimple inf [0, 1] scens bKey []
  let x ← pyGet r i
  let (p, _) ← computeProb x.2.1 x.2.2 ve x.1.1 state true
  return p

/-- No way, the way that takes 3, the way that takes 2. -/
example : pProb pFile pScens [10, 11, 12] 0 0 = .ok (7 / 50) := by decide +kernel

example : pProb pFile pScens [10, 11, 12] 0 1 = .ok (7 / 50) := by decide +kernel

example : pProb pFile pScens [12, 10, 11] 0 2 = .ok (18 / 25) := by decide +kernel

example : pProb pFile pScens [12, 10, 11] 1 2 = .ok (4 / 5) := by decide +kernel

end Ex

open Classical in
/-- The hypotheses of the theorem hold for the triangle. -/
example := C71_travel_time_partial enumSimple_ok Ex.pOK Ex.bKey (dir := []) (by simp)

/-- A second connection between the same nodes replaces the first: with a slow road of weight 7 listed
after a fast one of weight 1, the graph of the file has only the slow one, and the paths from 1 to 2 do
not have the fast one. -/
theorem C72_not_parallel :
    let m : NetJson ℕ := { comps := [(1, 0, 0), (2, 1, 0)], conns := [(10, 1, 2, 1), (11, 2, 1, 7)]
                           ods := [(9, 1, 2)], gtype := none }
    ∃ inf, readModel m = .ok inf ∧ inf.conns = m.conns ∧
      inf.G.edges.map (fun e => (e.label, e.weight)) = [(11, 7)] ∧
      getAllPaths enumSimple [(1, 2)] inf.G = .ok [((1, 2), [([11], 7)])] := by
  refine ⟨_, rfl, rfl, by decide +kernel, by decide +kernel⟩

/-- An origin and a destination without a route, which any user would expect to have infinite travel
time with probability one, stop the set-up with `KeyError`. -/
theorem C71_not_disconnected :
    let m : NetJson ℕ := { comps := [(1, 0, 0), (2, 1, 0), (3, 1, 1)], conns := [(10, 1, 2, 1)]
                           ods := [(9, 1, 3)], gtype := none }
    Ex.pProb m [(100, [(10, [1 / 2, 1 / 2])])] [10] 0 0 = .error .key ∧
      Ex.pProb { m with ods := [(9, 1, 2)] } [(100, [(10, [1 / 2, 1 / 2])])] [10] 0 0 = .ok (1 / 2) := by
  decide +kernel

end BNS
