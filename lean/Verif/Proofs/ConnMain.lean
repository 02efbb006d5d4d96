import Verif.Model.ConnMain
import Verif.Spec.ConnFile
import Verif.Proofs.Rbd
import Verif.Proofs.ReadModel
import Verif.Proofs.FlowMain
import Verif.Props.ByOd
import Verif.Props.Config
import Verif.Props.Paths

/-! Helper lemmas: the commands of the connectivity demos. -/

namespace BNS

set_option linter.unusedSectionVars false

section
variable {K : Type} [DecidableEq K]

/-- The graph of the file and its edges. -/
theorem connFile_read {files : K → Option (FileC K)} {data : List (CfgKey K × CfgVal K)} {p q : K}
    {m : NetJson K} {directed multi : Bool} {mb : CfgVal K}
    (h : ConnFileOK files data p q m directed multi mb) :
    ∃ inf, readModel m = .ok inf ∧ inf.ods = m.ods ∧ inf.conns = m.conns ∧ inf.comps = m.comps ∧
      GraphOK inf.G ∧ Describes directed multi (m.comps.map Prod.fst) m.conns inf.G ∧
      (inf.G.multi = true → ∀ e ∈ inf.G.edges, e.key = .inr e.label) := by
  obtain ⟨inf, h1, h2, h3, h4, h5, h6⟩ := (C72_read_partial m h.names).2 directed multi h.gtype
    h.noParallel
  refine ⟨inf, h1, h2, h3, h4, h5, h6, fun hm e he => ?_⟩
  set G0 : NGraph K := { directed := directed, multi := multi, nodes := [], edges := [] } with hG0
  have hemp : emptyGraph m.gtype = .ok G0 := by
    rcases h.gtype with ⟨e, rfl, rfl⟩ | ⟨e, rfl, rfl⟩ | ⟨e, rfl, rfl⟩ | ⟨e, rfl, rfl⟩ | ⟨e, rfl, rfl⟩ <;>
      rw [e] <;> rfl
  have hmu : multi = true := by rw [← h6.multi]; exact hm
  have hed : (m.conns.foldl addConn G0).edges = m.conns.map (connEdge multi) :=
    edges_addEdges (.inr ⟨hmu, h.names⟩) rfl
  have hG : inf.G.edges = (m.conns.foldl addConn G0).edges := by
    unfold readModel at h1
    rw [hemp, ok_bind] at h1
    cases h1
    rfl
  rw [hG, hed] at he
  obtain ⟨c, -, rfl⟩ := List.mem_map.1 he
  simp [connEdge, hmu]

/-- The configuration of the demos. -/
theorem connFile_cfg {disk : Disk K} {data : List (CfgKey K × CfgVal K)} {p q : K}
    {m : NetJson K} {directed multi : Bool} {mb : CfgVal K}
    (h : ConnFileOK disk.files data p q m directed multi mb) {inf : Infra K}
    (hr : readModel m = .ok inf) :
    ∃ cfg disk', Cfg.new disk data = .ok (cfg, disk') ∧ cfg.infra = inf ∧ cfg.maxBranches = mb ∧
      disk'.files = disk.files ∧ cfg.outputPath = some q ∧
      ∀ n : K, cfg.data.lookup (.other n) = data.lookup (.other n) := by
  obtain ⟨key, hk⟩ := h.id
  rcases h.scen with ⟨v, hv, hv'⟩ | ⟨s, sc, ds, hs, hf, hd⟩
  · obtain ⟨cfg, disk', h1, h2, -, -, -, h5, h6, h4, h7, -⟩ := C81_without_scenarios h.model h.file hr
      hv hv' hk h.branches h.out
    refine ⟨cfg, disk', h1, h2, h5, h7, h6, fun n => ?_⟩
    rw [h4]
    exact lookup_filter_key (P := fun e => e ∉ [CfgKey.modelName, .maxBranches, .configurationId,
      .outputPath]) (by simp)
  · obtain ⟨cfg, disk', h1, h2, -, -, -, h5, h6, h4, h7, -⟩ := C81_config h.model h.file hr hs hf hd hk
      h.branches h.out
    refine ⟨cfg, disk', h1, h2, h5, h7, h6, fun n => ?_⟩
    rw [h4]
    exact lookup_filter_key (P := fun e => e ∉ [CfgKey.modelName, .maxBranches, .configurationId,
      .outputPath, .scenarioName]) (by simp)

theorem route_mem_nodes {G : NGraph K} {u v : K} {es : List (NEdge K)} {ns : List K}
    (h : Route G u es ns v) : ∀ n ∈ ns, n ∈ G.nodes := by
  induction h with
  | nil h => intro n hn; rw [List.mem_singleton.1 hn]; exact h
  | cons h _ _ _ ih =>
    intro n hn
    rcases List.mem_cons.1 hn with rfl | hn
    · exact h
    · exact ih n hn

theorem route_fst_mem {G : NGraph K} {u v : K} {es : List (NEdge K)} {ns : List K}
    (h : Route G u es ns v) : u ∈ ns := by
  cases h <;> simp

/-- Routes of the graph over what works, and ways over the connections of the file. -/
theorem connected_linked {m : NetJson K} {directed multi : Bool} {G : NGraph K}
    (hG : GraphOK G) (hD : Describes directed multi (m.comps.map Prod.fst) m.conns G)
    (hap : ∀ c ∈ m.conns, c.2.1 ∉ m.conns.map Prod.fst ∧ c.2.2.1 ∉ m.conns.map Prod.fst)
    (hapn : ∀ n ∈ m.comps.map Prod.fst, n ∉ m.conns.map Prod.fst) {o d : K}
    (ho : o ∈ m.comps.map Prod.fst) (x : K → ℕ) :
    Connected G (connVs m) o d x ↔ LinkedIn directed m.conns o d x := by
  have hvs : (connVs m).map Prod.fst = m.conns.map Prod.fst := by
    unfold connVs
    rw [List.map_map]
    rfl
  have hnode : ∀ n ∈ G.nodes, n ∉ m.conns.map Prod.fst := by
    intro n hn
    rcases (hD.nodes n).1 hn with h | ⟨c, hc, rfl | rfl⟩
    · exact hapn n h
    · exact (hap c hc).1
    · exact (hap c hc).2
  have hedge : ∀ e ∈ G.edges, (e.label, e.src, e.dst, e.weight) ∈ m.conns := fun e he => by
    rw [← hD.edges]
    exact List.mem_map_of_mem he
  have ho' : o ∈ G.nodes := (hD.nodes o).2 (.inl ho)
  clear ho
  constructor
  · rintro ⟨es, ns, hr, he, -⟩
    induction hr with
    | nil _ => exact .refl
    | cons hu hem hl hr ih =>
      have hm' := route_mem_nodes hr _ (route_fst_mem hr)
      refine Relation.ReflTransGen.head ⟨_, hedge _ hem, ?_, ?_⟩
        (ih hm' fun e' he' => he e' (List.mem_cons_of_mem _ he'))
      · refine he _ List.mem_cons_self ?_
        rw [hvs]
        exact List.mem_map_of_mem (f := Prod.fst) (hedge _ hem)
      · rw [← hD.directed]; exact hl
  · intro hl
    have : ∃ es ns, Route G o es ns d ∧ ∀ e ∈ es, x e.label ≠ 0 := by
      unfold LinkedIn at hl
      induction hl using Relation.ReflTransGen.head_induction_on with
      | refl => exact ⟨[], _, .nil ho', by simp⟩
      | @head a b h1 _ ih =>
        obtain ⟨c, hc, hx, hcl⟩ := h1
        rw [← hD.edges] at hc
        obtain ⟨e, he, rfl⟩ := List.mem_map.1 hc
        have hl' : Links G.directed e a b := by rw [hD.directed]; exact hcl
        have hm' : b ∈ G.nodes := by
          rcases hl' with ⟨-, h⟩ | ⟨-, h, -⟩
          · rw [← h]; exact (hG.ends e he).2
          · rw [← h]; exact (hG.ends e he).1
        obtain ⟨es, ns, g1, g2⟩ := ih hm'
        refine ⟨_, _, .cons ho' he hl' g1, fun e' he' => ?_⟩
        rcases List.mem_cons.1 he' with rfl | he'
        · exact hx
        · exact g2 _ he'
    obtain ⟨es, ns, g1, g2⟩ := this
    refine ⟨es, ns, g1, fun e he _ => g2 e he, fun n hn hc => ?_⟩
    rw [hvs] at hc
    exact absurd hc (hnode n (route_mem_nodes g1 n hn))

end

section
variable {K : Type} [LinearOrder K]

theorem binary_prod : ∀ names : List K, (names.map (Prod.snd ∘ fun k => (k, 2))).prod = 2 ^ names.length
  | [] => rfl
  | _ :: l => by
    rw [List.map_cons, List.prod_cons, binary_prod l, List.length_cons, pow_succ, Nat.mul_comm]
    rfl

/-- The event matrix of the run: exactly one row per vector, with the right state. -/
theorem connCsys_ok {Φ : (K → ℕ) → Bool} {names : List K} {c : RunCfg K} (hvs : c.vs = binary names)
    (hc : CfgOK c Φ) (hf : c.survFirst = true) (h0 : 0 < c.maxSf) (hw : c.pfBndWr = 0)
    (hr : c.maxRules = none) :
    ∃ C, connCsys names c = .ok C ∧ ∀ x, InSpace (binary names) x →
      ∃ (j s : ℕ) (cs : List ℕ), C[j]? = some (s :: cs) ∧ RowMatches (names.map rbdVariable) cs x ∧
        (∀ (j' s' : ℕ) (cs' : List ℕ), C[j']? = some (s' :: cs') →
          RowMatches (names.map rbdVariable) cs' x → j' = j) ∧
        s < 3 ∧ (s = 0 → Φ x = false) ∧ (s = 1 → Φ x = true) ∧
        (2 ^ names.length < c.maxSf → 2 * 2 ^ names.length ≤ c.maxNb → s ≠ 2) := by
  obtain ⟨st, hst⟩ := C27_returns hc hf (Ex.start_empty c)
  set varis : K → Option (Variable K) := fun k => if k ∈ names then some (rbdVariable k) else none
    with hvaris
  have hv : ∀ kn ∈ c.vs, varis kn.1 = some (rbdVariable kn.1) ∧ kn.2 = 2 := fun kn hkn => by
    rw [hvs] at hkn
    exact ⟨if_pos (mem_binary.1 hkn).1, (mem_binary.1 hkn).2⟩
  have hT : TablesOK c.vs varis := fun kn hkn =>
    ⟨_, genB 2, (hv kn hkn).1, rfl, rfl, fun i hi => genB_getElem_lt _ _ (by rwa [(hv kn hkn).2] at hi)⟩
  obtain ⟨bs, C, varis', g1, g2, g3, g4⟩ := C32_of_run hc h0 (Ex.start_empty c) hst varis hT stBrToCs
    (fun l => by obtain ⟨j, hj, -⟩ := stBrToCs_some l; rw [hj]; simp)
  obtain ⟨-, -, -, hrun⟩ := C27_bounds hc (Ex.start_empty c) hst
  obtain ⟨bs2, -, q1, q2, -⟩ := hrun h0
  rw [g1] at q1
  cases q1
  have := C32_complete_unchanged c.vs bs varis stBrToCs
    (fun kn hkn => ⟨_, (hv kn hkn).1, by rw [(hv kn hkn).2]; rfl⟩) q2.1 g2
  subst this
  have hcv : compVars c.vs varis = names.map rbdVariable := by
    unfold compVars
    rw [hvs, binary, List.filterMap_map, ← List.filterMap_eq_map]
    exact List.filterMap_congr fun k hk => if_pos hk
  refine ⟨C, ?_, fun x hx => ?_⟩
  · unfold connCsys
    rw [hst, ok_bind]
    simp only [g1]
    have hn : c.vs.map Prod.fst = names := by rw [hvs, binary_fst]
    rw [hn] at g2
    have g2' : getCsys names bs (fun k => if k ∈ names then some (rbdVariable k) else none) stBrToCs =
      .ok (C, varis) := g2
    rw [g2']
    rfl
  · obtain ⟨j, b, s, cs, k1, k2, k3, k4, k5, k6, k7⟩ := g4 x (by rw [hvs]; exact hx)
    rw [hcv] at k4 k5
    refine ⟨j, s, cs, k2, k4, k5, ?_, ?_, ?_, ?_⟩
    · obtain ⟨j, hj, hj3⟩ := stBrToCs_some b.label
      rw [hj] at k3
      cases k3
      exact hj3
    · rintro rfl
      refine k7 ?_
      cases hl : b.label <;> rw [hl] at k3 <;> simp [stBrToCs] at k3 ⊢
    · rintro rfl
      refine k6 ?_
      cases hl : b.label <;> rw [hl] at k3 <;> simp [stBrToCs] at k3 ⊢
    · rintro h1 h2 rfl
      have hp : (c.vs.map Prod.snd).prod = 2 ^ names.length := by
        rw [hvs, binary, List.map_map]
        exact binary_prod names
      obtain ⟨st', p1, p2⟩ := C29_completes hc hf (by rw [hp]; exact h1) (by rw [hp]; exact h2) hw hr
        (Ex.start_empty c)
      rw [hst] at p1
      cases p1
      obtain ⟨bs2, row, r1, -, r2, -⟩ := C28_enough_branches_partial hc (Ex.start_empty c)
        (resume_none c _) (by rw [hp]; exact h2) hst p2
      rw [g1] at r1
      cases r1
      obtain ⟨r3, r4⟩ := r2 b (List.mem_of_getElem? k1)
      have hl : b.label = b.downState := by unfold Branch.label; rw [if_pos r3]
      rw [hl] at k3
      cases hd : b.downState <;> rw [hd] at k3 r4 <;> simp [stBrToCs] at k3 r4

end

end BNS
