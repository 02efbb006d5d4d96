import Verif.Spec.PfFile
import Verif.Proofs.FlowMain
import Verif.Proofs.RoadModel
import Verif.Props.PfMap
import Verif.Props.PfNode
import Verif.Props.McsIndep

/-!
# Lemmas on the commands of the pf_map demo
-/

namespace BNS

set_option linter.unusedSectionVars false

section
variable {K : Type} [DecidableEq K]

variable {nSf nWr nCov : K} {ext : K → PfExt K} {data : List (CfgKey K × CfgVal K)} {p q : K}
  {m : NetJson K} {mb w : ℚ} {sf cov : CfgVal K} {N : PfNum}

theorem lookup_map_val {A B : Type} (l : List (K × A)) (f : A → B) (k : K) :
    (l.map fun e => (e.1, f e.2)).lookup k = (l.lookup k).map f := by
  induction l with
  | nil => rfl
  | cons a l ih =>
    obtain ⟨a1, a2⟩ := a
    rw [List.map_cons, List.lookup_cons, List.lookup_cons]
    cases k == a1 with
    | true => rfl
    | false => exact ih

theorem lookup_place {n : K} (h : n ∈ m.comps.map Prod.fst) : m.comps.lookup n = some (placeOf m n) := by
  unfold placeOf
  cases hl : m.comps.lookup n with
  | some a => rfl
  | none =>
    exfalso
    obtain ⟨e, he, rfl⟩ := List.mem_map.1 h
    rw [List.lookup_eq_none_iff] at hl
    exact absurd (hl e he) (by simp)

/-- The roads as the code reads them. -/
theorem pfRoads_ok {files : K → Option (FileC K)} (h : PfFileOK nSf nWr nCov files ext data p q m mb w sf cov)
    {inf : Infra K} (hc : inf.conns = m.conns) (hn : inf.comps = m.comps) :
    ∃ R, pfRoads inf (ext p) = .ok R ∧ R.frag = (ext p).frag ∧ R.eq = (ext p).eq ∧
      (∀ n, R.nodes.lookup n = (m.comps.lookup n).map fun a => [(a.1 : ℝ), (a.2 : ℝ)]) ∧
      R.edges.map Prod.fst = m.conns.map Prod.fst ∧
      (∀ k e, (k, e) ∈ R.edges → ∃ c ∈ m.conns, c.1 = k ∧ e.origin = c.2.1 ∧ e.dest = c.2.2.1 ∧
        (ext p).frags.lookup k = some e.frag) ∧
      ∀ c ∈ m.conns, ∃ f, (ext p).frags.lookup c.1 = some f ∧
        (c.1, (⟨c.2.1, c.2.2.1, f⟩ : RoadEdge K)) ∈ R.edges := by
  have hf : ∀ c ∈ m.conns, ∃ f, (ext p).frags.lookup c.1 = some f := fun c hc =>
    let ⟨f, _, _, h1, _⟩ := h.frags c hc
    ⟨f, h1⟩
  have hedges : (m.conns.mapM fun c => do
      let f ← itemsGet (ext p).frags c.1
      return (c.1, ({ origin := c.2.1, dest := c.2.2.1, frag := f } : RoadEdge K))) =
      .ok (m.conns.map fun c => (c.1, (⟨c.2.1, c.2.2.1, ((ext p).frags.lookup c.1).getD c.1⟩ : RoadEdge K))) := by
    refine mapM_ok fun c hc => ?_
    obtain ⟨f, h1⟩ := hf c hc
    rw [itemsGet_some h1, h1]
    rfl
  unfold pfRoads
  rw [hc, hn, hedges, ok_bind]
  refine ⟨_, rfl, rfl, rfl, fun n => lookup_map_val _ (fun a : ℚ × ℚ => [(a.1 : ℝ), (a.2 : ℝ)]) n, ?_, ?_, ?_⟩
  · rw [List.map_map]; rfl
  · intro k e he
    obtain ⟨c, hc, he⟩ := List.mem_map.1 he
    obtain ⟨rfl, rfl⟩ := Prod.mk.inj he
    obtain ⟨f, h1⟩ := hf c hc
    exact ⟨c, hc, rfl, rfl, rfl, by rw [h1]; rfl⟩
  · intro c hc
    obtain ⟨f, h1⟩ := hf c hc
    exact ⟨f, h1, List.mem_map.2 ⟨c, hc, by rw [h1]; rfl⟩⟩

theorem pfConfig_ok {disk : Disk K} (h : PfFileOK nSf nWr nCov disk.files ext data p q m mb w sf cov)
    {eqName : K} {x0 y0 Mw : ℝ} (heq : (ext p).eq.lookup eqName = some ([x0, y0], Mw)) (h6 : 6 ≤ Mw)
    (h8 : Mw ≤ 8.5) :
    ∃ c nodes, pfConfig N nSf nWr nCov disk ext data eqName = .ok c ∧
      (∀ n, n ∈ nodes ↔ n ∈ (fileGraph m).nodes) ∧ GraphOK { fileGraph m with nodes := nodes } ∧
      c.base.infra = { G := { fileGraph m with nodes := nodes }, comps := m.comps, conns := m.conns
                       ods := m.ods } ∧
      c.base.maxBranches = .num mb ∧ c.base.outputPath = some q ∧ c.disk.files = disk.files ∧
      c.maxSf = (if sf.truthy then some sf else none) ∧ c.wr = .num w ∧ c.covT = cov ∧ c.ext = ext p ∧
      c.pf.map Prod.fst = m.conns.map Prod.fst ∧
      ∀ a ∈ m.conns, ∃ pr, c.pf.lookup a.1 = some pr ∧ RoadProb N m (ext p) x0 y0 Mw a pr := by
  have hg1 : m.gtype ≠ some .other := by rcases h.gtype with e | e <;> rw [e] <;> simp
  have hg2 : m.gtype ≠ some .multigraph ∧ m.gtype ≠ some .multidigraph := by
    rcases h.gtype with e | e <;> rw [e] <;> simp
  have hg3 : NoParallel (m.gtype = some .digraph) m.conns := by
    rcases h.gtype with e | e <;> rw [e] <;> simpa using h.noParallel
  obtain ⟨nodes, hn, hG, hread⟩ := readModel_simple hg1 hg2 hg3
  obtain ⟨v, hv, hv'⟩ := h.scen
  obtain ⟨key, hk⟩ := h.id
  obtain ⟨cfg, disk', h1, h2, -, -, -, h3, h3', h4, h5, -⟩ := C81_without_scenarios h.model h.file hread
    hv hv' hk h.branches h.out
  have hl : ∀ n : K, cfg.data.lookup (.other n) = data.lookup (.other n) := by
    intro n
    rw [h4]
    exact lookup_filter_key (P := fun e => e ∉ [CfgKey.modelName, .maxBranches, .configurationId,
      .outputPath]) (by simp)
  obtain ⟨R, r1, r2, r3, r4, r5, r6, r7⟩ := pfRoads_ok h (inf := cfg.infra) (by rw [h2]) (by rw [h2])
  have hRn : (R.edges.map Prod.fst).Nodup := by rw [r5]; exact h.names
  obtain ⟨out, ho⟩ := C85_returns (bis := N.bis) (cdf := N.cdf) hRn (r3 ▸ heq) h6 h8 (by
    intro k e he
    obtain ⟨c, hc, rfl, e1, e2, e3⟩ := r6 k e he
    obtain ⟨f, meds, disp, g1, g2, g3⟩ := h.frags c hc
    obtain ⟨a, b, hne⟩ := h.ends c hc
    rw [e3] at g1
    cases g1
    refine ⟨_, _, _, _, meds, disp, by rw [r4, e1, lookup_place a]; rfl, by rw [r4, e2, lookup_place b]; rfl,
      ?_, by rw [r2]; exact g2, g3⟩
    by_contra hcon
    rw [not_or, not_not, not_not] at hcon
    exact hne (Prod.ext (by exact_mod_cast hcon.1) (by exact_mod_cast hcon.2)))
  obtain ⟨epi, Mw', q1, -, -, q4, -, q6⟩ := C85_roads hRn ho
  rw [r3, heq] at q1
  cases q1
  have hcfg : pfConfig N nSf nWr nCov disk ext data eqName = .ok
      { base := cfg, disk := disk', maxSf := if sf.truthy then some sf else none, wr := .num w, covT := cov
        ext := ext p, pf := out.pf } := by
    unfold pfConfig
    simp only [h1, ok_bind]
    rw [itemsGet_some ((hl nSf).trans h.sf), itemsGet_some ((hl nWr).trans h.wr),
      itemsGet_some ((hl nCov).trans h.cov)]
    simp only [modelPath, itemsGet_some h.model, ok_bind, r1, ho]
    rfl
  refine ⟨_, nodes, hcfg, hn, hG, h2, h3, h3', h5, rfl, rfl, rfl, rfl, ?_, ?_⟩
  · exact q4.trans r5
  · intro a ha
    obtain ⟨f, g1, g2⟩ := r7 a ha
    obtain ⟨x1, y1, x2, y2, x0', y0', r, meds, disp, med, k1, k2, k3, -, k5, k6, k7, -, k9⟩ := q6 _ _ g2
    obtain ⟨ea, eb, -⟩ := h.ends a ha
    rw [r4] at k1 k2
    simp only [lookup_place ea, lookup_place eb, Option.map_some, Option.some.injEq, List.cons.injEq,
      and_true] at k1 k2 k3
    obtain ⟨rfl, rfl⟩ := k1
    obtain ⟨rfl, rfl⟩ := k2
    obtain ⟨rfl, rfl⟩ := k3
    exact ⟨_, k9, r, f, meds, disp, med, k5, g1, by rw [← r2]; exact k6, k7, rfl⟩

/-- The input of the analysis with the nodes in the order of the code. -/
noncomputable def pfCfgIn (N : PfNum) (m : NetJson K) (e : PfExt K) (nodes : List K) (pf : K → ℝ) (maxSf maxNb : ℕ)
    (w : ℚ) : PfCfg K :=
  { pfCfgOf N m e pf maxSf maxNb w with G := { fileGraph m with nodes := nodes } }

theorem pfVaris_ok {files : K → Option (FileC K)} (h : PfFileOK nSf nWr nCov files ext data p q m mb w sf cov)
    {inf : Infra K} (hc : inf.conns = m.conns) (hn : inf.comps = m.comps) (e : PfExt K) (nodes : List K)
    (pf : K → ℝ) (a b : ℕ) (v : ℚ) : pfVaris N inf = .ok (pfCfgIn N m e nodes pf a b v).varis := by
  have hlen : arcsLength Real.sqrt (m.conns.map fun c => (c.1, c.2.1, c.2.2.1))
      (m.comps.map fun n => (n.1, (n.2.1 : ℝ), (n.2.2 : ℝ))) = .ok (m.conns.map fun c =>
        (c.1, √((((placeOf m c.2.1).1 : ℝ) - (placeOf m c.2.2.1).1) ^ 2 +
          (((placeOf m c.2.1).2 : ℝ) - (placeOf m c.2.2.1).2) ^ 2))) := by
    unfold arcsLength
    rw [List.mapM_map]
    refine mapM_ok fun c hc => ?_
    obtain ⟨h1, h2, -⟩ := h.ends c hc
    have hl : ∀ n ∈ m.comps.map Prod.fst, (m.comps.map fun n => (n.1, (n.2.1 : ℝ), (n.2.2 : ℝ))).lookup n =
        some (((placeOf m n).1 : ℝ), ((placeOf m n).2 : ℝ)) := by
      intro n hn
      rw [lookup_map_val m.comps (fun a : ℚ × ℚ => ((a.1 : ℝ), (a.2 : ℝ))), lookup_place hn]
      rfl
    show (itemsGet _ c.2.1 >>= _) = _
    rw [itemsGet_some (hl _ h1), ok_bind, itemsGet_some (hl _ h2), ok_bind]
    rfl
  unfold pfVaris
  rw [hc, hn, hlen, ok_bind]
  simp only [pure_ok, List.map_map]
  rfl

section
variable {files : K → Option (FileC K)} (h : PfFileOK nSf nWr nCov files ext data p q m mb w sf cov)
  (hN : PfNumOK N m) {nodes : List K} (hn : ∀ n, n ∈ nodes ↔ n ∈ (fileGraph m).nodes)
  (hG : GraphOK { fileGraph m with nodes := nodes }) {pf : K → ℝ}
  (hpf : ∀ c ∈ m.conns, 0 ≤ pf c.1 ∧ pf c.1 ≤ 1) {a b : ℕ} {v : ℚ}
include h hN hn hG hpf

theorem pfCfgIn_states : statesOf (pfCfgIn N m (ext p) nodes pf a b v).varis = m.conns.map fun c => (c.1, 2) := by
  simp only [statesOf, pfCfgIn, pfCfgOf, List.map_map]
  rfl

theorem pfCfgIn_ok : RoadsOK (pfCfgIn N m (ext p) nodes pf a b v) := by
  have hst := pfCfgIn_states h hN hn hG hpf (a := a) (b := b) (v := v)
  have hmem : ∀ kv ∈ (pfCfgIn N m (ext p) nodes pf a b v).varis, ∃ c ∈ m.conns, kv =
      (c.1, Variable.mk' c.1 [N.far, roadHours N (placeOf m c.2.1) (placeOf m c.2.2.1)] .dflt) := by
    intro kv hkv
    obtain ⟨c, hc, rfl⟩ := List.mem_map.1 hkv
    exact ⟨c, hc, rfl⟩
  have hnames : (pfCfgIn N m (ext p) nodes pf a b v).varis.map Prod.fst = m.conns.map Prod.fst := by
    simp only [pfCfgIn, pfCfgOf, List.map_map]
    rfl
  refine ⟨hG, rfl, ?_, ⟨?_, ?_, ?_, ?_, ?_⟩, ?_, ?_, ?_, ?_, ?_, ?_, h.thres, ?_⟩
  · show decide (m.gtype = some .digraph) = false
    rcases h.gtype with e | e <;> rw [e] <;> simp
  · rw [hnames]; exact h.names
  · intro kv hkv
    obtain ⟨c, -, rfl⟩ := hmem kv hkv
    simp [Variable.mk']
  · intro e he
    rw [hnames]
    obtain ⟨c, hc, rfl⟩ := List.mem_map.1 he
    exact List.mem_map_of_mem hc
  · intro kv hkv w hw
    obtain ⟨c, hc, rfl⟩ := hmem kv hkv
    obtain ⟨h1, h2⟩ := hN.times c hc
    simp only [Variable.mk', List.mem_cons, List.not_mem_nil, or_false] at hw
    rcases hw with rfl | rfl
    · exact h1.le.trans h2
    · exact h1.le
  · intro kv hkv
    obtain ⟨c, hc, rfl⟩ := hmem kv hkv
    simpa [Variable.mk'] using (hN.times c hc).2
  · intro e
    apply h.ne
    rw [← List.map_eq_nil_iff (f := Prod.fst), ← hnames, e]
    rfl
  · intro kv hkv w hw
    obtain ⟨c, hc, rfl⟩ := hmem kv hkv
    obtain ⟨h1, h2⟩ := hN.times c hc
    simp only [Variable.mk', List.mem_cons, List.not_mem_nil, or_false] at hw
    rcases hw with rfl | rfl
    · exact h1.trans_le h2
    · exact h1
  · intro kv hkv
    obtain ⟨c, -, rfl⟩ := hmem kv hkv
    rfl
  · intro kv hkv
    obtain ⟨c, -, rfl⟩ := hmem kv hkv
    exact mk'_stored c.1 (by simp) (by simp)
  · show (ext p).origins.map Prod.snd ≠ []
    simpa using h.origins
  · intro d hd
    obtain ⟨e, he, rfl⟩ := List.mem_map.1 hd
    refine (hn _).2 ?_
    have := h.originNodes e he
    simp only [fileGraph, List.mem_dedup, List.mem_append]
    exact .inl this
  · rw [hst]
    constructor
    · intro kn hkn i _
      obtain ⟨c, hc, rfl⟩ := List.mem_map.1 hkn
      obtain ⟨h1, h2⟩ := hN.rnd _ (hpf c hc).1 (hpf c hc).2
      simp only [pfCfgIn, pfCfgOf]
      split
      · exact h1
      · linarith
    · intro kn hkn
      obtain ⟨c, hc, rfl⟩ := List.mem_map.1 hkn
      simp [pfCfgIn, pfCfgOf, Finset.sum_range_succ]

theorem pfCfgIn_node {n : K} (hm : n ∈ m.comps.map Prod.fst) :
    NodeOK (pfCfgIn N m (ext p) nodes pf a b v) n := by
  refine ⟨(hn _).2 ?_, ?_⟩
  · simp only [fileGraph, List.mem_dedup, List.mem_append]
    exact .inl hm
  · have hnames : (pfCfgIn N m (ext p) nodes pf a b v).varis.map Prod.fst = m.conns.map Prod.fst := by
      simp only [pfCfgIn, pfCfgOf, List.map_map]
      rfl
    rw [hnames]
    exact h.apart n hm

end

section
variable {nodes : List K} (hn : ∀ n, n ∈ nodes ↔ n ∈ (fileGraph m).nodes) {e : PfExt K} {pf pf' : K → ℝ}
  {a b a' b' : ℕ} {v v' : ℚ} {n : K}
include hn

theorem reaches_in {th : ℚ} {x : K → ℕ} :
    Reaches (pfCfgIn N m e nodes pf a b v) n th x ↔ Reaches (pfCfgOf N m e pf' a' b' v') n th x := by
  unfold Reaches InTime
  refine exists_congr fun d => and_congr_right fun _ => exists_congr fun es => exists_congr fun ns =>
    and_congr ?_ Iff.rfl
  exact route_nodes hn

theorem intact_in {t : ℚ} :
    IntactTime (pfCfgIn N m e nodes pf a b v) n t ↔ IntactTime (pfCfgOf N m e pf' a' b' v') n t := by
  unfold IntactTime
  refine exists_congr fun x => and_congr Iff.rfl (and_congr ?_ ?_)
  · refine exists_congr fun d => and_congr_right fun _ => exists_congr fun es => exists_congr fun ns =>
      and_congr ?_ Iff.rfl
    exact route_nodes hn
  · refine forall_congr' fun d => imp_congr Iff.rfl ?_
    refine forall_congr' fun es => forall_congr' fun ns => imp_congr ?_ Iff.rfl
    exact route_nodes hn

end

/-- The probabilities of the roads that the files determine are probabilities. -/
theorem pf_probs {e : PfExt K} {x0 y0 Mw : ℝ} {pf : List (K × ℝ)} (hN : PfNumOK N m)
    (h : ∀ a ∈ m.conns, ∃ pr, pf.lookup a.1 = some pr ∧ RoadProb N m e x0 y0 Mw a pr) :
    (∀ c ∈ m.conns, RoadProb N m e x0 y0 Mw c ((pf.lookup c.1).getD 0)) ∧
    ∀ c ∈ m.conns, 0 ≤ (fun k => (pf.lookup k).getD 0) c.1 ∧ (fun k => (pf.lookup k).getD 0) c.1 ≤ 1 := by
  refine ⟨fun c hc => ?_, fun c hc => ?_⟩
  · obtain ⟨pr, h1, h2⟩ := h c hc
    rw [h1]
    exact h2
  · obtain ⟨pr, h1, _, _, _, _, _, -, -, -, -, rfl⟩ := h c hc
    simp only [h1, Option.getD_some]
    exact hN.cdf _ _ _

theorem pfInput_eq {files : K → Option (FileC K)} (h : PfFileOK nSf nWr nCov files ext data p q m mb w sf cov)
    {c : PfConf K} {nodes : List K} {inf a : ℕ}
    (e1 : c.base.infra = { G := { fileGraph m with nodes := nodes }, comps := m.comps, conns := m.conns
                           ods := m.ods })
    (e2 : c.base.maxBranches = .num mb) (e6 : c.wr = .num w) (e7 : c.ext = ext p)
    (hmax : flowLimit inf c.maxSf = .ok a) :
    pfInput N inf c = .ok (pfCfgIn N m (ext p) nodes (fun k => (c.pf.lookup k).getD 0) a mb.ceil.toNat w) := by
  unfold pfInput
  rw [pfVaris_ok h (by rw [e1]) (by rw [e1]) (ext p) nodes (fun k => (c.pf.lookup k).getD 0) a
    mb.ceil.toNat w, ok_bind, hmax, ok_bind, e2, e6, e1, e7]
  rfl

theorem foldl_keep {c : PfCfg K} {done : List K} {k : K} (hk : k ∉ done) (d : List (K × Variable K)) :
    (done.foldl (fun d n => if n ∈ c.dests then d else itemSet d n (nodeVariable n)) d).lookup k =
      d.lookup k := by
  induction done generalizing d with
  | nil => rfl
  | cons n l ih =>
    simp only [List.mem_cons, not_or] at hk
    rw [List.foldl_cons, ih hk.2]
    split
    · rfl
    · rw [lookup_itemSet, if_neg hk.1]

/-- The stored variables of the roads. -/
theorem pfStored_road {files : K → Option (FileC K)}
    (h : PfFileOK nSf nWr nCov files ext data p q m mb w sf cov) {done nodes : List K} {pf : K → ℝ}
    {a b : ℕ} {v : ℚ} (hd : ∀ n ∈ done, n ∈ m.comps.map Prod.fst) {c : K × K × K × ℚ} (hc : c ∈ m.conns) :
    (pfStored (pfCfgIn N m (ext p) nodes pf a b v) done).lookup c.1 =
      some (Variable.mk' c.1 [N.far, roadHours N (placeOf m c.2.1) (placeOf m c.2.2.1)] .dflt) := by
  unfold pfStored
  rw [foldl_keep fun hm => h.apart _ (hd _ hm) (List.mem_map_of_mem hc)]
  have hmem : (c.1, Variable.mk' c.1 [N.far, roadHours N (placeOf m c.2.1) (placeOf m c.2.2.1)] .dflt) ∈
      (pfCfgIn N m (ext p) nodes pf a b v).varis := List.mem_map.2 ⟨c, hc, rfl⟩
  refine lookup_mem_items ?_ hmem
  simp only [pfCfgIn, pfCfgOf, List.map_map]
  exact h.names

theorem mapM_congr_mem {A B : Type} {l : List A} {f g : A → Except Err B} (h : ∀ a ∈ l, f a = g a) :
    l.mapM f = l.mapM g := by
  induction l with
  | nil => rfl
  | cons a l ih =>
    rw [List.mapM_cons, List.mapM_cons, h a (by simp), ih fun b hb => h b (List.mem_cons_of_mem _ hb)]

/-- The travel time depends on the variables of the components only. -/
theorem multi_congr (lib : PathLib K) {comps : List (K × ℕ)} {G : NGraph K} (o : K) (ds : List K)
    {v v' : List (K × Variable K)} (hv : v ≠ []) (hv' : v' ≠ [])
    (hl : ∀ k ∈ comps.map Prod.fst, v.lookup k = v'.lookup k)
    (he : ∀ e ∈ G.edges, e.label ∈ comps.map Prod.fst) :
    timeAndPathMulti lib comps G o ds v = timeAndPathMulti lib comps G o ds v' := by
  have h1 : (comps.mapM fun ks => do
      let a ← itemsGet v ks.1
      return decide (ks.2 < a.values.length)) = comps.mapM fun ks => do
      let a ← itemsGet v' ks.1
      return decide (ks.2 < a.values.length) := by
    refine mapM_congr_mem fun ks hks => ?_
    have : itemsGet v ks.1 = itemsGet v' ks.1 := by
      simp only [itemsGet, dictGet, hl _ (List.mem_map_of_mem hks)]
    rw [this]
  have h2 : updateG G comps v = updateG G comps v' := by
    unfold updateG
    rw [if_neg hv, if_neg hv']
    unfold setWeights
    have : (G.edges.mapM fun e => edgeWeight v comps e.label) =
        G.edges.mapM fun e => edgeWeight v' comps e.label := by
      refine mapM_congr_mem fun e hem => ?_
      have : itemsGet v e.label = itemsGet v' e.label := by
        simp only [itemsGet, dictGet, hl _ (he e hem)]
      unfold edgeWeight
      rw [this]
    rw [this]
  unfold timeAndPathMulti
  rw [h1, h2]

section
variable {files : K → Option (FileC K)} (h : PfFileOK nSf nWr nCov files ext data p q m mb w sf cov)
  (hN : PfNumOK N m) {nodes : List K} (hn : ∀ n, n ∈ nodes ↔ n ∈ (fileGraph m).nodes)
  (hG : GraphOK { fileGraph m with nodes := nodes }) {vs : List (K × Variable K)}
  (hvs : ∀ c ∈ m.conns, vs.lookup c.1 =
    some (Variable.mk' c.1 [N.far, roadHours N (placeOf m c.2.1) (placeOf m c.2.2.1)] .dflt))
include h hN hn hG hvs

/-- The travel time with the stored variables is that with the roads. -/
theorem stored_time {pf : K → ℝ} {a b : ℕ} {v : ℚ} (node : K) (x : K → ℕ) :
    timeAndPathMulti lib (m.conns.map fun c => (c.1, x c.1)) { fileGraph m with nodes := nodes } node
        (ext p).dests vs =
      timeAndPathMulti lib (compsOf (statesOf (pfCfgIn N m (ext p) nodes pf a b v).varis) x)
        (pfCfgIn N m (ext p) nodes pf a b v).G node (pfCfgIn N m (ext p) nodes pf a b v).dests
        (pfCfgIn N m (ext p) nodes pf a b v).varis := by
  have hcomps : compsOf (statesOf (pfCfgIn N m (ext p) nodes pf a b v).varis) x =
      m.conns.map fun c => (c.1, x c.1) := by
    simp only [compsOf, statesOf, pfCfgIn, pfCfgOf, List.map_map]
    rfl
  obtain ⟨c0, hc0⟩ := List.exists_mem_of_ne_nil _ h.ne
  rw [hcomps]
  refine multi_congr lib node _ ?_ ?_ ?_ ?_
  · rintro rfl
    cases hvs c0 hc0
  · intro e
    apply h.ne
    simpa [pfCfgIn, pfCfgOf] using e
  · intro k hk
    obtain ⟨_, hk', rfl⟩ := List.mem_map.1 hk
    obtain ⟨c, hc, rfl⟩ := List.mem_map.1 hk'
    have hmem : (c.1, Variable.mk' c.1 [N.far, roadHours N (placeOf m c.2.1) (placeOf m c.2.2.1)] .dflt) ∈
        (pfCfgIn N m (ext p) nodes pf a b v).varis := List.mem_map.2 ⟨c, hc, rfl⟩
    simp only
    rw [hvs c hc, lookup_mem_items ?_ hmem]
    simp only [pfCfgIn, pfCfgOf, List.map_map]
    exact h.names
  · intro e he
    obtain ⟨c, hc, rfl⟩ := List.mem_map.1 he
    exact List.mem_map.2 ⟨(c.1, x c.1), List.mem_map.2 ⟨c, hc, rfl⟩, rfl⟩

theorem stored_sys {pf : K → ℝ} {a b : ℕ} {v : ℚ} (node : K) {t : Option ℚ}
    (ht : t.map ((ext p).thres * ·) ≠ some 0) (x : K → ℕ) :
    pfMcsSys lib { fileGraph m with nodes := nodes } (ext p).dests (ext p).thres node vs
        (m.conns.map fun c => (c.1, 2)) t x =
      nodeSysFun lib (pfCfgIn N m (ext p) nodes pf a b v).G (pfCfgIn N m (ext p) nodes pf a b v).dests
        (pfCfgIn N m (ext p) nodes pf a b v).thres node (pfCfgIn N m (ext p) nodes pf a b v).varis t x := by
  have hcomps : compsOf (statesOf (pfCfgIn N m (ext p) nodes pf a b v).varis) x =
      m.conns.map fun c => (c.1, x c.1) := by
    simp only [compsOf, statesOf, pfCfgIn, pfCfgOf, List.map_map]
    rfl
  have hcomps' : compsOf (m.conns.map fun c => (c.1, 2)) x = m.conns.map fun c => (c.1, x c.1) := by
    simp only [compsOf, List.map_map]
    rfl
  have key := stored_time (lib := lib) h hN hn hG hvs (pf := pf) (a := a) (b := b) (v := v) node x
  rw [hcomps] at key
  cases t with
  | none =>
    unfold pfMcsSys nodeSysFun
    simp only [hcomps, hcomps']
    rw [key]
    rfl
  | some t =>
    have h0 : (ext p).thres * t ≠ 0 := fun e => ht (by simp [e])
    have h0' : (pfCfgIn N m (ext p) nodes pf a b v).thres * t ≠ 0 := h0
    unfold pfMcsSys nodeSysFun sysFunWrap
    simp only [hcomps, hcomps', sfMinPath, if_neg h0, if_neg h0', sfMinPath.timed]
    rw [key]
    rfl

end

/-- What `run_MCS` computes with before the simulation. -/
theorem pfMcs_parts {lib : PathLib K} {W : PfWorld K}
    (h : PfFileOK nSf nWr nCov W.1.files ext data p q m mb w sf cov) (hN : PfNumOK N m)
    {eqName : K} {x0 y0 Mw : ℝ} (heq : (ext p).eq.lookup eqName = some ([x0, y0], Mw)) (h6 : 6 ≤ Mw)
    (h8 : Mw ≤ 8.5) (hs : RoadsStored N m (W.2 (some q))) :
    ∃ (disk : Disk K) (nodes : List K) (pf : K → ℝ) (vs : List (K × Variable K)),
      disk.files = W.1.files ∧ (∀ c ∈ m.conns, RoadProb N m (ext p) x0 y0 Mw c (pf c.1)) ∧
      (∀ n, n ∈ nodes ↔ n ∈ (fileGraph m).nodes) ∧ RoadsOK (pfCfgIn N m (ext p) nodes pf 0 0 0) ∧
      (∀ n ∈ m.comps.map Prod.fst, NodeOK (pfCfgIn N m (ext p) nodes pf 0 0 0) n) ∧
      statesOf (pfCfgIn N m (ext p) nodes pf 0 0 0).varis = m.conns.map (fun c => (c.1, 2)) ∧
      (∀ c ∈ m.conns, 0 ≤ N.rnd (pf c.1) ∧ N.rnd (pf c.1) ≤ 1) ∧
      (∀ node t x, t.map ((ext p).thres * ·) ≠ some 0 →
        pfMcsSys lib { fileGraph m with nodes := nodes } (ext p).dests (ext p).thres node vs
          (m.conns.map fun c => (c.1, 2)) t x =
        nodeSysFun lib (pfCfgIn N m (ext p) nodes pf 0 0 0).G (pfCfgIn N m (ext p) nodes pf 0 0 0).dests
          (pfCfgIn N m (ext p) nodes pf 0 0 0).thres node (pfCfgIn N m (ext p) nodes pf 0 0 0).varis t x) ∧
      ∀ node r fuel, pfMcs lib N nSf nWr nCov ext data eqName node r fuel W = (do
        let t ← timeAndPathMulti lib (compsOf (statesOf (pfCfgIn N m (ext p) nodes pf 0 0 0).varis)
          (intactState (pfCfgIn N m (ext p) nodes pf 0 0 0).varis)) (pfCfgIn N m (ext p) nodes pf 0 0 0).G
          node (pfCfgIn N m (ext p) nodes pf 0 0 0).dests (pfCfgIn N m (ext p) nodes pf 0 0 0).varis
        let cfg : IndepCfg K := { pfDraws N m pf with
          sysFun := pfMcsSys lib { fileGraph m with nodes := nodes } (ext p).dests (ext p).thres node vs
            (m.conns.map fun c => (c.1, 2)) t.1
          covT := 1 / 100 }
        if t.1.map ((ext p).thres * ·) = some 0 then do
          let _ ← indepDraw cfg (r 0)
          .error .key
        else do
          let res ← runMcsIndep cfg r fuel
          return (disk, Function.update W.2 (some q)
            { W.2 (some q) with mcs := itemSet (W.2 (some q)).mcs (node, eqName) res })) := by
  obtain ⟨c, nodes, hc, hn, hG, e1, e2, e3, e4, e5, e6, -, e7, e8, e9⟩ := pfConfig_ok (N := N) h heq h6 h8
  obtain ⟨hp1, hp2⟩ := pf_probs (pf := c.pf) hN e9
  obtain ⟨vs, hv, hvs⟩ := hs
  refine ⟨c.disk, nodes, fun k => (c.pf.lookup k).getD 0, vs, e4, hp1, hn,
    pfCfgIn_ok (pf := fun k => (c.pf.lookup k).getD 0) h hN hn hG hp2,
    fun n hm => pfCfgIn_node (pf := fun k => (c.pf.lookup k).getD 0) h hN hn hG hp2 hm,
    pfCfgIn_states (pf := fun k => (c.pf.lookup k).getD 0) h hN hn hG hp2,
    fun a ha => hN.rnd _ (hp2 a ha).1 (hp2 a ha).2,
    fun node t x ht => stored_sys h hN hn hG hvs node ht x, fun node r fuel => ?_⟩
  have hitc : (m.conns.map fun a => (a.1, 1)) = m.conns.map fun a =>
      (a.1, intactState (pfCfgIn N m (ext p) nodes (fun k => (c.pf.lookup k).getD 0) 0 0 0).varis a.1) := by
    refine List.map_congr_left fun a ha => ?_
    have hmem : (a.1, Variable.mk' a.1 [N.far, roadHours N (placeOf m a.2.1) (placeOf m a.2.2.1)] .dflt) ∈
        (pfCfgIn N m (ext p) nodes (fun k => (c.pf.lookup k).getD 0) 0 0 0).varis :=
      List.mem_map.2 ⟨a, ha, rfl⟩
    have hnd : ((pfCfgIn N m (ext p) nodes (fun k => (c.pf.lookup k).getD 0) 0 0 0).varis.map
        Prod.fst).Nodup := by
      simp only [pfCfgIn, pfCfgOf, List.map_map]
      exact h.names
    simp only [intactState, lookup_mem_items hnd hmem]
    rfl
  have hnames : (c.pf.map fun e => (e.1, 2)) = m.conns.map fun c => (c.1, 2) := by
    have : (c.pf.map Prod.fst).map (fun k => (k, 2)) = (m.conns.map Prod.fst).map fun k => (k, 2) := by
      rw [e8]
    simpa only [List.map_map, Function.comp_def] using this
  have hcfg : ∀ t, pfMcsCfg lib N c vs node t = { pfDraws N m (fun k => (c.pf.lookup k).getD 0) with
      sysFun := pfMcsSys lib { fileGraph m with nodes := nodes } (ext p).dests (ext p).thres node vs
        (m.conns.map fun c => (c.1, 2)) t
      covT := 1 / 100 } := by
    intro t
    unfold pfMcsCfg pfDraws
    rw [e1, e7, hnames, e8]
    rfl
  unfold pfMcs
  rw [hc, ok_bind, e3]
  simp only [hv]
  rw [e1, e7]
  simp only [hitc, hcfg]
  rw [stored_time h hN hn hG hvs (pf := fun k => (c.pf.lookup k).getD 0) (a := 0) (b := 0) (v := 0)]

/-- The roads as components to draw from. -/
theorem pfDraws_ok {files : K → Option (FileC K)}
    (h : PfFileOK nSf nWr nCov files ext data p q m mb w sf cov) {pf : K → ℝ}
    (hp : ∀ c ∈ m.conns, 0 ≤ N.rnd (pf c.1) ∧ N.rnd (pf c.1) ≤ 1) (f : (K → ℕ) → SysRes K) (t : ℚ) :
    IndepOK { pfDraws N m pf with sysFun := f, covT := t } := by
  refine ⟨h.names, fun e he => ?_⟩
  obtain ⟨c, hc, rfl⟩ := List.mem_map.1 he
  obtain ⟨h1, h2⟩ := hp c hc
  refine ⟨show [0, 1].Nodup by decide, fun s _ => ?_, ?_⟩
  · simp only [pfDraws]
    split
    · exact h1
    · linarith
  · simp [pfDraws]

/-- Which of the drawn vectors the system function calls failures. -/
theorem nFail_cut {S S' : PfCfg K} {c : IndepCfg K} {node : K} {th : ℚ} {xs : ℕ → K → ℕ}
    (hf : ∀ i, (c.sysFun (xs i)).st = .f ↔ ¬ Reaches S node th (xs i))
    (hS : ∀ x, Reaches S node th x ↔ Reaches S' node th x) (n : ℕ) :
    nFail c xs n = nCut S' node th xs n := by
  unfold nFail nCut
  congr 1
  funext i
  rw [decide_eq_decide, hf, hS]


/-- `config_custom` up to the failure probabilities. -/
theorem pfConfig_eq {disk : Disk K} (h : PfFileOK nSf nWr nCov disk.files ext data p q m mb w sf cov)
    (eqName : K) :
    ∃ (R : RoadCfg K) (f : RoadOut K → PfConf K), R.eq = (ext p).eq ∧ (R.edges.map Prod.fst).Nodup ∧
      pfConfig N nSf nWr nCov disk ext data eqName =
        (calEdgeDistOutput N.bis N.cdf R eqName >>= fun o => .ok (f o)) := by
  have hg1 : m.gtype ≠ some .other := by rcases h.gtype with e | e <;> rw [e] <;> simp
  have hg2 : m.gtype ≠ some .multigraph ∧ m.gtype ≠ some .multidigraph := by
    rcases h.gtype with e | e <;> rw [e] <;> simp
  have hg3 : NoParallel (m.gtype = some .digraph) m.conns := by
    rcases h.gtype with e | e <;> rw [e] <;> simpa using h.noParallel
  obtain ⟨nodes, -, -, hread⟩ := readModel_simple hg1 hg2 hg3
  obtain ⟨v, hv, hv'⟩ := h.scen
  obtain ⟨key, hk⟩ := h.id
  obtain ⟨cfg, disk', h1, h2, -, -, -, -, -, h4, -⟩ := C81_without_scenarios h.model h.file hread
    hv hv' hk h.branches h.out
  have hl : ∀ n : K, cfg.data.lookup (.other n) = data.lookup (.other n) := by
    intro n
    rw [h4]
    exact lookup_filter_key (P := fun e => e ∉ [CfgKey.modelName, .maxBranches, .configurationId,
      .outputPath]) (by simp)
  obtain ⟨R, r1, -, r3, -, r5, -⟩ := pfRoads_ok h (inf := cfg.infra) (by rw [h2]) (by rw [h2])
  refine ⟨R, fun out => { base := cfg, disk := disk', maxSf := if sf.truthy then some sf else none
                          wr := .num w, covT := cov, ext := ext p, pf := out.pf }, r3,
    by rw [r5]; exact h.names, ?_⟩
  unfold pfConfig
  simp only [h1, ok_bind]
  rw [itemsGet_some ((hl nSf).trans h.sf), itemsGet_some ((hl nWr).trans h.wr),
    itemsGet_some ((hl nCov).trans h.cov)]
  simp only [modelPath, itemsGet_some h.model, ok_bind, r1]
  rfl

end

end BNS
