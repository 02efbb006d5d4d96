import Verif.Model.EmaMain
import Verif.Spec.Ema
import Verif.Proofs.FlowMain
import Verif.Props.ByOd
import Verif.Props.BrcResume
import Verif.Props.SysKeep

/-! Helper lemmas: the commands of the EMA demo. -/

namespace BNS

set_option linter.unusedSectionVars false

section
variable {K : Type} [DecidableEq K] {m : NetJson K} {scen : List (K × List ℚ)}

/-- The event matrix of a run decides the vectors. -/
theorem run_decides {Φ : (K → ℕ) → Bool} {c : RunCfg K} (hc : CfgOK c Φ) (hf : c.survFirst = true)
    (h0 : 0 < c.maxSf) (hw : c.pfBndWr = 0) (hr : c.maxRules = none) {rules : Rules K}
    (hs : StartOK c Φ rules none) {st : RunState K} (hst : run c rules none = .ok st) {U : K → Variable K}
    {sys : K} (hU : SysVars U c.vs sys 3) {varis : K → Option (Variable K)}
    (hv : ∀ kn ∈ c.vs, varis kn.1 = some (U kn.1)) :
    ∃ bs C, st.brs = some bs ∧ getCsys (c.vs.map Prod.fst) bs varis stBrToCs = .ok (C, varis) ∧
      EventsOK U c.vs 3 C ∧
      DecidesSystem c.vs (compVariables U c.vs) (fun x => Φ x = true)
        ((c.vs.map Prod.snd).prod < c.maxSf ∧ 2 * (c.vs.map Prod.snd).prod ≤ c.maxNb) C := by
  have hT : TablesOK c.vs varis := fun kn hkn =>
    ⟨_, genB kn.2, hv kn hkn, hU.name kn hkn, hU.table kn hkn, fun i hi => genB_getElem_lt _ _ hi⟩
  obtain ⟨bs, C, varis', g1, g2, g3, g4⟩ := C32_of_run hc h0 hs hst varis hT stBrToCs
    (fun l => by obtain ⟨j, hj, -⟩ := stBrToCs_some l; rw [hj]; simp)
  obtain ⟨-, -, -, hrun⟩ := C27_bounds hc hs hst
  obtain ⟨bs2, -, q1, q2, -⟩ := hrun h0
  rw [g1] at q1
  cases q1
  obtain ⟨C', e1, e2, -⟩ := csys_rows hU q2 hv (lbl := stBrToCs) fun b _ => stBrToCs_some b.label
  rw [g2] at e1
  cases e1
  have hcv : compVars c.vs varis = compVariables U c.vs := by
    unfold compVars compVariables
    rw [← List.filterMap_eq_map]
    exact List.filterMap_congr fun kn hk => hv kn hk
  refine ⟨bs, C, g1, g2, e2, fun x hx => ?_⟩
  obtain ⟨j, b, s, cs, k1, k2, k3, k4, k5, k6, k7⟩ := g4 x hx
  rw [hcv] at k4 k5
  refine ⟨j, s, cs, k2, k4, k5, ?_, ?_, ?_, ?_⟩
  · obtain ⟨j, hj, hj3⟩ := stBrToCs_some b.label
    rw [hj] at k3
    cases k3
    exact hj3
  · rintro rfl
    show ¬ Φ x = true
    rw [k7]
    · simp
    cases hl : b.label <;> rw [hl] at k3 <;> simp [stBrToCs] at k3 ⊢
  · rintro rfl
    refine k6 ?_
    cases hl : b.label <;> rw [hl] at k3 <;> simp [stBrToCs] at k3 ⊢
  · rintro ⟨h1, h2⟩ rfl
    obtain ⟨st', p1, p2⟩ := C29_completes hc hf h1 h2 hw hr hs
    rw [hst] at p1
    cases p1
    obtain ⟨bs2, row, r1, -, r2, -⟩ := C28_enough_branches_partial hc hs (resume_none c _) h2 hst p2
    rw [g1] at r1
    cases r1
    obtain ⟨r3, r4⟩ := r2 b (List.mem_of_getElem? k1)
    have hl : b.label = b.downState := by unfold Branch.label; rw [if_pos r3]
    rw [hl] at k3
    cases hd : b.downState <;> rw [hd] at k3 r4 <;> simp [stBrToCs] at k3 r4

/-- The rules of a run are a start for another one. -/
theorem run_restart {Φ : (K → ℕ) → Bool} {c c' : RunCfg K} (hc : CfgOK c Φ) (h0 : 0 < c.maxSf)
    {rules : Rules K} (hs : StartOK c Φ rules none) {st : RunState K} (h : run c rules none = .ok st)
    (hvs : c'.vs = c.vs) (hpr : c'.probs = c.probs) : StartOK c' Φ st.rules none := by
  obtain ⟨⟨h1, h2, -⟩, -⟩ := C61_resumable hc h0 hs (resume_none c _) h hvs hpr
  exact ⟨h1, h2, by simp⟩

theorem emaDraws_names (draw : ℕ → Fin 3) (names : List K) :
    (emaDraws draw names).map Prod.fst = names := by
  unfold emaDraws
  rw [List.map_map]
  have : (Prod.fst ∘ fun ki : K × ℕ => (ki.1, draw ki.2)) = Prod.fst := rfl
  rw [this, List.zipIdx_map_fst]

theorem emaDraws_get (draw : ℕ → Fin 3) (names : List K) {i : ℕ} {k : K} (h : names[i]? = some k) :
    (k, draw i) ∈ emaDraws draw names := by
  refine List.mem_map.2 ⟨(k, i), ?_, rfl⟩
  exact List.mem_zipIdx_iff_getElem?.2 h

theorem mem_emaDraws {draw : ℕ → Fin 3} {names : List K} {kv : K × Fin 3} (h : kv ∈ emaDraws draw names) :
    ∃ i, names[i]? = some kv.1 ∧ kv.2 = draw i := by
  obtain ⟨ki, hki, rfl⟩ := List.mem_map.1 h
  exact ⟨ki.2, List.mem_zipIdx_iff_getElem?.1 hki, rfl⟩

theorem emaSet_table (v : Fin 3) (s : ℕ) : emaSet v s = ((emaTable.getD v []).getD s 0) := by
  match v, s with
  | 0, 0 => rfl
  | 0, 1 => rfl
  | 0, 2 => rfl
  | 0, _ + 3 => rfl
  | 1, 0 => rfl
  | 1, 1 => rfl
  | 1, 2 => rfl
  | 1, _ + 3 => rfl
  | 2, 0 => rfl
  | 2, 1 => rfl
  | 2, 2 => rfl
  | 2, _ + 3 => rfl

theorem emaSet_nonneg (v : Fin 3) (s : ℕ) : 0 ≤ emaSet v s := by
  unfold emaSet
  split <;> norm_num

theorem emaSet_total (v : Fin 3) : emaSet v 0 + emaSet v 1 + emaSet v 2 = 1 := by
  match v with
  | 0 => norm_num [emaSet]
  | 1 => norm_num [emaSet]
  | 2 => norm_num [emaSet]

theorem emaProb_mem {draw : ℕ → Fin 3} {names : List K} (hn : names.Nodup) {kv : K × Fin 3}
    (h : kv ∈ emaDraws draw names) (s : ℕ) : emaProb (emaDraws draw names) kv.1 s = emaSet kv.2 s := by
  unfold emaProb
  rw [lookup_mem_items (by rw [emaDraws_names]; exact hn) h]

theorem delayVs_three (h3 : ∀ c ∈ m.conns, ((scen.lookup c.1).getD []).length = 3) :
    delayVs m scen = (m.conns.map Prod.fst).map fun k => (k, 3) := by
  unfold delayVs
  rw [List.map_map]
  exact List.map_congr_left fun c hc => by simp [h3 c hc]

theorem emaProb_ok (draw : ℕ → Fin 3) (hn : (m.conns.map Prod.fst).Nodup)
    (h3 : ∀ c ∈ m.conns, ((scen.lookup c.1).getD []).length = 3) :
    ProbOK (delayVs m scen) (emaProb (emaDraws draw (m.conns.map Prod.fst))) := by
  have key : ∀ kn ∈ delayVs m scen, kn.2 = 3 ∧ ∃ v, ∀ s,
      emaProb (emaDraws draw (m.conns.map Prod.fst)) kn.1 s = emaSet v s := by
    rw [delayVs_three h3]
    intro kn hkn
    obtain ⟨k, hk, rfl⟩ := List.mem_map.1 hkn
    obtain ⟨i, hi⟩ := List.mem_iff_getElem?.1 hk
    exact ⟨rfl, draw i, fun s => emaProb_mem hn (emaDraws_get draw _ hi) s⟩
  constructor
  · intro kn hkn i _
    obtain ⟨-, v, hv⟩ := key kn hkn
    rw [hv]
    exact emaSet_nonneg v i
  · intro kn hkn
    obtain ⟨e, v, hv⟩ := key kn hkn
    rw [e]
    simp only [Finset.sum_range_succ, Finset.sum_range_zero, zero_add, hv]
    exact emaSet_total v

theorem ema_sysVars (h : DelayModelOK m scen)
    (h3 : ∀ c ∈ m.conns, ((scen.lookup c.1).getD []).length = 3) {sys : K}
    (hsys : sys ∉ m.conns.map Prod.fst) : SysVars (emaVar scen sys) (delayVs m scen) sys 3 := by
  have hne : ∀ c ∈ m.conns, c.1 ≠ sys := fun c hc e => hsys (e ▸ List.mem_map_of_mem hc)
  have hfst : (delayVs m scen).map Prod.fst = m.conns.map Prod.fst := by
    simp [delayVs, List.map_map, Function.comp_def]
  have key : ∀ kn ∈ delayVs m scen, kn.2 = 3 ∧ (emaVar scen sys kn.1).name = kn.1 ∧
      (emaVar scen sys kn.1).values.length = 3 ∧ (emaVar scen sys kn.1).B = some (genB 3) := by
    intro kn hkn
    obtain ⟨c, hc, rfl⟩ := List.mem_map.1 hkn
    have := h3 c hc
    simp only [emaVar, if_neg (hne c hc)]
    refine ⟨this, rfl, this, ?_⟩
    rw [mk'_stored _ (by omega) (by omega), this]
  constructor
  · refine ⟨by rw [hfst]; exact h.names, fun kn hkn => by rw [(key kn hkn).1]; omega⟩
  · exact fun kn hkn => (key kn hkn).2.1
  · exact fun kn hkn => by rw [(key kn hkn).1]; exact (key kn hkn).2.2.1
  · exact fun kn hkn => by rw [(key kn hkn).1]; exact (key kn hkn).2.2.2
  · rw [hfst]; exact hsys
  · rfl
  · simp [emaVar, Variable.mk']
  · simp only [emaVar, if_true]
    exact mk'_stored _ (by simp) (by simp)

end

section
variable {K : Type} [LinearOrder K] {m : NetJson K} {scen : List (K × List ℚ)}

/-- The loop over the connections. -/
theorem emaComp_all (h : DelayModelOK m scen)
    (h3 : ∀ c ∈ m.conns, ((scen.lookup c.1).getD []).length = 3) {sys : K}
    (hsys : sys ∉ m.conns.map Prod.fst) (draw : ℕ → Fin 3) {sc : ScenJson K} {s1 : K}
    (hs : sc.scenarios.lookup s1 = some scen) :
    ∃ comps, (emaDraws draw (m.conns.map Prod.fst)).mapM (emaComp (some sc) s1) = .ok comps ∧
      comps.map Prod.fst = delayVaris m scen ∧
      comps.map Prod.snd = (delayVs m scen).map fun kn =>
        (kn.1, compCpm (emaVar scen sys) (emaProb (emaDraws draw (m.conns.map Prod.fst))) kn) := by
  set names := m.conns.map Prod.fst with hnames
  set P := emaProb (emaDraws draw names) with hP
  have hU := ema_sysVars h h3 hsys
  refine ⟨(emaDraws draw names).map fun kv => ((kv.1, emaVar scen sys kv.1), kv.1,
    compCpm (emaVar scen sys) P (kv.1, 3)), mapM_ok fun kv hkv => ?_, ?_, ?_⟩
  · obtain ⟨i, hi, -⟩ := mem_emaDraws hkv
    obtain ⟨c, hc, hck⟩ := List.mem_map.1 (List.mem_of_getElem? hi)
    obtain ⟨ts, t1, -⟩ := h.times c hc
    have hv : Variable.mk' kv.1 ts .dflt = emaVar scen sys kv.1 := by
      have hne : kv.1 ≠ sys := fun e => hsys (e ▸ List.mem_of_getElem? hi)
      rw [emaVar, if_neg hne, ← hck, t1]
      rfl
    have hM : ({ vars := [emaVar scen sys kv.1], noChild := 1, C := [[0], [1], [2]]
                 p := [emaSet kv.2 0, emaSet kv.2 1, emaSet kv.2 2] } : Cpm K) =
        compCpm (emaVar scen sys) P (kv.1, 3) := by
      have e : ∀ s, P kv.1 s = emaSet kv.2 s := fun s => emaProb_mem h.names hkv s
      simp only [compCpm, List.range_succ, List.range_zero, List.nil_append, List.cons_append,
        List.map_cons, List.map_nil, e]
    have hkn : (kv.1, 3) ∈ delayVs m scen := by
      rw [delayVs_three h3]
      exact List.mem_map_of_mem (List.mem_of_getElem? hi)
    have hw := compCpm_WF hU P hkn
    unfold emaComp
    simp only [itemsGet_some hs, ok_bind, itemsGet_some (hck ▸ t1), hv, hM]
    rw [mk'_ok hw.rowLen hw.entry hw.child (.inr hw.pLen) hw.noCs.1, ok_bind]
    rfl
  · rw [List.map_map]
    have : (Prod.fst ∘ fun kv : K × Fin 3 => ((kv.1, emaVar scen sys kv.1), kv.1,
        compCpm (emaVar scen sys) P (kv.1, 3))) = (fun k => (k, emaVar scen sys k)) ∘ Prod.fst := rfl
    rw [this, ← List.map_map, emaDraws_names]
    unfold delayVaris
    refine List.map_congr_left fun k hk => ?_
    have hne : k ≠ sys := fun e => hsys (e ▸ hk)
    rw [emaVar, if_neg hne]
  · rw [List.map_map, delayVs_three h3, List.map_map]
    have : (Prod.snd ∘ fun kv : K × Fin 3 => ((kv.1, emaVar scen sys kv.1), kv.1,
        compCpm (emaVar scen sys) P (kv.1, 3))) =
        (fun k => (k, compCpm (emaVar scen sys) P (k, 3))) ∘ Prod.fst := rfl
    rw [this, ← List.map_map, emaDraws_names]
    rfl

open Classical in
/-- The commands, and the two runs behind them. -/
theorem emaMain_core {lib : PathLib K} (hlib : PathLibOK lib) (draw : ℕ → Fin 3) {disk : Disk K}
    {data : List (CfgKey K × CfgVal K)} {p s q s1 : K} (h : EmaFileOK disk.files data p s q s1 m scen)
    {key o d : K} (hkey : m.ods.lookup key = some (o, d)) {sys : K} (hsys : sys ∉ m.conns.map Prod.fst)
    {maxSf : ℕ} (h0 : 0 < maxSf) (store : List (K × EmaOut K)) :
    ∃ (disk' : Disk K) (t : ℚ) (cfg : ℕ → RunCfg K) (st1 st2 : RunState K) (bs : List (Branch K))
        (C : List (List ℕ)) (f1 f2 : OutFlag),
      ShortestTime m scen o d (allIntact scen) t ∧ disk'.files = disk.files ∧
      (∀ n, (cfg n).vs = delayVs m scen ∧
        (cfg n).probs = emaProb (emaDraws draw (m.conns.map Prod.fst)) ∧ (cfg n).maxSf = maxSf ∧
        (cfg n).maxNb = n ∧ (cfg n).activeDecomp = true ∧ (cfg n).survFirst = true ∧
        (cfg n).pfBndWr = 0 ∧ (cfg n).maxRules = none ∧
        CfgOK (cfg n) (fun x => decide (Reachable m scen o d (2 * t) x))) ∧
      run (cfg 10000) { s := [], f := [] } none = .ok st1 ∧ run (cfg 50000) st1.rules none = .ok st2 ∧
      st1.outFlag = some f1 ∧ st2.outFlag = some f2 ∧ st2.brs = some bs ∧
      getCsys ((delayVs m scen).map Prod.fst) bs (fun k => (delayVaris m scen).lookup k) stBrToCs =
        .ok (C, fun k => (delayVaris m scen).lookup k) ∧
      emaMain lib draw s1 sys key maxSf data (disk, store) = .ok (disk', itemSet store key
        { brs := bs
          cpms := (delayVs m scen).map (fun kn => (kn.1, compCpm (emaVar scen sys)
            (emaProb (emaDraws draw (m.conns.map Prod.fst))) kn)) ++
            [(sys, sysCpm (emaVar scen sys) (delayVs m scen) sys C)]
          varis := (m.conns.map Prod.fst ++ [sys]).map fun k => (k, emaVar scen sys k)
          rules := st2.rules, mon := st1.mon ++ st2.mon
          noSf := List.range (st1.evals.length + 1) ++ List.range (st2.evals.length + 1)
          flag := [f1, f2] }) := by
  have hd := h.delay
  obtain ⟨sc, ds, s1', s2', s3'⟩ := h.scenFile
  obtain ⟨ck, hck⟩ := h.id
  obtain ⟨mb, hmb⟩ := h.branches
  obtain ⟨nodes, hn, hG, hread⟩ := readModel_simple hd.gtype hd.simple hd.noParallel
  obtain ⟨cf, disk', e1, e2, e3, -, -, -, -, -, e4, -⟩ := C81_config h.model h.file hread h.scenName s1' s2'
    hck hmb h.out
  obtain ⟨comps, c1, c2, c3⟩ := emaComp_all hd h.three hsys draw s3'
  have hU := ema_sysVars hd h.three hsys
  obtain ⟨hne, es0, ns0, hr0⟩ := hd.ods _ (lookup_mem_pair hkey)
  have hv : delayVaris m scen ≠ [] := by
    have hc : m.conns ≠ [] := by
      intro hc
      have : ∀ {u v : K}, u ≠ v → Route (fileGraph m) u es0 ns0 v → False := by
        intro u v huv hr
        cases hr with
        | nil _ => exact huv rfl
        | cons _ he _ _ => simp [fileGraph, hc] at he
      exact this hne hr0
    simpa [delayVaris] using hc
  have ht := delayVaris_times hd nodes
  have hr : ∃ es ns, Route { fileGraph m with nodes := nodes } o es ns d :=
    ⟨es0, ns0, (route_nodes hn).2 hr0⟩
  obtain ⟨es, ns, g1, g2, g3⟩ := timeAndPath_ok hlib hG rfl ht hv hr (intact_inSpace ht.nodup ht.states)
  have hshort : ShortestTime m scen o d (allIntact scen)
      (routeTime (delayVaris m scen) (intactState (delayVaris m scen)) es) := by
    refine ⟨⟨es, ns, (route_nodes hn).1 g1, (intact_delay g1).symm⟩, fun es' ns' hr' => ?_⟩
    have hr'' := (route_nodes hn).2 hr'
    have := g3 es' ns' hr''
    rwa [intact_delay hr''] at this
  set t := routeTime (delayVaris m scen) (intactState (delayVaris m scen)) es with ht'
  have h0' : 2 * t ≠ 0 := by
    have : 0 < t := by rw [ht', intact_delay g1]; exact delay_pos hd hne ((route_nodes hn).1 g1)
    positivity
  have hs := sysFun_time hlib hG rfl ht hv hr h0'
    (Φ := fun x => decide (InTime { fileGraph m with nodes := nodes } (delayVaris m scen) o d (2 * t) x))
    (by simp)
  have hΦ : (fun x => decide (InTime { fileGraph m with nodes := nodes } (delayVaris m scen) o d (2 * t) x))
      = fun x => decide (Reachable m scen o d (2 * t) x) := by
    funext x
    rw [decide_eq_decide]
    exact inTime_delay hn
  rw [hΦ] at hs
  set cfg : ℕ → RunCfg K := fun n => emaRunCfg lib { fileGraph m with nodes := nodes } o d
    (delayVaris m scen) (emaDraws draw (m.conns.map Prod.fst)) (2 * t) maxSf n with hcfg
  have hvs : statesOf (delayVaris m scen) = delayVs m scen := delayVaris_states
  have hall : ∀ n, (cfg n).vs = delayVs m scen ∧
        (cfg n).probs = emaProb (emaDraws draw (m.conns.map Prod.fst)) ∧ (cfg n).maxSf = maxSf ∧
        (cfg n).maxNb = n ∧ (cfg n).activeDecomp = true ∧ (cfg n).survFirst = true ∧
        (cfg n).pfBndWr = 0 ∧ (cfg n).maxRules = none ∧
        CfgOK (cfg n) (fun x => decide (Reachable m scen o d (2 * t) x)) := by
    intro n
    refine ⟨hvs, rfl, rfl, rfl, rfl, rfl, rfl, rfl, timesOK_varis ht, hs.2, ?_, hs.1⟩
    show ProbOK (statesOf (delayVaris m scen)) _
    rw [hvs]
    exact emaProb_ok draw hd.names h.three
  have hc1 := (hall 10000).2.2.2.2.2.2.2.2
  have hc2 := (hall 50000).2.2.2.2.2.2.2.2
  obtain ⟨st1, hst1⟩ := C27_returns hc1 rfl (Ex.start_empty _)
  have hstart := run_restart (c' := cfg 50000) hc1 h0 (Ex.start_empty _) hst1 rfl rfl
  obtain ⟨st2, hst2⟩ := C27_returns hc2 rfl hstart
  have hflag : ∀ {n rules} {st : RunState K}, run (cfg n) rules none = .ok st →
      ∃ f, st.outFlag = some f := by
    intro n rules st hst
    rcases C60_flag hst with ⟨-, hz, -⟩ | ⟨e, -⟩ | ⟨-, -, bs, -, ⟨e, -⟩ | ⟨-, ⟨e, -⟩ | ⟨e, -⟩ | ⟨e, -⟩⟩⟩
    · exact absurd (show maxSf = 0 from hz) (by omega)
    all_goals exact ⟨_, e⟩
  obtain ⟨f1, hf1⟩ := hflag hst1
  obtain ⟨f2, hf2⟩ := hflag hst2
  have hlook : ∀ kn ∈ (cfg 50000).vs, (fun k => (delayVaris m scen).lookup k) kn.1 =
      some (emaVar scen sys kn.1) := by
    intro kn hkn
    rw [(hall 50000).1] at hkn
    obtain ⟨c, hc, rfl⟩ := List.mem_map.1 hkn
    have hne : c.1 ≠ sys := fun e => hsys (e ▸ List.mem_map_of_mem hc)
    simp only [delayVaris_lookup (List.mem_map_of_mem (f := Prod.fst) hc), emaVar, if_neg hne]
  obtain ⟨bs, C, b1, b2, b3, -⟩ := run_decides hc2 rfl h0 rfl rfl hstart hst2 (sys := sys)
    (varis := fun k => (delayVaris m scen).lookup k) (U := emaVar scen sys) (by rw [(hall 50000).1]; exact hU) hlook
  rw [(hall 50000).1] at b2 b3
  refine ⟨disk', t, cfg, st1, st2, bs, C, f1, f2, hshort, e4, hall, hst1, hst2, hf1, hf2, b1, b2, ?_⟩
  have hfst : (delayVs m scen).map Prod.fst = m.conns.map Prod.fst := by
    simp [delayVs, List.map_map, Function.comp_def]
  rw [hfst] at b2
  have hvar : itemSet ((delayVaris m scen).map fun kv => (kv.1, ((delayVaris m scen).lookup kv.1).getD kv.2))
      sys (.mk' sys [0, 1, 2] .dflt) =
      (m.conns.map Prod.fst ++ [sys]).map fun k => (k, emaVar scen sys k) := by
    have : ((delayVaris m scen).map fun kv => (kv.1, ((delayVaris m scen).lookup kv.1).getD kv.2)) =
        (m.conns.map Prod.fst).map fun k => (k, emaVar scen sys k) := by
      unfold delayVaris
      rw [List.map_map]
      refine List.map_congr_left fun k hk => ?_
      have hne : k ≠ sys := fun e => hsys (e ▸ hk)
      have := delayVaris_lookup (m := m) (scen := scen) hk
      unfold delayVaris at this
      simp only [Function.comp_apply, this, Option.getD_some, emaVar, if_neg hne]
    rw [this, itemSet_fresh, List.map_append]
    · simp [emaVar]
    · rw [List.map_map]
      simpa [Function.comp_def] using hsys
  have hw := sysCpm_WF hU b3
  unfold emaMain
  simp only [e1, ok_bind, e2, e3, itemsGet_some hkey, c1, c2, hvs]
  have g2' := g2
  rw [hvs] at g2'
  rw [g2', ok_bind]
  show (run (cfg 10000) { s := [], f := [] } none >>= _) = _
  rw [hst1, ok_bind]
  show (run (cfg 50000) st1.rules none >>= _) = _
  rw [hst2, ok_bind, b1]
  simp only [b2, ok_bind, hvar]
  have hvars : (sys :: m.conns.map Prod.fst).mapM (itemsGet
      ((m.conns.map Prod.fst ++ [sys]).map fun k => (k, emaVar scen sys k))) =
      .ok ((sys :: m.conns.map Prod.fst).map (emaVar scen sys)) := by
    refine mapM_ok fun k hk => itemsGet_some ?_
    refine lookup_map_fst _ _ ?_
    rcases List.mem_cons.1 hk with rfl | hk
    · simp
    · exact List.mem_append_left _ hk
  have hS : ({ vars := (sys :: m.conns.map Prod.fst).map (emaVar scen sys), noChild := 1, C := C
               p := C.map fun _ => 1 } : Cpm K) = sysCpm (emaVar scen sys) (delayVs m scen) sys C := by
    simp [sysCpm, compVariables, delayVs, List.map_map, Function.comp_def]
  rw [hvars, ok_bind, hS, mk'_ok hw.rowLen hw.entry hw.child (.inr hw.pLen) hw.noCs.1, ok_bind,
    hf1, hf2]
  have hcp : itemSet (comps.map Prod.snd) sys (sysCpm (emaVar scen sys) (delayVs m scen) sys C) =
      (delayVs m scen).map (fun kn => (kn.1, compCpm (emaVar scen sys)
        (emaProb (emaDraws draw (m.conns.map Prod.fst))) kn)) ++
        [(sys, sysCpm (emaVar scen sys) (delayVs m scen) sys C)] := by
    rw [c3, itemSet_fresh]
    rw [List.map_map]
    rw [← hfst] at hsys
    exact hsys
  simp only [emaFlag, ok_bind, hcp]
  rfl

end

end BNS
