import Verif.Model.ByOd
import Verif.Spec.ByOd
import Verif.Proofs.RoadModel
import Verif.Proofs.SysNetRun
import Verif.Props.Trans

/-!
# Lemmas on `get_branches_by_od`
-/

namespace BNS

set_option linter.unusedSectionVars false

section
variable {K : Type} [DecidableEq K]

theorem stBrToCs_some (l : St) : ∃ j, stBrToCs l = some j ∧ j < 3 := by
  cases l <;> simp [stBrToCs]

theorem lookup_mem_items {α : Type} {d : List (K × α)} (hn : (d.map Prod.fst).Nodup) {kv : K × α}
    (h : kv ∈ d) : d.lookup kv.1 = some kv.2 := by
  induction d with
  | nil => cases h
  | cons a d ih =>
    rw [List.map_cons, List.nodup_cons] at hn
    rw [List.lookup_cons]
    rcases List.mem_cons.1 h with rfl | h
    · simp
    · have : kv.1 ≠ a.1 := fun e => hn.1 (e ▸ List.mem_map_of_mem h)
      rw [beq_false_of_ne this]
      exact ih hn.2 h

theorem lookup_map_fst {α : Type} (g : K → α) (ks : List K) {k : K} (h : k ∈ ks) :
    (ks.map fun k => (k, g k)).lookup k = some (g k) := by
  induction ks with
  | nil => cases h
  | cons a ks ih =>
    rw [List.map_cons, List.lookup_cons]
    by_cases e : k = a
    · subst e; simp
    · rw [beq_false_of_ne e]
      exact ih ((List.mem_cons.1 h).resolve_left e)

theorem uniformProbs_ok {varis : List (K × Variable K)} (hn : (varis.map Prod.fst).Nodup)
    (hs : ∀ kv ∈ varis, 0 < kv.2.values.length) : ProbOK (statesOf varis) (uniformProbs varis) := by
  constructor
  · intro kn hkn i _
    obtain ⟨kv, hkv, rfl⟩ := List.mem_map.1 hkn
    simp only [uniformProbs, lookup_mem_items hn hkv]
    positivity
  · intro kn hkn
    obtain ⟨kv, hkv, rfl⟩ := List.mem_map.1 hkn
    have := hs kv hkv
    simp only [uniformProbs, lookup_mem_items hn hkv, Finset.sum_const, Finset.card_range,
      nsmul_eq_mul]
    exact mul_one_div_cancel (by exact_mod_cast this.ne')

theorem intact_inSpace {varis : List (K × Variable K)} (hn : (varis.map Prod.fst).Nodup)
    (hs : ∀ kv ∈ varis, 0 < kv.2.values.length) : InSpace (statesOf varis) (intactState varis) := by
  intro kn hkn
  obtain ⟨kv, hkv, rfl⟩ := List.mem_map.1 hkn
  have := hs kv hkv
  simp only [intactState, lookup_mem_items hn hkv]
  omega

open Classical in
/-- One round of the loop: the run behind it, and its branches turned into an event matrix. -/
theorem branchesOfOd_run {lib : PathLib K} (hlib : PathLibOK lib) {G : NGraph K} (hG : GraphOK G)
    (hm : G.multi = false) {varis : List (K × Variable K)} (ht : TimesOK G varis) (hv : varis ≠ [])
    (htab : ∀ kv ∈ varis, kv.2.name = kv.1 ∧ kv.2.B = some (genB kv.2.values.length)) {o d : K}
    (hr : ∃ es ns, Route G o es ns d)
    (hpos : ∀ es ns, Route G o es ns d → 0 < routeTime varis (intactState varis) es) {maxB : ℕ}
    (hB : 0 < maxB) :
    ∃ (t : ℚ) (c : RunCfg K) (st : RunState K) (bs : List (Branch K)) (C : List (List ℕ)),
      (∃ es ns, Route G o es ns d ∧ routeTime varis (intactState varis) es = t) ∧
      (∀ es ns, Route G o es ns d → t ≤ routeTime varis (intactState varis) es) ∧
      c.vs = statesOf varis ∧ c.maxSf = maxB ∧ c.maxNb = maxB ∧ c.survFirst = true ∧
      c.pfBndWr = 0 ∧ c.maxRules = none ∧
      CfgOK c (fun x => decide (InTime G varis o d (2 * t) x)) ∧
      run c { s := [], f := [] } none = .ok st ∧ st.brs = some bs ∧
      getCsys (c.vs.map Prod.fst) bs (fun k => varis.lookup k) stBrToCs =
        .ok (C, fun k => varis.lookup k) ∧
      branchesOfOd lib G maxB o d varis = .ok (C, varis) := by
  obtain ⟨es, ns, h1, h2, h3⟩ := timeAndPath_ok hlib hG hm ht hv hr
    (intact_inSpace ht.nodup ht.states)
  have h0 : 2 * routeTime varis (intactState varis) es ≠ 0 := by
    have := hpos es ns h1
    positivity
  set t := routeTime varis (intactState varis) es with ht'
  have hs := sysFun_time hlib hG hm ht hv hr h0
    (Φ := fun x => decide (InTime G varis o d (2 * t) x)) (by simp)
  set c : RunCfg K := { vs := statesOf varis, probs := uniformProbs varis
                        sysFun := sysFunWrap lib G (.pair o d) varis (some (2 * t)) (statesOf varis)
                        maxSf := maxB, maxNb := maxB } with hcdef
  have hc : CfgOK c (fun x => decide (InTime G varis o d (2 * t) x)) :=
    ⟨timesOK_varis ht, hs.2, uniformProbs_ok ht.nodup ht.states, hs.1⟩
  obtain ⟨st, hst⟩ := C27_returns hc rfl (Ex.start_empty c)
  obtain ⟨-, -, -, hrun⟩ := C27_bounds hc (Ex.start_empty c) hst
  obtain ⟨bs, row, hb, hpart, -⟩ := hrun hB
  have htab' : ∀ kn ∈ c.vs, ∃ v, varis.lookup kn.1 = some v ∧ v.name = kn.1 ∧
      v.B = some (genB kn.2) := by
    intro kn hkn
    obtain ⟨kv, hkv, rfl⟩ := List.mem_map.1 hkn
    exact ⟨kv.2, lookup_mem_items ht.nodup hkv, htab kv hkv⟩
  have hT : TablesOK c.vs (fun k => varis.lookup k) := by
    intro kn hkn
    obtain ⟨v, e1, e2, e3⟩ := htab' kn hkn
    exact ⟨v, _, e1, e2, e3, fun i hi => genB_getElem_lt _ _ hi⟩
  have hne : bs ≠ [] := by
    rintro rfl
    have := hpart.2 (fun _ => 0) (fun kn hkn => hc.vs.pos kn hkn)
    simp at this
  obtain ⟨C, varis', e1, -⟩ := C32_rows_partial c.vs bs (fun k => varis.lookup k) stBrToCs hT hne
    hpart.1 fun b _ => by obtain ⟨j, hj, -⟩ := stBrToCs_some b.label; rw [hj]; simp
  have hsame := C32_complete_unchanged c.vs bs _ stBrToCs
    (fun kn hkn => by obtain ⟨v, g1, -, g3⟩ := htab' kn hkn; exact ⟨v, g1, g3⟩) hpart.1 e1
  subst hsame
  refine ⟨t, c, st, bs, C, ⟨es, ns, h1, rfl⟩, h3, rfl, rfl, rfl, rfl, rfl, rfl, hc, hst, hb, e1, ?_⟩
  unfold branchesOfOd
  rw [h2, ok_bind]
  show (run c { s := [], f := [] } none >>= _) = _
  rw [hst, ok_bind, hb]
  have hnames : c.vs.map Prod.fst = varis.map Prod.fst := names_statesOf varis
  rw [hnames] at e1
  simp only [e1, ok_bind, pure_ok]
  congr 2
  conv_rhs => rw [← List.map_id varis]
  refine List.map_congr_left fun kv hkv => ?_
  rw [lookup_mem_items ht.nodup hkv]
  rfl

/-- The variables `get_branches_by_od` makes. -/
def delayVaris (m : NetJson K) (scen : List (K × List ℚ)) : List (K × Variable K) :=
  (m.conns.map Prod.fst).map fun k => (k, Variable.mk' k ((scen.lookup k).getD []) .dflt)

variable {m : NetJson K} {scen : List (K × List ℚ)}

theorem delayVaris_names : (delayVaris m scen).map Prod.fst = m.conns.map Prod.fst := by
  simp [delayVaris, List.map_map, Function.comp_def]

theorem delayVaris_states : statesOf (delayVaris m scen) = delayVs m scen := by
  simp [delayVaris, delayVs, statesOf, List.map_map, Function.comp_def, Variable.mk']

theorem delayVaris_lookup {k : K} (hk : k ∈ m.conns.map Prod.fst) :
    (delayVaris m scen).lookup k = some (Variable.mk' k ((scen.lookup k).getD []) .dflt) := by
  unfold delayVaris
  exact lookup_map_fst _ _ hk

theorem mem_delayVaris {kv : K × Variable K} (h : kv ∈ delayVaris m scen) :
    ∃ c ∈ m.conns, kv = (c.1, Variable.mk' c.1 ((scen.lookup c.1).getD []) .dflt) := by
  simp only [delayVaris, List.map_map, List.mem_map, Function.comp_apply] at h
  obtain ⟨c, hc, rfl⟩ := h
  exact ⟨c, hc, rfl⟩

theorem delayVaris_made (h : DelayModelOK m scen) {scens : List (K × List (K × List ℚ))} {s1 : K}
    (hs : scens.lookup s1 = some scen) :
    (m.conns.map Prod.fst).mapM (delayVariable scens s1) = .ok (delayVaris m scen) := by
  refine mapM_ok fun k hk => ?_
  obtain ⟨c, hc, rfl⟩ := List.mem_map.1 hk
  obtain ⟨ts, h1, h2, -⟩ := h.times c hc
  simp [delayVariable, itemsGet, dictGet, hs, h1, h2, ok_bind]

theorem delayVaris_times (h : DelayModelOK m scen) (nodes : List K) :
    TimesOK { fileGraph m with nodes := nodes } (delayVaris m scen) := by
  constructor
  · rw [delayVaris_names]; exact h.names
  · intro kv hkv
    obtain ⟨c, hc, rfl⟩ := mem_delayVaris hkv
    obtain ⟨ts, h1, h2, -⟩ := h.times c hc
    simpa [Variable.mk', h1, List.length_pos_iff] using h2
  · intro e he
    rw [delayVaris_names]
    obtain ⟨c, hc, rfl⟩ := List.mem_map.1 he
    exact List.mem_map_of_mem hc
  · intro kv hkv w hw
    obtain ⟨c, hc, rfl⟩ := mem_delayVaris hkv
    obtain ⟨ts, h1, -, -, h2, -⟩ := h.times c hc
    simp only [Variable.mk', h1, Option.getD_some] at hw
    exact (h2 w hw).le
  · intro kv hkv
    obtain ⟨c, hc, rfl⟩ := mem_delayVaris hkv
    obtain ⟨ts, h1, -, -, -, h2⟩ := h.times c hc
    simpa only [Variable.mk', h1, Option.getD_some] using h2

theorem delayVaris_tables (h : DelayModelOK m scen) :
    ∀ kv ∈ delayVaris m scen, kv.2.name = kv.1 ∧ kv.2.B = some (genB kv.2.values.length) := by
  intro kv hkv
  obtain ⟨c, hc, rfl⟩ := mem_delayVaris hkv
  obtain ⟨ts, h1, h2, h3, -⟩ := h.times c hc
  have : 0 < ts.length := List.length_pos_iff.2 h2
  simp [Variable.mk', storesB, h1, h3, this]

theorem routeTime_delay {nodes : List K} {x : K → ℕ} {o d : K} {es ns}
    (hr : Route { fileGraph m with nodes := nodes } o es ns d) :
    routeTime (delayVaris m scen) x es = delayOf scen x es := by
  unfold routeTime delayOf
  congr 1
  refine List.map_congr_left fun e he => ?_
  have hl : e.label ∈ m.conns.map Prod.fst := by
    obtain ⟨c, hc, rfl⟩ := List.mem_map.1 (hr.edges e he)
    exact List.mem_map_of_mem hc
  unfold timeOf delayTime
  rw [delayVaris_lookup hl]
  rfl

theorem intact_delay {nodes : List K} {o d : K} {es ns}
    (hr : Route { fileGraph m with nodes := nodes } o es ns d) :
    routeTime (delayVaris m scen) (intactState (delayVaris m scen)) es =
      delayOf scen (allIntact scen) es := by
  rw [routeTime_delay hr]
  unfold delayOf
  congr 1
  refine List.map_congr_left fun e he => ?_
  have hl : e.label ∈ m.conns.map Prod.fst := by
    obtain ⟨c, hc, rfl⟩ := List.mem_map.1 (hr.edges e he)
    exact List.mem_map_of_mem hc
  simp [intactState, allIntact, delayVaris_lookup hl, Variable.mk']

theorem delay_pos (h : DelayModelOK m scen) {o d : K} (hne : o ≠ d) {es ns}
    (hr : Route (fileGraph m) o es ns d) : 0 < delayOf scen (allIntact scen) es := by
  have hall : ∀ e ∈ es, 0 < delayTime scen e.label (allIntact scen e.label) := by
    intro e he
    obtain ⟨c, hc, rfl⟩ := List.mem_map.1 (hr.edges e he)
    obtain ⟨ts, h1, h2, -, h3, -⟩ := h.times c hc
    have hlt : ts.length - 1 < ts.length := by
      have : 0 < ts.length := List.length_pos_iff.2 h2
      omega
    simp only [delayTime, allIntact, h1, Option.getD_some, List.getElem?_eq_getElem hlt]
    exact h3 _ (List.getElem_mem hlt)
  cases hr with
  | nil _ => exact absurd rfl hne
  | @cons _ _ _ e es ns _ _ _ _ =>
    unfold delayOf
    rw [List.map_cons, List.sum_cons]
    refine add_pos_of_pos_of_nonneg (hall e (by simp)) (List.sum_nonneg fun y hy => ?_)
    obtain ⟨e', he', rfl⟩ := List.mem_map.1 hy
    exact (hall e' (List.mem_cons_of_mem _ he')).le

theorem inTime_delay {nodes : List K} (hn : ∀ n, n ∈ nodes ↔ n ∈ (fileGraph m).nodes) {o d : K} {th : ℚ}
    {x : K → ℕ} : InTime { fileGraph m with nodes := nodes } (delayVaris m scen) o d th x ↔
      Reachable m scen o d th x := by
  unfold InTime Reachable
  refine exists_congr fun es => exists_congr fun ns => ?_
  constructor
  · rintro ⟨h1, h2⟩
    exact ⟨(route_nodes hn).1 h1, by rwa [routeTime_delay h1] at h2⟩
  · rintro ⟨h1, h2⟩
    have h1' := (route_nodes hn).2 h1
    exact ⟨h1', by rwa [routeTime_delay h1']⟩

open Classical in
/-- The whole call. -/
theorem byOd_run {lib : PathLib K} (hlib : PathLibOK lib) (h : DelayModelOK m scen) {maxB : ℕ}
    (hB : 0 < maxB) {nodes : List K} (hn : ∀ n, n ∈ nodes ↔ n ∈ (fileGraph m).nodes)
    (hG : GraphOK { fileGraph m with nodes := nodes }) (ods : List (K × K × K))
    (hods : ∀ od ∈ ods, od.2.1 ≠ od.2.2 ∧ ∃ es ns, Route (fileGraph m) od.2.1 es ns od.2.2) :
    ∃ csys, byOdLoop lib { fileGraph m with nodes := nodes } maxB ods (delayVaris m scen) =
        .ok (csys, delayVaris m scen) ∧
      List.Forall₂ (fun (od : K × K × K) (kc : K × List (List ℕ)) => kc.1 = od.1 ∧
        ∃ (t : ℚ) (c : RunCfg K) (st : RunState K) (bs : List (Branch K)),
          ShortestTime m scen od.2.1 od.2.2 (allIntact scen) t ∧
          c.vs = delayVs m scen ∧ c.maxSf = maxB ∧ c.maxNb = maxB ∧ c.survFirst = true ∧
          c.pfBndWr = 0 ∧ c.maxRules = none ∧
          CfgOK c (fun x => decide (Reachable m scen od.2.1 od.2.2 (2 * t) x)) ∧
          run c { s := [], f := [] } none = .ok st ∧ st.brs = some bs ∧
          getCsys (c.vs.map Prod.fst) bs (fun k => (delayVaris m scen).lookup k) stBrToCs =
            .ok (kc.2, fun k => (delayVaris m scen).lookup k)) ods csys := by
  induction ods with
  | nil => exact ⟨[], rfl, .nil⟩
  | cons od ods ih =>
    obtain ⟨csys, e1, e2⟩ := ih fun a ha => hods a (List.mem_cons_of_mem _ ha)
    obtain ⟨hne, es0, ns0, hr0⟩ := hods od List.mem_cons_self
    have hv : delayVaris m scen ≠ [] := by
      have hc : m.conns ≠ [] := by
        intro hc
        have : ∀ {u v : K}, u ≠ v → Route (fileGraph m) u es0 ns0 v → False := by
          intro u v huv hr
          cases hr with
          | nil _ => exact huv rfl
          | cons _ he _ _ => simp [fileGraph, hc] at he
        exact this hne hr0
      simpa [delayVaris] using hc
    obtain ⟨t, c, st, bs, C, f1, f2, f3, f4, f5, f6, f7, f8, f9, f10, f11, f12, f13⟩ :=
      branchesOfOd_run hlib hG rfl (delayVaris_times h nodes) hv (delayVaris_tables h)
        (o := od.2.1) (d := od.2.2) ⟨es0, ns0, (route_nodes hn).2 hr0⟩
        (fun es ns hr => by rw [intact_delay hr]; exact delay_pos h hne ((route_nodes hn).1 hr)) hB
    refine ⟨(od.1, C) :: csys, ?_, .cons ⟨rfl, t, c, st, bs, ⟨?_, ?_⟩, ?_, f4, f5, f6, f7, f8, ?_, f10,
      f11, f12⟩ e2⟩
    · unfold byOdLoop
      rw [f13, ok_bind]
      simp only [e1, ok_bind, pure_ok]
    · obtain ⟨es, ns, hr, hrt⟩ := f1
      exact ⟨es, ns, (route_nodes hn).1 hr, by rw [← hrt, intact_delay hr]⟩
    · intro es ns hr
      have hr' := (route_nodes hn).2 hr
      have := f2 es ns hr'
      rwa [intact_delay hr'] at this
    · rw [f3, delayVaris_states]
    · have : (fun x => decide (InTime { fileGraph m with nodes := nodes } (delayVaris m scen) od.2.1
          od.2.2 (2 * t) x)) = fun x => decide (Reachable m scen od.2.1 od.2.2 (2 * t) x) := by
        funext x
        rw [decide_eq_decide]
        exact inTime_delay hn
      rw [← this]
      exact f9

end
end BNS
