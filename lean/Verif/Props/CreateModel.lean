import Verif.Proofs.CreateModel
import Verif.Props.EmaMain

/-!
# Property C100: the commands that write the files of the EMA, SF and road demos
-/

namespace BNS

set_option linter.unusedSectionVars false

section
variable {K : Type} [LinearOrder K] {sqrt : ℚ → ℚ} {nd eg : ℕ → K} {od1 s1 pm ps : K}
  {nodes : List (ℕ × ℚ × ℚ)} {edges : List (ℕ × ℕ)} {disk disk' : Disk K}

/-- **C100, written files.**  `create_model` of the EMA and SF demos, for any function in place of the
square root, tables in which every node is in one row and that contain the ends of all arcs: the model file
lists the nodes with their places, for every arc, in order, `e1`, `e2`, ... with the travel time at speed
100 along the straight line, and the pair `od1` from `n22` to `n53`; the scenario file has three damage
states and the scenario `s1` with ten times, twice and once this travel time; no other file is changed. -/
theorem C100_ema_files (sqrt : ℚ → ℚ) (hnd : nd.Injective) (heg : eg.Injective) (ht : TablesOKFor nodes edges)
    (od1 s1 : K) (hps : pm ≠ ps) (disk : Disk K) :
    ∃ m scen disk', emaCreate sqrt nd eg od1 s1 pm ps (some nodes) (some edges) disk = .ok disk' ∧
      DelayFiles disk disk' pm ps s1 m scen ∧
      ModelOf sqrt nd eg nodes edges (fun _ => 100) [(od1, nd 22, nd 53)] m := by
  refine tables_create sqrt hnd heg ht (fun i hi => ?_) od1 (nd 22) (nd 53) disk hps
  refine lookup_mem_items (kv := (eg (i + 1), (100 : ℚ))) ?_ (List.mem_map.2
    ⟨(eg (i + 1), nd edges[i].1, nd edges[i].2), List.mem_of_getElem? (i := i) ?_, rfl⟩)
  · rw [List.map_map]
    exact arcTable_fst heg edges
  · rw [arcTable_getElem, List.getElem?_eq_getElem hi]
    rfl

/-- **C100, rejected tables.**  A missing text file is an error (`SF/` contains neither of the two); an arc
with an end that is in no row of the table of nodes is a `KeyError`.  Nothing is written. -/
theorem C100_ema_errors (sqrt : ℚ → ℚ) (hnd : nd.Injective) (heg : eg.Injective) (od1 s1 pm ps : K)
    (disk : Disk K) :
    (∀ e, emaCreate sqrt nd eg od1 s1 pm ps none e disk = .error .graph) ∧
    emaCreate sqrt nd eg od1 s1 pm ps (some nodes) none disk = .error .graph ∧
    ((∃ e ∈ edges, e.1 ∉ nodes.map Prod.fst ∨ e.2 ∉ nodes.map Prod.fst) →
      emaCreate sqrt nd eg od1 s1 pm ps (some nodes) (some edges) disk = .error .key) := by
  refine ⟨fun _ => rfl, rfl, ?_⟩
  rintro ⟨e, he, h⟩
  obtain ⟨i, hi, hie⟩ := List.getElem_of_mem he
  have hnone : ∀ n, n ∉ nodes.map Prod.fst → (nodeTable nd nodes).lookup (nd n) = none := by
    intro n hn
    rw [nodeTable_keys]
    intro hm
    obtain ⟨r, hr, hrn⟩ := List.mem_map.1 hm
    exact hn (hnd hrn ▸ List.mem_map_of_mem hr)
  have := (C75_file sqrt (arcTable nd eg edges) (nodeTable nd nodes)
    ((arcTable nd eg edges).map fun a => (a.1, 100)) [(od1, nd 22, nd 53)] (arcTable_fst heg edges)).2
    ⟨(eg (i + 1), nd e.1, nd e.2), List.mem_of_getElem? (i := i) (by
      rw [arcTable_getElem, List.getElem?_eq_getElem hi, hie]; rfl), by
      rcases h with h | h
      · exact .inl (hnone _ h)
      · exact .inr (.inl (hnone _ h))⟩
  show delayCreate _ _ _ _ _ _ _ _ _ = _
  unfold delayCreate
  rw [this]
  rfl

/-- **C100, a repeated node.**  If a node is in two rows of the table, the coordinates of the last row
count. -/
theorem C100_repeated_node (hnd : nd.Injective) (rows : List (ℕ × ℚ × ℚ)) (n : ℕ) (p : ℚ × ℚ)
    (rest : List (ℕ × ℚ × ℚ)) (hr : n ∉ rest.map Prod.fst) :
    (nodeTable nd (rows ++ (n, p) :: rest)).lookup (nd n) = some p := by
  unfold nodeTable
  rw [List.foldl_append, List.foldl_cons]
  generalize rows.foldl _ [] = acc
  have : ∀ (rest : List (ℕ × ℚ × ℚ)) (acc : List (K × ℚ × ℚ)), n ∉ rest.map Prod.fst →
      acc.lookup (nd n) = some p →
      (rest.foldl (fun acc r => itemSet acc (nd r.1) r.2) acc).lookup (nd n) = some p := by
    intro rest
    induction rest with
    | nil => intro acc _ h; exact h
    | cons r rest ih =>
      intro acc hn h
      rw [List.map_cons, List.mem_cons, not_or] at hn
      refine ih _ hn.2 ?_
      rw [lookup_itemSet, if_neg fun e => hn.1 (hnd e)]
      exact h
  exact this rest _ hr (by rw [lookup_itemSet, if_pos rfl])

/-- The pairs of a configuration file that names the two files. -/
def NamesFiles (data : List (CfgKey K × CfgVal K)) (pm ps q : K) : Prop :=
  data.lookup .modelName = some (.text pm) ∧ data.lookup .scenarioName = some (.text ps) ∧
  (∃ key, data.lookup .configurationId = some key) ∧ (∃ mb, data.lookup .maxBranches = some mb) ∧
  data.lookup .outputPath = some (.text q)

/-- **C100, ready for `main`.**  With a square root that is positive for positive numbers, a table of roads
in which `22` and `53` are joined: the files written by `create_model` of the EMA demo are as `main` needs
them, so that the theorems `C98_*` hold for the key `od1`; every other key is a `KeyError`. -/
theorem C100_ema_ready (hsq : ∀ x, 0 < x → 0 < sqrt x) (hnd : nd.Injective) (heg : eg.Injective)
    (ht : RoadTables nodes edges) (hj : Joined edges 22 53) (hps : pm ≠ ps)
    (h : emaCreate sqrt nd eg od1 s1 pm ps (some nodes) (some edges) disk = .ok disk')
    {data : List (CfgKey K × CfgVal K)} {q : K} (hd : NamesFiles data pm ps q) :
    ∃ m scen, DelayFiles disk disk' pm ps s1 m scen ∧
      ModelOf sqrt nd eg nodes edges (fun _ => 100) [(od1, nd 22, nd 53)] m ∧
      EmaFileOK disk'.files data pm ps q s1 m scen ∧ m.ods.lookup od1 = some (nd 22, nd 53) ∧
      ∀ (lib : PathLib K) (draw : ℕ → Fin 3) (sys key : K) (maxSf : ℕ) (store : List (K × EmaOut K)),
        key ≠ od1 → emaMain lib draw s1 sys key maxSf data (disk', store) = .error .key := by
  obtain ⟨m, scen, d', e1, e2, e3⟩ := C100_ema_files sqrt hnd heg ht.toTablesOKFor od1 s1 hps disk
  rw [h] at e1
  cases e1
  obtain ⟨h1, h2⟩ := e3.delayOK hnd heg ht hsq (fun _ _ => by norm_num) (by decide) hj e2.times
  obtain ⟨sc, ds, f1, f2, f3, f4⟩ := e2.scenFile
  have hok : EmaFileOK disk'.files data pm ps q s1 m scen :=
    ⟨hd.1, e2.model, hd.2.1, ⟨sc, ds, f1, f2, by rw [f4]; simp⟩, hd.2.2.1, hd.2.2.2.1, hd.2.2.2.2, h1, h2⟩
  refine ⟨m, scen, e2, e3, hok, by rw [e3.ods]; simp, fun lib draw sys key maxSf store hkey => ?_⟩
  obtain ⟨nds, hn, hG, hread⟩ := readModel_simple h1.gtype h1.simple h1.noParallel
  obtain ⟨k, hk⟩ := hd.2.2.1
  obtain ⟨mb, hmb⟩ := hd.2.2.2.1
  obtain ⟨cfg, d2, g1, g2, -⟩ := C81_config hd.1 e2.model hread hd.2.1 f1 f2 hk hmb hd.2.2.2.2
  refine (C98_errors g1).1 ?_
  show cfg.infra.ods.lookup key = none
  rw [g2]
  show m.ods.lookup key = none
  rw [e3.ods]
  have : (key == od1) = false := beq_false_of_ne hkey
  simp [List.lookup_cons, this]

/-- **C100, not the default key.**  `main()` without arguments asks for the pair `od2`.  After `create_model`
this raises `KeyError`, whatever the tables. -/
theorem C100_not_default_key (hsq : ∀ x, 0 < x → 0 < sqrt x) (hnd : nd.Injective) (heg : eg.Injective)
    (ht : RoadTables nodes edges) (hj : Joined edges 22 53) (hps : pm ≠ ps)
    (h : emaCreate sqrt nd eg od1 s1 pm ps (some nodes) (some edges) disk = .ok disk')
    {data : List (CfgKey K × CfgVal K)} {q : K} (hd : NamesFiles data pm ps q) {od2 : K} (h2 : od2 ≠ od1)
    (lib : PathLib K) (draw : ℕ → Fin 3) (sys : K) (store : List (K × EmaOut K)) :
    emaMain lib draw s1 sys od2 100 data (disk', store) = .error .key := by
  obtain ⟨m, scen, -, -, -, -, h6⟩ := C100_ema_ready hsq hnd heg ht hj hps h hd
  exact h6 lib draw sys od2 100 store h2

/-- **C100, meaning of the delays.**  In the written model, `t` the shortest travel time from `o` to `d` when
everything is intact: if no connection is in the worst state some route is within twice `t`; if all are in
the worst state none is. -/
theorem C100_delays {m : NetJson K} {scen : List (K × List ℚ)} {speed : ℕ → ℚ} {ods : List (K × K × K)}
    (hsq : ∀ x, 0 < x → 0 < sqrt x) (hsp : ∀ i, i < edges.length → 0 < speed (i + 1)) (heg : eg.Injective)
    (ht : RoadTables nodes edges) (hf : DelayFiles disk disk' pm ps s1 m scen)
    (hm : ModelOf sqrt nd eg nodes edges speed ods m) {o d : K} {t : ℚ} (hod : o ≠ d)
    (hst : ShortestTime m scen o d (allIntact scen) t) (x : K → ℕ) (hx : InSpace (delayVs m scen) x) :
    0 < t ∧ ((∀ c ∈ m.conns, 0 < x c.1) → Reachable m scen o d (2 * t) x) ∧
    ((∀ c ∈ m.conns, x c.1 = 0) → ¬ Reachable m scen o d (2 * t) x) := by
  have hn := hm.names heg
  have hl : ∀ c ∈ m.conns, scen.lookup c.1 = some [10 * c.2.2.2, 2 * c.2.2.2, c.2.2.2] :=
    fun c hc => times_lookup hn hf.times hc
  -- the edges of a route are connections
  have hedge : ∀ e ∈ (fileGraph m).edges, ∃ c ∈ m.conns, e.label = c.1 := by
    intro e he
    obtain ⟨c, hc, rfl⟩ := List.mem_map.1 he
    exact ⟨c, hc, rfl⟩
  have h2 : ∀ c ∈ m.conns, delayTime scen c.1 (allIntact scen c.1) = c.2.2.2 := by
    intro c hc
    simp [delayTime, allIntact, hl c hc]
  have h0 : ∀ c ∈ m.conns, delayTime scen c.1 0 = 10 * c.2.2.2 := by
    intro c hc
    simp [delayTime, hl c hc]
  have hpos : ∀ c ∈ m.conns, 0 < c.2.2.2 := fun c hc => hm.pos ht hsq hsp hc
  have hsum : ∀ (a : ℚ) (y z : K → ℕ) (es : List (NEdge K)), (∀ e ∈ es, e ∈ (fileGraph m).edges) →
      (∀ c ∈ m.conns, delayTime scen c.1 (y c.1) ≤ a * delayTime scen c.1 (z c.1)) →
      delayOf scen y es ≤ a * delayOf scen z es := by
    intro a y z es
    induction es with
    | nil => intro _ _; simp [delayOf]
    | cons e es ih =>
      intro he hc
      have h1 := ih (fun e' h' => he e' (List.mem_cons_of_mem _ h')) hc
      obtain ⟨c, hcm, hce⟩ := hedge e (he e List.mem_cons_self)
      have h3 := hc c hcm
      rw [← hce] at h3
      simp only [delayOf, List.map_cons, List.sum_cons] at h1 ⊢
      linarith
  have hge : ∀ es ns, Route (fileGraph m) o es ns d → 0 < delayOf scen (allIntact scen) es := by
    intro es ns hr
    have hne : es ≠ [] := by
      rintro rfl
      cases hr
      exact hod rfl
    refine List.sum_pos _ (fun w hw => ?_) (by simpa using hne)
    obtain ⟨e, he, rfl⟩ := List.mem_map.1 hw
    obtain ⟨c, hc, hce⟩ := hedge e (hr.edges e he)
    rw [hce, h2 c hc]
    exact hpos c hc
  obtain ⟨⟨es, ns, hr, hes⟩, hmin⟩ := hst
  have ht0 : 0 < t := hes ▸ hge es ns hr
  refine ⟨ht0, fun hx1 => ⟨es, ns, hr, ?_⟩, ?_⟩
  · rw [← hes]
    refine hsum 2 x (allIntact scen) es hr.edges fun c hc => ?_
    rw [h2 c hc]
    have hlt := hx (c.1, 3) (List.mem_map.2 ⟨c, hc, by rw [hl c hc]; rfl⟩)
    have hp := hpos c hc
    have hx1' := hx1 c hc
    have h12 : x c.1 = 1 ∨ x c.1 = 2 := by
      simp only at hlt
      omega
    rcases h12 with h12 | h12
    · simp [delayTime, hl c hc, h12]
    · simp [delayTime, hl c hc, h12]
      linarith
  · rintro hx0 ⟨es', ns', hr', hle⟩
    have h5 := hmin es' ns' hr'
    have h6 := hsum (1 / 10) (allIntact scen) x es' hr'.edges fun c hc => by
      rw [h2 c hc, hx0 c hc, h0 c hc]
      linarith
    linarith

open Classical in
/-- **C100, from the tables to the stored results.**  `create_model` of the EMA demo and then `main('od1',
max_sf)`: the results are stored, and the bounds in every row of the monitor agree with what the delays
mean.  The lower bound is at most the probability that some connection is in the worst state, the upper bound
is at least the probability that all are. -/
theorem C100_ema_results {lib : PathLib K} (hlib : PathLibOK lib) (hsq : ∀ x, 0 < x → 0 < sqrt x)
    (hnd : nd.Injective) (heg : eg.Injective) (ht : RoadTables nodes edges) (hj : Joined edges 22 53)
    (hps : pm ≠ ps) (disk : Disk K) {data : List (CfgKey K × CfgVal K)} {q : K} (hd : NamesFiles data pm ps q)
    {sys : K} (hsys : ∀ i, sys ≠ eg i) {maxSf : ℕ} (h0 : 0 < maxSf) (draw : ℕ → Fin 3)
    {prob : K → ℕ → ℚ} (hprob : ∀ i < edges.length, ∀ s,
      prob (eg (i + 1)) s = (emaTable.getD (draw i).val []).getD s 0) (store : List (K × EmaOut K)) :
    ∃ m scen disk1 disk2 out, emaCreate sqrt nd eg od1 s1 pm ps (some nodes) (some edges) disk = .ok disk1 ∧
      emaMain lib draw s1 sys od1 maxSf data (disk1, store) = .ok (disk2, itemSet store od1 out) ∧
      ModelOf sqrt nd eg nodes edges (fun _ => 100) [(od1, nd 22, nd 53)] m ∧
      DelayFiles disk disk1 pm ps s1 m scen ∧ out.mon ≠ [] ∧
      ∀ row ∈ out.mon,
        row.pfLow ≤ probOf (delayVs m scen) prob (fun x => ∃ c ∈ m.conns, x c.1 = 0) ∧
        probOf (delayVs m scen) prob (fun x => ∀ c ∈ m.conns, x c.1 = 0) ≤ row.pfUp := by
  obtain ⟨m, scen, disk1, e1, -, -⟩ := C100_ema_files sqrt hnd heg ht.toTablesOKFor od1 s1 hps disk
  obtain ⟨m, scen, e2, e3, e4, e5, -⟩ := C100_ema_ready hsq hnd heg ht hj hps e1 hd
  have hsys' : sys ∉ m.conns.map Prod.fst := by
    intro hs
    obtain ⟨c, hc, hcs⟩ := List.mem_map.1 hs
    obtain ⟨i, hi, rfl⟩ := List.getElem_of_mem hc
    obtain ⟨_, _, _, _, _, _, _, h8⟩ := e3.conn hi
    rw [h8] at hcs
    exact hsys _ hcs.symm
  have hprob' : EmaProbs m draw prob := by
    intro i c hi s
    obtain ⟨hlt, hic⟩ := List.getElem?_eq_some_iff.1 hi
    obtain ⟨_, _, _, _, _, _, _, h8⟩ := e3.conn hlt
    rw [← hic, h8]
    exact hprob i (e3.number ▸ hlt) s
  obtain ⟨disk2, out, t, C, g1, -, g3, -, -, -, -, -, -, -, -, g4, g5, -⟩ :=
    C98_main hlib (draw := draw) e4 e5 hsys' h0 hprob' store
  obtain ⟨n1, n2, -, -, -, k1, k2⟩ := g5
  have hvs : VarisOK (delayVs m scen) := by
    refine ⟨by rw [delayVs_names]; exact e4.delay.names, fun kn hkn => ?_⟩
    obtain ⟨c, hc, rfl⟩ := List.mem_map.1 hkn
    show 0 < ((scen.lookup c.1).getD []).length
    rw [e4.three c hc]
    decide
  have hpk : ProbOK (delayVs m scen) prob := by
    have hsame : ∀ kn ∈ delayVs m scen, ∀ i,
        emaProb (emaDraws draw (m.conns.map Prod.fst)) kn.1 i = prob kn.1 i := by
      intro kn hkn i
      obtain ⟨c, hc, rfl⟩ := List.mem_map.1 hkn
      exact emaProbs_eq e4.delay.names hprob' hc i
    have h9 := emaProb_ok (scen := scen) draw e4.delay.names e4.three
    refine ⟨fun kn hkn i hi => hsame kn hkn i ▸ h9.nonneg kn hkn i hi, fun kn hkn => ?_⟩
    rw [← h9.total kn hkn]
    exact Finset.sum_congr rfl fun i _ => (hsame kn hkn i).symm
  refine ⟨m, scen, disk1, disk2, out, e1, g1, e3, e2, ?_, fun row hrow => ?_⟩
  · intro hnil
    rw [hnil, k1] at k2
    simp at k2
  · obtain ⟨r1, r2⟩ := g4 row hrow
    have hdel := fun x hx => C100_delays hsq (fun _ _ => by norm_num) heg ht e2 e3
      (fun e => absurd (hnd e) (by decide)) g3 x hx
    constructor
    · refine r1.trans (probOf_mono hvs hpk _ _ fun x hx hnot => ?_)
      by_contra hno
      push Not at hno
      exact hnot ((hdel x hx).2.1 fun c hc => Nat.pos_of_ne_zero (hno c hc))
    · exact le_trans (probOf_mono hvs hpk _ _ fun x hx hall => (hdel x hx).2.2 hall) r2

theorem road_tables : RoadTables roadPlaces roadPairs := by
  refine { once := by decide, ends := by decide, apart := ?_, single := by decide }
  have h : ∀ e ∈ roadPairs, ∀ r ∈ roadPlaces, ∀ r' ∈ roadPlaces, r.1 = e.1 → r'.1 = e.2 → r.2 ≠ r'.2 := by
    decide +kernel
  exact fun e he p q hp hq => h e he _ hp _ hq rfl rfl

theorem road_joined : Joined roadPairs 1 3 :=
  .tail (.single (.inl (by decide : (1, 5) ∈ roadPairs))) (.inr (by decide))

/-- **C100, road demo.**  `create_model` always writes the files of its six roads, with the travel times at
the given speeds; `main` afterwards prints one event matrix for the pair from `n1` to `n3`, and every vector of
road states is covered by exactly one row.  Failure is said only where no route is within twice the shortest
time, survival only where one is, and unknown only with a limit of at most 1458 branches (the shipped
configuration says 100). -/
theorem C100_road {lib : PathLib K} (hlib : PathLibOK lib) (hsq : ∀ x, 0 < x → 0 < sqrt x)
    (hnd : nd.Injective) (heg : eg.Injective) (od1 s1 : K) (hps : pm ≠ ps) (disk : Disk K)
    {data : List (CfgKey K × CfgVal K)} {q : K} (hd : NamesFiles data pm ps q) {n : ℕ} (hn : 0 < n)
    (hmb : data.lookup .maxBranches = some (.num n)) :
    ∃ m scen disk1 disk2 C varis t, roadCreate sqrt nd eg od1 s1 pm ps disk = .ok disk1 ∧
      DelayFiles disk disk1 pm ps s1 m scen ∧
      ModelOf sqrt nd eg roadPlaces roadPairs roadSpeed [(od1, nd 1, nd 3)] m ∧
      roadMain lib s1 data disk1 = .ok (disk2, [(od1, C)], varis) ∧ disk2.files = disk1.files ∧
      ((disk1.files q).isSome ∨ disk2.dirs q = true) ∧
      varis.map (fun kv => (kv.1, kv.2.name, some kv.2.values)) =
        m.conns.map (fun c => (c.1, c.1, some [10 * c.2.2.2, 2 * c.2.2.2, c.2.2.2])) ∧
      ShortestTime m scen (nd 1) (nd 3) (allIntact scen) t ∧
      ∀ x, (∀ c ∈ m.conns, x c.1 < 3) → ∃ (j s : ℕ) (cs : List ℕ), C[j]? = some (s :: cs) ∧
        RowMatches (varis.map Prod.snd) cs x ∧
        (∀ (j' : ℕ) (r : List ℕ), C[j']? = some r → RowMatches (varis.map Prod.snd) r.tail x → j' = j) ∧
        s < 3 ∧ (s = 0 → ¬ Reachable m scen (nd 1) (nd 3) (2 * t) x) ∧
        (s = 1 → Reachable m scen (nd 1) (nd 3) (2 * t) x) ∧ (1458 < n → s ≠ 2) := by
  obtain ⟨m, scen, disk1, e1, e2, e3⟩ := tables_create sqrt hnd heg road_tables.toTablesOKFor
    (speed := roadSpeeds eg) (sp := roadSpeed) (by
      have hne : ∀ {i j : ℕ}, i ≠ j → (eg i == eg j) = false := fun h => beq_false_of_ne fun e => h (heg e)
      intro i hi
      have hi : i < 6 := hi
      unfold roadSpeeds
      match i, hi with
      | 0, _ => simp [List.lookup_cons, roadSpeed]
      | 1, _ => simp [List.lookup_cons, roadSpeed, hne]
      | 2, _ => simp [List.lookup_cons, roadSpeed, hne]
      | 3, _ => simp [List.lookup_cons, roadSpeed, hne]
      | 4, _ => simp [List.lookup_cons, roadSpeed, hne]
      | 5, _ => simp [List.lookup_cons, roadSpeed, hne]) od1 (nd 1) (nd 3) (s1 := s1) disk hps
  obtain ⟨h1, h3⟩ := e3.delayOK hnd heg road_tables hsq (fun i hi => by
    have hi : i < 6 := hi
    match i, hi with
    | 0, _ => norm_num [roadSpeed]
    | 1, _ => norm_num [roadSpeed]
    | 2, _ => norm_num [roadSpeed]
    | 3, _ => norm_num [roadSpeed]
    | 4, _ => norm_num [roadSpeed]
    | 5, _ => norm_num [roadSpeed]) (by decide) road_joined e2.times
  obtain ⟨sc, ds, f1, f2, f3, f4⟩ := e2.scenFile
  obtain ⟨inf, csys, varis, g1, g2, g3, g4, g5⟩ := C74_event_matrix_partial (s1 := s1)
    (scens := sc.scenarios) hlib h1 (by rw [f4]; simp) hn
  obtain ⟨k, hk⟩ := hd.2.2.1
  obtain ⟨cfg, disk2, c1, c2, c3, c4, c5, c6, c7, c8, c9, c10⟩ :=
    C81_config hd.1 e2.model g1 hd.2.1 f1 f2 hk hmb hd.2.2.2.2
  obtain ⟨C, t, k1, k2, k3⟩ := g5 0 od1 (nd 1) (nd 3) (by rw [e3.ods]; rfl)
  have hcs : csys = [(od1, C)] := by
    rw [e3.ods] at g3
    match csys, g3, k1 with
    | [a], _, k1 => cases k1; rfl
  subst hcs
  refine ⟨m, scen, disk1, disk2, C, varis, t, e1, e2, e3, ?_, c9, c10.1, ?_, k2, fun x hx => ?_⟩
  · unfold roadMain
    rw [c1, ok_bind]
    simp only [c3, c6, c2]
    have : ((n : ℚ).num).toNat = n := by simp
    rw [this, g2]
    rfl
  · rw [g4]
    exact List.map_congr_left fun c hc => by rw [times_lookup (e3.names heg) e2.times hc]
  · obtain ⟨j, s, cs, q1, q2, q3, q4, q5, q6, q7⟩ := k3 x (by
      rw [delayVs_three h3]
      intro kn hkn
      rw [List.map_map] at hkn
      obtain ⟨c, hc, rfl⟩ := List.mem_map.1 hkn
      exact hx c hc)
    refine ⟨j, s, cs, q1, q2, q3, q4, q5, q6, fun hlt => q7 ?_⟩
    rw [delayVs_prod h3, e3.number]
    exact hlt

/-- **C100, road demo, errors.**  `main` of the road demo without a scenario file (the entry is empty) ends
with `AttributeError`; a text as branch limit is a `TypeError`. -/
theorem C100_road_errors {lib : PathLib K} {data : List (CfgKey K × CfgVal K)} {q : K} {m : NetJson K}
    {inf : Infra K} (h1 : data.lookup .modelName = some (.text pm)) (h2 : disk.files pm = some (.model m))
    (h3 : readModel m = .ok inf) {key mb : CfgVal K} (h7 : data.lookup .configurationId = some key)
    (h8 : data.lookup .maxBranches = some mb) (h9 : data.lookup .outputPath = some (.text q)) :
    (∀ v, data.lookup .scenarioName = some v → v = .empty ∨ v = .null ∨ v = .num 0 →
      roadMain lib s1 data disk = .error .attribute) ∧
    (∀ sc ds, data.lookup .scenarioName = some (.text ps) → disk.files ps = some (.scen sc) →
      sc.damage = some ds → (∀ r, mb ≠ .num r) → roadMain lib s1 data disk = .error .type) := by
  constructor
  · intro v h4 h5
    obtain ⟨cfg, disk2, c1, c2, c3, -⟩ := C81_without_scenarios h1 h2 h3 h4 h5 h7 h8 h9
    unfold roadMain
    rw [c1, ok_bind]
    simp only [c3]
  · intro sc ds h4 h5 h6 hmb
    obtain ⟨cfg, disk2, c1, c2, c3, c4, c5, c6, -⟩ := C81_config h1 h2 h3 h4 h5 h6 h7 h8 h9
    unfold roadMain
    rw [c1, ok_bind]
    cases mb with
    | num r => exact absurd rfl (hmb r)
    | text _ => simp only [c3, c6]
    | empty => simp only [c3, c6]
    | null => simp only [c3, c6]

/-- **C100, not with both ends at one place.**  An arc between two nodes at the same place is written with
travel time zero in all three damage states, so that it never fails. -/
theorem C100_not_same_place (hsq : sqrt 0 = 0) (hnd : nd.Injective) (heg : eg.Injective)
    (ht : TablesOKFor nodes edges) (hps : pm ≠ ps) {i o d : ℕ} (hi : edges[i]? = some (o, d)) {p : ℚ × ℚ}
    (ho : (o, p) ∈ nodes) (hd : (d, p) ∈ nodes)
    (h : emaCreate sqrt nd eg od1 s1 pm ps (some nodes) (some edges) disk = .ok disk') :
    ∃ m scen, DelayFiles disk disk' pm ps s1 m scen ∧ scen.lookup (eg (i + 1)) = some [0, 0, 0] := by
  obtain ⟨m, scen, d', e1, e2, e3⟩ := C100_ema_files sqrt hnd heg ht od1 s1 hps disk
  rw [h] at e1
  cases e1
  refine ⟨m, scen, e2, ?_⟩
  obtain ⟨p', q', h1, h2, h3⟩ := e3.conns i o d hi
  have huniq : ∀ n a b, (n, a) ∈ nodes → (n, b) ∈ nodes → a = b := by
    intro n a b ha hb
    have h1 : nodes.lookup n = some a := lookup_mem_items ht.once ha
    have h2 : nodes.lookup n = some b := lookup_mem_items ht.once hb
    exact Option.some.inj (h1.symm.trans h2)
  rw [huniq _ _ _ h1 ho, huniq _ _ _ h2 hd] at h3
  have := times_lookup (e3.names heg) e2.times (List.mem_of_getElem? h3)
  rw [this]
  simp [hsq]

end

/-! ### Examples -/

namespace Ex

/-- Names: nodes `3 n`, arcs `3 n + 1`, everything else `3 n + 2`. -/
def cmNode (n : ℕ) : ℕ := 3 * n
def cmArc (n : ℕ) : ℕ := 3 * n + 1

theorem cmNode_inj : Function.Injective cmNode := fun a b h => by unfold cmNode at h; omega
theorem cmArc_inj : Function.Injective cmArc := fun a b h => by unfold cmArc at h; omega

/-- A square root that is exact where the example needs it. -/
def cmSqrt (x : ℚ) : ℚ := if x = 25 then 5 else if x = 16 then 4 else if x = 9 then 3 else x

theorem cmSqrt_pos (x : ℚ) (h : 0 < x) : 0 < cmSqrt x := by
  unfold cmSqrt
  split
  · norm_num
  split
  · norm_num
  split
  · norm_num
  exact h

/-- Three nodes and three arcs. -/
def cmNodes : List (ℕ × ℚ × ℚ) := [(22, 0, 0), (7, 3, 4), (53, 3, 0)]
def cmEdges : List (ℕ × ℕ) := [(22, 7), (7, 53), (22, 53)]

theorem cm_tables : RoadTables cmNodes cmEdges := by
  refine { once := by decide, ends := by decide, apart := ?_, single := by decide }
  have h : ∀ e ∈ cmEdges, ∀ r ∈ cmNodes, ∀ r' ∈ cmNodes, r.1 = e.1 → r'.1 = e.2 → r.2 ≠ r'.2 := by
    decide +kernel
  exact fun e he p q hp hq => h e he _ hp _ hq rfl rfl

def cmDisk : Disk ℕ := { files := fun k => if k = 17 then some .dict else none, dirs := fun _ => false }

def cmData : List (CfgKey ℕ × CfgVal ℕ) :=
  [(.configurationId, .text 20), (.modelName, .text 2), (.scenarioName, .text 5), (.outputPath, .text 8),
    (.maxBranches, .num 100)]

theorem cm_names : NamesFiles cmData 2 5 8 := ⟨rfl, rfl, ⟨_, rfl⟩, ⟨_, rfl⟩, rfl⟩

/-- Content of the scenario file: the travel time from (0, 0) to (3, 4) at speed 100 is 5/100. -/
def cmScen (r : Except Err (Disk ℕ)) : Option (List (ℕ × List ℚ)) :=
  match r with
  | .ok d =>
    match d.files 5 with
    | some (.scen sc) => sc.scenarios.lookup 14
    | _ => none
  | _ => none

example : cmScen (emaCreate cmSqrt cmNode cmArc 11 14 2 5 (some cmNodes) (some cmEdges) cmDisk) =
    some [(4, [1 / 2, 1 / 10, 5 / 100]), (7, [4 / 10, 8 / 100, 4 / 100]), (10, [3 / 10, 6 / 100, 3 / 100])] := by
  decide +kernel

/-- An arc to a node that is not in the table. -/
example : (emaCreate cmSqrt cmNode cmArc 11 14 2 5 (some cmNodes) (some [(22, 8)]) cmDisk).map (fun _ => ()) =
    .error .key := by
  rw [(C100_ema_errors cmSqrt cmNode_inj cmArc_inj 11 14 2 5 cmDisk).2.2 ⟨_, List.mem_singleton.2 rfl, by decide⟩]
  rfl

/-- The hypotheses of the theorems from the tables to the results are met. -/
example := C100_ema_results (sqrt := cmSqrt) (nd := cmNode) (eg := cmArc) (od1 := 11) (s1 := 14) (sys := 8)
  (maxSf := 100) enumLib_ok cmSqrt_pos cmNode_inj cmArc_inj cm_tables (.single (.inl (by decide)))
  (by decide) cmDisk cm_names (fun i h => by unfold cmArc at h; omega) (by decide)
  (fun i => Fin.ofNat 3 i) (prob := fun k s => (emaTable.getD ((k - 4) / 3 % 3) []).getD s 0)
  (fun i _ s => by
    have : (cmArc (i + 1) - 4) / 3 = i := by unfold cmArc; omega
    rw [this]; rfl) []

/-- The road demo with its own tables. -/
example := C100_road (sqrt := cmSqrt) (nd := cmNode) (eg := cmArc) enumLib_ok cmSqrt_pos cmNode_inj cmArc_inj
  11 14 (by decide) cmDisk cm_names (n := 100) (by decide) rfl

/-- Edges of the graph that `Config` makes of the model file, and connections in the file. -/
def cmCounts (r : Except Err (Disk ℕ)) : Option (ℕ × ℕ) :=
  match r with
  | .ok d =>
    match d.files 2 with
    | some (.model m) =>
      match readModel m with
      | .ok inf => some (m.conns.length, inf.G.edges.length)
      | .error _ => none
    | _ => none
  | _ => none

example : cmCounts (emaCreate cmSqrt cmNode cmArc 11 14 2 5 (some cmNodes) (some cmEdges) cmDisk) =
    some (3, 3) := by decide +kernel

end Ex

open Ex in
/-- **C100, not with parallel arcs.**  If the table has a second arc between two nodes, the file has both but
the graph read from it has one. -/
theorem C100_not_parallel : ∃ (nodes : List (ℕ × ℚ × ℚ)) (edges : List (ℕ × ℕ)) (disk' : Disk ℕ) (m : NetJson ℕ)
    (inf : Infra ℕ), TablesOKFor nodes edges ∧
    emaCreate cmSqrt cmNode cmArc 11 14 2 5 (some nodes) (some edges) cmDisk = .ok disk' ∧
    disk'.files 2 = some (.model m) ∧ readModel m = .ok inf ∧ m.conns.length = 3 ∧ inf.G.edges.length = 2 := by
  refine ⟨cmNodes, [(22, 7), (7, 53), (7, 22)], ?_⟩
  have h : cmCounts (emaCreate cmSqrt cmNode cmArc 11 14 2 5 (some cmNodes)
      (some [(22, 7), (7, 53), (7, 22)]) cmDisk) = some (3, 2) := by decide +kernel
  unfold cmCounts at h
  split at h
  · rename_i d hd
    split at h
    · rename_i m hm
      split at h
      · rename_i inf hinf
        simp only [Option.some.injEq, Prod.mk.injEq] at h
        exact ⟨d, m, inf, ⟨by decide, by decide⟩, hd, hm, hinf, h.1, h.2⟩
      · cases h
    · cases h
  · cases h

end BNS
