import Verif.Proofs.Config
import Verif.Props.ByOd

/-!
# C81: what a configuration file gives
-/

namespace BNS

set_option linter.unusedSectionVars false

section
variable {K : Type} [DecidableEq K]

/-- The constructor succeeds for a file with all entries, whose model file can be read and whose
scenario file, if one is named, has damage states.  The model and the scenarios are those of the
files, `no_ds` is the number of damage states, the rest of the dictionary is kept in its order, and
the directory of the output exists afterwards. -/
theorem C81_config {disk : Disk K} {data : List (CfgKey K × CfgVal K)} {p s q : K} {m : NetJson K}
    {inf : Infra K} {sc : ScenJson K} {ds : List ℚ} {key mb : CfgVal K}
    (h1 : data.lookup .modelName = some (.text p)) (h2 : disk.files p = some (.model m))
    (h3 : readModel m = .ok inf) (h4 : data.lookup .scenarioName = some (.text s))
    (h5 : disk.files s = some (.scen sc)) (h6 : sc.damage = some ds)
    (h7 : data.lookup .configurationId = some key) (h8 : data.lookup .maxBranches = some mb)
    (h9 : data.lookup .outputPath = some (.text q)) :
    ∃ cfg disk', Cfg.new disk data = .ok (cfg, disk') ∧
      cfg.infra = inf ∧ cfg.scenarios = some sc ∧ cfg.noDs = some ds.length ∧
      cfg.key = key ∧ cfg.maxBranches = mb ∧ cfg.outputPath = some q ∧
      cfg.data = data.filter (fun e => decide (e.1 ∉ [CfgKey.modelName, .maxBranches, .configurationId,
        .outputPath, .scenarioName])) ∧
      disk'.files = disk.files ∧ ((disk.files q).isSome ∨ disk'.dirs q = true) ∧
      ∀ r, r ≠ q → disk'.dirs r = disk.dirs r := by
  suffices h : Cfg.new disk data = .ok (⟨inf, some sc, some ds.length, key, mb, some q,
      data.filter fun e => decide (e.1 ∉ [CfgKey.modelName, .maxBranches, .configurationId,
        .outputPath, .scenarioName])⟩, disk.ensureDir (some q)) by
    refine ⟨_, _, h, rfl, rfl, rfl, rfl, rfl, rfl, rfl, ?_, ?_, ?_⟩
    · unfold Disk.ensureDir
      dsimp only
      split <;> rfl
    · unfold Disk.ensureDir
      dsimp only
      split
      · rename_i h
        simpa [Disk.exists] using h
      · simp
    · intro r hr
      unfold Disk.ensureDir
      dsimp only
      split
      · rfl
      · simp [hr]
  · have hr : (cfgReq.all fun k => decide (k ∈ data.map Prod.fst)) = true := by
      simp only [cfgReq, List.all_cons, List.all_nil, cfg_lookup_mem h1, cfg_lookup_mem h7, cfg_lookup_mem h8,
        cfg_lookup_mem h9, decide_true, Bool.and_true]
    have hs : cfgScenarios disk data = .ok (some (sc, ds.length), cfgPop data .scenarioName) := by
      unfold cfgScenarios
      rw [itemsGet_some h4]
      simp [CfgVal.truthy, cfgPath, Disk.exists, h5, readScenarioFile, Disk.open, h6, ok_bind, pure_ok]
    unfold Cfg.new
    rw [if_pos hr, itemsGet_some h1]
    simp only [ok_bind, cfgPath, Disk.exists, h2, Option.isSome_some, Bool.true_or, if_true,
      readModelFile, Disk.open, h3, hs]
    rw [itemsGet_some ((cfg_lookup_pop (by simp)).trans h7), itemsGet_some ((cfg_lookup_pop (by simp)).trans h8),
      itemsGet_some ((cfg_lookup_pop (by simp)).trans h9)]
    simp only [ok_bind, pure_ok, Option.map_some, cfg_foldl_pop, cfgPop, List.filter_filter]
    congr 4
    funext e
    cases e.1 <;> simp [cfgReq]

/-- Without a scenario file — the entry is empty, `null` or zero — the object has neither `scenarios`
nor `no_ds`, and the entry `SCENARIO_NAME` stays among the other entries. -/
theorem C81_without_scenarios {disk : Disk K} {data : List (CfgKey K × CfgVal K)} {p q : K}
    {m : NetJson K} {inf : Infra K} {v key mb : CfgVal K}
    (h1 : data.lookup .modelName = some (.text p)) (h2 : disk.files p = some (.model m))
    (h3 : readModel m = .ok inf) (h4 : data.lookup .scenarioName = some v)
    (h5 : v = .empty ∨ v = .null ∨ v = .num 0)
    (h7 : data.lookup .configurationId = some key) (h8 : data.lookup .maxBranches = some mb)
    (h9 : data.lookup .outputPath = some (.text q)) :
    ∃ cfg disk', Cfg.new disk data = .ok (cfg, disk') ∧
      cfg.infra = inf ∧ cfg.scenarios = none ∧ cfg.noDs = none ∧
      cfg.key = key ∧ cfg.maxBranches = mb ∧ cfg.outputPath = some q ∧
      cfg.data = data.filter (fun e => decide (e.1 ∉ [CfgKey.modelName, .maxBranches, .configurationId,
        .outputPath])) ∧
      disk'.files = disk.files ∧ ((disk.files q).isSome ∨ disk'.dirs q = true) ∧
      ∀ r, r ≠ q → disk'.dirs r = disk.dirs r := by
  suffices h : Cfg.new disk data = .ok (⟨inf, none, none, key, mb, some q,
      data.filter fun e => decide (e.1 ∉ [CfgKey.modelName, .maxBranches, .configurationId,
        .outputPath])⟩, disk.ensureDir (some q)) by
    refine ⟨_, _, h, rfl, rfl, rfl, rfl, rfl, rfl, rfl, ?_, ?_, ?_⟩
    · unfold Disk.ensureDir
      dsimp only
      split <;> rfl
    · unfold Disk.ensureDir
      dsimp only
      split
      · rename_i h
        simpa [Disk.exists] using h
      · simp
    · intro r hr
      unfold Disk.ensureDir
      dsimp only
      split
      · rfl
      · simp [hr]
  have hr : (cfgReq.all fun k => decide (k ∈ data.map Prod.fst)) = true := by
    simp only [cfgReq, List.all_cons, List.all_nil, cfg_lookup_mem h1, cfg_lookup_mem h7, cfg_lookup_mem h8,
      cfg_lookup_mem h9, decide_true, Bool.and_true]
  have hv : v.truthy = false := by
    rcases h5 with rfl | rfl | rfl <;> simp [CfgVal.truthy]
  have hs : cfgScenarios disk data = .ok (none, data) := by
    unfold cfgScenarios
    rw [itemsGet_some h4]
    simp [hv, ok_bind, pure_ok]
  unfold Cfg.new
  rw [if_pos hr, itemsGet_some h1]
  simp only [ok_bind, cfgPath, Disk.exists, h2, Option.isSome_some, Bool.true_or, if_true,
    readModelFile, Disk.open, h3, hs]
  rw [itemsGet_some h7, itemsGet_some h8, itemsGet_some h9]
  simp only [ok_bind, pure_ok, Option.map_none, cfg_foldl_pop, cfgReq]

/-- A missing required entry, and a model file that does not exist, are assertion errors. -/
theorem C81_required {disk : Disk K} {data : List (CfgKey K × CfgVal K)}
    (h : (∃ k ∈ [CfgKey.modelName, .maxBranches, .configurationId, .outputPath], data.lookup k = none) ∨
      ∃ p, data.lookup .modelName = some (.text p) ∧ disk.files p = none ∧ disk.dirs p = false) :
    Cfg.new disk data = .error .assertion := by
  unfold Cfg.new
  by_cases hr : (cfgReq.all fun k => decide (k ∈ data.map Prod.fst)) = true
  · rw [if_pos hr]
    rcases h with ⟨k, hk, hn⟩ | ⟨p, h1, h2, h3⟩
    · rw [List.all_eq_true] at hr
      obtain ⟨v, hv⟩ := cfg_mem_lookup (of_decide_eq_true (hr k hk))
      rw [hn] at hv
      cases hv
    · rw [itemsGet_some h1]
      simp [ok_bind, cfgPath, Disk.exists, h2, h3]
  · rw [if_neg hr]

/-- A scenario file that does not exist is not an assertion error: the message of the assertion
itself fails (`NameError`).  And a configuration without the entry `SCENARIO_NAME`, which is not in
the list of the required ones and "can be empty", is a `KeyError`. -/
theorem C81_not_optional {disk : Disk K} {data : List (CfgKey K × CfgVal K)} {p : K} {m : NetJson K}
    {inf : Infra K} {o key mb : CfgVal K}
    (h1 : data.lookup .modelName = some (.text p)) (h2 : disk.files p = some (.model m))
    (h3 : readModel m = .ok inf)
    (h7 : data.lookup .configurationId = some key) (h8 : data.lookup .maxBranches = some mb)
    (h9 : data.lookup .outputPath = some o) :
    (data.lookup .scenarioName = none → Cfg.new disk data = .error .key) ∧
    ∀ s, data.lookup .scenarioName = some (.text s) → disk.files s = none → disk.dirs s = false →
      Cfg.new disk data = .error .unbound := by
  have hr : (cfgReq.all fun k => decide (k ∈ data.map Prod.fst)) = true := by
    simp only [cfgReq, List.all_cons, List.all_nil, cfg_lookup_mem h1, cfg_lookup_mem h7, cfg_lookup_mem h8,
      cfg_lookup_mem h9, decide_true, Bool.and_true]
  refine ⟨fun h => ?_, fun s hs hf hd => ?_⟩
  · have hs : cfgScenarios disk data = .error .key := by
      unfold cfgScenarios
      rw [itemsGet_none h]
      rfl
    unfold Cfg.new
    rw [if_pos hr, itemsGet_some h1]
    simp only [ok_bind, cfgPath, Disk.exists, h2, Option.isSome_some, Bool.true_or, if_true,
      readModelFile, Disk.open, h3, hs]
    rfl
  · have hs : cfgScenarios disk data = .error .unbound := by
      unfold cfgScenarios
      rw [itemsGet_some hs]
      simp [ok_bind, CfgVal.truthy, cfgPath, Disk.exists, hf, hd]
    unfold Cfg.new
    rw [if_pos hr, itemsGet_some h1]
    simp only [ok_bind, cfgPath, Disk.exists, h2, Option.isSome_some, Bool.true_or, if_true,
      readModelFile, Disk.open, h3, hs]
    rfl

/-- Entries of the wrong kind: a number or `null` for the model file, or for the output directory, is a
`TypeError`; a model file without the entries of one is a `KeyError`; so is a scenario file without
damage states. -/
theorem C81_wrong_kind {disk : Disk K} {data : List (CfgKey K × CfgVal K)}
    (hreq : ∀ k ∈ [CfgKey.modelName, .maxBranches, .configurationId, .outputPath], data.lookup k ≠ none) :
    (∀ v, data.lookup .modelName = some v → (v = .null ∨ ∃ n, v = .num n) →
      Cfg.new disk data = .error .type) ∧
    (∀ p f, data.lookup .modelName = some (.text p) → disk.files p = some f → (∀ m, f ≠ .model m) →
      Cfg.new disk data = .error .key) ∧
    (∀ p m inf, data.lookup .modelName = some (.text p) → disk.files p = some (.model m) →
      readModel m = .ok inf →
      (∀ s f, data.lookup .scenarioName = some (.text s) → disk.files s = some f →
        (∀ sc, f = .scen sc → sc.damage = none) → Cfg.new disk data = .error .key) ∧
      (∀ v, data.lookup .scenarioName = some .empty → data.lookup .outputPath = some v →
        (v = .null ∨ ∃ n, v = .num n) → Cfg.new disk data = .error .type)) := by
  have hr : (cfgReq.all fun k => decide (k ∈ data.map Prod.fst)) = true := by
    rw [List.all_eq_true]
    intro k hk
    obtain ⟨v, hv⟩ := Option.ne_none_iff_exists'.1 (hreq k hk)
    exact decide_eq_true (cfg_lookup_mem hv)
  have bad : ∀ v : CfgVal K, (v = .null ∨ ∃ n, v = .num n) → cfgPath v = .error .type := by
    rintro v (rfl | ⟨n, rfl⟩) <;> rfl
  refine ⟨fun v h1 hv => ?_, fun p f h1 h2 hf => ?_, fun p m inf h1 h2 h3 =>
    ⟨fun s f h4 h5 hf => ?_, fun v h4 h5 hv => ?_⟩⟩
  · unfold Cfg.new
    rw [if_pos hr, itemsGet_some h1, ok_bind, bad v hv]
    rfl
  · unfold Cfg.new
    rw [if_pos hr, itemsGet_some h1]
    simp only [ok_bind, cfgPath, Disk.exists, h2, Option.isSome_some, Bool.true_or, if_true,
      readModelFile, Disk.open]
    cases f with
    | model m => exact absurd rfl (hf m)
    | scen s => rfl
    | dict => rfl
  · have hs : cfgScenarios disk data = .error .key := by
      unfold cfgScenarios
      rw [itemsGet_some h4]
      simp only [ok_bind, CfgVal.truthy, if_true, cfgPath, Disk.exists, h5, Option.isSome_some,
        Bool.true_or, readScenarioFile, Disk.open]
      cases f with
      | model m => rfl
      | scen s => simp only [hf s rfl]; rfl
      | dict => rfl
    unfold Cfg.new
    rw [if_pos hr, itemsGet_some h1]
    simp only [ok_bind, cfgPath, Disk.exists, h2, Option.isSome_some, Bool.true_or, if_true,
      readModelFile, Disk.open, h3, hs]
    rfl
  · have hs : cfgScenarios disk data = .ok (none, data) := by
      unfold cfgScenarios
      rw [itemsGet_some h4]
      rfl
    obtain ⟨key, h7⟩ := Option.ne_none_iff_exists'.1 (hreq .configurationId (by simp))
    obtain ⟨mb, h8⟩ := Option.ne_none_iff_exists'.1 (hreq .maxBranches (by simp))
    unfold Cfg.new
    rw [if_pos hr, itemsGet_some h1]
    simp only [ok_bind, cfgPath, Disk.exists, h2, Option.isSome_some, Bool.true_or, if_true,
      readModelFile, Disk.open, h3, hs]
    rw [itemsGet_some h7, itemsGet_some h8, itemsGet_some h5]
    simp only [ok_bind]
    change (cfgPath v >>= _) = _
    rw [bad v hv]
    rfl

/-- Conversely, the object exists only if the model file it names is read without error, and then holds
what this file says; with `scenarios` it holds those of the file named, together with the number of
their damage states; and the directory of the output exists. -/
theorem C81_only_if {disk disk' : Disk K} {data : List (CfgKey K × CfgVal K)} {cfg : Cfg K}
    (h : Cfg.new disk data = .ok (cfg, disk')) :
    (∃ p m, data.lookup .modelName = some (.text p) ∧ disk.files p = some (.model m) ∧
      readModel m = .ok cfg.infra) ∧
    (∀ sc, cfg.scenarios = some sc → ∃ s ds, data.lookup .scenarioName = some (.text s) ∧
      disk.files s = some (.scen sc) ∧ sc.damage = some ds ∧ cfg.noDs = some ds.length) ∧
    (cfg.scenarios = none → cfg.noDs = none ∧
      ∃ v, data.lookup .scenarioName = some v ∧ (v = .empty ∨ v = .null ∨ v = .num 0)) ∧
    (∀ q, cfg.outputPath = some q → data.lookup .outputPath = some (.text q) ∧
      ((disk'.files q).isSome ∨ disk'.dirs q = true)) ∧
    disk'.files = disk.files := by
  have get {k : CfgKey K} {v : CfgVal K} {d : List (CfgKey K × CfgVal K)} (h : itemsGet d k = .ok v) :
      d.lookup k = some v := by
    cases e : d.lookup k with
    | none => rw [itemsGet_none e] at h; cases h
    | some w => rw [itemsGet_some e] at h; cases h; rfl
  have opened {q : Option K} {f : FileC K} (h : disk.open q = .ok f) :
      ∃ p, q = some p ∧ disk.files p = some f := by
    cases q with
    | none => cases h
    | some p =>
      unfold Disk.open at h
      cases e : disk.files p with
      | none => simp [e] at h
      | some f' => simp only [e, Except.ok.injEq] at h; exact ⟨p, rfl, by rw [e, h]⟩
  have path {v : CfgVal K} {p : K} (h : cfgPath v = .ok (some p)) : v = .text p := by
    cases v <;> simp [cfgPath] at h
    rw [h]
  unfold Cfg.new at h
  split at h
  swap; · cases h
  obtain ⟨mv, e1, h⟩ := bind_ok.1 h
  obtain ⟨p, e2, h⟩ := bind_ok.1 h
  split at h
  swap; · cases h
  obtain ⟨inf, e3, h⟩ := bind_ok.1 h
  obtain ⟨⟨sc, rest⟩, e4, h⟩ := bind_ok.1 h
  obtain ⟨key, e5, h⟩ := bind_ok.1 h
  obtain ⟨mb, e6, h⟩ := bind_ok.1 h
  obtain ⟨o, e7, h⟩ := bind_ok.1 h
  obtain ⟨out, e8, h⟩ := bind_ok.1 h
  simp only [pure, Except.pure, Except.ok.injEq, Prod.mk.injEq] at h
  obtain ⟨rfl, rfl⟩ := h
  have hsc : (∃ s n v, sc = some (s, n) ∧ rest = cfgPop data .scenarioName ∧
        data.lookup .scenarioName = some (.text v) ∧ disk.files v = some (.scen s) ∧
        ∃ ds, s.damage = some ds ∧ n = ds.length) ∨
      (sc = none ∧ rest = data ∧ ∃ v, data.lookup .scenarioName = some v ∧
        (v = .empty ∨ v = .null ∨ v = .num 0)) := by
    unfold cfgScenarios at e4
    obtain ⟨v, f1, f2⟩ := bind_ok.1 e4
    split at f2
    · obtain ⟨q, f3, f4⟩ := bind_ok.1 f2
      split at f4
      · obtain ⟨s, f5, f6⟩ := bind_ok.1 f4
        simp only [pure, Except.pure, Except.ok.injEq, Prod.mk.injEq] at f6
        obtain ⟨f, f7, f8⟩ := bind_ok.1 f5
        obtain ⟨q', rfl, f9⟩ := opened f7
        obtain rfl := path f3
        cases f with
        | model m => cases f8
        | dict => cases f8
        | scen s' =>
          cases ed : s'.damage with
          | none => simp [ed] at f8
          | some ds =>
            simp only [ed, Except.ok.injEq] at f8
            subst f8
            exact .inl ⟨s', ds.length, q', f6.1.symm, f6.2.symm, get f1, f9, ds, ed, rfl⟩
      · cases f4
    · rename_i hv
      simp only [pure, Except.pure, Except.ok.injEq, Prod.mk.injEq] at f2
      refine .inr ⟨f2.1.symm, f2.2.symm, v, get f1, ?_⟩
      cases v with
      | text p => simp [CfgVal.truthy] at hv
      | empty => simp
      | null => simp
      | num n => simpa [CfgVal.truthy] using hv
  refine ⟨?_, ?_, ?_, ?_, ?_⟩
  · obtain ⟨f, f1, f2⟩ := bind_ok.1 e3
    obtain ⟨p', rfl, f3⟩ := opened f1
    cases f with
    | model m => exact ⟨p', m, by rw [get e1, path e2], f3, f2⟩
    | scen s => cases f2
    | dict => cases f2
  · intro s hs
    rcases hsc with ⟨s', n, v, rfl, -, h1, h2, ds, h3, rfl⟩ | ⟨rfl, -⟩
    · simp only [Option.map_some, Option.some.injEq] at hs
      subst hs
      exact ⟨v, ds, h1, h2, h3, rfl⟩
    · cases hs
  · intro hs
    rcases hsc with ⟨s', n, v, rfl, -⟩ | ⟨rfl, -, h1⟩
    · cases hs
    · exact ⟨rfl, h1⟩
  · intro q hq
    dsimp only at hq
    subst hq
    have ho : data.lookup .outputPath = some o := by
      rcases hsc with ⟨s', n, v, rfl, rfl, -⟩ | ⟨rfl, rfl, -⟩
      · rw [← get e7, cfg_lookup_pop (by simp)]
      · exact get e7
    refine ⟨by rw [ho, path e8], ?_⟩
    unfold Disk.ensureDir
    dsimp only
    split
    · rename_i h
      simpa [Disk.exists] using h
    · simp
  · unfold Disk.ensureDir
    split
    · rfl
    · split <;> rfl

/-- From the configuration file to the event matrices: with a model file without parallel connections
and a scenario file, both named in the configuration, `get_branches_by_od` on the parts of the object
returns event matrices with the labels of `C74_event_matrix_partial`. -/
theorem C81_event_matrix_partial {disk : Disk K} {data : List (CfgKey K × CfgVal K)} {p s q s1 : K}
    {m : NetJson K} {sc : ScenJson K} {ds : List ℚ} {key mb : CfgVal K} {scen : List (K × List ℚ)}
    {lib : PathLib K} (hlib : PathLibOK lib) (h : DelayModelOK m scen)
    (h1 : data.lookup .modelName = some (.text p)) (h2 : disk.files p = some (.model m))
    (h4 : data.lookup .scenarioName = some (.text s))
    (h5 : disk.files s = some (.scen sc)) (h6 : sc.damage = some ds)
    (h7 : data.lookup .configurationId = some key) (h8 : data.lookup .maxBranches = some mb)
    (h9 : data.lookup .outputPath = some (.text q))
    (hs : sc.scenarios.lookup s1 = some scen) {maxB : ℕ} (hB : 0 < maxB) :
    ∃ cfg disk' sc' csys varis, Cfg.new disk data = .ok (cfg, disk') ∧ cfg.scenarios = some sc' ∧
      getBranchesByOd lib cfg.infra sc'.scenarios s1 maxB = .ok (csys, varis) ∧
      csys.map Prod.fst = m.ods.map Prod.fst ∧
      ∀ (i : ℕ) (od o d : K), m.ods[i]? = some (od, o, d) → ∃ (C : List (List ℕ)) (t : ℚ),
        csys[i]? = some (od, C) ∧ ShortestTime m scen o d (allIntact scen) t ∧
        ∀ x, InSpace (delayVs m scen) x → ∃ (j st : ℕ) (cs : List ℕ), C[j]? = some (st :: cs) ∧
          RowMatches (varis.map Prod.snd) cs x ∧
          (∀ (j' : ℕ) (r : List ℕ), C[j']? = some r → RowMatches (varis.map Prod.snd) r.tail x → j' = j) ∧
          st < 3 ∧ (st = 0 → ¬ Reachable m scen o d (2 * t) x) ∧
          (st = 1 → Reachable m scen o d (2 * t) x) ∧
          (2 * ((delayVs m scen).map Prod.snd).prod < maxB → st ≠ 2) := by
  obtain ⟨inf, csys, varis, e1, e2, e3, -, e4⟩ := C74_event_matrix_partial hlib h hs hB
  obtain ⟨cfg, disk', f1, f2, f3, -⟩ := C81_config h1 h2 e1 h4 h5 h6 h7 h8 h9
  exact ⟨cfg, disk', sc, csys, varis, f1, f3, by rw [f2]; exact e2, e3, e4⟩

end

namespace Ex

/-- Non-vacuity: the files of a configuration. -/
def cfgDisk : Disk ℕ where
  files := fun k => if k = 1 then some (.model byFile)
    else if k = 2 then some (.scen ⟨some [0, 1], [(1, byScen)]⟩) else none
  dirs := fun _ => false

/-- Entries of a configuration file; 100 is a further key. -/
def cfgData : List (CfgKey ℕ × CfgVal ℕ) :=
  [(.configurationId, .text 7), (.modelName, .text 1), (.scenarioName, .text 2), (.outputPath, .text 3),
   (.maxBranches, .num 1000), (.other 100, .null)]

example : ∃ cfg disk' inf, readModel byFile = .ok inf ∧ Cfg.new cfgDisk cfgData = .ok (cfg, disk') ∧
    cfg.infra = inf ∧ cfg.noDs = some 2 ∧ cfg.data = [(.other 100, .null)] := by
  obtain ⟨inf, -, -, e1, -⟩ := C74_event_matrix_partial (scens := [(1, byScen)]) (s1 := 1)
    enumLib_ok byOK (by decide) (maxB := 1) (by decide)
  obtain ⟨cfg, disk', f1, f2, -, f4, -, -, -, f8, -⟩ := C81_config (disk := cfgDisk) (data := cfgData)
    (p := 1) (s := 2) (q := 3) (m := byFile) (sc := ⟨some [0, 1], [(1, byScen)]⟩) (ds := [0, 1])
    (key := .text 7) (mb := .num 1000) (by decide) rfl e1 (by decide) rfl rfl (by decide) (by decide)
    (by decide)
  exact ⟨cfg, disk', inf, e1, f1, f2, f4, by rw [f8]; decide⟩

end Ex

end BNS
