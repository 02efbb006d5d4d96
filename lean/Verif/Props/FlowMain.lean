import Verif.Proofs.FlowMain

/-!
# C95: the max_flow demo, from the configuration file to the stored results

`networkx.maximum_flow` is a parameter with the contract `FlowDirLibOK`, as in C86.
-/

namespace BNS

set_option linter.unusedSectionVars false

section
variable {K : Type} [DecidableEq K]
variable {nSf nWr : K} {ext : K → FlowExt K} {data : List (CfgKey K × CfgVal K)} {p : K} {m : NetJson K}
  {mb w : ℚ} {sf : CfgVal K} {caps probs : K → List ℚ}
  {lib : Bool → FlowLib K} {newT : K} {inf : ℕ} {disk : Disk K}

/-- **C95, partial.**  `main` for a pair of the model file, the network having no two connections from
the same node to the same node (with two directions: between the same nodes): the stored variables are
the connections with their capacities; every row of the stored monitor contains the probability that the
network cannot send the target; the stored rules are right.  Without a limit on the evaluations (an entry
`MAX_SYS_FUN` that is `null`, empty or 0) and with enough branches, the last row has at most the asked
relative width, so both bounds are the probability if 0 is asked; with a limit there are no more
evaluations than that.  Results stored under other keys stay.

Missing: parallel connections (`C86_not_parallel`); when the branches are limited below twice the number
of component vectors, nothing is said about the width. -/
theorem C95_main_partial (hlib : FlowDirLibOK lib)
    (h : FlowFileOK nSf nWr disk.files ext data p m mb w sf caps probs) {od o d : K} {t : ℚ}
    {bi : Bool} {key : K} (ho : m.ods.lookup od = some (o, d))
    (hs : (ext p).setup.lookup od = some (t, bi, key)) {ends : K → K × K}
    (he : ∀ c ∈ m.conns, ends c.1 = (c.2.1, c.2.2.1))
    (hN : DirNetOK bi (flowStates m caps) ends (flowVarisOf m caps) o d newT) (ht : 0 ≤ t)
    (hpos : ∀ c ∈ m.conns, caps c.1 ≠ [])
    (hpr : ∀ c ∈ m.conns, (probs c.1).length = (caps c.1).length ∧ (∀ q ∈ probs c.1, 0 ≤ q) ∧
      (probs c.1).sum = 1)
    (hsf : sf = .empty ∨ sf = .null ∨ ∃ n : ℕ, sf = .num n)
    [DecidablePred (CanSendIn bi (flowStates m caps) ends (flowVarisOf m caps) o d t)]
    (store : List (K × FlowOut K)) :
    ∃ disk' store' out, flowMain lib newT inf nSf nWr ext data od (disk, store) = .ok (disk', store') ∧
      disk'.files = disk.files ∧ store'.lookup key = some out ∧
      (∀ k, k ≠ key → store'.lookup k = store.lookup k) ∧
      out.varis = m.conns.map (fun c => (c.1, Variable.mk' c.1 (caps c.1) .dflt)) ∧
      (∀ r ∈ out.rules.s, ∀ x, InSpace (flowStates m caps) x → AppliesS r x →
        CanSendIn bi (flowStates m caps) ends (flowVarisOf m caps) o d t x) ∧
      (∀ r ∈ out.rules.f, ∀ x, InSpace (flowStates m caps) x → AppliesF r x →
        ¬ CanSendIn bi (flowStates m caps) ends (flowVarisOf m caps) o d t x) ∧
      (∀ row ∈ out.mon,
        row.pfLow ≤ probOf (flowStates m caps) (fun k s => (probs k).getD s 0)
          (fun x => ¬ CanSendIn bi (flowStates m caps) ends (flowVarisOf m caps) o d t x) ∧
        probOf (flowStates m caps) (fun k s => (probs k).getD s 0)
          (fun x => ¬ CanSendIn bi (flowStates m caps) ends (flowVarisOf m caps) o d t x) ≤ row.pfUp) ∧
      (∀ n : ℕ, 0 < n → sf = .num n → out.mon.length ≤ n + 1) ∧
      (sf = .empty ∨ sf = .null ∨ sf = .num 0 → ((flowStates m caps).map Prod.snd).prod < inf →
        2 * (((flowStates m caps).map Prod.snd).prod : ℚ) ≤ mb → 0 ≤ w →
        ∃ row, out.mon.getLast? = some row ∧ row.pfUp - row.pfLow ≤ row.pfLow * w) := by
  obtain ⟨n, hn, hn0, hnp⟩ : ∃ n, sfLimit inf sf = .ok n ∧
      (sf = .empty ∨ sf = .null ∨ sf = .num 0 → n = inf) ∧ (∀ k : ℕ, 0 < k → sf = .num k → n = k) := by
    rcases hsf with rfl | rfl | ⟨k, rfl⟩
    · exact ⟨inf, rfl, fun _ => rfl, fun k _ hk => by cases hk⟩
    · exact ⟨inf, rfl, fun _ => rfl, fun k _ hk => by cases hk⟩
    · by_cases hk : k = 0
      · subst hk
        refine ⟨inf, ?_, fun _ => rfl, fun k hk h => ?_⟩
        · simp [sfLimit, CfgVal.truthy, flowLimit]
        · injection h with h
          have : k = 0 := by exact_mod_cast h.symm
          omega
      · refine ⟨k, ?_, fun h => ?_, fun j _ h => ?_⟩
        · have : ((k : ℕ) : ℚ) ≠ 0 := by exact_mod_cast hk
          have hce : ((k : ℕ) : ℚ).ceil = k := by
            have := Rat.ceil_intCast (k : ℤ)
            simpa using this
          simp [sfLimit, CfgVal.truthy, this, flowLimit, cfgNum, ok_bind, pure_ok, hce]
        · rcases h with h | h | h
          · cases h
          · cases h
          · injection h with h
            exact absurd (by exact_mod_cast h) hk
        · injection h with h
          exact_mod_cast h
  set c := flowSpecRun lib newT m caps probs o d t bi n mb w with hc
  obtain ⟨disk', hd, hmain⟩ := flowMain_eq (lib := lib) (newT := newT) h ho hs hn store
  have hnodup : (m.conns.map Prod.fst).Nodup := by
    have := hN.nodup
    simp only [flowStates, List.map_map] at this
    exact this
  have hedges : m.conns.map (fun c => (c.1, c.2.1, c.2.2.1)) =
      (flowStates m caps).map fun kn => (kn.1, ends kn.1) := by
    simp only [flowStates, List.map_map]
    exact List.map_congr_left fun c hc => by simp [he c hc]
  have hvs : VarisOK c.vs := by
    refine ⟨hN.nodup, ?_⟩
    intro kn hkn
    obtain ⟨c, hc, rfl⟩ := List.mem_map.1 hkn
    exact List.length_pos_iff.2 (hpos c hc)
  have hprob : ∀ kn ∈ flowStates m caps, ∀ i, flowProbOf m probs kn.1 i = (probs kn.1).getD i 0 := by
    intro kn hkn i
    obtain ⟨c, hc, rfl⟩ := List.mem_map.1 hkn
    exact if_pos (List.mem_map_of_mem hc)
  have hp : ProbOK c.vs c.probs := by
    constructor
    · intro kn hkn i hi
      rw [show c.probs kn.1 i = _ from hprob kn hkn i]
      obtain ⟨c, hc, rfl⟩ := List.mem_map.1 hkn
      obtain ⟨h1, h2, -⟩ := hpr c hc
      have : i < (probs c.1).length := by rw [h1]; exact hi
      rw [List.getD_eq_getElem _ _ this]
      exact h2 _ (List.getElem_mem this)
    · intro kn hkn
      rw [Finset.sum_congr rfl fun i _ => show c.probs kn.1 i = _ from hprob kn hkn i]
      obtain ⟨c, hc, rfl⟩ := List.mem_map.1 hkn
      obtain ⟨h1, -, h3⟩ := hpr c hc
      rw [← h3, ← h1]
      exact (list_sum_getD _).symm
  have hsys := sysFun_demo hlib hN ht
    (Φ := fun x => decide (CanSendIn bi (flowStates m caps) ends (flowVarisOf m caps) o d t x)) (by simp)
  rw [← hedges] at hsys
  have hcfg : CfgOK c fun x =>
      decide (CanSendIn bi (flowStates m caps) ends (flowVarisOf m caps) o d t x) :=
    ⟨hvs, hsys.2, hp, hsys.1⟩
  have hstart := Ex.start_empty (Φ := fun x =>
      decide (CanSendIn bi (flowStates m caps) ends (flowVarisOf m caps) o d t x)) c
  obtain ⟨st, hrun⟩ := C27_returns hcfg rfl hstart
  rw [hrun, ok_bind] at hmain
  have hpf : pFail c.vs c.probs (fun x =>
      decide (CanSendIn bi (flowStates m caps) ends (flowVarisOf m caps) o d t x)) =
      probOf (flowStates m caps) (fun k s => (probs k).getD s 0)
        (fun x => ¬ CanSendIn bi (flowStates m caps) ends (flowVarisOf m caps) o d t x) := by
    rw [pFail_decide]
    exact probOf_probs hprob
  have hb := C27_bounds hcfg hstart hrun
  rw [hpf] at hb
  refine ⟨disk', _, _, hmain, hd, by rw [lookup_itemSet, if_pos rfl], fun k hk => by
    rw [lookup_itemSet, if_neg hk], rfl, ?_, ?_, hb.1, ?_, ?_⟩
  · intro r hr x hx ha
    exact of_decide_eq_true (hb.2.2.1.s r hr x hx ha)
  · intro r hr x hx ha
    exact of_decide_eq_false (hb.2.2.1.f r hr x hx ha)
  · intro k hk hk'
    have hmax : c.maxSf = k := hnp k hk hk'
    show st.mon.length ≤ k + 1
    rcases C60_flag hrun with ⟨-, -, -, h1⟩ | ⟨-, -, h1⟩ | ⟨h1, h2, -⟩
    · rw [h1]; simp
    · rw [h1, hmax]
    · omega
  · intro h0 hinf hmb hw
    have hmax : c.maxSf = inf := hn0 h0
    have hnb : 2 * (c.vs.map Prod.snd).prod ≤ c.maxNb := by
      refine le_ceil_toNat (q := mb) ?_
      rw [Nat.cast_mul]
      exact hmb
    obtain ⟨st2, h1, h2⟩ := C29_stops hcfg rfl (by rw [hmax]; exact hinf) hnb rfl hstart
    rw [hrun] at h1
    cases h1
    rcases h2 with h2 | ⟨h2, -⟩
    · obtain ⟨-, row, -, h3, -, h4, h5⟩ := C28_enough_branches_partial hcfg hstart (resume_none c _) hnb
        hrun h2
      refine ⟨row, h3, ?_⟩
      rw [h4, h5, sub_self]
      refine mul_nonneg ?_ hw
      rw [pFail_decide]
      exact probOf_nonneg hcfg.vs hcfg.probs _
    · obtain ⟨row, h3, h4, -⟩ := C60_accuracy hcfg hnb hw hstart (resume_none c _) hrun h2
      exact ⟨row, h3, h4.le⟩

/-- **C95, each pair by itself.**  What `main` stores for a pair, and the key it uses, depend on the
files only: not on what has been stored before, and not on the directories. -/
theorem C95_independent (h : FlowFileOK nSf nWr disk.files ext data p m mb w sf caps probs) {od : K}
    {store : List (K × FlowOut K)} {r : Disk K × List (K × FlowOut K)}
    (hm : flowMain lib newT inf nSf nWr ext data od (disk, store) = .ok r) :
    ∃ (key : K) (out : FlowOut K), (∃ t bi, (ext p).setup.lookup od = some (t, bi, key)) ∧
      ∀ (disk2 : Disk K) (store2 : List (K × FlowOut K)), disk2.files = disk.files →
        ∃ r2, flowMain lib newT inf nSf nWr ext data od (disk2, store2) = .ok r2 ∧
          r2.1.files = disk.files ∧
          ∀ k, r2.2.lookup k = if k = key then some out else store2.lookup k := by
  cases ho : m.ods.lookup od with
  | none => rw [flowMain_no_od h ho] at hm; cases hm
  | some od' =>
    obtain ⟨o, d⟩ := od'
    obtain ⟨⟨t, bi, key⟩, hs⟩ := h.setup (od, o, d) (lookup_mem_pair ho)
    cases hn : sfLimit inf sf with
    | error e =>
      obtain ⟨pr, h1, -, -, -, -, -, -, h8, -⟩ := initFlow_ok h ho hs
      unfold flowMain at hm
      unfold sfLimit at hn
      simp only [h1, ok_bind, h8, hn] at hm
      cases hm
    | ok n =>
      obtain ⟨disk', hd, he⟩ := flowMain_eq (lib := lib) (newT := newT) h ho hs hn store
      rw [he] at hm
      obtain ⟨st, h1, h2⟩ := bind_ok.1 hm
      refine ⟨key, { brs := st.brs, varis := flowVarisOf m caps, rules := st.rules, mon := st.mon },
        ⟨t, bi, hs⟩, fun disk2 store2 hf => ?_⟩
      obtain ⟨disk3, hd3, he3⟩ := flowMain_eq (disk := disk2) (lib := lib) (newT := newT)
        (by rw [hf]; exact h) ho hs hn store2
      rw [h1, ok_bind] at he3
      exact ⟨_, he3, hd3.trans hf, fun k => lookup_itemSet _ _ _ _⟩

/-- **C95, all pairs.**  When `main` succeeds for each of the pairs by itself, `run_all` succeeds, and
under every key there are afterwards the results of the last pair with this key, or what was there
before if no pair has it. -/
theorem C95_all (h : FlowFileOK nSf nWr disk.files ext data p m mb w sf caps probs) {ods : List K}
    {key : K → K} {out : K → FlowOut K}
    (hm : ∀ od ∈ ods, ∃ r, flowMain lib newT inf nSf nWr ext data od (disk, []) = .ok r ∧
      ∀ k, r.2.lookup k = if k = key od then some (out od) else none)
    (disk2 : Disk K) (hf : disk2.files = disk.files) (store : List (K × FlowOut K)) :
    ∃ w', flowAll lib newT inf nSf nWr ext data ods (disk2, store) = (w', none) ∧
      w'.1.files = disk.files ∧
      ∀ k, w'.2.lookup k = match ods.reverse.find? (fun od => decide (key od = k)) with
        | some od => some (out od)
        | none => store.lookup k := by
  induction ods generalizing disk2 store with
  | nil => exact ⟨_, rfl, hf, fun k => rfl⟩
  | cons od ods ih =>
    obtain ⟨r, h1, h2⟩ := hm od (by simp)
    obtain ⟨key', out', -, hind⟩ := C95_independent h h1
    obtain ⟨r', h3, -, h4⟩ := hind disk [] rfl
    rw [h1] at h3
    cases h3
    have hk : key' = key od ∧ out' = out od := by
      have e1 := h2 key'
      rw [h4 key', if_pos rfl] at e1
      split at e1
      · rename_i e2
        cases e1
        exact ⟨e2, rfl⟩
      · cases e1
    obtain ⟨rfl, rfl⟩ := hk
    obtain ⟨r2, h5, h6, h7⟩ := hind disk2 store hf
    obtain ⟨w', h8, h9, h10⟩ := ih (fun od' h' => hm od' (List.mem_cons_of_mem _ h')) r2.1 h6 r2.2
    refine ⟨w', ?_, h9, fun k => ?_⟩
    · simp only [flowAll, h5]
      exact h8
    · rw [h10 k, List.reverse_cons, List.find?_append]
      cases ods.reverse.find? fun od => decide (key od = k) with
      | some od' => rfl
      | none =>
        simp only [Option.none_or, List.find?_cons]
        rw [h7 k]
        by_cases hk : key od = k
        · simp [hk]
        · simp [hk, Ne.symm hk]

/-- **C95, a pair that the model file does not have** is a `KeyError`; `run_all` then stops there, and
keeps what the pairs before it have stored. -/
theorem C95_unknown_pair (h : FlowFileOK nSf nWr disk.files ext data p m mb w sf caps probs) {od : K}
    (ho : m.ods.lookup od = none) {store : List (K × FlowOut K)} :
    flowMain lib newT inf nSf nWr ext data od (disk, store) = .error .key ∧
    ∀ (before after : List K) (disk0 : Disk K) (store0 : List (K × FlowOut K)),
      flowAll lib newT inf nSf nWr ext data before (disk0, store0) = ((disk, store), none) →
      flowAll lib newT inf nSf nWr ext data (before ++ od :: after) (disk0, store0) =
        ((disk, store), some .key) := by
  have h1 := flowMain_no_od (lib := lib) (newT := newT) (inf := inf) h ho store
  refine ⟨h1, fun before => ?_⟩
  induction before with
  | nil =>
    intro after disk0 store0 h2
    cases h2
    simp only [List.nil_append, flowAll, h1]
  | cons a l ih =>
    intro after disk0 store0 h2
    simp only [List.cons_append, flowAll] at h2 ⊢
    cases hm : flowMain lib newT inf nSf nWr ext data a (disk0, store0) with
    | error e => rw [hm] at h2; cases h2
    | ok w' =>
      rw [hm] at h2
      exact ih after w'.1 w'.2 h2

/-- **C95 is false for `run_MCS`**: whatever the files, the pair and the random numbers, the command
stores nothing and raises; once the simulation, which is asked for a coefficient of variation of 1/100,
has ended, `NameError`. -/
theorem C95_not_mcs (od : K) (r : ℕ → ℕ → ℚ) (fuel : ℕ) :
    (∃ e, flowMcs lib newT nSf nWr disk ext data od r fuel = .error e) ∧
    ∀ pr res, initFlowProb nSf nWr disk ext data od = .ok pr →
      runMcsIndep { names := pr.probs.map Prod.fst
                    keys := fun k => List.range ((pr.probs.lookup k).getD []).length
                    prob := pr.prob, sysFun := pr.sysFun lib newT, covT := 1 / 100 } r fuel = .ok res →
      flowMcs lib newT nSf nWr disk ext data od r fuel = .error .unbound := by
  constructor
  · cases h1 : initFlowProb nSf nWr disk ext data od with
    | error e => exact ⟨e, by unfold flowMcs; rw [h1]; rfl⟩
    | ok pr =>
      cases h2 : runMcsIndep (flowMcsCfg lib newT pr) r fuel with
      | error e => exact ⟨e, by unfold flowMcs; rw [h1, ok_bind, h2]; rfl⟩
      | ok res => exact ⟨.unbound, by unfold flowMcs; rw [h1, ok_bind, h2]; rfl⟩
  · intro pr res h1 h2
    unfold flowMcs flowMcsCfg
    rw [h1, ok_bind, h2]
    rfl

/-- **C95, missing entries.**  `MAX_SYS_FUN` and `SYS_BND_WIDTH_RATIO` are not among the entries that
are checked, but without one of them every command raises `KeyError`. -/
theorem C95_missing_entry {cfg : Cfg K} {disk' : Disk K} (h : Cfg.new disk data = .ok (cfg, disk'))
    (hn : cfg.data.lookup (.other nSf) = none ∨ cfg.data.lookup (.other nWr) = none) (od : K)
    (store : List (K × FlowOut K)) (r : ℕ → ℕ → ℚ) (fuel : ℕ) :
    flowMain lib newT inf nSf nWr ext data od (disk, store) = .error .key ∧
    flowMcs lib newT nSf nWr disk ext data od r fuel = .error .key := by
  have hc : flowConfig nSf nWr disk ext data = .error .key := by
    unfold flowConfig
    simp only [h, ok_bind]
    rcases hn with hn | hn
    · rw [itemsGet_none hn]; rfl
    · cases hm : cfg.data.lookup (.other nSf) with
      | none => rw [itemsGet_none hm]; rfl
      | some v => rw [itemsGet_some hm, ok_bind, itemsGet_none hn]; rfl
  have hi : initFlowProb nSf nWr disk ext data od = .error .key := by
    unfold initFlowProb
    rw [hc]
    rfl
  constructor
  · unfold flowMain
    simp only [hi]
    rfl
  · unfold flowMcs
    rw [hi]
    rfl

/-- **C95, wrong kind.**  A text as limit on the evaluations is a `TypeError`; nothing is stored. -/
theorem C95_wrong_kind {l : K}
    (h : FlowFileOK nSf nWr disk.files ext data p m mb w (.text l) caps probs) {od o d : K} {t : ℚ}
    {bi : Bool} {key : K} (ho : m.ods.lookup od = some (o, d))
    (hs : (ext p).setup.lookup od = some (t, bi, key)) (store : List (K × FlowOut K)) :
    flowMain lib newT inf nSf nWr ext data od (disk, store) = .error .type := by
  obtain ⟨pr, h1, -, -, -, -, -, -, h8, -⟩ := initFlow_ok h ho hs
  unfold flowMain
  simp only [h1, ok_bind, h8, CfgVal.truthy, if_true, flowLimit, cfgNum]
  rfl

/-- **C95, the output directory** exists after `main` has succeeded. -/
theorem C95_output_directory {od q : K} {store : List (K × FlowOut K)}
    {r : Disk K × List (K × FlowOut K)}
    (hm : flowMain lib newT inf nSf nWr ext data od (disk, store) = .ok r)
    (hq : data.lookup .outputPath = some (.text q)) :
    r.1.files = disk.files ∧ ((disk.files q).isSome ∨ r.1.dirs q = true) := by
  unfold flowMain at hm
  obtain ⟨pr, h1, hm⟩ := bind_ok.1 hm
  obtain ⟨_, -, hm⟩ := bind_ok.1 hm
  obtain ⟨_, -, hm⟩ := bind_ok.1 hm
  obtain ⟨_, -, hm⟩ := bind_ok.1 hm
  obtain ⟨st, -, hm⟩ := bind_ok.1 hm
  cases hm
  unfold initFlowProb at h1
  obtain ⟨cfg, h2, h1⟩ := bind_ok.1 h1
  obtain ⟨_, -, h1⟩ := bind_ok.1 h1
  obtain ⟨_, -, h1⟩ := bind_ok.1 h1
  obtain ⟨_, -, h1⟩ := bind_ok.1 h1
  cases h1
  unfold flowConfig at h2
  obtain ⟨c, h3, h2⟩ := bind_ok.1 h2
  obtain ⟨_, -, h2⟩ := bind_ok.1 h2
  obtain ⟨_, -, h2⟩ := bind_ok.1 h2
  obtain ⟨_, -, h2⟩ := bind_ok.1 h2
  obtain ⟨_, -, h2⟩ := bind_ok.1 h2
  cases h2
  have hd : c.2 = disk.ensureDir (some q) := by
    unfold Cfg.new at h3
    split at h3
    · obtain ⟨_, -, h3⟩ := bind_ok.1 h3
      obtain ⟨_, -, h3⟩ := bind_ok.1 h3
      split at h3
      · obtain ⟨_, -, h3⟩ := bind_ok.1 h3
        obtain ⟨sc, e1, h3⟩ := bind_ok.1 h3
        obtain ⟨_, -, h3⟩ := bind_ok.1 h3
        obtain ⟨_, -, h3⟩ := bind_ok.1 h3
        obtain ⟨v, e2, h3⟩ := bind_ok.1 h3
        obtain ⟨out, e3, h3⟩ := bind_ok.1 h3
        cases h3
        have hsc : sc.2.lookup .outputPath = data.lookup .outputPath := by
          unfold cfgScenarios at e1
          obtain ⟨v', -, e1⟩ := bind_ok.1 e1
          split at e1
          · obtain ⟨_, -, e1⟩ := bind_ok.1 e1
            split at e1
            · obtain ⟨_, -, e1⟩ := bind_ok.1 e1
              cases e1
              exact cfg_lookup_pop (by simp)
            · cases e1
          · cases e1
            rfl
        rw [itemsGet_some (hsc.trans hq)] at e2
        cases e2
        cases e3
        rfl
      · cases h3
    · cases h3
  show c.2.files = _ ∧ ((disk.files q).isSome ∨ c.2.dirs q = true)
  rw [hd]
  unfold Disk.ensureDir
  dsimp only
  split
  · rename_i he
    exact ⟨rfl, by simpa [Disk.exists] using he⟩
  · exact ⟨rfl, by simp⟩

end

/-! ### An example: the network of C86 in a file -/

namespace Ex

def flowNetFile : NetJson ℕ :=
  { comps := [], conns := dirEdges.map fun e => (e.1, e.2.1, e.2.2, 0)
    ods := [(31, 1, 4), (32, 1, 4), (33, 2, 4)], gtype := some .digraph }

/-- Model file 10, output directory 11; pairs 31, 32 and 33, the last two with the same key. -/
def flowDisk : Disk ℕ := { files := fun k => if k = 10 then some (.model flowNetFile) else none
                           dirs := fun _ => false }

def flowExt : ℕ → FlowExt ℕ := fun _ =>
  { caps := dirEdges.map fun e => (e.1, [0, 1, 2])
    probs := dirEdges.map fun e => (e.1, [1 / 2, 1 / 4, 1 / 4])
    setup := [(31, 1, false, 41), (32, 2, false, 42), (33, 1, false, 42)] }

/-- `MAX_SYS_FUN` is entry 20, `SYS_BND_WIDTH_RATIO` entry 21. -/
def flowData (sf : CfgVal ℕ) : List (CfgKey ℕ × CfgVal ℕ) :=
  [(.modelName, .text 10), (.maxBranches, .num 1500), (.configurationId, .text 12),
    (.outputPath, .text 11), (.scenarioName, .null), (.other 20, sf), (.other 21, .num 0)]

theorem flowFile_ok (sf : CfgVal ℕ) : FlowFileOK 20 21 flowDisk.files flowExt (flowData sf) 10 flowNetFile
    1500 0 sf (fun _ => [0, 1, 2]) (fun _ => [1 / 2, 1 / 4, 1 / 4]) where
  model := rfl
  file := rfl
  gtype := by decide
  scen := ⟨_, rfl, .inr (.inl rfl)⟩
  id := ⟨_, rfl⟩
  branches := rfl
  out := ⟨_, rfl⟩
  sf := rfl
  wr := rfl
  caps := by decide +kernel
  probs := by decide +kernel
  setup := by
    intro e he
    simp only [flowNetFile, List.mem_cons, List.not_mem_nil, or_false] at he
    rcases he with rfl | rfl | rfl <;> exact ⟨_, rfl⟩

theorem flowFile_net (o d : ℕ) (ho : o = 1 ∨ o = 2) (hd : d = 4) :
    DirNetOK false (flowStates flowNetFile fun _ => [0, 1, 2]) dirEnds
      (flowVarisOf flowNetFile fun _ => [0, 1, 2]) o d 0 := by
  refine ⟨by decide, ?_, by decide, by decide, ?_, by omega, by omega⟩
  · intro kn hk
    refine ⟨.mk' kn.1 [0, 1, 2] .dflt, ?_⟩
    revert kn
    decide +kernel
  · rcases ho with rfl | rfl <;> decide

open Classical in
theorem flowMain_ex (sf : CfgVal ℕ) (hsf : sf = .null ∨ sf = .num 0) (store : List (ℕ × FlowOut ℕ)) :
    ∃ disk' store' out row, flowMain bestDirLib 0 800 20 21 flowExt (flowData sf) 32 (flowDisk, store) =
        .ok (disk', store') ∧ store'.lookup 42 = some out ∧ out.mon.getLast? = some row ∧
      row.pfLow = probOf (flowStates flowNetFile fun _ => [0, 1, 2])
        (fun _ s => ([1 / 2, 1 / 4, 1 / 4] : List ℚ).getD s 0)
        (fun x => ¬ CanSendIn false (flowStates flowNetFile fun _ => [0, 1, 2]) dirEnds
          (flowVarisOf flowNetFile fun _ => [0, 1, 2]) 1 4 2 x) ∧ row.pfUp = row.pfLow := by
  obtain ⟨disk', store', out, h1, -, h2, -, -, -, -, h3, -, h4⟩ := C95_main_partial (inf := 800)
    bestDirLib_ok (flowFile_ok sf) (od := 32) (o := 1) (d := 4) (t := 2) (bi := false) (key := 42) rfl rfl
    (ends := dirEnds) (by decide) (flowFile_net 1 4 (.inl rfl) rfl) (by decide +kernel) (by decide)
    (by decide +kernel) (by
      rcases hsf with rfl | rfl
      · exact .inr (.inl rfl)
      · exact .inr (.inr ⟨0, by simp⟩)) store
  obtain ⟨row, h5, h6⟩ := h4 (.inr hsf) (by decide) (by decide +kernel) (le_refl _)
  obtain ⟨h7, h8⟩ := h3 row (List.mem_of_getLast? h5)
  rw [mul_zero] at h6
  exact ⟨disk', store', out, row, h1, h2, h5, le_antisymm h7 (by linarith), le_antisymm (by linarith)
    (by linarith)⟩

end Ex

/-- **C95, a limit of no evaluations is no limit**: with `MAX_SYS_FUN` 0 the example runs to the end,
while `run` with a limit of 0 makes no evaluation and reports nothing. -/
theorem C95_not_zero : ∃ disk' store' out, flowMain bestDirLib 0 800 20 21 Ex.flowExt
      (Ex.flowData (.num 0)) 32 (Ex.flowDisk, []) = .ok (disk', store') ∧
    store'.lookup 42 = some out ∧ out.mon ≠ [] ∧
    ∀ (c : RunCfg ℕ) (st : RunState ℕ), c.maxSf = 0 → run c { s := [], f := [] } none = .ok st →
      st.mon = [] := by
  obtain ⟨disk', store', out, row, h1, h2, h3, -⟩ := Ex.flowMain_ex (.num 0) (.inr rfl) []
  refine ⟨disk', store', out, h1, h2, ?_, fun c st h0 h => ?_⟩
  · intro hm
    rw [hm] at h3
    cases h3
  · rcases C60_flag h with ⟨-, -, -, h1⟩ | ⟨-, -, h1⟩ | ⟨h1, -⟩
    · exact h1
    · unfold run at h
      rw [h0] at h
      cases h
      rfl
    · omega

open Classical in
theorem Ex.flowMain_pairs (od : ℕ) (hod : od ∈ [31, 32, 33]) : ∃ out r, flowMain bestDirLib 0 800 20 21
      Ex.flowExt (Ex.flowData .null) od (Ex.flowDisk, []) = .ok r ∧
    (∃ row ∈ out.mon, row.pfUp = row.pfLow) ∧
    ∀ k, r.2.lookup k = if k = (if od = 31 then 41 else 42) then some out else none := by
  obtain ⟨o, t, key, h1, h2, ho, ht, hk⟩ : ∃ (o : ℕ) (t : ℚ) (key : ℕ),
      flowNetFile.ods.lookup od = some (o, 4) ∧
      (flowExt 10).setup.lookup od = some (t, false, key) ∧ (o = 1 ∨ o = 2) ∧ 0 ≤ t ∧
      key = if od = 31 then 41 else 42 := by
    simp only [List.mem_cons, List.not_mem_nil, or_false] at hod
    rcases hod with rfl | rfl | rfl
    · exact ⟨1, 1, 41, rfl, rfl, .inl rfl, by decide +kernel, rfl⟩
    · exact ⟨1, 2, 42, rfl, rfl, .inl rfl, by decide +kernel, rfl⟩
    · exact ⟨2, 1, 42, rfl, rfl, .inr rfl, by decide +kernel, rfl⟩
  obtain ⟨disk', store', out, h1, -, h2, h3, -, -, -, hb, -, h4⟩ := C95_main_partial (inf := 800)
    bestDirLib_ok (flowFile_ok .null) h1 h2 (ends := dirEnds) (by decide) (flowFile_net o 4 ho rfl) ht
    (by decide) (by decide +kernel) (.inr (.inl rfl)) []
  obtain ⟨row, h5, h6⟩ := h4 (.inr (.inl rfl)) (by decide) (by decide +kernel) (le_refl _)
  obtain ⟨h7, h8⟩ := hb row (List.mem_of_getLast? h5)
  rw [mul_zero] at h6
  refine ⟨out, _, h1, ⟨row, List.mem_of_getLast? h5, ?_⟩, fun k => ?_⟩
  · linarith
  · rw [← hk]
    by_cases hkk : k = key
    · rw [if_pos hkk, hkk]; exact h2
    · rw [if_neg hkk, h3 k hkk]; rfl

/-- **C95, two pairs with the same key**: of the pairs 31, 32 and 33 of the example the last two have the
same key; after `run_all` the results of pair 32 are lost. -/
theorem C95_not_same_key : ∃ out31 out33 : FlowOut ℕ, ∃ w', flowAll bestDirLib 0 800 20 21 Ex.flowExt
      (Ex.flowData .null) [31, 32, 33] (Ex.flowDisk, []) = (w', none) ∧
    (∀ k, w'.2.lookup k = if k = 42 then some out33 else if k = 41 then some out31 else none) ∧
    ∃ r, flowMain bestDirLib 0 800 20 21 Ex.flowExt (Ex.flowData .null) 33 (Ex.flowDisk, []) = .ok r ∧
      r.2.lookup 42 = some out33 := by
  have h := Ex.flowMain_pairs
  have : Nonempty (FlowOut ℕ) := ⟨⟨none, [], { s := [], f := [] }, []⟩⟩
  have : Nonempty (Disk ℕ × List (ℕ × FlowOut ℕ)) := ⟨(Ex.flowDisk, [])⟩
  choose! out r h1 _ h3 using h
  obtain ⟨w', h4, -, h5⟩ := C95_all (lib := bestDirLib) (newT := 0) (inf := 800) (Ex.flowFile_ok .null)
    (ods := [31, 32, 33]) (key := fun od => if od = 31 then 41 else 42) (out := out)
    (fun od hod => ⟨r od, h1 od hod, h3 od hod⟩) Ex.flowDisk rfl []
  refine ⟨out 31, out 33, w', h4, fun k => ?_, r 33, h1 33 (by simp), (h3 33 (by simp) 42).trans rfl⟩
  rw [h5 k]
  by_cases h42 : k = 42
  · subst h42; rfl
  · by_cases h41 : k = 41
    · subst h41; rfl
    · simp [Ne.symm h42, Ne.symm h41, h42, h41]

end BNS
