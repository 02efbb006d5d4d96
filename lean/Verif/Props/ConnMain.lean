import Verif.Proofs.ConnMain
import Verif.Props.CpmMisc
import Verif.Proofs.PathLib

/-!
# Property C97: the commands of the connectivity demos
-/

namespace BNS

set_option linter.unusedSectionVars false

section
variable {K : Type} [LinearOrder K] {disk : Disk K} {data : List (CfgKey K × CfgVal K)} {p q : K}
  {m : NetJson K} {directed multi : Bool} {mb : CfgVal K}

/-- Every connection has its two probabilities. -/
def ConnProbsOK (m : NetJson K) (probs : ConnProbs K) : Prop :=
  ∀ c ∈ m.conns, ∃ a b : ℚ, probs.lookup c.1 = some (a, b) ∧ 0 ≤ a ∧ 0 ≤ b ∧ a + b = 1

theorem connVs_binary (m : NetJson K) : connVs m = binary (m.conns.map Prod.fst) := by
  unfold connVs binary
  rw [List.map_map]
  rfl

theorem ConnProbsOK.probOK {probs : ConnProbs K} (h : ConnProbsOK m probs) :
    ProbOK (connVs m) probs.prob := by
  have key : ∀ kn ∈ connVs m, ∃ a b : ℚ, kn.2 = 2 ∧ probs.lookup kn.1 = some (a, b) ∧ 0 ≤ a ∧ 0 ≤ b ∧
      a + b = 1 := by
    intro kn hkn
    obtain ⟨c, hc, rfl⟩ := List.mem_map.1 hkn
    obtain ⟨a, b, h⟩ := h c hc
    exact ⟨a, b, rfl, h⟩
  refine ⟨fun kn hkn i hi => ?_, fun kn hkn => ?_⟩
  · obtain ⟨a, b, h1, h2, h3, h4, h5⟩ := key kn hkn
    simp only [ConnProbs.prob, h2]
    split
    · exact h3
    · split
      · exact h4
      · exact le_refl _
  · obtain ⟨a, b, h1, h2, h3, h4, h5⟩ := key kn hkn
    rw [h1]
    simp [Finset.sum_range_succ, ConnProbs.prob, h2, h5]

theorem mapM_total {α β : Type} {f : α → Except Err β} (l : List α) (h : ∀ x ∈ l, ∃ y, f x = .ok y) :
    ∃ ys, l.mapM f = .ok ys := by
  induction l with
  | nil => exact ⟨[], rfl⟩
  | cons a l ih =>
    obtain ⟨y, hy⟩ := h a List.mem_cons_self
    obtain ⟨ys, hys⟩ := ih fun x hx => h x (List.mem_cons_of_mem _ hx)
    exact ⟨y :: ys, by rw [List.mapM_cons, hy, ok_bind, hys]; rfl⟩

theorem lt_ceil_toNat {n : ℕ} {q : ℚ} (h : (n : ℚ) < q) : n < q.ceil.toNat := by
  by_contra hc
  have h1 : (q : ℚ) ≤ (q.ceil : ℤ) := Rat.le_ceil
  have h2 : q.ceil ≤ (n : ℤ) := by omega
  have h3 : ((q.ceil : ℤ) : ℚ) ≤ n := by exact_mod_cast h2
  linarith

/-- The run of the demos meets the conditions of the search. -/
theorem connCfg_ok {lib : PathLib K} (hlib : PathLibOK lib) {G : NGraph K} (hG : GraphOK G)
    (hD : Describes directed multi (m.comps.map Prod.fst) m.conns G)
    (hk : G.multi = true → ∀ e ∈ G.edges, e.key = .inr e.label)
    (hf : ConnFileOK disk.files data p q m directed multi mb) {o d : K}
    (ho : o ∈ m.comps.map Prod.fst) (varis : List (K × Variable K)) {prob : K → ℕ → ℚ}
    (hp : ProbOK (connVs m) prob) (maxSf maxNb : ℕ) {Φ : (K → ℕ) → Bool}
    (hΦ : ∀ x, Φ x = true ↔ LinkedIn directed m.conns o d x) :
    CfgOK (connRunCfg lib G o d (m.conns.map Prod.fst) varis prob maxSf maxNb) Φ := by
  have hs := sysFun_conn hlib hG hk (connVs m) (o := o) (d := d) (Φ := Φ) (fun x => by
    rw [hΦ, connected_linked hG hD hf.apart hf.apartNodes ho])
  have hvs : (m.conns.map Prod.fst).map (fun k => (k, 2)) = connVs m := (connVs_binary m).symm
  have hv : VarisOK (binary (m.conns.map Prod.fst)) :=
    ⟨by rw [binary_fst]; exact hf.names, fun kn h => by rw [(mem_binary.1 h).2]; norm_num⟩
  rw [← connVs_binary] at hv
  refine ⟨?_, ?_, ?_, ?_⟩
  · show VarisOK ((m.conns.map Prod.fst).map fun k => (k, 2))
    rw [hvs]; exact hv
  · show Coherent ((m.conns.map Prod.fst).map fun k => (k, 2)) Φ
    rw [hvs]; exact hs.2
  · show ProbOK ((m.conns.map Prod.fst).map fun k => (k, 2)) prob
    rw [hvs]; exact hp
  · show SysOK ((m.conns.map Prod.fst).map fun k => (k, 2)) Φ
      (sysFunWrap lib G (.pair o d) varis none ((m.conns.map Prod.fst).map fun k => (k, 2)))
    rw [hvs]; exact hs.1

/-- The event matrix of a run of the demos. -/
theorem conn_decides {lib : PathLib K} (hlib : PathLibOK lib) {G : NGraph K} (hG : GraphOK G)
    (hD : Describes directed multi (m.comps.map Prod.fst) m.conns G)
    (hk : G.multi = true → ∀ e ∈ G.edges, e.key = .inr e.label)
    (hf : ConnFileOK disk.files data p q m directed multi mb) {o d : K}
    (ho : o ∈ m.comps.map Prod.fst) (varis : List (K × Variable K)) {prob : K → ℕ → ℚ}
    (hp : ProbOK (connVs m) prob) {maxSf maxNb : ℕ} (h0 : 0 < maxSf) :
    ∃ C, connCsys (m.conns.map Prod.fst)
        (connRunCfg lib G o d (m.conns.map Prod.fst) varis prob maxSf maxNb) = .ok C ∧
      DecidesLinks m directed o d (fun k => .mk' k [0, 1] .dflt)
        (2 ^ m.conns.length < maxSf ∧ 2 * 2 ^ m.conns.length ≤ maxNb) C := by
  classical
  have hΦ : ∀ x, (fun x => decide (LinkedIn directed m.conns o d x)) x = true ↔
      LinkedIn directed m.conns o d x := fun x => by simp
  have hc := connCfg_ok hlib hG hD hk hf ho varis hp maxSf maxNb hΦ
  obtain ⟨C, h1, h2⟩ := connCsys_ok rfl hc rfl h0 rfl rfl
  refine ⟨C, h1, fun x hx => ?_⟩
  rw [connVs_binary] at hx
  obtain ⟨j, s, cs, k1, k2, k3, k4, k5, k6, k7⟩ := h2 x hx
  rw [List.map_map] at k2 k3
  refine ⟨j, s, cs, k1, k2, k3, k4, fun h => of_decide_eq_false (k5 h),
    fun h => of_decide_eq_true (k6 h), fun h => ?_⟩
  rw [List.length_map] at k7
  exact k7 h.1 h.2

/-- **C97, the n3e3 demo.**  A configuration file, a network file of any of the four types and a
scenario file or none, an origin that is one of the nodes, probabilities for the connections and a
positive limit of evaluations: the demo prints an event matrix with exactly one row for every vector of
connection states; it says failure only if no way over working connections leads from the origin to
the destination, survival only if one does, and unknown only if a limit is too small. -/
theorem C97_n3e3 {lib : PathLib K} (hlib : PathLibOK lib)
    (hf : ConnFileOK disk.files data p q m directed multi mb) {probs : ConnProbs K}
    (hp : ConnProbsOK m probs) {nSf o d : K} (ho : o ∈ m.comps.map Prod.fst) {sf nb : ℚ}
    (hs : data.lookup (.other nSf) = some (.num sf)) (hs0 : 0 < sf) (hb : mb = .num nb) :
    ∃ C disk', n3e3Main lib probs nSf o d data disk = .ok (C, disk') ∧ disk'.files = disk.files ∧
      DecidesLinks m directed o d (fun k => .mk' k [0, 1] .dflt)
        (2 ^ m.conns.length < sf ∧ 2 * 2 ^ m.conns.length ≤ nb) C := by
  obtain ⟨inf, r1, -, r3, -, r5, r6, r7⟩ := connFile_read hf
  obtain ⟨cfg, disk', c1, c2, c3, c4, -, c6⟩ := connFile_cfg hf r1
  have hceil : 0 < sf.ceil.toNat := lt_ceil_toNat (by simpa using hs0)
  obtain ⟨C, e1, e2⟩ := conn_decides hlib r5 r6 r7 hf (d := d) ho [] hp.probOK
    (maxNb := nb.ceil.toNat) hceil
  have hm : ∃ ps, (m.conns.map Prod.fst).mapM (itemsGet probs) = .ok ps := by
    refine mapM_total _ fun k hk => ?_
    obtain ⟨c, hc, rfl⟩ := List.mem_map.1 hk
    obtain ⟨a, b, h, -⟩ := hp c hc
    exact ⟨_, itemsGet_some h⟩
  obtain ⟨ps, hm⟩ := hm
  refine ⟨C, disk', ?_, c4, ?_⟩
  · unfold n3e3Main
    rw [c1, ok_bind]
    simp only [c2, r3]
    rw [itemsGet_some ((c6 nSf).trans hs), ok_bind, c3, hb]
    simp only [cfgNum, ok_bind, hm, e1, pure_ok]
  · intro x hx
    obtain ⟨j, s, cs, k1, k2, k3, k4, k5, k6, k7⟩ := e2 x hx
    refine ⟨j, s, cs, k1, k2, k3, k4, k5, k6, fun h => k7 ⟨?_, ?_⟩⟩
    · exact lt_ceil_toNat (by exact_mod_cast h.1)
    · exact le_ceil_toNat (by exact_mod_cast h.2)

/-- **C97, the SF demo.**  The same for the demo on the Sioux Falls network with a given number of
evaluations, every connection failing with probability 1/2. -/
theorem C97_sf {lib : PathLib K} (hlib : PathLibOK lib)
    (hf : ConnFileOK disk.files data p q m directed multi mb) {o d : K}
    (ho : o ∈ m.comps.map Prod.fst) {maxSf : ℕ} (h0 : 0 < maxSf) {nb : ℚ} (hb : mb = .num nb) :
    ∃ C disk', sfMain lib o d maxSf data disk = .ok (C, disk') ∧ disk'.files = disk.files ∧
      DecidesLinks m directed o d (fun k => .mk' k [0, 1] .dflt)
        (2 ^ m.conns.length < maxSf ∧ 2 * 2 ^ m.conns.length ≤ nb) C := by
  obtain ⟨inf, r1, -, r3, -, r5, r6, r7⟩ := connFile_read hf
  obtain ⟨cfg, disk', c1, c2, c3, c4, -, c6⟩ := connFile_cfg hf r1
  have hp : ProbOK (connVs m) (fun _ _ => 1 / 2) := by
    refine ⟨fun kn _ i _ => by norm_num, fun kn hkn => ?_⟩
    obtain ⟨c, hc, rfl⟩ := List.mem_map.1 hkn
    simp
  obtain ⟨C, e1, e2⟩ := conn_decides hlib r5 r6 r7 hf (d := d) ho
    ((m.conns.map Prod.fst).map fun k => (k, rbdVariable k)) hp (maxNb := nb.ceil.toNat) h0
  refine ⟨C, disk', ?_, c4, ?_⟩
  · unfold sfMain
    rw [c1, ok_bind]
    simp only [c2, r3, c3, hb, cfgNum, ok_bind]
    rw [e1]
    rfl
  · intro x hx
    obtain ⟨j, s, cs, k1, k2, k3, k4, k5, k6, k7⟩ := e2 x hx
    refine ⟨j, s, cs, k1, k2, k3, k4, k5, k6, fun h => k7 ⟨h.1, ?_⟩⟩
    exact le_ceil_toNat (by exact_mod_cast h.2)

/-- Without an evaluation there are no branches, and `get_csys` raises `TypeError`. -/
theorem C97_no_evaluations {lib : PathLib K}
    (hf : ConnFileOK disk.files data p q m directed multi mb) {o d : K} {nb : ℚ} (hb : mb = .num nb) :
    sfMain lib o d 0 data disk = .error .type ∧
    ∀ {probs : ConnProbs K} {nSf : K} {sf : ℚ}, ConnProbsOK m probs →
      data.lookup (.other nSf) = some (.num sf) → sf ≤ 0 →
      n3e3Main lib probs nSf o d data disk = .error .type := by
  obtain ⟨inf, r1, -, r3, -, -⟩ := connFile_read hf
  obtain ⟨cfg, disk', c1, c2, c3, c4, -, c6⟩ := connFile_cfg hf r1
  have hz : ∀ (names : List K) (varis : List (K × Variable K)) (prob : K → ℕ → ℚ) (n : ℕ),
      connCsys names (connRunCfg lib inf.G o d names varis prob 0 n) = .error .type := fun _ _ _ _ => rfl
  constructor
  · unfold sfMain
    rw [c1, ok_bind]
    simp only [c2, r3, c3, hb, cfgNum, ok_bind]
    rw [hz]
    rfl
  · intro probs nSf sf hp hs hs0
    have hm : ∃ ps, (m.conns.map Prod.fst).mapM (itemsGet probs) = .ok ps := by
      refine mapM_total _ fun k hk => ?_
      obtain ⟨c, hc, rfl⟩ := List.mem_map.1 hk
      obtain ⟨a, b, h, -⟩ := hp c hc
      exact ⟨_, itemsGet_some h⟩
    obtain ⟨ps, hm⟩ := hm
    have hc : sf.ceil.toNat = 0 := by
      have : sf.ceil ≤ 0 := Rat.ceil_le_iff.2 (by simpa using hs0)
      omega
    unfold n3e3Main
    rw [c1, ok_bind]
    simp only [c2, r3]
    rw [itemsGet_some ((c6 nSf).trans hs), ok_bind, c3, hb]
    simp only [cfgNum, ok_bind, hm, hc, hz, error_bind]

/-- The variables of the routine demo. -/
theorem routine_sysVars {names : List K} {sys : K} (hn : names.Nodup) (hs : sys ∉ names) :
    SysVars (routineVar sys) (binary names) sys 3 := by
  have hne : ∀ kn ∈ binary names, routineVar sys kn.1 = rbdVariable kn.1 := fun kn h =>
    if_neg fun (e : kn.1 = sys) => hs (e ▸ (mem_binary.1 h).1)
  have hsv : routineVar sys sys = .mk' sys [0, 1, 2] .dflt := if_pos rfl
  refine ⟨⟨by rwa [binary_fst], fun kn h => by rw [(mem_binary.1 h).2]; norm_num⟩, fun kn h => ?_,
    fun kn h => ?_, fun kn h => ?_, by rwa [binary_fst], ?_, ?_, ?_⟩
  · rw [hne kn h]; rfl
  · rw [hne kn h, (mem_binary.1 h).2]; rfl
  · rw [hne kn h, (mem_binary.1 h).2]; rfl
  · rw [hsv]; rfl
  · rw [hsv]; rfl
  · rw [hsv]; rfl

/-- **C97, the routine demo.**  The same files, an origin and destination of the file, probabilities
`prob` for the connections, and a name `sys` that no connection has.  The demo prints two numbers: the
first is at most the probability that no way over working connections leads from the origin to the
destination, the second at most the probability that one does.  With at most five connections, as in
the file of the demo, they are equal to these probabilities. -/
theorem C97_routine {lib : PathLib K} (hlib : PathLibOK lib)
    (hf : ConnFileOK disk.files data p q m directed multi mb) {probs : ConnProbs K} {prob : K → ℕ → ℚ}
    (hp : ∀ c ∈ m.conns, probs.lookup c.1 = some (prob c.1 0, prob c.1 1))
    (hprob : ProbOK (connVs m) prob) {od sys o d : K} (hod : m.ods.lookup od = some (o, d))
    (ho : o ∈ m.comps.map Prod.fst) (hsys : sys ∉ m.conns.map Prod.fst) (hne : m.conns ≠ [])
    [DecidablePred (LinkedIn directed m.conns o d)] :
    ∃ pf ps disk', routineMain lib probs od sys data disk = .ok ((pf, ps), disk') ∧
      disk'.files = disk.files ∧
      pf ≤ probOf (connVs m) prob (fun x => ¬ LinkedIn directed m.conns o d x) ∧
      ps ≤ probOf (connVs m) prob (LinkedIn directed m.conns o d) ∧
      (m.conns.length ≤ 5 →
        pf = probOf (connVs m) prob (fun x => ¬ LinkedIn directed m.conns o d x) ∧
        ps = probOf (connVs m) prob (LinkedIn directed m.conns o d)) := by
  obtain ⟨inf, r1, r2, r3, -, r5, r6, r7⟩ := connFile_read hf
  obtain ⟨cfg, disk', c1, c2, c3, c4, -, c6⟩ := connFile_cfg hf r1
  set names := m.conns.map Prod.fst with hnames
  have hbin : connVs m = binary names := connVs_binary m
  have hpe : ∀ kn ∈ connVs m, ∀ i < 2, probs.prob kn.1 i = prob kn.1 i := by
    intro kn hkn i hi
    obtain ⟨c, hc, rfl⟩ := List.mem_map.1 hkn
    simp only [ConnProbs.prob, hp c hc]
    obtain rfl | rfl : i = 0 ∨ i = 1 := by omega
    · rfl
    · rfl
  have hpk : ConnProbsOK m probs := by
    intro c hc
    have hm : (c.1, 2) ∈ connVs m := List.mem_map.2 ⟨c, hc, rfl⟩
    refine ⟨_, _, hp c hc, hprob.nonneg _ hm 0 (by norm_num), hprob.nonneg _ hm 1 (by norm_num), ?_⟩
    have := hprob.total _ hm
    simpa [Finset.sum_range_succ] using this
  have hU : SysVars (routineVar sys) (binary names) sys 3 := routine_sysVars hf.names hsys
  have hΦ : ∀ x, (fun x => decide (LinkedIn directed m.conns o d x)) x = true ↔
      LinkedIn directed m.conns o d x := fun x => by simp
  set c := connRunCfg lib inf.G o d names (names.map fun k => (k, rbdVariable k)) probs.prob 1000 100
    with hcdef
  have hc : CfgOK c (fun x => decide (LinkedIn directed m.conns o d x)) :=
    connCfg_ok hlib r5 r6 r7 hf ho _ hpk.probOK 1000 100 hΦ
  obtain ⟨st, hst⟩ := C27_returns hc rfl (Ex.start_empty c)
  have hvs : c.vs = binary names := rfl
  have hv2 : ∀ kn ∈ c.vs, routineVar sys kn.1 = rbdVariable kn.1 := fun kn h =>
    if_neg fun (e : kn.1 = sys) => hsys (e ▸ (mem_binary.1 h).1)
  have hvne : c.vs ≠ [] := by
    rw [hvs]; intro h
    have := congrArg (List.map Prod.fst) h
    rw [binary_fst, hnames] at this
    exact hne (List.map_eq_nil_iff.1 this)
  have hvk : ∀ kn ∈ c.vs, (fun k => if k ∈ names then some (rbdVariable k) else none) kn.1 =
      some (routineVar sys kn.1) := fun kn hkn => by rw [hv2 kn hkn]; exact if_pos (mem_binary.1 hkn).1
  obtain ⟨bs, C, g1, g2, g3⟩ := C78_product hc (Nat.zero_lt_succ 999) hvne
    (Ex.start_empty c) hst hU (varis := fun k => if k ∈ names then some (rbdVariable k) else none)
    hvk (lbl := stBrToCs) stBrToCs_some
  obtain ⟨-, -, -, hrun⟩ := C27_bounds hc (Ex.start_empty c) hst
  obtain ⟨bs', -, q1, hpart, hlab, -⟩ := hrun (Nat.zero_lt_succ 999)
  rw [g1] at q1
  cases q1
  have hcomps : names.mapM (routineComp probs) =
      .ok (names.map fun k => compCpm (routineVar sys) probs.prob (k, 2)) := by
    refine mapM_ok fun k hk => ?_
    obtain ⟨cc, hcc, rfl⟩ := List.mem_map.1 hk
    have hm : (cc.1, 2) ∈ c.vs := mem_binary.2 ⟨hk, rfl⟩
    have hw := compCpm_WF hU probs.prob hm
    unfold routineComp
    rw [itemsGet_some (hp cc hcc), ok_bind]
    have he : ({ vars := [rbdVariable cc.1], noChild := 1, C := [[0], [1]]
                 p := [prob cc.1 0, prob cc.1 1] } : Cpm K) = compCpm (routineVar sys) probs.prob (cc.1, 2) := by
      have hm' : (cc.1, 2) ∈ connVs m := List.mem_map.2 ⟨cc, hcc, rfl⟩
      unfold compCpm
      rw [hv2 _ hm]
      simp [List.range_succ, hpe _ hm']
    rw [he]
    exact mk'_ok hw.rowLen hw.entry hw.child (.inr hw.pLen) hw.noCs.1
  have hperm : (names.map fun k => compCpm (routineVar sys) probs.prob (k, 2)).Perm
      (c.vs.map (compCpm (routineVar sys) c.probs)) := by
    have : c.vs.map (compCpm (routineVar sys) c.probs) =
        names.map fun k => compCpm (routineVar sys) probs.prob (k, 2) := by
      rw [hvs]
      unfold binary
      exact List.map_map
    rw [this]
  obtain ⟨M, h1, -, -, h4⟩ := g3 _ hperm
  obtain ⟨C', e1, e2, -⟩ := csys_rows (vs := c.vs) hU hpart
    (varis := fun k => if k ∈ names then some (rbdVariable k) else none) hvk fun b _ => stBrToCs_some b.label
  rw [g2] at e1
  cases e1
  have hM : M.vars = routineVar sys sys :: compVariables (routineVar sys) (binary names) := by
    have := sysProd_ok hU c.probs e2 hvne hperm
    rw [hvs] at h1
    rw [h1] at this
    cases this
    rfl
  rw [hvs] at h1
  have hvar : M.getVariables [sys] = .ok [routineVar sys sys] := by
    obtain ⟨vs, f1, f2, f3⟩ := (C55_get_variables M [sys]).1 (by
      intro k hk
      rw [List.mem_singleton.1 hk]
      unfold Cpm.getNames
      rw [hM, List.map_cons, hU.sysName]
      exact List.mem_cons_self)
    rw [f1]
    match vs, f3 with
    | [v], f3 =>
      have hv : v.name = sys := by simpa using f3
      have := f2 v (by simp)
      rw [hM] at this
      rcases List.mem_cons.1 this with rfl | h
      · rfl
      · obtain ⟨kn, hk, rfl⟩ := mem_compVariables.1 h
        rw [hU.name kn hk] at hv
        exact absurd (hv ▸ (mem_binary.1 hk).1) hsys
  have hS : Cpm.mk' { vars := (sys :: names).map (routineVar sys), noChild := 1, C := C
                      p := C.map fun _ => 1 } = .ok (sysCpm (routineVar sys) (binary names) sys C) := by
    have hw := sysCpm_WF hU e2
    have hcv : compVariables (routineVar sys) (binary names) = names.map (routineVar sys) := by
      unfold compVariables binary
      rw [List.map_map]; rfl
    have he : ({ vars := (sys :: names).map (routineVar sys), noChild := 1, C := C
                 p := C.map fun _ => 1 } : Cpm K) = sysCpm (routineVar sys) (binary names) sys C := by
      unfold sysCpm
      rw [hcv, List.map_cons]
    rw [he]
    exact mk'_ok hw.rowLen hw.entry hw.child (.inr hw.pLen) hw.noCs.1
  have hcs : connCsys names c = .ok C := by
    have hn : c.vs.map Prod.fst = names := binary_fst names
    rw [hn] at g2
    unfold connCsys
    rw [hst, ok_bind]
    simp only [g1]
    rw [g2]
    rfl
  have hzip : ((names.zip (names.map fun k => compCpm (routineVar sys) probs.prob (k, 2))).map fun kc =>
      if kc.1 = sys then sysCpm (routineVar sys) (binary names) sys C else kc.2) =
      names.map fun k => compCpm (routineVar sys) probs.prob (k, 2) := by
    rw [List.zip_map_right, List.map_map]
    have : names.zip names = names.map fun k => (k, k) := by
      clear_value names
      clear * -
      induction names with
      | nil => rfl
      | cons a l ih => rw [List.zip_cons_cons, ih]; rfl
    rw [this, List.map_map]
    exact List.map_congr_left fun k hk => if_neg fun (e : k = sys) => hsys (e ▸ hk)
  have hq : ∀ j < 3, M.getProb [routineVar sys sys] [j] true = .ok (probOf c.vs c.probs fun x =>
      ∃ b ∈ bs, stBrToCs b.label = some j ∧ InBox c.vs b x ∧
        ∀ a ∈ ([] : List ((K × ℕ) × ℕ)), b.down a.1.1 ≤ a.2 ∧ a.2 ≤ b.up a.1.1) :=
    fun j hj => h4 j hj [] (by simp) (by simp)
  obtain ⟨pf, hpf, ef⟩ : ∃ v, M.getProb [routineVar sys sys] [0] true = .ok v ∧ _ = v := ⟨_, hq 0 (by omega), rfl⟩
  obtain ⟨ps, hps, es⟩ : ∃ v, M.getProb [routineVar sys sys] [1] true = .ok v ∧ _ = v := ⟨_, hq 1 (by omega), rfl⟩
  have hres : routineMain lib probs od sys data disk = .ok ((pf, ps), disk') := by
    unfold routineMain
    rw [c1, ok_bind]
    simp only [c2, r2, r3]
    rw [itemsGet_some hod, ok_bind, ← hnames, hcomps, ok_bind, ← hcdef, hcs, ok_bind, hS, ok_bind, hzip,
      h1, ok_bind, hvar, ok_bind, hpf, ok_bind, hps, ok_bind]
    rfl
  have hlabf : ∀ b : Branch K, stBrToCs b.label = some 0 → b.label = .f := fun b h => by
    cases hl : b.label <;> rw [hl] at h <;> simp [stBrToCs] at h ⊢
  have hlabs : ∀ b : Branch K, stBrToCs b.label = some 1 → b.label = .s := fun b h => by
    cases hl : b.label <;> rw [hl] at h <;> simp [stBrToCs] at h ⊢
  have hfail : ∀ x, (∃ b ∈ bs, stBrToCs b.label = some 0 ∧ InBox c.vs b x ∧
      ∀ a ∈ ([] : List ((K × ℕ) × ℕ)), b.down a.1.1 ≤ a.2 ∧ a.2 ≤ b.up a.1.1) →
      ¬ LinkedIn directed m.conns o d x := by
    rintro x ⟨b, hb, hl, hin, -⟩
    exact of_decide_eq_false ((label_sound hc.coh (hlab b hb).2 hin).1 (hlabf b hl))
  have hsurv : ∀ x, (∃ b ∈ bs, stBrToCs b.label = some 1 ∧ InBox c.vs b x ∧
      ∀ a ∈ ([] : List ((K × ℕ) × ℕ)), b.down a.1.1 ≤ a.2 ∧ a.2 ≤ b.up a.1.1) →
      LinkedIn directed m.conns o d x := by
    rintro x ⟨b, hb, hl, hin, -⟩
    exact of_decide_eq_true ((label_sound hc.coh (hlab b hb).2 hin).2 (hlabs b hl))
  have hprobs : ∀ (E : (K → ℕ) → Prop) [DecidablePred E],
      probOf c.vs c.probs E = probOf (connVs m) prob E := by
    intro E _
    rw [hbin] at hpe ⊢
    unfold probOf
    refine sumOver_congr' (binary names) hc.vs.nodup _ fun x hx _ => ?_
    have : weight c.vs c.probs x = weight (binary names) prob x := by
      unfold weight
      congr 1
      exact List.map_congr_left fun kn hkn => hpe kn hkn _ (by
        have := hx kn hkn
        rwa [(mem_binary.1 hkn).2] at this)
    rw [this]
  refine ⟨pf, ps, disk', hres, c4, ?_, ?_, fun h5 => ?_⟩
  · rw [← hprobs, ← ef]
    exact probOf_mono hc.vs hc.probs _ _ fun x _ h => hfail x h
  · rw [← hprobs, ← es]
    exact probOf_mono hc.vs hc.probs _ _ fun x _ h => hsurv x h
  · have hp5 : (c.vs.map Prod.snd).prod = 2 ^ names.length := by
      rw [hvs, binary, List.map_map]
      exact binary_prod names
    have hle : 2 ^ names.length ≤ 2 ^ 5 := Nat.pow_le_pow_right (by norm_num) (by
      rw [hnames, List.length_map]; exact h5)
    have k1 : (c.vs.map Prod.snd).prod < c.maxSf := by
      rw [hp5]; exact lt_of_le_of_lt hle (show 2 ^ 5 < 1000 by norm_num)
    have k2 : 2 * (c.vs.map Prod.snd).prod ≤ c.maxNb := by
      rw [hp5]; exact le_trans (Nat.mul_le_mul_left 2 hle) (show 2 * 2 ^ 5 ≤ 100 by norm_num)
    obtain ⟨st', p1, p2⟩ := C29_completes hc rfl k1 k2 rfl rfl (Ex.start_empty c)
    rw [hst] at p1
    cases p1
    obtain ⟨bs2, row, s1, -, s2, -⟩ := C28_enough_branches_partial hc (Ex.start_empty c)
      (resume_none c _) k2 hst p2
    rw [g1] at s1
    cases s1
    have hlabel : ∀ b ∈ bs, b.label = .f ∨ b.label = .s := by
      intro b hb'
      obtain ⟨h1, h2⟩ := s2 b hb'
      unfold Branch.label
      rw [if_pos h1]
      cases hd : b.downState
      · exact .inr rfl
      · exact .inl rfl
      · exact absurd hd h2
    rw [← hprobs, ← hprobs, ← ef, ← es]
    constructor
    · refine probOf_congr hc.vs _ _ _ fun x hx => ⟨hfail x, fun hnl => ?_⟩
      obtain ⟨b, hb', hin⟩ := hpart.exists hx
      rcases hlabel b hb' with e | e
      · exact ⟨b, hb', by rw [e]; rfl, hin, fun a ha => absurd ha List.not_mem_nil⟩
      · exact absurd (of_decide_eq_true ((label_sound hc.coh (hlab b hb').2 hin).2 e)) hnl
    · refine probOf_congr hc.vs _ _ _ fun x hx => ⟨hsurv x, fun hnl => ?_⟩
      obtain ⟨b, hb', hin⟩ := hpart.exists hx
      rcases hlabel b hb' with e | e
      · exact absurd hnl (of_decide_eq_false ((label_sound hc.coh (hlab b hb').2 hin).1 e))
      · exact ⟨b, hb', by rw [e]; rfl, hin, fun a ha => absurd ha List.not_mem_nil⟩

/-- **C97, how to check the numbers of the routine demo**, for any number of connections: they are the
two probabilities exactly when they add up to one. -/
theorem C97_check {lib : PathLib K} (hlib : PathLibOK lib)
    (hf : ConnFileOK disk.files data p q m directed multi mb) {probs : ConnProbs K} {prob : K → ℕ → ℚ}
    (hp : ∀ c ∈ m.conns, probs.lookup c.1 = some (prob c.1 0, prob c.1 1))
    (hprob : ProbOK (connVs m) prob) {od sys o d : K} (hod : m.ods.lookup od = some (o, d))
    (ho : o ∈ m.comps.map Prod.fst) (hsys : sys ∉ m.conns.map Prod.fst) (hne : m.conns ≠ [])
    [DecidablePred (LinkedIn directed m.conns o d)] {pf ps : ℚ} {disk' : Disk K}
    (hr : routineMain lib probs od sys data disk = .ok ((pf, ps), disk')) :
    pf + ps ≤ 1 ∧ (pf + ps = 1 ↔
      pf = probOf (connVs m) prob (fun x => ¬ LinkedIn directed m.conns o d x) ∧
      ps = probOf (connVs m) prob (LinkedIn directed m.conns o d)) := by
  obtain ⟨pf', ps', d', h1, -, h2, h3, -⟩ := C97_routine hlib hf hp hprob hod ho hsys hne
  rw [hr] at h1
  cases h1
  have hv : VarisOK (connVs m) := by
    rw [connVs_binary]
    exact ⟨by rw [binary_fst]; exact hf.names, fun kn h => by rw [(mem_binary.1 h).2]; norm_num⟩
  have hn := probOf_not hv hprob (LinkedIn directed m.conns o d)
  refine ⟨by linarith, fun h => ⟨by linarith, by linarith⟩, fun ⟨e1, e2⟩ => by linarith⟩

/-- **C97, errors.**  A pair that is not in the file and a connection without probabilities are
`KeyError`s, so is a missing `MAX_SYS_FUN` in the n3e3 demo; a limit that is not a number is a
`TypeError`. -/
theorem C97_errors {lib : PathLib K} (hf : ConnFileOK disk.files data p q m directed multi mb)
    {probs : ConnProbs K} (od sys nSf o d : K) :
    (m.ods.lookup od = none → routineMain lib probs od sys data disk = .error .key) ∧
    ((∃ c ∈ m.conns, probs.lookup c.1 = none) → routineMain lib probs od sys data disk = .error .key) ∧
    (data.lookup (.other nSf) = none → n3e3Main lib probs nSf o d data disk = .error .key) ∧
    (∀ v, data.lookup (.other nSf) = some v → (∀ r, v ≠ .num r) →
      n3e3Main lib probs nSf o d data disk = .error .type) ∧
    (∀ v r, data.lookup (.other nSf) = some v → v = .num r → (∀ r, mb ≠ .num r) →
      n3e3Main lib probs nSf o d data disk = .error .type) ∧
    (∀ r r', data.lookup (.other nSf) = some (.num r) → mb = .num r' →
      (∃ c ∈ m.conns, probs.lookup c.1 = none) → n3e3Main lib probs nSf o d data disk = .error .key) ∧
    ((∀ r, mb ≠ .num r) → ∀ n, sfMain lib o d n data disk = .error .type) := by
  obtain ⟨inf, r1, r2, r3, -, -⟩ := connFile_read hf
  obtain ⟨cfg, disk', c1, c2, c3, c4, -, c6⟩ := connFile_cfg hf r1
  have hnum : ∀ v : CfgVal K, (∀ r, v ≠ .num r) → cfgNum v = .error .type := fun v hv => by
    cases v with
    | num r => exact absurd rfl (hv r)
    | _ => rfl
  refine ⟨fun h => ?_, fun h => ?_, fun h => ?_, fun v h hv => ?_, ?_, ?_, fun h n => ?_⟩
  · unfold routineMain
    rw [c1, ok_bind]
    simp only [c2, r2]
    rw [itemsGet_none h, error_bind]
  · unfold routineMain
    rw [c1, ok_bind]
    simp only [c2, r2, r3]
    cases hl : m.ods.lookup od with
    | none => rw [itemsGet_none hl, error_bind]
    | some pair =>
      rw [itemsGet_some hl, ok_bind]
      have : (m.conns.map Prod.fst).mapM (routineComp probs) = .error .key := by
        refine mapM_error ?_ ?_
        · obtain ⟨c, hc, hn⟩ := h
          refine ⟨c.1, List.mem_map_of_mem hc, ?_⟩
          unfold routineComp
          rw [itemsGet_none hn, error_bind]
        · intro k _ e' he
          unfold routineComp at he
          cases hk : probs.lookup k with
          | none => rw [itemsGet_none hk, error_bind] at he; cases he; rfl
          | some pq =>
            rw [itemsGet_some hk, ok_bind, mk'_ok] at he
            · cases he
            · intro r hr
              rcases List.mem_cons.1 hr with rfl | hr
              · rfl
              · rw [List.mem_singleton.1 hr]; rfl
            · intro r hr p hp
              have hv : (rbdVariable k : Variable K).values.length = 2 := rfl
              rcases List.mem_cons.1 hr with rfl | hr
              · rw [List.mem_singleton.1 hp]
                simp [hv]
              · rw [List.mem_singleton.1 hr] at hp
                rw [List.mem_singleton.1 hp]
                simp [hv]
            · simp
            · simp
            · rfl
      rw [this, error_bind]
  · unfold n3e3Main
    rw [c1, ok_bind]
    simp only []
    rw [itemsGet_none ((c6 nSf).trans h), error_bind]
  · unfold n3e3Main
    rw [c1, ok_bind]
    simp only []
    rw [itemsGet_some ((c6 nSf).trans h), ok_bind, hnum v hv, error_bind]
  · rintro v r h rfl hb
    unfold n3e3Main
    rw [c1, ok_bind]
    simp only []
    rw [itemsGet_some ((c6 nSf).trans h), ok_bind, c3, hnum mb hb]
    rfl
  · intro r r' h hb hc
    unfold n3e3Main
    rw [c1, ok_bind]
    simp only [c2, r3]
    have : (m.conns.map Prod.fst).mapM (itemsGet probs) = .error .key := by
      refine mapM_error ?_ ?_
      · obtain ⟨c, hc, hn⟩ := hc
        exact ⟨c.1, List.mem_map_of_mem hc, itemsGet_none hn⟩
      · intro k _ e' he
        cases hk : probs.lookup k with
        | none => rw [itemsGet_none hk] at he; cases he; rfl
        | some pq => rw [itemsGet_some hk] at he; cases he
    rw [itemsGet_some ((c6 nSf).trans h), ok_bind, c3, hb]
    simp only [cfgNum, ok_bind, this, error_bind]
  · unfold sfMain
    rw [c1, ok_bind]
    simp only [c3]
    rw [hnum mb h, error_bind]

end

/-! ### An example: three nodes and three connections -/

namespace Ex

def triFile : NetJson ℕ :=
  { comps := [(1, 0, 0), (2, 0, 0), (3, 0, 0)]
    conns := [(101, 1, 2, 1), (102, 1, 3, 1), (103, 2, 3, 1)], ods := [(31, 1, 3)], gtype := some .graph }

def triDisk : Disk ℕ :=
  { files := fun k => if k = 10 then some (.model triFile) else none, dirs := fun _ => false }

/-- `MAX_SYS_FUN` is entry 20. -/
def triData : List (CfgKey ℕ × CfgVal ℕ) :=
  [(.modelName, .text 10), (.maxBranches, .num 1500), (.configurationId, .text 12),
    (.outputPath, .text 11), (.scenarioName, .null), (.other 20, .num 100)]

def triProbs : ConnProbs ℕ := [(101, 1 / 2, 1 / 2), (102, 1 / 4, 3 / 4), (103, 1 / 2, 1 / 2)]

theorem triFile_ok : ConnFileOK triDisk.files triData 10 11 triFile false false (.num 1500) where
  model := rfl
  file := rfl
  scen := .inl ⟨_, rfl, .inr (.inl rfl)⟩
  id := ⟨_, rfl⟩
  branches := rfl
  out := rfl
  gtype := .inr (.inl ⟨rfl, rfl, rfl⟩)
  noParallel := fun _ => by
    unfold NoParallel ConnLinks
    simp only [triFile, List.pairwise_cons, List.mem_cons, List.not_mem_nil, or_false,
      forall_eq_or_imp, forall_eq, List.Pairwise.nil, and_true]
    refine ⟨⟨?_, ?_⟩, ?_, fun _ h => h.elim⟩ <;> intro u v h <;> omega
  names := by decide
  apart := by decide
  apartNodes := by decide

theorem triProbs_ok : ConnProbsOK triFile triProbs := by
  intro c hc
  simp only [triFile, List.mem_cons, List.not_mem_nil, or_false] at hc
  rcases hc with rfl | rfl | rfl
  · exact ⟨1 / 2, 1 / 2, rfl, by norm_num, by norm_num, by norm_num⟩
  · exact ⟨1 / 4, 3 / 4, rfl, by norm_num, by norm_num, by norm_num⟩
  · exact ⟨1 / 2, 1 / 2, rfl, by norm_num, by norm_num, by norm_num⟩

example : ∃ C disk', n3e3Main enumLib triProbs 20 1 3 triData triDisk = .ok (C, disk') ∧
    disk'.files = triDisk.files ∧
    DecidesLinks triFile false 1 3 (fun k => .mk' k [0, 1] .dflt)
      ((2 ^ 3 : ℚ) < 100 ∧ (2 * 2 ^ 3 : ℚ) ≤ 1500) C :=
  C97_n3e3 enumLib_ok triFile_ok triProbs_ok (by decide) rfl (by norm_num) rfl

example : ∃ C disk', sfMain enumLib 1 3 10 triData triDisk = .ok (C, disk') ∧ disk'.files = triDisk.files ∧
    DecidesLinks triFile false 1 3 (fun k => .mk' k [0, 1] .dflt) (2 ^ 3 < 10 ∧ (2 * 2 ^ 3 : ℚ) ≤ 1500) C :=
  C97_sf enumLib_ok triFile_ok (by decide) (by norm_num) rfl

open Classical in
example : ∃ disk', routineMain enumLib triProbs 31 50 triData triDisk =
      .ok ((probOf (connVs triFile) triProbs.prob fun x => ¬ LinkedIn false triFile.conns 1 3 x,
        probOf (connVs triFile) triProbs.prob (LinkedIn false triFile.conns 1 3)), disk') ∧
    disk'.files = triDisk.files := by
  obtain ⟨pf, ps, disk', h1, h2, -, -, h3⟩ := C97_routine enumLib_ok triFile_ok (probs := triProbs)
    (prob := triProbs.prob) (od := 31) (sys := 50) (o := 1) (d := 3) (by decide +kernel)
    triProbs_ok.probOK rfl (by decide) (by decide) (by decide)
  obtain ⟨rfl, rfl⟩ := h3 (by decide)
  exact ⟨disk', h1, h2⟩

open Classical in
/-- Non-vacuity: the numbers printed for the triangle add up to one. -/
example : ∃ pf ps disk', routineMain enumLib triProbs 31 50 triData triDisk = .ok ((pf, ps), disk') ∧
    pf + ps = 1 := by
  obtain ⟨pf, ps, disk', h1, -, -, -, h3⟩ := C97_routine enumLib_ok triFile_ok (probs := triProbs)
    (prob := triProbs.prob) (od := 31) (sys := 50) (o := 1) (d := 3) (by decide +kernel)
    triProbs_ok.probOK rfl (by decide) (by decide) (by decide)
  exact ⟨pf, ps, disk', h1, (C97_check enumLib_ok triFile_ok (prob := triProbs.prob) (by decide +kernel)
    triProbs_ok.probOK rfl (by decide) (by decide) (by decide) h1).2.2 (h3 (by decide))⟩

end Ex

end BNS
