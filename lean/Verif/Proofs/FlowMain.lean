import Verif.Spec.FlowFile
import Verif.Proofs.Files
import Verif.Proofs.ByOd
import Verif.Props.Config
import Verif.Props.MaxFlowDemo
import Verif.Props.BrcStop

/-!
# Lemmas on the commands of the max_flow demo
-/

namespace BNS

set_option linter.unusedSectionVars false

section
variable {K : Type} [DecidableEq K]

/-- Probability of a state of a connection. -/
def flowProbOf (m : NetJson K) (probs : K → List ℚ) (k : K) (s : ℕ) : ℚ :=
  if k ∈ m.conns.map Prod.fst then (probs k).getD s 0 else 0

theorem statesOf_flowVaris (m : NetJson K) (caps : K → List ℚ) :
    statesOf (flowVarisOf m caps) = flowStates m caps := by
  simp only [statesOf, flowVarisOf, flowStates, List.map_map]
  rfl

theorem readModel_parts {m : NetJson K} (h : m.gtype ≠ some .other) :
    ∃ inf, readModel m = .ok inf ∧ inf.conns = m.conns ∧ inf.ods = m.ods := by
  unfold readModel
  have : ∃ G, emptyGraph (K := K) m.gtype = .ok G := by
    cases hg : m.gtype with
    | none => exact ⟨_, rfl⟩
    | some t => cases t <;> first | exact ⟨_, rfl⟩ | exact absurd hg h
  obtain ⟨G, hG⟩ := this
  rw [hG, ok_bind]
  exact ⟨_, rfl, rfl, rfl⟩

theorem lookup_filter_key {A B : Type} [DecidableEq A] {l : List (A × B)} {P : A → Prop}
    [DecidablePred P] {k : A} (hk : P k) : (l.filter fun e => decide (P e.1)).lookup k = l.lookup k := by
  induction l with
  | nil => rfl
  | cons a l ih =>
    obtain ⟨a1, a2⟩ := a
    by_cases ha : P a1
    · rw [List.filter_cons_of_pos (by simpa using ha), List.lookup_cons, List.lookup_cons, ih]
    · have hne : (k == a1) = false := by
        rw [beq_eq_false_iff_ne]
        exact fun h => ha (h ▸ hk)
      rw [List.filter_cons_of_neg (by simpa using ha), ih, List.lookup_cons, hne]

variable {nSf nWr : K} {ext : K → FlowExt K} {data : List (CfgKey K × CfgVal K)} {p : K} {m : NetJson K}
  {mb w : ℚ} {sf : CfgVal K} {caps probs : K → List ℚ}

theorem lookup_mem_pair {A : Type} {l : List (K × A)} {k : K} {a : A} (h : l.lookup k = some a) :
    (k, a) ∈ l := by
  induction l with
  | nil => cases h
  | cons e l ih =>
    obtain ⟨e1, e2⟩ := e
    rw [List.lookup_cons] at h
    by_cases hk : k = e1
    · subst hk
      rw [beq_self_eq_true] at h
      cases h
      exact List.mem_cons_self
    · rw [beq_eq_false_iff_ne.2 hk] at h
      exact List.mem_cons_of_mem _ (ih h)

theorem lookup_mapM_key {A B : Type} {l : List (K × A)} {f : K × A → Except Err B} {r : List (K × B)}
    (h : (l.mapM fun e => do let s ← f e; return (e.1, s)) = .ok r) (k : K) :
    (∀ a, l.lookup k = some a → ∃ b, f (k, a) = .ok b ∧ r.lookup k = some b) ∧
    (l.lookup k = none → r.lookup k = none) := by
  induction l generalizing r with
  | nil => cases h; exact ⟨fun a ha => (by cases ha), fun _ => rfl⟩
  | cons e l ih =>
    obtain ⟨e1, e2⟩ := e
    rw [List.mapM_cons] at h
    obtain ⟨x, h1, h2⟩ := bind_ok.1 h
    obtain ⟨r', h3, h4⟩ := bind_ok.1 h2
    obtain ⟨b, h5, h6⟩ := bind_ok.1 h1
    cases h4; cases h6
    obtain ⟨i1, i2⟩ := ih h3
    rw [List.lookup_cons, List.lookup_cons]
    by_cases hk : k = e1
    · subst hk
      rw [beq_self_eq_true]
      refine ⟨fun a ha => ?_, fun ha => (by cases ha)⟩
      cases ha
      exact ⟨b, h5, rfl⟩
    · rw [beq_eq_false_iff_ne.2 hk]
      exact ⟨i1, i2⟩

theorem readFlowOds_ok {ods : List (K × K × K)} {e : FlowExt K}
    (h : ∀ x ∈ ods, ∃ s, e.setup.lookup x.1 = some s) :
    ∃ r, readFlowOds ods e = .ok r ∧ ∀ k, (∀ o d t bi key, ods.lookup k = some (o, d) →
      e.setup.lookup k = some (t, bi, key) → r.lookup k = some ⟨o, d, t, bi, key⟩) ∧
      (ods.lookup k = none → r.lookup k = none) := by
  set f : K × K × K → Except Err (FlowOd K) := fun x => do
    let s ← itemsGet e.setup x.1
    return { o := x.2.1, d := x.2.2, target := s.1, bi := s.2.1, key := s.2.2 } with hf
  have heq : readFlowOds ods e = ods.mapM fun x => do let s ← f x; return (x.1, s) := by
    unfold readFlowOds
    congr 1
    funext x
    simp only [hf, bind_assoc, pure_bind]
  rw [heq]
  have : ∃ r, (ods.mapM fun x => do let s ← f x; return (x.1, s)) = .ok r := by
    refine ⟨ods.map fun x => (x.1, (f x).toOption.getD ⟨x.1, x.1, 0, true, x.1⟩), ?_⟩
    refine mapM_ok fun x hx => ?_
    obtain ⟨s, hs⟩ := h x hx
    simp only [hf, itemsGet_some hs, ok_bind, pure_ok]
    rfl
  obtain ⟨r, hr⟩ := this
  refine ⟨r, hr, fun k => ?_⟩
  obtain ⟨h1, h2⟩ := lookup_mapM_key hr k
  refine ⟨fun o d t bi key h3 h4 => ?_, h2⟩
  obtain ⟨b, h5, h6⟩ := h1 _ h3
  simp only [hf, itemsGet_some h4, ok_bind, pure_ok] at h5
  cases h5
  exact h6

theorem flowConfig_ok {disk : Disk K}
    (h : FlowFileOK nSf nWr disk.files ext data p m mb w sf caps probs) :
    ∃ c, flowConfig nSf nWr disk ext data = .ok c ∧ c.base.infra.conns = m.conns ∧
      c.base.maxBranches = .num mb ∧ c.disk.files = disk.files ∧
      c.maxSf = (if sf.truthy then some sf else none) ∧ c.wr = .num w ∧ c.ext = ext p ∧
      ∀ k, (∀ o d t bi key, m.ods.lookup k = some (o, d) →
        (ext p).setup.lookup k = some (t, bi, key) → c.ods.lookup k = some ⟨o, d, t, bi, key⟩) ∧
        (m.ods.lookup k = none → c.ods.lookup k = none) := by
  obtain ⟨inf, hr, hc, ho⟩ := readModel_parts h.gtype
  obtain ⟨v, hv, hv'⟩ := h.scen
  obtain ⟨key, hk⟩ := h.id
  obtain ⟨q, hq⟩ := h.out
  obtain ⟨cfg, disk', h1, h2, -, -, -, h3, -, h4, h5, -⟩ := C81_without_scenarios h.model h.file hr hv hv'
    hk h.branches hq
  obtain ⟨r, h6, h7⟩ := readFlowOds_ok (ods := m.ods) (e := ext p) h.setup
  have hl : ∀ n : K, cfg.data.lookup (.other n) = data.lookup (.other n) := by
    intro n
    rw [h4]
    exact lookup_filter_key (P := fun e => e ∉ [CfgKey.modelName, .maxBranches, .configurationId,
      .outputPath]) (by simp)
  unfold flowConfig
  simp only [h1, ok_bind]
  rw [itemsGet_some ((hl nSf).trans h.sf), itemsGet_some ((hl nWr).trans h.wr)]
  simp only [modelPath, itemsGet_some h.model, ok_bind, h2, ho, h6, pure_ok]
  exact ⟨_, rfl, by rw [h2]; exact hc, h3, h5, rfl, rfl, rfl, h7⟩

theorem initFlow_ok {disk : Disk K}
    (h : FlowFileOK nSf nWr disk.files ext data p m mb w sf caps probs) {od o d : K} {t : ℚ}
    {bi : Bool} {key : K} (ho : m.ods.lookup od = some (o, d))
    (hs : (ext p).setup.lookup od = some (t, bi, key)) :
    ∃ pr, initFlowProb nSf nWr disk ext data od = .ok pr ∧ pr.varis = flowVarisOf m caps ∧
      pr.edges = m.conns.map (fun c => (c.1, c.2.1, c.2.2.1)) ∧
      pr.probs = m.conns.map (fun c => (c.1, probs c.1)) ∧ pr.od = ⟨o, d, t, bi, key⟩ ∧
      pr.cfg.base.maxBranches = .num mb ∧ pr.cfg.disk.files = disk.files ∧
      pr.cfg.maxSf = (if sf.truthy then some sf else none) ∧ pr.cfg.wr = .num w := by
  obtain ⟨c, h1, h2, h3, h4, h5, h6, h7, h8⟩ := flowConfig_ok h
  have hv : (m.conns.mapM fun c => do
      let v ← itemsGet (ext p).caps c.1
      return (c.1, Variable.mk' c.1 v .dflt)) = .ok (flowVarisOf m caps) := by
    refine mapM_ok fun c hc => ?_
    rw [itemsGet_some (h.caps c hc)]
    rfl
  have hp : (m.conns.mapM fun c => do
      let v ← itemsGet (ext p).probs c.1
      return (c.1, v)) = .ok (m.conns.map fun c => (c.1, probs c.1)) := by
    refine mapM_ok fun c hc => ?_
    rw [itemsGet_some (h.probs c hc)]
    rfl
  unfold initFlowProb
  simp only [h1, ok_bind, h2, h7, hv, hp]
  rw [itemsGet_some ((h8 od).1 o d t bi key ho hs)]
  exact ⟨_, rfl, rfl, rfl, rfl, rfl, h3, h4, h5, h6⟩

/-- The limit on the evaluations. -/
def sfLimit (inf : ℕ) (sf : CfgVal K) : Except Err ℕ := flowLimit inf (if sf.truthy then some sf else none)

theorem flowProb_eq {pr : FlowProb K} (h : pr.probs = m.conns.map fun c => (c.1, probs c.1)) :
    pr.prob = flowProbOf m probs := by
  funext k s
  unfold FlowProb.prob flowProbOf
  have : pr.probs = (m.conns.map Prod.fst).map fun k => (k, probs k) := by
    rw [h, List.map_map]; rfl
  rw [this]
  split
  · rename_i hk
    rw [lookup_map_fst _ _ hk]
    rfl
  · rename_i hk
    rw [List.lookup_eq_none_iff.2]
    · rfl
    · intro e he
      obtain ⟨j, hj, rfl⟩ := List.mem_map.1 he
      rw [bne_iff_ne]
      rintro rfl
      exact hk hj

/-- The run that `main` makes. -/
def flowSpecRun (lib : Bool → FlowLib K) (newT : K) (m : NetJson K) (caps probs : K → List ℚ)
    (o d : K) (t : ℚ) (bi : Bool) (n : ℕ) (mb w : ℚ) : RunCfg K :=
  { vs := flowStates m caps, probs := flowProbOf m probs
    sysFun := demoSysFun lib newT o d (m.conns.map fun c => (c.1, c.2.1, c.2.2.1)) (flowVarisOf m caps) t
      bi (flowStates m caps)
    maxSf := n, maxNb := mb.ceil.toNat, pfBndWr := w, survFirst := true }

theorem flowMain_eq {lib : Bool → FlowLib K} {newT : K} {inf : ℕ} {disk : Disk K}
    (h : FlowFileOK nSf nWr disk.files ext data p m mb w sf caps probs) {od o d : K} {t : ℚ}
    {bi : Bool} {key : K} (ho : m.ods.lookup od = some (o, d))
    (hs : (ext p).setup.lookup od = some (t, bi, key)) {n : ℕ} (hn : sfLimit inf sf = .ok n)
    (store : List (K × FlowOut K)) :
    ∃ disk' : Disk K, disk'.files = disk.files ∧
      flowMain lib newT inf nSf nWr ext data od (disk, store) =
        (run (flowSpecRun lib newT m caps probs o d t bi n mb w) { s := [], f := [] } none >>= fun st =>
          .ok (disk', itemSet store key
            { brs := st.brs, varis := flowVarisOf m caps, rules := st.rules, mon := st.mon })) := by
  obtain ⟨pr, h1, h2, h3, h4, h5, h6, h7, h8, h9⟩ := initFlow_ok h ho hs
  refine ⟨pr.cfg.disk, h7, ?_⟩
  have hc : flowRunCfg lib newT pr n mb w = flowSpecRun lib newT m caps probs o d t bi n mb w := by
    unfold flowRunCfg flowSpecRun FlowProb.sysFun
    rw [h2, h3, h5, flowProb_eq h4, statesOf_flowVaris]
  unfold flowMain
  unfold sfLimit at hn
  simp only [h1, ok_bind, h8, hn, h6, h9, cfgNum, hc, h2, h5, pure_ok]

theorem flowMain_no_od {lib : Bool → FlowLib K} {newT : K} {inf : ℕ} {disk : Disk K}
    (h : FlowFileOK nSf nWr disk.files ext data p m mb w sf caps probs) {od : K}
    (ho : m.ods.lookup od = none) (store : List (K × FlowOut K)) :
    flowMain lib newT inf nSf nWr ext data od (disk, store) = .error .key := by
  obtain ⟨c, h1, h2, h3, h4, h5, h6, h7, h8⟩ := flowConfig_ok h
  have hv : (m.conns.mapM fun c => do
      let v ← itemsGet (ext p).caps c.1
      return (c.1, Variable.mk' c.1 v .dflt)) = .ok (flowVarisOf m caps) := by
    refine mapM_ok fun c hc => ?_
    rw [itemsGet_some (h.caps c hc)]
    rfl
  unfold flowMain initFlowProb
  simp only [h1, ok_bind, h2, h7, hv]
  rw [itemsGet_none ((h8 od).2 ho)]
  rfl

theorem list_sum_getD (l : List ℚ) : l.sum = ∑ i ∈ Finset.range l.length, l.getD i 0 := by
  induction l with
  | nil => rfl
  | cons a l ih =>
    rw [List.sum_cons, List.length_cons, Finset.sum_range_succ', ih]
    simp [add_comm]

theorem probOf_probs {vs : List (K × ℕ)} {p q : K → ℕ → ℚ} (h : ∀ kn ∈ vs, ∀ i, p kn.1 i = q kn.1 i)
    {E : (K → ℕ) → Prop} [DecidablePred E] : probOf vs p E = probOf vs q E := by
  unfold probOf
  congr 1
  funext x
  have : weight vs p x = weight vs q x := by
    unfold weight
    congr 1
    exact List.map_congr_left fun kn hkn => h kn hkn _
  rw [this]

theorem le_ceil_toNat {n : ℕ} {q : ℚ} (h : (n : ℚ) ≤ q) : n ≤ q.ceil.toNat := by
  have h1 : (q : ℚ) ≤ (q.ceil : ℤ) := Rat.le_ceil
  have h2 : ((n : ℤ) : ℚ) ≤ (q.ceil : ℤ) := by push_cast; linarith
  have h3 : (n : ℤ) ≤ q.ceil := by exact_mod_cast h2
  omega

end

end BNS
