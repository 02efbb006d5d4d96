import Verif.Proofs.MaxFlowDemo

/-!
# C86: the system function of the max_flow demo, with edges of one or two directions

`networkx.maximum_flow` is a parameter with the contract `FlowDirLibOK`, which `bestDirLib_ok` shows
can be met.
-/

set_option linter.unusedSectionVars false

namespace BNS

variable {K N : Type} [DecidableEq K] [DecidableEq N]
variable {bi : Bool} {vs : List (K × ℕ)} {ends : K → N × N}
variable {varis : List (K × Variable K)} {o d newT : N}

/-- **C86, partial.**  In a network without two components from the same node to the same node (with two
directions: between the same nodes), whose capacities are not negative and grow with the state:
`max_flow_fun` returns, without exception, the largest amount up to the target that the given component
vector can send, components carrying forwards only if the edges have one direction; the state is `'s'`
exactly if that is the target.  The rule then comes from an actual flow of the target amount: it has an
entry for every component that carries something, with the lowest state whose capacity is enough.  It
applies to the evaluated vector, and every component vector that dominates it can send the target.

Missing: parallel components, see `C86_not_parallel`; edges given as dictionaries, see
`C86_dictionaries_raise`. -/
theorem C86_max_flow_fun_partial {lib : Bool → FlowLib N} (hlib : FlowDirLibOK lib)
    (hN : DirNetOK bi vs ends varis o d newT) {target : ℚ} (ht : 0 ≤ target) {x : K → ℕ}
    (hx : InSpace vs x) :
    ∃ (val : ℚ) (st : St) (r : Rule K), maxFlowFun lib newT false (compsOf vs x) o d
        (vs.map fun kn => (kn.1, ends kn.1)) varis target bi = .ok (val, st, r) ∧
      val ≤ target ∧ CanSendIn bi vs ends varis o d val x ∧
      (∀ F, F ≤ target → CanSendIn bi vs ends varis o d F x → F ≤ val) ∧
      (st = .s ↔ CanSendIn bi vs ends varis o d target x) ∧
      (st = .f ↔ ¬ CanSendIn bi vs ends varis o d target x) ∧ RuleOK vs r ∧
      (st = .s → AppliesS r x ∧
        (∀ y, AppliesS r y → CanSendIn bi vs ends varis o d target y) ∧
        ∃ φ : K → ℚ, (∀ k ∈ vs.map Prod.fst, Fits bi (φ k) (capAt varis k (x k))) ∧
          (∀ n, n ≠ o → n ≠ d → netOut (vs.map Prod.fst) ends φ n = 0) ∧
          netOut (vs.map Prod.fst) ends φ o = target ∧
          ∀ k i, (k, i) ∈ r ↔ k ∈ vs.map Prod.fst ∧ φ k ≠ 0 ∧ |φ k| ≤ capAt varis k i ∧
            ∀ j, j < i → capAt varis k j < |φ k|) ∧
      (st = .f → r = []) := by
  set cap : K → ℚ := fun k => capAt varis k (x k) with hcap
  have hcap0 : ∀ k ∈ vs.map Prod.fst, ∀ s, 0 ≤ capAt varis k s := fun k hk s => hN.capNonneg hk s
  have hG : addEdgeIn bi ((vs.map Prod.fst).map fun k => ((ends k).1, (ends k).2, cap k)) d newT target
      = netGraph (vs.map Prod.fst) ends cap d newT target := by
    rw [addEdgeIn_new]
    · rfl
    · intro e he
      obtain ⟨k, hk, rfl⟩ := List.mem_map.1 he
      have hfr := hN.dir.fresh k hk
      exact ⟨fun hh => hfr.2 hh.2, fun _ hh => hfr.1 hh.1⟩
  obtain ⟨val, g, hl, hf, hbest⟩ := hlib.best bi (netGraph (vs.map Prod.fst) ends cap d newT target)
    o newT
    (by
      intro e he
      rcases List.mem_append.1 he with he | he
      · obtain ⟨k, hk, rfl⟩ := List.mem_map.1 he
        exact hcap0 k hk _
      · rw [List.mem_singleton.1 he]; exact ht)
    (mem_netGraph_nodes.2 (.inl hN.dir.origin)) (mem_netGraph_nodes.2 (.inr (.inr rfl)))
    hN.dir.originNew
  obtain ⟨f1, f2, f3, f4⟩ := demo_supports hN (fun k hk => hcap0 k hk _) ht hf
  have hmax : ∀ F, F ≤ target → CanSendIn bi vs ends varis o d F x → F ≤ val := by
    intro F hF hs
    have h0 : ∀ F', 0 ≤ F' → F' ≤ target → CanSendIn bi vs ends varis o d F' x → F' ≤ val := by
      intro F' h0 hF' hs'
      obtain ⟨φ, p1, p2, p3⟩ := SupportsIn.down hs' h0 (le_refl _)
      obtain ⟨g', hg'⟩ := demo_flow (target := target) hN p1 p2 (by rw [p3]; exact h0)
        (by rw [p3]; exact hF')
      rw [p3] at hg'
      exact hbest _ _ hg'
    by_cases hF0 : 0 ≤ F
    · exact h0 F hF0 hF hs
    · have hz : CanSendIn bi vs ends varis o d 0 x :=
        ⟨fun _ => 0, fun k hk => Fits.zero (hcap0 k hk _),
          fun n _ _ => netOut_zero _ _ n, (netOut_zero _ _ o).ge⟩
      have := h0 0 (le_refl _) ht hz
      push Not at hF0
      linarith
  have hsend : CanSendIn bi vs ends varis o d val x := ⟨_, f1, f2, f3.ge⟩
  have hiff : target ≤ val ↔ CanSendIn bi vs ends varis o d target x :=
    ⟨fun h => ⟨_, f1, f2, by rw [f3]; exact h⟩, fun h => hmax target (le_refl _) h⟩
  have hget : getMaxFlow lib newT (compsOf vs x) o d (vs.map fun kn => (kn.1, ends kn.1)) varis target
      bi = .ok (val, fun u v => max (g u v) 0) := by
    have hne : vs ≠ [] := by
      obtain ⟨kn, hkn, -⟩ := hN.origin
      rintro rfl
      cases hkn
    obtain ⟨a, l, hal⟩ : ∃ a l, vs.map (fun kn => (kn.1, ends kn.1)) = a :: l := by
      cases hh : vs.map (fun kn => (kn.1, ends kn.1)) with
      | nil => exact absurd (List.map_eq_nil_iff.1 hh) hne
      | cons a l => exact ⟨a, l, rfl⟩
    have h1 := demoGraph_ok hN hx
    rw [hal] at h1 ⊢
    simp only [getMaxFlow]
    rw [h1, ok_bind, hG, hl]
  have hrun : maxFlowFun lib newT false (compsOf vs x) o d (vs.map fun kn => (kn.1, ends kn.1)) varis
      target bi = if val < target then .ok (val, .f, []) else
      ((vs.map fun kn => (kn.1, ends kn.1)).mapM
        (demoRule bi false varis fun u v => max (g u v) 0)) >>=
        fun rule => .ok (val, .s, rule.filterMap id) := by
    simp only [maxFlowFun]
    rw [hget, ok_bind]
    rfl
  by_cases hv : target ≤ val
  · -- the rule
    set φ : K → ℚ := fun k => carried bi g (ends k) with hφ
    have h2 : ∀ k, ∃ i, k ∈ vs.map Prod.fst → (∃ v, varis.lookup k = some v ∧
        v.values.findIdx? (fun c => decide (|φ k| ≤ c)) = some i) ∧ i ≤ x k ∧
        |φ k| ≤ capAt varis k i ∧ ∀ j, j < i → capAt varis k j < |φ k| := by
      intro k
      by_cases hk : k ∈ vs.map Prod.fst
      · have hfk := (f1 k hk).abs
        obtain ⟨kn, h, rfl⟩ := List.mem_map.1 hk
        obtain ⟨v, h1, h2, -⟩ := hN.values kn h
        obtain ⟨i, h3, h4, h5, h6⟩ := findIdx_cap h1 (q := |φ kn.1|) (s := x kn.1)
          (by rw [h2]; exact hx kn h) hfk
        exact ⟨i, fun _ => ⟨⟨v, h1, h3⟩, h4, h5, h6⟩⟩
      · exact ⟨0, fun h => absurd h hk⟩
    choose idx hidx2 using h2
    have hidx : ∀ kn ∈ vs, _ := fun kn h => hidx2 (Prod.fst kn) (List.mem_map_of_mem h)
    have hrule : ∀ e ∈ vs.map (fun kn => (kn.1, ends kn.1)),
        demoRule bi false varis (fun u v => max (g u v) 0) e =
        .ok (if φ e.1 ≠ 0 then some (e.1, idx e.1) else none) := by
      intro e he
      obtain ⟨kn, h, rfl⟩ := List.mem_map.1 he
      obtain ⟨⟨v, hv1, hv2⟩, -⟩ := hidx kn h
      have h2 : itemsGet varis kn.1 = .ok v := by simp [itemsGet, dictGet, hv1]
      simp only [demoRule]
      rw [if_neg (by simp), carried_report g hf.anti (ends kn.1)]
      by_cases hz : φ kn.1 = 0
      · rw [if_neg (by simp only [hφ] at hz; rw [hz]; simp), if_neg (by simp [hz])]
      · rw [if_pos (abs_pos.2 hz), if_pos hz, h2, ok_bind]
        simp only [hφ] at hv2
        rw [hv2]
        rfl
    set r : Rule K := (vs.filter fun kn => decide (φ kn.1 ≠ 0)).map fun kn => (kn.1, idx kn.1) with hr
    have hlist : ((vs.map (fun kn => (kn.1, ends kn.1))).map fun e => if φ e.1 ≠ 0 then
        some (e.1, idx e.1) else none).filterMap id = r := by
      rw [hr]
      clear_value r
      clear hrule hidx hrun hget
      generalize vs = l
      induction l with
      | nil => rfl
      | cons a l ih =>
        simp only [List.map_cons, List.filterMap_cons, List.filter_cons]
        by_cases hz : φ a.1 = 0
        · simp only [hz, ne_eq, not_true, if_false, id, decide_false, Bool.false_eq_true]
          exact ih
        · simp only [hz, ne_eq, not_false_eq_true, if_true, id, decide_true, List.map_cons]
          exact congrArg _ ih
    have hmem : ∀ k i, (k, i) ∈ r ↔ k ∈ vs.map Prod.fst ∧ φ k ≠ 0 ∧ i = idx k := by
      intro k i
      simp only [hr, List.mem_map, List.mem_filter, decide_eq_true_eq, Prod.ext_iff]
      constructor
      · rintro ⟨kn, ⟨h, h2⟩, rfl, rfl⟩
        exact ⟨⟨kn, h, rfl⟩, h2, rfl⟩
      · rintro ⟨⟨kn, h, rfl⟩, h2, rfl⟩
        exact ⟨kn, ⟨h, h2⟩, rfl, rfl⟩
    have hvt : val = target := le_antisymm f4 hv
    refine ⟨val, .s, r, ?_, f4, hsend, hmax, ⟨fun _ => hiff.1 hv, fun _ => rfl⟩,
      ⟨fun h => (by cases h), fun h => absurd (hiff.1 hv) h⟩, ⟨?_, ?_⟩, fun _ => ⟨?_, ?_, φ, f1, f2,
        f3.trans hvt, ?_⟩, fun h => (by cases h)⟩
    · rw [hrun, if_neg (not_lt.2 hv), mapM_ok hrule, ok_bind, hlist]
    · rw [hr, List.map_map]
      exact List.Nodup.sublist (List.Sublist.map _ List.filter_sublist) hN.nodup
    · rintro ⟨k, i⟩ h
      exact ((hmem k i).1 h).1
    · rintro ⟨k, i⟩ h
      obtain ⟨h1, -, rfl⟩ := (hmem k i).1 h
      exact (hidx2 k h1).2.1
    · intro y hy
      refine ⟨φ, fun k hk => ?_, f2, by rw [f3]; exact hv⟩
      by_cases hz : φ k = 0
      · rw [hz]; exact Fits.zero (hcap0 k hk _)
      · have h1 : idx k ≤ y k := hy (k, idx k) ((hmem k _).2 ⟨hk, hz, rfl⟩)
        exact (f1 k hk).of_abs ((hidx2 k hk).2.2.1.trans (hN.capMono hk h1))
    · intro k i
      rw [hmem]
      constructor
      · rintro ⟨h1, h2, rfl⟩
        exact ⟨h1, h2, (hidx2 k h1).2.2⟩
      · rintro ⟨h1, h2, h3, h4⟩
        refine ⟨h1, h2, ?_⟩
        obtain ⟨-, -, h5, h6⟩ := hidx2 k h1
        rcases lt_trichotomy i (idx k) with hlt | heq | hgt
        · exact absurd h3 (not_le.2 (h6 i hlt))
        · exact heq
        · exact absurd h5 (not_le.2 (h4 _ hgt))
  · refine ⟨val, .f, [], ?_, f4, hsend, hmax, ⟨fun h => (by cases h), fun h => absurd (hiff.2 h) hv⟩,
      ⟨fun _ h => hv (hiff.2 h), fun _ => rfl⟩, ⟨by simp, by simp⟩, fun h => (by cases h), fun _ => rfl⟩
    rw [hrun, if_pos (not_le.1 hv)]

/-- **C86, monotone.**  A better component vector can send at least as much. -/
theorem C86_monotone (hN : DirNetOK bi vs ends varis o d newT) (F : ℚ) {x y : K → ℕ}
    (hxy : ∀ kn ∈ vs, x kn.1 ≤ y kn.1) (h : CanSendIn bi vs ends varis o d F x) :
    CanSendIn bi vs ends varis o d F y := by
  obtain ⟨φ, h1, h2, h3⟩ := h
  refine ⟨φ, fun k hk => (h1 k hk).mono ?_, h2, h3⟩
  have hk' := hk
  obtain ⟨kn, h, rfl⟩ := List.mem_map.1 hk
  exact hN.capMono hk' (hxy kn h)

/-- **C86, directions.**  What can be sent when the components carry forwards only can also be sent when
they carry in both directions. -/
theorem C86_directions {F : ℚ} {x : K → ℕ} (h : CanSendIn false vs ends varis o d F x) :
    CanSendIn true vs ends varis o d F x := by
  obtain ⟨φ, h1, h2, h3⟩ := h
  exact ⟨φ, fun k hk => (h1 k hk).abs, h2, h3⟩

/-- The hypotheses of `run` hold for the system function of the demo. -/
theorem sysFun_demo {lib : Bool → FlowLib N} (hlib : FlowDirLibOK lib)
    (hN : DirNetOK bi vs ends varis o d newT) {target : ℚ} (ht : 0 ≤ target)
    {Φ : (K → ℕ) → Bool} (hΦ : ∀ x, Φ x = true ↔ CanSendIn bi vs ends varis o d target x) :
    SysOK vs Φ (demoSysFun lib newT o d (vs.map fun kn => (kn.1, ends kn.1)) varis target bi vs) ∧
      Coherent vs Φ := by
  have key : ∀ x, InSpace vs x →
      let r := demoSysFun lib newT o d (vs.map fun kn => (kn.1, ends kn.1)) varis target bi vs x
      (r.st = .s ↔ Φ x = true) ∧ (r.st = .f ↔ Φ x = false) ∧ RuleOK vs r.min ∧
      (r.st = .s → AppliesS r.min x ∧ ValidS vs Φ r.min) ∧ (r.st = .f → r.min = []) := by
    intro x hx
    obtain ⟨val, st, r, h1, -, -, -, h2, h3, h4, h5, h6⟩ := C86_max_flow_fun_partial hlib hN ht hx
    simp only [demoSysFun, h1]
    rw [hΦ, ← Bool.not_eq_true, hΦ]
    refine ⟨h2, h3, h4, fun hs => ⟨(h5 hs).1, fun y hy ha => ?_⟩, h6⟩
    rw [hΦ]
    exact (h5 hs).2.1 y ha
  constructor
  · constructor
    · intro x hx
      obtain ⟨h1, h2, -⟩ := key x hx
      split
      · rename_i h; exact h1.2 h
      · rename_i h; exact h2.2 (by simpa using h)
    · intro x hx _
      exact (key x hx).2.2.1
    · intro x hx _ hs
      obtain ⟨h1, -, -, h4, -⟩ := key x hx
      exact (h4 (h1.2 hs)).symm
    · intro x hx hne hf
      obtain ⟨-, h2, -, -, h5⟩ := key x hx
      exact absurd (h5 (h2.2 hf)) hne
  · intro x y hxy hs
    rw [hΦ] at hs ⊢
    exact C86_monotone hN target hxy hs

/-- **C86, end to end, partial.**  `run` with the system function of the demo: the monitored bounds
contain, and with a sufficient budget both equal, the probability that the network cannot send the
target. -/
theorem C86_reliability_partial {lib : Bool → FlowLib N} (hlib : FlowDirLibOK lib) {c : RunCfg K}
    (hN : DirNetOK bi c.vs ends varis o d newT) {target : ℚ} (ht : 0 ≤ target)
    [DecidablePred (CanSendIn bi c.vs ends varis o d target)] (hvs : VarisOK c.vs)
    (hp : ProbOK c.vs c.probs)
    (hsf : c.sysFun = demoSysFun lib newT o d (c.vs.map fun kn => (kn.1, ends kn.1)) varis target bi
      c.vs) :
    (∀ st, run c { s := [], f := [] } none = .ok st → ∀ row ∈ st.mon,
      row.pfLow ≤ probOf c.vs c.probs (fun x => ¬ CanSendIn bi c.vs ends varis o d target x) ∧
      probOf c.vs c.probs (fun x => ¬ CanSendIn bi c.vs ends varis o d target x) ≤ row.pfUp) ∧
    (c.survFirst = true → (c.vs.map Prod.snd).prod < c.maxSf →
      2 * (c.vs.map Prod.snd).prod ≤ c.maxNb → c.pfBndWr = 0 → c.maxRules = none →
      ∃ st row, run c { s := [], f := [] } none = .ok st ∧ st.outFlag = some .complete ∧
        st.mon.getLast? = some row ∧
        row.pfLow = probOf c.vs c.probs (fun x => ¬ CanSendIn bi c.vs ends varis o d target x) ∧
        row.pfUp = probOf c.vs c.probs (fun x => ¬ CanSendIn bi c.vs ends varis o d target x)) := by
  have hs := sysFun_demo hlib hN ht
    (Φ := fun x => decide (CanSendIn bi c.vs ends varis o d target x)) (by simp)
  rw [← hsf] at hs
  have hc : CfgOK c fun x => decide (CanSendIn bi c.vs ends varis o d target x) :=
    ⟨hvs, hs.2, hp, hs.1⟩
  constructor
  · intro st h
    have := (C27_bounds hc (Ex.start_empty c) h).1
    rw [pFail_decide] at this
    exact this
  · intro hfirst hmax hnb hw hmr
    obtain ⟨st, h1, h2⟩ := C29_completes hc hfirst hmax hnb hw hmr (Ex.start_empty c)
    obtain ⟨-, row, -, h3, -, h4, h5⟩ := C28_enough_branches_partial hc (Ex.start_empty c)
      (resume_none c _) hnb h1 h2
    rw [pFail_decide] at h4 h5
    exact ⟨st, row, h1, h2, h3, h4, h5⟩

/-- **C86 is false for edges given as dictionaries**, which `get_max_flow` accepts: whenever the target
can be sent, `max_flow_fun` raises `KeyError`, because it takes `v[0]` of the edge; otherwise it
returns what it returns for pairs. -/
theorem C86_dictionaries_raise {lib : Bool → FlowLib N} {comps : List (K × ℕ)}
    {edges : List (K × N × N)} {target val : ℚ} {st : St} {r : Rule K}
    (h : maxFlowFun lib newT false comps o d edges varis target bi = .ok (val, st, r)) :
    maxFlowFun lib newT true comps o d edges varis target bi =
      if st = .s then .error .key else .ok (val, st, r) := by
  simp only [maxFlowFun] at h ⊢
  cases hg : getMaxFlow lib newT comps o d edges varis target bi with
  | error e => rw [hg] at h; cases h
  | ok m =>
    rw [hg, ok_bind] at h
    rw [ok_bind]
    by_cases hm : m.1 < target
    · rw [if_pos hm] at h ⊢
      cases h
      rfl
    · rw [if_neg hm] at h ⊢
      obtain ⟨rule, -, h2⟩ := bind_ok.1 h
      cases h2
      rw [if_pos rfl]
      cases edges with
      | nil => cases hg
      | cons e l => rfl

/-- **Without edges** `max_flow_fun` raises (`StopIteration`), whatever the target. -/
theorem C86_no_edges_raises (lib : Bool → FlowLib N) (isDict : Bool) (comps : List (K × ℕ))
    (target : ℚ) : maxFlowFun lib newT isDict comps o d ([] : List (K × N × N)) varis target bi =
      .error .value := rfl

/-- **Origin without components**: when no component touches the origin, networkx raises. -/
theorem C86_no_origin_raises {lib : Bool → FlowLib N} (hlib : FlowDirLibOK lib) (isDict : Bool)
    {comps : List (K × ℕ)} {edges : List (K × N × N)} (target : ℚ) {G : CapGraph N}
    (hne : edges ≠ []) (hG : edges.foldlM (demoEdge bi comps varis) [] = .ok G)
    (ho : o ∉ nodesOf (addEdgeIn bi G d newT target)) :
    maxFlowFun lib newT isDict comps o d edges varis target bi = .error .graph := by
  cases edges with
  | nil => exact absurd rfl hne
  | cons e l =>
    simp only [maxFlowFun, getMaxFlow]
    rw [hG, ok_bind, hlib.raises bi _ _ _ (.inl ho)]
    rfl

/-! ### A directed network with an antiparallel pair, and parallel components -/

namespace Ex

/-- Components 1 … 6; 3 and 6 join the nodes 2 and 3 in opposite directions; `'t_new'` is 0. -/
def dirEdges : List (ℕ × ℕ × ℕ) := [(1, 1, 2), (2, 1, 3), (3, 2, 3), (4, 2, 4), (5, 3, 4), (6, 3, 2)]

def dirEnds (k : ℕ) : ℕ × ℕ := (dirEdges.lookup k).getD (0, 0)

def dirVs : List (ℕ × ℕ) := [1, 2, 3, 4, 5, 6].map fun k => (k, 3)

def dirVaris : List (ℕ × Variable ℕ) := [1, 2, 3, 4, 5, 6].map fun k => (k, .mk' k [0, 1, 2] .dflt)

theorem dirNet : DirNetOK false dirVs dirEnds dirVaris 1 4 0 := by
  refine ⟨by decide, ?_, by decide, by decide, by decide, by decide, by decide⟩
  intro kn hk
  refine ⟨.mk' kn.1 [0, 1, 2] .dflt, ?_⟩
  revert kn
  decide +kernel

/-- The network of the documentation, with edges of two directions. -/
theorem undNet : DirNetOK true flowVs flowEnds flowVaris 1 4 0 := by
  refine ⟨by decide, ?_, by decide, by decide, by decide, by decide, by decide⟩
  intro kn hk
  refine ⟨.mk' kn.1 [0, 1, 2] .dflt, ?_⟩
  revert kn
  decide +kernel

/-- All components in state 1: two units are sent forwards. -/
theorem dirSends : CanSendIn false dirVs dirEnds dirVaris 1 4 2 fun _ => 1 := by
  refine ⟨fun k => if k = 3 ∨ k = 6 then 0 else 1, ?_, ?_, by decide +kernel⟩
  · intro k hk
    have : ∀ k ∈ dirVs.map Prod.fst, (0 : ℚ) ≤ (if k = 3 ∨ k = 6 then 0 else 1) ∧
        (if k = 3 ∨ k = 6 then 0 else 1 : ℚ) ≤ capAt dirVaris k 1 := by decide +kernel
    exact this k hk
  · intro n h1 h2
    by_cases h : n = 2 ∨ n = 3
    · rcases h with rfl | rfl <;> decide +kernel
    · refine netOut_notEnd _ _ _ _ ?_
      have hall : ∀ k ∈ dirVs.map Prod.fst, (dirEnds k).1 ∈ [1, 2, 3, 4] ∧
          (dirEnds k).2 ∈ [1, 2, 3, 4] := by decide
      intro k hk
      obtain ⟨h3, h4⟩ := hall k hk
      simp only [List.mem_cons, List.not_mem_nil, or_false] at h3 h4
      omega

/-- The system function on that vector: survival, with a rule that is not empty. -/
example : ∃ r : Rule ℕ, r ≠ [] ∧ maxFlowFun bestDirLib 0 false (compsOf dirVs fun _ => 1) 1 4
    (dirVs.map fun kn => (kn.1, dirEnds kn.1)) dirVaris 2 false = .ok (2, .s, r) := by
  obtain ⟨val, st, r, h1, h2, -, h3, h4, -, -, h5, -⟩ := C86_max_flow_fun_partial bestDirLib_ok dirNet
    (target := 2) (by decide +kernel) (x := fun _ => 1) (by decide)
  have hst := h4.2 dirSends
  have hval : val = 2 := le_antisymm h2 (h3 2 le_rfl dirSends)
  subst hst; subst hval
  refine ⟨r, ?_, h1⟩
  rintro rfl
  obtain ⟨-, -, φ, h0, -, h6, h7⟩ := h5 rfl
  have hz : ∀ k ∈ dirVs.map Prod.fst, φ k = 0 := by
    intro k hk
    by_contra hne
    by_cases hc : |φ k| ≤ capAt dirVaris k 0
    · exact absurd ((h7 k 0).2 ⟨hk, hne, hc, by simp⟩) (by simp)
    · exact absurd ((h7 k 1).2 ⟨hk, hne, (h0 k hk).abs, fun j hj => by
        rw [Nat.lt_one_iff.1 hj]; exact not_le.1 hc⟩) (by simp)
  have : netOut (dirVs.map Prod.fst) dirEnds φ 1 = 0 := by
    simp [netOut, dirVs, dirEnds, hz 1 (by decide), hz 2 (by decide), hz 3 (by decide),
      hz 4 (by decide), hz 5 (by decide), hz 6 (by decide)]
  rw [this] at h6
  norm_num at h6

/-- The whole pipeline, with edges of one direction. -/
noncomputable def dirCfg : RunCfg ℕ :=
  { vs := dirVs, probs := fun _ _ => 1 / 3
    sysFun := demoSysFun bestDirLib 0 1 4 (dirVs.map fun kn => (kn.1, dirEnds kn.1)) dirVaris 2 false
      dirVs
    maxSf := 800, maxNb := 1500 }

open Classical in
example : ∃ st row, run dirCfg { s := [], f := [] } none = .ok st ∧ st.mon.getLast? = some row ∧
    row.pfLow = probOf dirVs (fun _ _ => 1 / 3)
      (fun x => ¬ CanSendIn false dirVs dirEnds dirVaris 1 4 2 x) := by
  obtain ⟨st, row, h1, -, h2, h3, -⟩ := (C86_reliability_partial (c := dirCfg) bestDirLib_ok
    dirNet (target := 2) (by decide +kernel) ⟨by decide, by decide⟩
    ⟨by decide +kernel, by decide +kernel⟩ rfl).2 rfl (by decide) (by decide) rfl rfl
  exact ⟨st, row, h1, h2, h3⟩

/-- The dictionaries of the demo's own network file. -/
example : maxFlowFun bestDirLib 0 true (compsOf dirVs fun _ => 1) 1 4
    (dirVs.map fun kn => (kn.1, dirEnds kn.1)) dirVaris 2 false = .error .key := by
  obtain ⟨val, st, r, h1, -, -, -, h4, -⟩ := C86_max_flow_fun_partial bestDirLib_ok dirNet
    (target := 2) (by decide +kernel) (x := fun _ => 1) (by decide)
  rw [C86_dictionaries_raise h1, if_pos (h4.2 dirSends)]

/-- One component, from node 2 to node 1. -/
def backVs : List (ℕ × ℕ) := [(1, 2)]

def backEnds (_ : ℕ) : ℕ × ℕ := (2, 1)

def backVaris : List (ℕ × Variable ℕ) := [(1, .mk' 1 [0, 1] .dflt)]

theorem backNet (bi : Bool) : DirNetOK bi backVs backEnds backVaris 1 2 0 := by
  refine ⟨by decide, ?_, by revert bi; decide, by decide, by decide, by decide, by decide⟩
  intro kn hk
  refine ⟨.mk' 1 [0, 1] .dflt, ?_⟩
  revert kn
  decide +kernel

end Ex

/-- **The direction matters**: one component from node 2 to node 1 sends from 1 to 2 when the edges have
two directions, and the demo then reports survival; it reports failure when they have one. -/
theorem C86_direction_matters {lib : Bool → FlowLib ℕ} (hlib : FlowDirLibOK lib) (bi : Bool) :
    ∃ (val : ℚ) (r : Rule ℕ), maxFlowFun lib 0 false (compsOf Ex.backVs fun _ => 1) 1 2
      (Ex.backVs.map fun kn => (kn.1, Ex.backEnds kn.1)) Ex.backVaris 1 bi =
        .ok (val, if bi then .s else .f, r) := by
  obtain ⟨val, st, r, h1, -, -, -, h2, h3, -⟩ := C86_max_flow_fun_partial hlib (Ex.backNet bi)
    (target := 1) (by decide +kernel) (x := fun _ => 1) (by decide)
  refine ⟨val, r, ?_⟩
  rw [h1]
  cases bi with
  | true =>
    rw [h2.2]
    · rfl
    · refine ⟨fun _ => -1, ?_, ?_, by decide +kernel⟩
      · intro k hk
        have : ∀ k ∈ Ex.backVs.map Prod.fst, |(-1 : ℚ)| ≤ capAt Ex.backVaris k 1 := by decide +kernel
        exact this k hk
      · intro n hn1 hn2
        exact netOut_notEnd _ _ _ _ fun k _ => ⟨Ne.symm hn2, Ne.symm hn1⟩
  | false =>
    rw [h3.2]
    · rfl
    · rintro ⟨φ, p1, -, p3⟩
      have h0 : 0 ≤ φ 1 := (p1 1 (by decide)).1
      have : netOut (Ex.backVs.map Prod.fst) Ex.backEnds φ 1 = - φ 1 := by
        simp [netOut, Ex.backVs, Ex.backEnds]
      rw [this] at p3
      linarith

/-- **C86 is false with parallel components**, in both kinds of graphs: components with capacities 1 and
2 from node 1 to node 2 can together send 3, but `max_flow_fun` reports failure, whichever maximum flow
networkx computes, because the graph keeps the capacity of the component inserted last. -/
theorem C86_not_parallel {lib : Bool → FlowLib ℕ} (hlib : FlowDirLibOK lib) (bi : Bool) :
    CanSendIn bi Ex.parVs Ex.parEnds Ex.parFVaris 1 2 3 (fun k => k) ∧
    ∃ val, maxFlowFun lib 0 false (compsOf Ex.parVs fun k => k) 1 2 Ex.parEdges Ex.parFVaris 3 bi =
      .ok (val, .f, []) := by
  constructor
  · refine ⟨fun k => k, ?_, fun n h1 h2 => ?_, by decide +kernel⟩
    · intro k hk
      have : ∀ k ∈ Ex.parVs.map Prod.fst, (0 : ℚ) ≤ k ∧ |(k : ℚ)| ≤ capAt Ex.parFVaris k k ∧
        (k : ℚ) ≤ capAt Ex.parFVaris k k := by decide +kernel
      cases bi with
      | true => exact (this k hk).2.1
      | false => exact ⟨(this k hk).1, (this k hk).2.2⟩
    · exact netOut_notEnd _ _ _ _ fun k _ => ⟨Ne.symm h1, Ne.symm h2⟩
  · have hG : Ex.parEdges.foldlM (demoEdge bi (compsOf Ex.parVs fun k => k) Ex.parFVaris) [] =
        .ok [((1 : ℕ), (2 : ℕ), (2 : ℚ))] := by revert bi; decide +kernel
    have hG2 : addEdgeIn bi [((1 : ℕ), (2 : ℕ), (2 : ℚ))] 2 0 3 = [(1, 2, 2), (2, 0, 3)] := by
      revert bi; decide +kernel
    obtain ⟨val, g, h1, h2, -⟩ := hlib.best bi [((1 : ℕ), (2 : ℕ), (2 : ℚ)), (2, 0, 3)] 1 0
      (by decide +kernel) (by decide) (by decide) (by decide)
    refine ⟨val, ?_⟩
    have hle : val ≤ 2 := by
      have ho := h2.out
      have hn : nodesOf [((1 : ℕ), (2 : ℕ), (2 : ℚ)), (2, 0, 3)] = {0, 1, 2} := by decide
      rw [hn] at ho
      have c0 := h2.cap 1 0
      have c1 := h2.cap 1 1
      have c2 := h2.cap 1 2
      have e0 : capIn bi [((1 : ℕ), (2 : ℕ), (2 : ℚ)), (2, 0, 3)] 1 0 = 0 := by
        clear * -; revert bi; decide +kernel
      have e1 : capIn bi [((1 : ℕ), (2 : ℕ), (2 : ℚ)), (2, 0, 3)] 1 1 = 0 := by
        clear * -; revert bi; decide +kernel
      have e2 : capIn bi [((1 : ℕ), (2 : ℕ), (2 : ℚ)), (2, 0, 3)] 1 2 = 2 := by
        clear * -; revert bi; decide +kernel
      rw [e0] at c0; rw [e1] at c1; rw [e2] at c2
      have hs : ∑ v ∈ ({0, 1, 2} : Finset ℕ), g 1 v = g 1 0 + (g 1 1 + g 1 2) := by
        rw [Finset.sum_insert (by decide), Finset.sum_insert (by decide), Finset.sum_singleton]
      rw [hs] at ho
      linarith
    have hget : getMaxFlow lib 0 (compsOf Ex.parVs fun k => k) 1 2 Ex.parEdges Ex.parFVaris 3 bi =
        .ok (val, fun u v => max (g u v) 0) := by
      rw [← h1, ← hG2]
      show (Ex.parEdges.foldlM _ [] >>= _) = _
      rw [hG, ok_bind]
    simp only [maxFlowFun]
    rw [hget, ok_bind, if_pos (by linarith : val < 3)]
    rfl

end BNS
