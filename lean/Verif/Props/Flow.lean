import Verif.Proofs.Flow
import Verif.Props.Trans

/-!
# C47: `max_flow`; C64: flow reliability from end to end

`networkx.maximum_flow` is a parameter with the contract `FlowLibOK`, which `bestFlowLib_ok` shows can
be met (a maximum flow exists for all rational capacities).
-/

set_option linter.unusedSectionVars false

namespace BNS

variable {K N : Type} [DecidableEq K] [DecidableEq N]
variable {vs : List (K × ℕ)} {edges : List (K × N × N)} {ends : K → N × N}
variable {varis : List (K × Variable K)} {o d newT : N}

/-! ### Capacities -/

theorem capAt_lt {kn : K × ℕ} {v : Variable K} (hv : varis.lookup kn.1 = some v) {s : ℕ}
    (hs : s < v.values.length) : pyGet v.values s = .ok (capAt varis kn.1 s) := by
  simp [pyGet, capAt, hv, hs]

theorem capAt_mem {k : K} {v : Variable K} (hv : varis.lookup k = some v) (hne : v.values ≠ [])
    (s : ℕ) : capAt varis k s ∈ v.values := by
  simp only [capAt, hv]
  by_cases hs : s < v.values.length
  · rw [List.getElem?_eq_getElem hs]; exact List.getElem_mem hs
  · rw [List.getElem?_eq_none (by omega), List.getLast?_eq_getLast_of_ne_nil hne]
    exact List.getLast_mem hne

theorem capAt_nonneg (hN : FlowNetOK vs edges ends varis o d newT) {kn : K × ℕ} (hk : kn ∈ vs)
    (s : ℕ) : 0 ≤ capAt varis kn.1 s := by
  obtain ⟨v, hv, -, h0, -⟩ := hN.values kn hk
  by_cases hne : v.values = []
  · simp [capAt, hv, hne]
  · exact h0 _ (capAt_mem hv hne s)

theorem capAt_mono_of {k : K} {v : Variable K} (hv : varis.lookup k = some v)
    (hp : v.values.Pairwise (· ≤ ·)) {a b : ℕ} (hab : a ≤ b) : capAt varis k a ≤ capAt varis k b := by
  have key : ∀ s (hs : s < v.values.length), capAt varis k s = v.values[s] := fun s hs => by
    simp [capAt, hv, hs]
  by_cases hne : v.values = []
  · simp [capAt, hv, hne]
  have hlen : 0 < v.values.length := List.length_pos_iff.2 hne
  have sat : ∀ s, v.values.length ≤ s →
      capAt varis k s = capAt varis k (v.values.length - 1) := fun s hs => by
    simp only [capAt, hv]
    rw [List.getElem?_eq_none hs, List.getElem?_eq_getElem (by omega),
      List.getLast?_eq_getLast_of_ne_nil hne, List.getLast_eq_getElem]
    rfl
  have mono : ∀ i j, i ≤ j → j < v.values.length → capAt varis k i ≤ capAt varis k j := by
    intro i j hij hj
    rw [key i (by omega), key j hj]
    rcases hij.lt_or_eq with hlt | rfl
    · exact List.pairwise_iff_getElem.1 hp i j (by omega) hj hlt
    · exact le_refl _
  by_cases hb : b < v.values.length
  · exact mono a b hab hb
  · rw [sat b (by omega)]
    by_cases ha : a < v.values.length
    · exact mono _ _ (by omega) (by omega)
    · rw [sat a (by omega)]

theorem capAt_mono (hN : FlowNetOK vs edges ends varis o d newT) {kn : K × ℕ} (hk : kn ∈ vs)
    {a b : ℕ} (hab : a ≤ b) : capAt varis kn.1 a ≤ capAt varis kn.1 b := by
  obtain ⟨v, hv, -, -, hp⟩ := hN.values kn hk
  exact capAt_mono_of hv hp hab

/-! ### The graph that `max_flow` builds -/

theorem netOK (hN : FlowNetOK vs edges ends varis o d newT) :
    KNetOK (vs.map Prod.fst) ends o d newT where
  single := by unfold SingleK; rw [List.pairwise_map]; exact hN.single
  fresh := by
    intro k hk
    obtain ⟨kn, h, rfl⟩ := List.mem_map.1 hk
    exact hN.fresh kn h
  origin := by
    obtain ⟨kn, h, h'⟩ := hN.origin
    exact ⟨kn.1, List.mem_map_of_mem h, h'⟩
  od := hN.od
  dest := hN.dest

theorem addEdge_new {G : CapGraph N} {u v : N} (h : ∀ e ∈ G, ¬ Joins e u v) (c : ℚ) :
    addEdge G u v c = G ++ [(u, v, c)] := by
  unfold addEdge
  rw [if_neg]
  simpa using h

theorem flowEdge_ok (hN : FlowNetOK vs edges ends varis o d newT) {x : K → ℕ} (hx : InSpace vs x)
    {kn : K × ℕ} (hk : kn ∈ vs) (G : CapGraph N) :
    flowEdge edges varis G (kn.1, x kn.1) =
      .ok (addEdge G (ends kn.1).1 (ends kn.1).2 (capAt varis kn.1 (x kn.1))) := by
  obtain ⟨v, hv, hl, -, -⟩ := hN.values kn hk
  have h1 : itemsGet edges kn.1 = .ok (ends kn.1) := by simp [itemsGet, dictGet, hN.dict kn hk]
  have h2 : itemsGet varis kn.1 = .ok v := by simp [itemsGet, dictGet, hv]
  have h3 := capAt_lt hv (s := x kn.1) (by rw [hl]; exact hx kn hk)
  simp only [flowEdge]
  rw [h1, ok_bind, h2, ok_bind, h3, ok_bind]
  rfl

theorem graph_ok (hN : FlowNetOK vs edges ends varis o d newT) {x : K → ℕ} (hx : InSpace vs x) :
    (compsOf vs x).foldlM (flowEdge edges varis) [] = .ok
      ((vs.map Prod.fst).map fun k => ((ends k).1, (ends k).2, capAt varis k (x k))) := by
  have main : ∀ (l : List (K × ℕ)) (G : CapGraph N), (∀ kn ∈ l, kn ∈ vs) →
      l.Pairwise (fun a b => ¬ (ends a.1 = ends b.1 ∨ ends a.1 = (ends b.1).swap)) →
      (∀ kn ∈ l, ∀ e ∈ G, ¬ Joins e (ends kn.1).1 (ends kn.1).2) →
      (compsOf l x).foldlM (flowEdge edges varis) G = .ok
        (G ++ (l.map Prod.fst).map fun k => ((ends k).1, (ends k).2, capAt varis k (x k))) := by
    intro l
    induction l with
    | nil => intro G _ _ _; simp [compsOf]; rfl
    | cons kn l ih =>
      intro G hl hp hG
      rw [List.pairwise_cons] at hp
      have h1 : compsOf (kn :: l) x = (kn.1, x kn.1) :: compsOf l x := rfl
      rw [h1, List.foldlM_cons, flowEdge_ok hN hx (hl kn (by simp)), ok_bind,
        addEdge_new (hG kn (by simp)), ih _ (fun k hk => hl k (by simp [hk])) hp.2]
      · simp
      · intro k hk e he
        rcases List.mem_append.1 he with he | he
        · exact hG k (by simp [hk]) e he
        · rw [List.mem_singleton.1 he, joins_netGraph]
          intro hj
          refine hp.1 k hk ?_
          rcases hj with h | h
          · exact .inl (by rw [h])
          · exact .inr (by rw [h]; rfl)
  have := main vs [] (fun _ h => h) hN.single (by simp)
  simpa using this

/-! ### C47 -/

theorem netOut_zero (ks : List K) (ends : K → N × N) (n : N) : netOut ks ends (fun _ => 0) n = 0 := by
  have := netOut_scale ks ends (fun _ => 0) 0 n
  simpa using this

theorem max_parts (a : ℚ) : max (max a 0) (max (-a) 0) = |a| := by
  rcases le_total 0 a with h | h
  · rw [abs_of_nonneg h, max_eq_left h, max_eq_right (show -a ≤ 0 by linarith), max_eq_left h]
  · rw [abs_of_nonpos h, max_eq_right h, max_eq_left (show 0 ≤ -a by linarith),
      max_eq_right (show 0 ≤ -a by linarith)]

/-- The state that `max_flow` reports: the first whose capacity is enough. -/
theorem findIdx_cap {v : Variable K} {k : K} (hv : varis.lookup k = some v) {q : ℚ} {s : ℕ}
    (hs : s < v.values.length) (hq : q ≤ capAt varis k s) :
    ∃ i, v.values.findIdx? (fun c => decide (q ≤ c)) = some i ∧ i ≤ s ∧ q ≤ capAt varis k i ∧
      ∀ j, j < i → capAt varis k j < q := by
  have key : ∀ i (hi : i < v.values.length), capAt varis k i = v.values[i] := fun i hi => by
    simp [capAt, hv, hi]
  have hex : ∃ c ∈ v.values, decide (q ≤ c) = true :=
    ⟨v.values[s], List.getElem_mem hs, by rw [← key s hs]; simpa using hq⟩
  cases hf : v.values.findIdx? fun c => decide (q ≤ c) with
  | none =>
    rw [List.findIdx?_eq_none_iff] at hf
    obtain ⟨c, hc, h⟩ := hex
    rw [hf c hc] at h
    cases h
  | some i =>
    rw [List.findIdx?_eq_some_iff_getElem] at hf
    obtain ⟨hi, h1, h2⟩ := hf
    refine ⟨i, rfl, ?_, by rw [key i hi]; simpa using h1, fun j hj => ?_⟩
    · by_contra hlt
      push Not at hlt
      have := h2 s hlt
      rw [← key s hs] at this
      simp only [decide_eq_true_eq, not_le] at this
      exact absurd hq (not_le.2 this)
    · have := h2 j hj
      rw [key j (hj.trans hi)]
      simpa using this

/-- **C47, partial.**  In a network without parallel components, with capacities that are not negative
and grow with the state: `max_flow` returns, without exception, the largest amount up to the target
that the given component vector can send; the state is `'s'` exactly if that is the target.  The rule
then comes from an actual flow of the target amount: it has an entry for every component that carries
something, with the lowest state whose capacity is enough.  It applies to the evaluated vector, and
every component vector that dominates it can send the target.

Missing: parallel components, see `C47_not_parallel`. -/
theorem C47_max_flow_partial {lib : FlowLib N} (hlib : FlowLibOK lib)
    (hN : FlowNetOK vs edges ends varis o d newT) {target : ℚ} (ht : 0 ≤ target) {x : K → ℕ}
    (hx : InSpace vs x) :
    ∃ (val : ℚ) (st : St) (r : Rule K), maxFlow lib newT (compsOf vs x) target o d edges varis =
        .ok (val, st, r.map fun ki => (ki.1, some ki.2)) ∧
      val ≤ target ∧ CanSend vs ends varis o d val x ∧
      (∀ F, F ≤ target → CanSend vs ends varis o d F x → F ≤ val) ∧
      (st = .s ↔ CanSend vs ends varis o d target x) ∧
      (st = .f ↔ ¬ CanSend vs ends varis o d target x) ∧ RuleOK vs r ∧
      (st = .s → AppliesS r x ∧
        (∀ y, AppliesS r y → CanSend vs ends varis o d target y) ∧
        ∃ φ : K → ℚ, (∀ n, n ≠ o → n ≠ d → netOut (vs.map Prod.fst) ends φ n = 0) ∧
          netOut (vs.map Prod.fst) ends φ o = target ∧
          ∀ k i, (k, i) ∈ r ↔ k ∈ vs.map Prod.fst ∧ φ k ≠ 0 ∧ |φ k| ≤ capAt varis k i ∧
            ∀ j, j < i → capAt varis k j < |φ k|) ∧
      (st = .f → r = []) := by
  have hn := netOK hN
  set cap : K → ℚ := fun k => capAt varis k (x k) with hcap
  have hcap0 : ∀ k ∈ vs.map Prod.fst, ∀ s, 0 ≤ capAt varis k s := by
    intro k hk s
    obtain ⟨kn, h, rfl⟩ := List.mem_map.1 hk
    exact capAt_nonneg hN h s
  have hG : addEdge ((vs.map Prod.fst).map fun k => ((ends k).1, (ends k).2, cap k)) d newT target
      = netGraph (vs.map Prod.fst) ends cap d newT target := by
    rw [addEdge_new]
    · rfl
    · intro e he
      obtain ⟨k, hk, rfl⟩ := List.mem_map.1 he
      rw [joins_netGraph]
      exact hn.notJoins (.inr rfl) k hk
  obtain ⟨val, g, hl, hf, hbest⟩ := hlib.best (netGraph (vs.map Prod.fst) ends cap d newT target) o newT
    (by
      intro e he
      rcases List.mem_append.1 he with he | he
      · obtain ⟨k, hk, rfl⟩ := List.mem_map.1 he
        exact hcap0 k hk _
      · rw [List.mem_singleton.1 he]; exact ht)
    (mem_netGraph_nodes.2 (.inl hn.origin)) (mem_netGraph_nodes.2 (.inr (.inr rfl))) hn.originNew
  obtain ⟨f1, f2, f3, f4⟩ := flow_supports hn hf
  have hmax : ∀ F, F ≤ target → CanSend vs ends varis o d F x → F ≤ val := by
    intro F hF hs
    have h0 : ∀ F', 0 ≤ F' → F' ≤ target → CanSend vs ends varis o d F' x → F' ≤ val := by
      intro F' h0 hF' hs'
      obtain ⟨φ, p1, p2, p3⟩ := Supports.down hs' h0 (le_refl _)
      obtain ⟨g', hg'⟩ := supports_flow (target := target) hn p1 p2 (by rw [p3]; exact h0)
        (by rw [p3]; exact hF')
      rw [p3] at hg'
      exact hbest _ _ hg'
    by_cases hF0 : 0 ≤ F
    · exact h0 F hF0 hF hs
    · have hz : CanSend vs ends varis o d 0 x :=
        ⟨fun _ => 0, fun k hk => by simpa using hcap0 k hk _,
          fun n _ _ => netOut_zero _ _ n, (netOut_zero _ _ o).ge⟩
      have := h0 0 (le_refl _) ht hz
      push Not at hF0
      linarith
  have hsend : CanSend vs ends varis o d val x := ⟨_, f1, f2, f3.ge⟩
  have hiff : target ≤ val ↔ CanSend vs ends varis o d target x :=
    ⟨fun h => ⟨_, f1, f2, by rw [f3]; exact h⟩, fun h => hmax target (le_refl _) h⟩
  have hrun : maxFlow lib newT (compsOf vs x) target o d edges varis =
      if target ≤ val then ((compsOf vs x).mapM (flowRule edges varis fun u v => max (g u v) 0)) >>=
        fun rule => .ok (val, .s, rule.filterMap id) else .ok (val, .f, []) := by
    simp only [maxFlow]
    rw [graph_ok hN hx, ok_bind, hG, hl, ok_bind]
    rfl
  by_cases hv : target ≤ val
  · -- the rule
    set φ : K → ℚ := fun k => g (ends k).1 (ends k).2 with hφ
    have hflow : ∀ k, max (max (g (ends k).1 (ends k).2) 0) (max (g (ends k).2 (ends k).1) 0)
        = |φ k| := by
      intro k
      rw [hf.anti (ends k).2 (ends k).1]
      exact max_parts _
    have hidx : ∀ kn : K × ℕ, kn ∈ vs → ∃ i, (∃ v, varis.lookup kn.1 = some v ∧
        v.values.findIdx? (fun c => decide (|φ kn.1| ≤ c)) = some i) ∧ i ≤ x kn.1 ∧
        |φ kn.1| ≤ capAt varis kn.1 i ∧ ∀ j, j < i → capAt varis kn.1 j < |φ kn.1| := by
      intro kn hk
      obtain ⟨v, h1, h2, -⟩ := hN.values kn hk
      obtain ⟨i, h3, h4, h5, h6⟩ := findIdx_cap h1 (q := |φ kn.1|) (s := x kn.1)
        (by rw [h2]; exact hx kn hk) (f1 kn.1 (List.mem_map_of_mem hk))
      exact ⟨i, ⟨v, h1, h3⟩, h4, h5, h6⟩
    have : ∃ idx : K → ℕ, ∀ kn ∈ vs, (∃ v, varis.lookup kn.1 = some v ∧
        v.values.findIdx? (fun c => decide (|φ kn.1| ≤ c)) = some (idx kn.1)) ∧
        idx kn.1 ≤ x kn.1 ∧
        |φ kn.1| ≤ capAt varis kn.1 (idx kn.1) ∧
          ∀ j, j < idx kn.1 → capAt varis kn.1 j < |φ kn.1| := by
      have h2 : ∀ k, ∃ i, k ∈ vs.map Prod.fst → (∃ v, varis.lookup k = some v ∧
          v.values.findIdx? (fun c => decide (|φ k| ≤ c)) = some i) ∧ i ≤ x k ∧
          |φ k| ≤ capAt varis k i ∧ ∀ j, j < i → capAt varis k j < |φ k| := by
        intro k
        by_cases hk : k ∈ vs.map Prod.fst
        · obtain ⟨kn, h, rfl⟩ := List.mem_map.1 hk
          obtain ⟨i, hi⟩ := hidx kn h
          exact ⟨i, fun _ => hi⟩
        · exact ⟨0, fun h => absurd h hk⟩
      choose idx hidx2 using h2
      exact ⟨idx, fun kn h => hidx2 kn.1 (List.mem_map_of_mem h)⟩
    obtain ⟨idx, hidx⟩ := this
    have hrule : ∀ kx ∈ compsOf vs x, flowRule edges varis (fun u v => max (g u v) 0) kx =
        .ok (if φ kx.1 ≠ 0 then some (kx.1, some (idx kx.1)) else none) := by
      intro kx hkx
      obtain ⟨kn, h, rfl⟩ := List.mem_map.1 hkx
      have h1 : itemsGet edges kn.1 = .ok (ends kn.1) := by simp [itemsGet, dictGet, hN.dict kn h]
      obtain ⟨⟨v, hv1, hv2⟩, -⟩ := hidx kn h
      have h2 : itemsGet varis kn.1 = .ok v := by simp [itemsGet, dictGet, hv1]
      simp only [flowRule]
      rw [h1, ok_bind, hflow]
      by_cases hz : φ kn.1 = 0
      · rw [if_neg (by rw [hz]; simp), if_neg (by simp [hz])]; rfl
      · rw [if_pos (abs_pos.2 hz), if_pos hz, h2, ok_bind, hv2]; rfl
    set r : Rule K := (vs.filter fun kn => decide (φ kn.1 ≠ 0)).map fun kn => (kn.1, idx kn.1) with hr
    have hlist : ((compsOf vs x).map fun kx => if φ kx.1 ≠ 0 then some (kx.1, some (idx kx.1))
        else none).filterMap id = r.map fun ki => (ki.1, some ki.2) := by
      rw [hr, compsOf]
      clear_value r
      generalize vs = l
      induction l with
      | nil => rfl
      | cons a l ih =>
        simp only [List.map_cons, List.filterMap_cons, List.filter_cons]
        by_cases hz : φ a.1 = 0
        · simp only [hz, ne_eq, not_true, if_false, id, decide_false, Bool.false_eq_true]
          exact ih
        · simp only [hz, ne_eq, not_false_eq_true, if_true, id, decide_true, List.map_cons]
          exact congrArg _ ih
    have hmem : ∀ k i, (k, i) ∈ r ↔ k ∈ vs.map Prod.fst ∧ φ k ≠ 0 ∧ i = idx k := by
      intro k i
      simp only [hr, List.mem_map, List.mem_filter, decide_eq_true_eq, Prod.ext_iff]
      constructor
      · rintro ⟨kn, ⟨h, h2⟩, rfl, rfl⟩
        exact ⟨⟨kn, h, rfl⟩, h2, rfl⟩
      · rintro ⟨⟨kn, h, rfl⟩, h2, rfl⟩
        exact ⟨kn, ⟨h, h2⟩, rfl, rfl⟩
    have hvt : val = target := le_antisymm f4 hv
    refine ⟨val, .s, r, ?_, f4, hsend, hmax, ⟨fun _ => hiff.1 hv, fun _ => rfl⟩,
      ⟨fun h => (by cases h), fun h => absurd (hiff.1 hv) h⟩, ⟨?_, ?_⟩, fun _ => ⟨?_, ?_, φ, f2,
        f3.trans hvt, ?_⟩, fun h => (by cases h)⟩
    · rw [hrun, if_pos hv, mapM_ok hrule, ok_bind, hlist]
    · rw [hr, List.map_map]
      exact List.Nodup.sublist (List.Sublist.map _ List.filter_sublist) hN.nodup
    · rintro ⟨k, i⟩ h
      exact ((hmem k i).1 h).1
    · rintro ⟨k, i⟩ h
      obtain ⟨h1, -, rfl⟩ := (hmem k i).1 h
      obtain ⟨kn, h', rfl⟩ := List.mem_map.1 h1
      exact (hidx kn h').2.1
    · intro y hy
      refine ⟨φ, fun k hk => ?_, f2, by rw [f3]; exact hv⟩
      by_cases hz : φ k = 0
      · rw [hz, abs_zero]; exact hcap0 k hk _
      · have h1 : idx k ≤ y k := hy (k, idx k) ((hmem k _).2 ⟨hk, hz, rfl⟩)
        obtain ⟨kn, h, rfl⟩ := List.mem_map.1 hk
        exact (hidx kn h).2.2.1.trans (capAt_mono hN h h1)
    · intro k i
      rw [hmem]
      constructor
      · rintro ⟨h1, h2, rfl⟩
        obtain ⟨kn, h, rfl⟩ := List.mem_map.1 h1
        exact ⟨h1, h2, (hidx kn h).2.2⟩
      · rintro ⟨h1, h2, h3, h4⟩
        refine ⟨h1, h2, ?_⟩
        obtain ⟨kn, h, rfl⟩ := List.mem_map.1 h1
        obtain ⟨-, -, h5, h6⟩ := hidx kn h
        rcases lt_trichotomy i (idx kn.1) with hlt | heq | hgt
        · exact absurd h3 (not_le.2 (h6 i hlt))
        · exact heq
        · exact absurd h5 (not_le.2 (h4 _ hgt))
  · refine ⟨val, .f, [], ?_, f4, hsend, hmax, ⟨fun h => (by cases h), fun h => absurd (hiff.2 h) hv⟩,
      ⟨fun _ h => hv (hiff.2 h), fun _ => rfl⟩, ⟨by simp, by simp⟩, fun h => (by cases h), fun _ => rfl⟩
    rw [hrun, if_neg hv]
    rfl

/-- **C47, monotone.**  A better component vector can send at least as much. -/
theorem C47_monotone (hN : FlowNetOK vs edges ends varis o d newT) (F : ℚ) {x y : K → ℕ}
    (hxy : ∀ kn ∈ vs, x kn.1 ≤ y kn.1) (h : CanSend vs ends varis o d F x) :
    CanSend vs ends varis o d F y := by
  obtain ⟨φ, h1, h2, h3⟩ := h
  refine ⟨φ, fun k hk => (h1 k hk).trans ?_, h2, h3⟩
  obtain ⟨kn, h, rfl⟩ := List.mem_map.1 hk
  exact capAt_mono hN h (hxy kn h)

/-! ### C64 -/

/-- The hypotheses of `run` hold for a flow network. -/
theorem sysFun_flow {lib : FlowLib N} (hlib : FlowLibOK lib)
    (hN : FlowNetOK vs edges ends varis o d newT) {target : ℚ} (ht : 0 ≤ target)
    {Φ : (K → ℕ) → Bool} (hΦ : ∀ x, Φ x = true ↔ CanSend vs ends varis o d target x) :
    SysOK vs Φ (flowSysFun lib newT target o d edges varis vs) ∧ Coherent vs Φ := by
  have key : ∀ x, InSpace vs x → let r := flowSysFun lib newT target o d edges varis vs x
      (r.st = .s ↔ Φ x = true) ∧ (r.st = .f ↔ Φ x = false) ∧ RuleOK vs r.min ∧
      (r.st = .s → AppliesS r.min x ∧ ValidS vs Φ r.min) ∧ (r.st = .f → r.min = []) := by
    intro x hx
    obtain ⟨val, st, r, h1, -, -, -, h2, h3, h4, h5, h6⟩ := C47_max_flow_partial hlib hN ht hx
    have hall : (r.map fun ki : K × ℕ => (ki.1, some ki.2)).all (fun ki => ki.2.isSome) = true := by
      simp
    have hmap : ((r.map fun ki : K × ℕ => (ki.1, some ki.2)).map fun ki => (ki.1, ki.2.getD 0)) = r := by
      rw [List.map_map]
      exact List.map_id r
    simp only [flowSysFun, h1]
    rw [if_pos hall]
    simp only [hmap]
    rw [hΦ, ← Bool.not_eq_true, hΦ]
    refine ⟨h2, h3, h4, fun hs => ⟨(h5 hs).1, fun y hy ha => ?_⟩, h6⟩
    rw [hΦ]
    exact (h5 hs).2.1 y ha
  constructor
  · constructor
    · intro x hx
      obtain ⟨h1, h2, -⟩ := key x hx
      split
      · rename_i h; exact h1.2 h
      · rename_i h; exact h2.2 (by simpa using h)
    · intro x hx _
      exact (key x hx).2.2.1
    · intro x hx _ hs
      obtain ⟨h1, -, -, h4, -⟩ := key x hx
      exact (h4 (h1.2 hs)).symm
    · intro x hx hne hf
      obtain ⟨-, h2, -, -, h5⟩ := key x hx
      exact absurd (h5 (h2.2 hf)) hne
  · intro x y hxy hs
    rw [hΦ] at hs ⊢
    exact C47_monotone hN target hxy hs

/-- **C64, partial.**  `run` with `max_flow` as its system function, in a network without parallel
components: the monitored bounds contain, and with a sufficient budget both equal, the probability
that the network cannot send the target. -/
theorem C64_flow_reliability_partial {lib : FlowLib N} (hlib : FlowLibOK lib) {c : RunCfg K}
    (hN : FlowNetOK c.vs edges ends varis o d newT) {target : ℚ} (ht : 0 ≤ target)
    [DecidablePred (CanSend c.vs ends varis o d target)] (hvs : VarisOK c.vs)
    (hp : ProbOK c.vs c.probs)
    (hsf : c.sysFun = flowSysFun lib newT target o d edges varis c.vs) :
    (∀ st, run c { s := [], f := [] } none = .ok st → ∀ row ∈ st.mon,
      row.pfLow ≤ probOf c.vs c.probs (fun x => ¬ CanSend c.vs ends varis o d target x) ∧
      probOf c.vs c.probs (fun x => ¬ CanSend c.vs ends varis o d target x) ≤ row.pfUp) ∧
    (c.survFirst = true → (c.vs.map Prod.snd).prod < c.maxSf →
      2 * (c.vs.map Prod.snd).prod ≤ c.maxNb → c.pfBndWr = 0 → c.maxRules = none →
      ∃ st row, run c { s := [], f := [] } none = .ok st ∧ st.outFlag = some .complete ∧
        st.mon.getLast? = some row ∧
        row.pfLow = probOf c.vs c.probs (fun x => ¬ CanSend c.vs ends varis o d target x) ∧
        row.pfUp = probOf c.vs c.probs (fun x => ¬ CanSend c.vs ends varis o d target x)) := by
  have hs := sysFun_flow hlib hN ht (Φ := fun x => decide (CanSend c.vs ends varis o d target x))
    (by simp)
  rw [← hsf] at hs
  have hc : CfgOK c fun x => decide (CanSend c.vs ends varis o d target x) := ⟨hvs, hs.2, hp, hs.1⟩
  constructor
  · intro st h
    have := (C27_bounds hc (Ex.start_empty c) h).1
    rw [pFail_decide] at this
    exact this
  · intro hfirst hmax hnb hw hmr
    obtain ⟨st, h1, h2⟩ := C29_completes hc hfirst hmax hnb hw hmr (Ex.start_empty c)
    obtain ⟨-, row, -, h3, -, h4, h5⟩ := C28_enough_branches_partial hc (Ex.start_empty c)
      (resume_none c _) hnb h1 h2
    rw [pFail_decide] at h4 h5
    exact ⟨st, row, h1, h2, h3, h4, h5⟩

/-! ### The example of the documentation of `max_flow`, and a network with parallel components -/

namespace Ex

/-- `n1 … n4` are 1 … 4, `e1 … e5` are 1 … 5 and `'new_t'` is 0. -/
def flowEdges : List (ℕ × ℕ × ℕ) := [(1, 1, 2), (2, 1, 3), (3, 2, 3), (4, 2, 4), (5, 3, 4)]

def flowEnds (k : ℕ) : ℕ × ℕ := (flowEdges.lookup k).getD (0, 0)

def flowVaris : List (ℕ × Variable ℕ) := [1, 2, 3, 4, 5].map fun k => (k, .mk' k [0, 1, 2] .dflt)

def flowVs : List (ℕ × ℕ) := [1, 2, 3, 4, 5].map fun k => (k, 3)

theorem flowNet : FlowNetOK flowVs flowEdges flowEnds flowVaris 1 4 0 := by
  refine ⟨by decide, by decide, ?_, by decide, by decide, by decide, by decide, by decide⟩
  intro kn hk
  refine ⟨.mk' kn.1 [0, 1, 2] .dflt, ?_⟩
  revert kn
  decide +kernel

/-- Both routes open with capacity 1: a flow of 2 is sent. -/
example : CanSend flowVs flowEnds flowVaris 1 4 2 fun _ => 1 := by
  refine ⟨fun k => if k = 3 then 0 else 1, by decide +kernel, ?_, by decide +kernel⟩
  intro n h1 h2
  by_cases h : n = 2 ∨ n = 3
  · rcases h with rfl | rfl <;> decide +kernel
  · refine netOut_notEnd _ _ _ _ ?_
    have hall : ∀ k ∈ flowVs.map Prod.fst, (flowEnds k).1 ∈ [1, 2, 3, 4] ∧ (flowEnds k).2 ∈ [1, 2, 3, 4] := by
      decide
    intro k hk
    obtain ⟨h3, h4⟩ := hall k hk
    simp only [List.mem_cons, List.not_mem_nil, or_false] at h3 h4
    omega

example : ∃ (val : ℚ) (st : St) (r : Rule ℕ), maxFlow bestFlowLib 0 (compsOf flowVs fun _ => 1) 2 1 4 flowEdges flowVaris =
      .ok (val, st, r.map fun ki => (ki.1, some ki.2)) ∧
      (st = .s ↔ CanSend flowVs flowEnds flowVaris 1 4 2 fun _ => 1) := by
  obtain ⟨val, st, r, h1, -, -, -, h2, -⟩ := C47_max_flow_partial bestFlowLib_ok flowNet (target := 2)
    (by decide +kernel) (x := fun _ => 1) (by decide)
  exact ⟨val, st, r, h1, h2⟩

/-- The whole pipeline. -/
noncomputable def flowCfg : RunCfg ℕ :=
  { vs := flowVs, probs := fun _ _ => 1 / 3
    sysFun := flowSysFun bestFlowLib 0 2 1 4 flowEdges flowVaris flowVs
    maxSf := 300, maxNb := 600 }

open Classical in
example : ∃ st row, run flowCfg { s := [], f := [] } none = .ok st ∧ st.mon.getLast? = some row ∧
    row.pfLow = probOf flowVs (fun _ _ => 1 / 3)
      (fun x => ¬ CanSend flowVs flowEnds flowVaris 1 4 2 x) := by
  obtain ⟨st, row, h1, -, h2, h3, -⟩ := (C64_flow_reliability_partial (c := flowCfg) bestFlowLib_ok
    flowNet (target := 2) (by decide +kernel) ⟨by decide, by decide⟩
    ⟨by decide +kernel, by decide +kernel⟩ rfl).2 rfl (by decide) (by decide) rfl rfl
  exact ⟨st, row, h1, h2, h3⟩

/-- Two parallel components between the nodes 1 and 2, with capacities up to 1 and 2. -/
def parEdges : List (ℕ × ℕ × ℕ) := [(1, 1, 2), (2, 1, 2)]

def parEnds (_ : ℕ) : ℕ × ℕ := (1, 2)

def parFVaris : List (ℕ × Variable ℕ) := [(1, .mk' 1 [0, 1] .dflt), (2, .mk' 2 [0, 1, 2] .dflt)]

def parVs : List (ℕ × ℕ) := [(1, 2), (2, 3)]

end Ex

/-- **C47 is false with parallel components**: a `networkx.Graph` keeps one edge between two nodes,
with the capacity of the component inserted last.  Components with capacities 1 and 2 can together send
3, but `max_flow` reports failure, whichever maximum flow networkx computes. -/
theorem C47_not_parallel {lib : FlowLib ℕ} (hlib : FlowLibOK lib) :
    CanSend Ex.parVs Ex.parEnds Ex.parFVaris 1 2 3 (fun k => k) ∧
    ∃ val, maxFlow lib 0 (compsOf Ex.parVs fun k => k) 3 1 2 Ex.parEdges Ex.parFVaris =
      .ok (val, .f, []) := by
  constructor
  · refine ⟨fun k => k, by decide +kernel, fun n h1 h2 => ?_, by decide +kernel⟩
    refine netOut_notEnd _ _ _ _ fun k _ => ⟨Ne.symm h1, Ne.symm h2⟩
  · have hG : (compsOf Ex.parVs fun k => k).foldlM (flowEdge Ex.parEdges Ex.parFVaris) [] =
        .ok [((1 : ℕ), (2 : ℕ), (2 : ℚ))] := by decide +kernel
    have hG2 : addEdge [((1 : ℕ), (2 : ℕ), (2 : ℚ))] 2 0 3 = [(1, 2, 2), (2, 0, 3)] := by decide +kernel
    obtain ⟨val, g, h1, h2, -⟩ := hlib.best [((1 : ℕ), (2 : ℕ), (2 : ℚ)), (2, 0, 3)] 1 0
      (by decide +kernel) (by decide) (by decide) (by decide)
    refine ⟨val, ?_⟩
    have hle : val ≤ 2 := by
      have ho := h2.out
      have hn : nodesOf [((1 : ℕ), (2 : ℕ), (2 : ℚ)), (2, 0, 3)] = {0, 1, 2} := by decide
      rw [hn] at ho
      have c0 := h2.cap 1 0
      have c1 := h2.cap 1 1
      have c2 := h2.cap 1 2
      have e0 : capOf [((1 : ℕ), (2 : ℕ), (2 : ℚ)), (2, 0, 3)] 1 0 = 0 := by decide +kernel
      have e1 : capOf [((1 : ℕ), (2 : ℕ), (2 : ℚ)), (2, 0, 3)] 1 1 = 0 := by decide +kernel
      have e2 : capOf [((1 : ℕ), (2 : ℕ), (2 : ℚ)), (2, 0, 3)] 1 2 = 2 := by decide +kernel
      rw [e0] at c0; rw [e1] at c1; rw [e2] at c2
      have hs : ∑ v ∈ ({0, 1, 2} : Finset ℕ), g 1 v = g 1 0 + (g 1 1 + g 1 2) := by
        rw [Finset.sum_insert (by decide), Finset.sum_insert (by decide), Finset.sum_singleton]
      rw [hs] at ho
      linarith
    simp only [maxFlow]
    rw [hG, ok_bind, hG2, h1, ok_bind, if_neg]
    · rfl
    · intro h; linarith

/-- **Origin without components**: when no component touches the origin, networkx raises. -/
theorem C47_no_origin_raises {lib : FlowLib N} (hlib : FlowLibOK lib) (newT : N)
    (comps : List (K × ℕ)) (target : ℚ) {o d : N} {edges : List (K × N × N)}
    {varis : List (K × Variable K)} {G : CapGraph N}
    (hG : comps.foldlM (flowEdge edges varis) [] = .ok G)
    (ho : o ∉ nodesOf (addEdge G d newT target)) :
    maxFlow lib newT comps target o d edges varis = .error .graph := by
  simp only [maxFlow]
  rw [hG, ok_bind, hlib.raises _ _ _ (.inl ho)]
  rfl

end BNS
