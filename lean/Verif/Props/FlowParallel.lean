import Verif.Proofs.FlowParallel
import Verif.Props.MaxFlowDemo

/-!
# C47, C86: networks in which several components connect the same nodes

What the code computes there: the graph keeps, between the same nodes, the capacity of the component
listed last.  The description is complete: the value, the state, the rule and the exception.
-/

set_option linter.unusedSectionVars false

namespace BNS

variable {K N : Type} [DecidableEq K] [DecidableEq N]
variable {bi : Bool} {vs : List (K × ℕ)} {edges : List (K × N × N)} {ends : K → N × N}
variable {varis : List (K × Variable K)} {o d newT : N}

/-- What is carried between the nodes of a component. -/
theorem carried_same {g : N → N → ℚ} (ha : ∀ u v, g u v = - g v u) {a b : K}
    (h : SameLink bi ends a b) : |carried bi g (ends a)| = |carried bi g (ends b)| := by
  rcases h with hs | ⟨hb, hs⟩
  · rw [hs]
  · subst hb
    simp only [carried, if_true, hs, Prod.fst_swap, Prod.snd_swap]
    rw [ha, abs_neg]

/-- No value of the component is enough for the amount. -/
theorem findIdx_short (hN : ParNetOK vs ends varis o d newT) {kn : K × ℕ} (hk : kn ∈ vs)
    {v : Variable K} (hv : varis.lookup kn.1 = some v) (q : ℚ) :
    v.values.findIdx? (fun c => decide (q ≤ c)) = none ↔ ∀ i, i < kn.2 → capAt varis kn.1 i < q := by
  obtain ⟨v', hv', hlen, -, -⟩ := hN.values kn hk
  have hvv : v' = v := by rw [hv] at hv'; exact (Option.some.inj hv').symm
  subst hvv
  have hc : ∀ i (hi : i < v'.values.length), capAt varis kn.1 i = v'.values[i] := by
    intro i hi; simp [capAt, hv, hi]
  rw [List.findIdx?_eq_none_iff]
  constructor
  · intro h i hi
    have hi' : i < v'.values.length := by rw [hlen]; exact hi
    rw [hc i hi']
    simpa using h _ (List.getElem_mem hi')
  · intro h w hw
    obtain ⟨i, hi, rfl⟩ := List.mem_iff_getElem.1 hw
    have := h i (by rw [← hlen]; exact hi)
    rw [hc i hi] at this
    simpa using this

theorem findIdx_state (hN : ParNetOK vs ends varis o d newT) {kn : K × ℕ} (hk : kn ∈ vs)
    {v : Variable K} (hv : varis.lookup kn.1 = some v) {q : ℚ} {i : ℕ}
    (h : v.values.findIdx? (fun c => decide (q ≤ c)) = some i) :
    i < kn.2 ∧ q ≤ capAt varis kn.1 i ∧ ∀ j, j < i → capAt varis kn.1 j < q := by
  obtain ⟨v', hv', hlen, -, -⟩ := hN.values kn hk
  have hvv : v' = v := by rw [hv] at hv'; exact (Option.some.inj hv').symm
  subst hvv
  have hc : ∀ i (hi : i < v'.values.length), capAt varis kn.1 i = v'.values[i] := by
    intro i hi; simp [capAt, hv, hi]
  rw [List.findIdx?_eq_some_iff_getElem] at h
  obtain ⟨hi, h1, h2⟩ := h
  refine ⟨by rw [← hlen]; exact hi, by rw [hc i hi]; simpa using h1, fun j hj => ?_⟩
  have := h2 j hj
  rw [hc j (hj.trans hi)]
  simpa using this

/-- **C86, several components between the same nodes.**  `max_flow_fun` sends a largest amount up to
the target through the network in which only the component listed last remains between the same nodes;
nothing else is used.  If that is less than the target it reports failure.  Otherwise it raises
`AssertionError` when a component has no state that alone could carry all that is carried between its
nodes; and if there is none it reports survival, with a rule that demands of *every* component between
the same nodes the lowest state that alone carries all of it.  Survival is never wrong: every component
vector that dominates the rule can send the target. -/
theorem C86_parallel {lib : Bool → FlowLib N} (hlib : FlowDirLibOK lib)
    (hN : ParNetOK vs ends varis o d newT) {target : ℚ} (ht : 0 ≤ target) {x : K → ℕ}
    (hx : InSpace vs x) :
    ∃ (val : ℚ) (φ : K → ℚ), val ≤ target ∧
      (∀ b ∈ lastLinks bi ends vs, Fits bi (φ b.1) (capAt varis b.1 (x b.1))) ∧
      (∀ n, n ≠ o → n ≠ d → netOut ((lastLinks bi ends vs).map Prod.fst) ends φ n = 0) ∧
      netOut ((lastLinks bi ends vs).map Prod.fst) ends φ o = val ∧
      (∀ F, F ≤ target → CanSendIn bi (lastLinks bi ends vs) ends varis o d F x → F ≤ val) ∧
      CanSendIn bi vs ends varis o d val x ∧
      (val < target → maxFlowFun lib newT false (compsOf vs x) o d
        (vs.map fun kn => (kn.1, ends kn.1)) varis target bi = .ok (val, .f, [])) ∧
      (val = target → (∃ kn ∈ vs, ∃ b ∈ lastLinks bi ends vs, SameLink bi ends kn.1 b.1 ∧
          ∀ i, i < kn.2 → capAt varis kn.1 i < |φ b.1|) →
        maxFlowFun lib newT false (compsOf vs x) o d (vs.map fun kn => (kn.1, ends kn.1)) varis target
          bi = .error .assertion) ∧
      (val = target → (¬ ∃ kn ∈ vs, ∃ b ∈ lastLinks bi ends vs, SameLink bi ends kn.1 b.1 ∧
          ∀ i, i < kn.2 → capAt varis kn.1 i < |φ b.1|) →
        ∃ r : Rule K, maxFlowFun lib newT false (compsOf vs x) o d
            (vs.map fun kn => (kn.1, ends kn.1)) varis target bi = .ok (target, .s, r) ∧
          RuleOK vs r ∧
          (∀ k i, (k, i) ∈ r ↔ k ∈ vs.map Prod.fst ∧ ∃ b ∈ lastLinks bi ends vs,
            SameLink bi ends k b.1 ∧ φ b.1 ≠ 0 ∧ |φ b.1| ≤ capAt varis k i ∧
              ∀ j, j < i → capAt varis k j < |φ b.1|) ∧
          ∀ y, AppliesS r y → CanSendIn bi (lastLinks bi ends vs) ends varis o d target y ∧
            CanSendIn bi vs ends varis o d target y) := by
  have hN' := par_net (bi := bi) hN
  set L := lastLinks bi ends vs with hL
  set G := addEdgeIn bi (linkGraph bi ends (fun k => capAt varis k (x k)) vs []) d newT target with hG
  have hnodes : nodesOf G = nodesOf (netGraph (L.map Prod.fst) ends (fun k => capAt varis k (x k)) d
      newT target) := par_nodes vs ends d newT _ _
  obtain ⟨val, g, hl, hf, hbest⟩ := hlib.best bi G o newT
    (nonneg_addEdgeIn (nonneg_linkGraph (fun kn hk => hN.capNonneg (List.mem_map_of_mem hk) _)
      (by simp)) _ _ ht)
    (by rw [hnodes]; exact mem_netGraph_nodes.2 (.inl hN'.dir.origin))
    (by rw [hnodes]; exact mem_netGraph_nodes.2 (.inr (.inr rfl))) hN'.dir.originNew
  obtain ⟨f4, f1, f2, f3, hmax⟩ := par_best hN ht hf hbest
  set φ : K → ℚ := fun k => carried bi g (ends k) with hφ
  have hsend : CanSendIn bi vs ends varis o d val x := par_canSend hN ⟨φ, f1, f2, f3.ge⟩
  have hget : getMaxFlow lib newT (compsOf vs x) o d (vs.map fun kn => (kn.1, ends kn.1)) varis target
      bi = .ok (val, fun u v => max (g u v) 0) := by
    have hne : vs ≠ [] := by
      obtain ⟨kn, hkn, -⟩ := hN.origin
      rintro rfl
      cases hkn
    obtain ⟨a, l, hal⟩ : ∃ a l, vs.map (fun kn => (kn.1, ends kn.1)) = a :: l := by
      cases hh : vs.map (fun kn => (kn.1, ends kn.1)) with
      | nil => exact absurd (List.map_eq_nil_iff.1 hh) hne
      | cons a l => exact ⟨a, l, rfl⟩
    have h1 := par_demoGraph (bi := bi) hN hx
    rw [hal] at h1 ⊢
    simp only [getMaxFlow]
    rw [h1, ok_bind, ← hG, hl]
  have hrun : maxFlowFun lib newT false (compsOf vs x) o d (vs.map fun kn => (kn.1, ends kn.1)) varis
      target bi = if val < target then .ok (val, .f, []) else
      ((vs.map fun kn => (kn.1, ends kn.1)).mapM
        (demoRule bi false varis fun u v => max (g u v) 0)) >>=
        fun rule => .ok (val, .s, rule.filterMap id) := by
    simp only [maxFlowFun]
    rw [hget, ok_bind]
    rfl
  -- one entry of the rule
  have hentry : ∀ kn ∈ vs, ∃ v, varis.lookup kn.1 = some v ∧
      demoRule bi false varis (fun u v => max (g u v) 0) (kn.1, ends kn.1) =
        if φ kn.1 = 0 then .ok none else
          match v.values.findIdx? fun c => decide (|φ kn.1| ≤ c) with
          | some i => .ok (some (kn.1, i))
          | none => .error .assertion := by
    intro kn h
    obtain ⟨v, hv, -⟩ := hN.values kn h
    have h2 : itemsGet varis kn.1 = .ok v := by simp [itemsGet, dictGet, hv]
    refine ⟨v, hv, ?_⟩
    simp only [demoRule]
    rw [if_neg (by simp), carried_report g hf.anti (ends kn.1)]
    by_cases hz : φ kn.1 = 0
    · rw [if_pos hz, if_neg (by simp only [hφ] at hz; rw [hz]; simp)]
    · rw [if_neg hz, if_pos (abs_pos.2 hz), h2, ok_bind]
      simp only [hφ]
      cases v.values.findIdx? fun c => decide (|carried bi g (ends kn.1)| ≤ c) <;> rfl
  have hpos : ∀ kn ∈ vs, 0 < kn.2 := fun kn hk => lt_of_le_of_lt (Nat.zero_le _) (hx kn hk)
  refine ⟨val, φ, f4, fun b hb => f1 b.1 (List.mem_map_of_mem hb), f2, f3, hmax, hsend, ?_, ?_, ?_⟩
  · intro hv
    rw [hrun, if_pos hv]
  · rintro hv ⟨kn, hk, b, hb, hs, hlt⟩
    rw [hrun, if_neg (by rw [hv]; exact lt_irrefl _)]
    have hsame : |φ kn.1| = |φ b.1| := carried_same hf.anti hs
    have hz : φ kn.1 ≠ 0 := by
      intro h0
      have h1 := hlt 0 (hpos kn hk)
      have h2 := hN.capNonneg (List.mem_map_of_mem hk) 0
      rw [← hsame, h0, abs_zero] at h1
      linarith
    obtain ⟨v, hv1, hv2⟩ := hentry kn hk
    rw [mapM_error (e := .assertion)]
    · rfl
    · refine ⟨(kn.1, ends kn.1), List.mem_map_of_mem hk, ?_⟩
      rw [hv2, if_neg hz, (findIdx_short hN hk hv1 _).2 (by rw [hsame]; exact hlt)]
    · intro e he e' hee
      obtain ⟨kn', hk', rfl⟩ := List.mem_map.1 he
      obtain ⟨w, -, hw2⟩ := hentry kn' hk'
      rw [hw2] at hee
      split at hee
      · cases hee
      · split at hee
        · cases hee
        · cases hee; rfl
  · intro hv hno
    have hidx : ∀ k, ∃ i, k ∈ vs.map Prod.fst → φ k ≠ 0 →
        (∃ v, varis.lookup k = some v ∧
          v.values.findIdx? (fun c => decide (|φ k| ≤ c)) = some i) ∧
        |φ k| ≤ capAt varis k i ∧ ∀ j, j < i → capAt varis k j < |φ k| := by
      intro k
      by_cases hk : k ∈ vs.map Prod.fst
      · obtain ⟨kn, h, rfl⟩ := List.mem_map.1 hk
        obtain ⟨v, hv1, -⟩ := hN.values kn h
        cases hfi : v.values.findIdx? fun c => decide (|φ kn.1| ≤ c) with
        | none =>
          exfalso
          obtain ⟨b, hb, hs⟩ := lastLinks_repr (bi := bi) (ends := ends) h
          refine hno ⟨kn, h, b, hb, hs, ?_⟩
          have hsame : |φ kn.1| = |φ b.1| := carried_same hf.anti hs
          rw [← hsame]
          exact (findIdx_short hN h hv1 _).1 hfi
        | some i =>
          exact ⟨i, fun _ _ => ⟨⟨v, hv1, hfi⟩, (findIdx_state hN h hv1 hfi).2⟩⟩
      · exact ⟨0, fun h => absurd h hk⟩
    choose idx hidx using hidx
    have hrule : ∀ e ∈ vs.map (fun kn => (kn.1, ends kn.1)),
        demoRule bi false varis (fun u v => max (g u v) 0) e =
        .ok (if φ e.1 ≠ 0 then some (e.1, idx e.1) else none) := by
      intro e he
      obtain ⟨kn, h, rfl⟩ := List.mem_map.1 he
      obtain ⟨v, hv1, hv2⟩ := hentry kn h
      rw [hv2]
      by_cases hz : φ kn.1 = 0
      · rw [if_pos hz, if_neg (by simp [hz])]
      · rw [if_neg hz, if_pos hz]
        obtain ⟨⟨v', hv', hi⟩, -⟩ := hidx kn.1 (List.mem_map_of_mem h) hz
        have hvv : v' = v := by rw [hv1] at hv'; exact (Option.some.inj hv').symm
        subst hvv
        rw [hi]
    set r : Rule K := (vs.filter fun kn => decide (φ kn.1 ≠ 0)).map fun kn => (kn.1, idx kn.1) with hr
    have hlist : ((vs.map (fun kn => (kn.1, ends kn.1))).map fun e => if φ e.1 ≠ 0 then
        some (e.1, idx e.1) else none).filterMap id = r := by
      rw [hr]
      have : ∀ l : List (K × ℕ), ((l.map (fun kn => (kn.1, ends kn.1))).map fun e => if φ e.1 ≠ 0 then
          some (e.1, idx e.1) else none).filterMap id =
          (l.filter fun kn => decide (φ kn.1 ≠ 0)).map fun kn => (kn.1, idx kn.1) := by
        intro l
        induction l with
        | nil => rfl
        | cons a l ih =>
          simp only [List.map_cons, List.filterMap_cons, List.filter_cons]
          by_cases hz : φ a.1 = 0
          · simp only [hz, ne_eq, not_true, if_false, id, decide_false, Bool.false_eq_true]
            exact ih
          · simp only [hz, ne_eq, not_false_eq_true, if_true, id, decide_true, List.map_cons]
            exact congrArg _ ih
      exact this vs
    have hmem : ∀ k i, (k, i) ∈ r ↔ k ∈ vs.map Prod.fst ∧ φ k ≠ 0 ∧ i = idx k := by
      intro k i
      simp only [hr, List.mem_map, List.mem_filter, decide_eq_true_eq, Prod.ext_iff]
      constructor
      · rintro ⟨kn, ⟨h, h2⟩, rfl, rfl⟩
        exact ⟨⟨kn, h, rfl⟩, h2, rfl⟩
      · rintro ⟨⟨kn, h, rfl⟩, h2, rfl⟩
        exact ⟨kn, ⟨h, h2⟩, rfl, rfl⟩
    refine ⟨r, ?_, ⟨?_, ?_⟩, ?_, ?_⟩
    · rw [hrun, if_neg (by rw [hv]; exact lt_irrefl _), mapM_ok hrule, ok_bind, hlist, hv]
    · rw [hr, List.map_map]
      exact List.Nodup.sublist (List.Sublist.map _ List.filter_sublist) hN.nodup
    · rintro ⟨k, i⟩ h
      exact ((hmem k i).1 h).1
    · intro k i
      rw [hmem]
      constructor
      · rintro ⟨h1, h2, rfl⟩
        obtain ⟨kn, h, rfl⟩ := List.mem_map.1 h1
        obtain ⟨b, hb, hs⟩ := lastLinks_repr (bi := bi) (ends := ends) h
        have hsame : |φ kn.1| = |φ b.1| := carried_same hf.anti hs
        refine ⟨h1, b, hb, hs, ?_, ?_⟩
        · intro h0
          rw [h0, abs_zero, abs_eq_zero] at hsame
          exact h2 hsame
        · rw [← hsame]
          exact (hidx kn.1 h1 h2).2
      · rintro ⟨h1, b, hb, hs, h2, h3, h4⟩
        have hsame : |φ k| = |φ b.1| := carried_same hf.anti hs
        have hz : φ k ≠ 0 := by
          intro h0
          rw [h0, abs_zero, eq_comm, abs_eq_zero] at hsame
          exact h2 hsame
        rw [← hsame] at h3 h4
        refine ⟨h1, hz, ?_⟩
        obtain ⟨-, h5, h6⟩ := hidx k h1 hz
        rcases lt_trichotomy i (idx k) with hlt | heq | hgt
        · exact absurd h3 (not_le.2 (h6 i hlt))
        · exact heq
        · exact absurd h5 (not_le.2 (h4 _ hgt))
    · intro y hy
      have hc : CanSendIn bi L ends varis o d target y := by
        refine ⟨φ, fun k hk => ?_, f2, by rw [f3, hv]⟩
        by_cases hz : φ k = 0
        · rw [hz]; exact Fits.zero (hN'.capNonneg hk _)
        · have hk' : k ∈ vs.map Prod.fst := ((lastLinks_sublist vs).map _).subset hk
          have h1 : idx k ≤ y k := hy (k, idx k) ((hmem k _).2 ⟨hk', hz, rfl⟩)
          exact (f1 k hk).of_abs ((hidx k hk' hz).2.1.trans (hN'.capMono hk h1))
      exact ⟨hc, par_canSend hN hc⟩

/-- **C47, several components between the same nodes.**  `max_flow` sends a largest amount up to the
target through the network in which only the component listed last remains between the same nodes.  It
never raises.  The rule has an entry for *every* component between nodes between which something is
carried: the lowest state that alone carries all of it, and `None` exactly if there is no such state.
Every component vector that dominates a rule without `None` can send the target. -/
theorem C47_parallel {lib : FlowLib N} (hlib : FlowLibOK lib) (hN : ParNetOK vs ends varis o d newT)
    (hd : ∀ kn ∈ vs, edges.lookup kn.1 = some (ends kn.1)) {target : ℚ} (ht : 0 ≤ target) {x : K → ℕ}
    (hx : InSpace vs x) :
    ∃ (val : ℚ) (φ : K → ℚ), val ≤ target ∧
      (∀ b ∈ lastLinks true ends vs, |φ b.1| ≤ capAt varis b.1 (x b.1)) ∧
      (∀ n, n ≠ o → n ≠ d → netOut ((lastLinks true ends vs).map Prod.fst) ends φ n = 0) ∧
      netOut ((lastLinks true ends vs).map Prod.fst) ends φ o = val ∧
      (∀ F, F ≤ target → CanSend (lastLinks true ends vs) ends varis o d F x → F ≤ val) ∧
      CanSend vs ends varis o d val x ∧
      (val < target → maxFlow lib newT (compsOf vs x) target o d edges varis = .ok (val, .f, [])) ∧
      (val = target → ∃ r : List (K × Option ℕ),
        maxFlow lib newT (compsOf vs x) target o d edges varis = .ok (target, .s, r) ∧
        (∀ k i, (k, some i) ∈ r ↔ k ∈ vs.map Prod.fst ∧ ∃ b ∈ lastLinks true ends vs,
          SameLink true ends k b.1 ∧ φ b.1 ≠ 0 ∧ |φ b.1| ≤ capAt varis k i ∧
            ∀ j, j < i → capAt varis k j < |φ b.1|) ∧
        (∀ k, (k, none) ∈ r ↔ ∃ n, (k, n) ∈ vs ∧ ∃ b ∈ lastLinks true ends vs,
          SameLink true ends k b.1 ∧ ∀ i, i < n → capAt varis k i < |φ b.1|) ∧
        ∀ r' : Rule K, r = r'.map (fun ki => (ki.1, some ki.2)) → ∀ y, AppliesS r' y →
          CanSend (lastLinks true ends vs) ends varis o d target y ∧
            CanSend vs ends varis o d target y) := by
  have hN' := par_net (bi := true) hN
  set L := lastLinks true ends vs with hL
  set G := addEdgeIn true (linkGraph true ends (fun k => capAt varis k (x k)) vs []) d newT target with hG
  have hnodes : nodesOf G = nodesOf (netGraph (L.map Prod.fst) ends (fun k => capAt varis k (x k)) d
      newT target) := par_nodes vs ends d newT _ _
  obtain ⟨val, g, hl, hf, hbest⟩ := hlib.best G o newT
    (nonneg_addEdgeIn (nonneg_linkGraph (fun kn hk => hN.capNonneg (List.mem_map_of_mem hk) _)
      (by simp)) _ _ ht)
    (by rw [hnodes]; exact mem_netGraph_nodes.2 (.inl hN'.dir.origin))
    (by rw [hnodes]; exact mem_netGraph_nodes.2 (.inr (.inr rfl))) hN'.dir.originNew
  obtain ⟨f4, f1, f2, f3, hmax⟩ := par_best (bi := true) hN ht hf hbest
  set φ : K → ℚ := fun k => carried true g (ends k) with hφ
  have hsend : CanSendIn true vs ends varis o d val x := par_canSend hN ⟨φ, f1, f2, f3.ge⟩
  have hrun : maxFlow lib newT (compsOf vs x) target o d edges varis =
      if target ≤ val then ((compsOf vs x).mapM (flowRule edges varis fun u v => max (g u v) 0)) >>=
        fun rule => .ok (val, .s, rule.filterMap id) else .ok (val, .f, []) := by
    simp only [maxFlow]
    rw [par_flowGraph hN hd hx, ok_bind]
    have : addEdge (linkGraph true ends (fun k => capAt varis k (x k)) vs []) d newT target = G := rfl
    rw [this, hl, ok_bind]
    rfl
  have hpos : ∀ kn ∈ vs, 0 < kn.2 := fun kn hk => lt_of_le_of_lt (Nat.zero_le _) (hx kn hk)
  refine ⟨val, φ, f4, fun b hb => f1 b.1 (List.mem_map_of_mem hb), f2, f3, hmax, hsend, ?_, ?_⟩
  · intro hv
    rw [hrun, if_neg (not_le.2 hv)]
  · intro hv
    set ent : K → Option ℕ := fun k => match varis.lookup k with
      | some v => v.values.findIdx? fun c => decide (|φ k| ≤ c)
      | none => none with hent
    have hrule : ∀ kx ∈ compsOf vs x, flowRule edges varis (fun u v => max (g u v) 0) kx =
        .ok (if φ kx.1 ≠ 0 then some (kx.1, ent kx.1) else none) := by
      intro kx hkx
      obtain ⟨kn, h, rfl⟩ := List.mem_map.1 hkx
      have h1 : itemsGet edges kn.1 = .ok (ends kn.1) := by simp [itemsGet, dictGet, hd kn h]
      obtain ⟨v, hv1, -⟩ := hN.values kn h
      have h2 : itemsGet varis kn.1 = .ok v := by simp [itemsGet, dictGet, hv1]
      have hrep := carried_report (bi := true) g hf.anti (ends kn.1)
      rw [if_pos rfl] at hrep
      simp only [flowRule]
      rw [h1, ok_bind, hrep]
      by_cases hz : φ kn.1 = 0
      · rw [if_neg (by simp only [hφ] at hz; rw [hz]; simp), if_neg (by simp [hz])]; rfl
      · rw [if_pos (abs_pos.2 hz), if_pos hz, h2, ok_bind]
        simp only [hent, hv1]
        rfl
    set r : List (K × Option ℕ) :=
      (vs.filter fun kn => decide (φ kn.1 ≠ 0)).map fun kn => (kn.1, ent kn.1) with hr
    have hlist : ((compsOf vs x).map fun kx => if φ kx.1 ≠ 0 then some (kx.1, ent kx.1)
        else none).filterMap id = r := by
      have : ∀ l : List (K × ℕ), ((compsOf l x).map fun kx => if φ kx.1 ≠ 0 then
          some (kx.1, ent kx.1) else none).filterMap id =
          (l.filter fun kn => decide (φ kn.1 ≠ 0)).map fun kn => (kn.1, ent kn.1) := by
        intro l
        induction l with
        | nil => rfl
        | cons a l ih =>
          have hc : compsOf (a :: l) x = (a.1, x a.1) :: compsOf l x := rfl
          simp only [hc, List.map_cons, List.filterMap_cons, List.filter_cons]
          by_cases hz : φ a.1 = 0
          · simp only [hz, ne_eq, not_true, if_false, id, decide_false, Bool.false_eq_true]
            exact ih
          · simp only [hz, ne_eq, not_false_eq_true, if_true, id, decide_true, List.map_cons]
            exact congrArg _ ih
      exact this vs
    have hmem : ∀ k oi, (k, oi) ∈ r ↔ k ∈ vs.map Prod.fst ∧ φ k ≠ 0 ∧ oi = ent k := by
      intro k oi
      simp only [hr, List.mem_map, List.mem_filter, decide_eq_true_eq, Prod.ext_iff]
      constructor
      · rintro ⟨kn, ⟨h, h2⟩, rfl, rfl⟩
        exact ⟨⟨kn, h, rfl⟩, h2, rfl⟩
      · rintro ⟨⟨kn, h, rfl⟩, h2, rfl⟩
        exact ⟨kn, ⟨h, h2⟩, rfl, rfl⟩
    have hsome : ∀ k i, (k, some i) ∈ r ↔ k ∈ vs.map Prod.fst ∧ φ k ≠ 0 ∧ |φ k| ≤ capAt varis k i ∧
        ∀ j, j < i → capAt varis k j < |φ k| := by
      intro k i
      rw [hmem]
      refine and_congr_right fun hk => and_congr_right fun hz => ?_
      obtain ⟨kn, h, rfl⟩ := List.mem_map.1 hk
      obtain ⟨v, hv1, hlen, -⟩ := hN.values kn h
      have he : ent kn.1 = v.values.findIdx? fun c => decide (|φ kn.1| ≤ c) := by
        simp only [hent, hv1]
      rw [he]
      constructor
      · intro hh
        exact (findIdx_state hN h hv1 hh.symm).2
      · rintro ⟨h3, h4⟩
        cases hfi : v.values.findIdx? fun c => decide (|φ kn.1| ≤ c) with
        | none =>
          exfalso
          have hs := (findIdx_short hN h hv1 _).1 hfi
          have hcap : ∃ j, j < kn.2 ∧ capAt varis kn.1 i = capAt varis kn.1 j := by
            by_cases hi : i < kn.2
            · exact ⟨i, hi, rfl⟩
            · refine ⟨kn.2 - 1, by have := hpos kn h; omega, ?_⟩
              have hne : v.values ≠ [] := by
                intro h0
                rw [h0] at hlen
                have := hpos kn h
                simp at hlen
                omega
              simp only [capAt, hv1]
              rw [List.getElem?_eq_none (by omega), List.getElem?_eq_getElem (by have := hpos kn h; omega),
                List.getLast?_eq_getLast_of_ne_nil hne, List.getLast_eq_getElem]
              simp only [Option.getD_none, Option.getD_some, hlen]
          obtain ⟨j, hj, hcj⟩ := hcap
          have := hs j hj
          rw [hcj] at h3
          linarith
        | some m =>
          obtain ⟨-, h5, h6⟩ := findIdx_state hN h hv1 hfi
          rcases lt_trichotomy i m with hlt | heq | hgt
          · exact absurd h3 (not_le.2 (h6 i hlt))
          · rw [heq]
          · exact absurd h5 (not_le.2 (h4 _ hgt))
    refine ⟨r, ?_, ?_, ?_, ?_⟩
    · rw [hrun, if_pos (by rw [hv]), mapM_ok hrule, ok_bind, hlist, hv]
    · intro k i
      rw [hsome]
      constructor
      · rintro ⟨h1, h2, h3⟩
        obtain ⟨kn, h, rfl⟩ := List.mem_map.1 h1
        obtain ⟨b, hb, hs⟩ := lastLinks_repr (bi := true) (ends := ends) h
        have hsame : |φ kn.1| = |φ b.1| := carried_same hf.anti hs
        refine ⟨h1, b, hb, hs, ?_, by rw [← hsame]; exact h3⟩
        intro h0
        rw [h0, abs_zero, abs_eq_zero] at hsame
        exact h2 hsame
      · rintro ⟨h1, b, hb, hs, h2, h3⟩
        have hsame : |φ k| = |φ b.1| := carried_same hf.anti hs
        refine ⟨h1, ?_, by rw [hsame]; exact h3⟩
        intro h0
        rw [h0, abs_zero, eq_comm, abs_eq_zero] at hsame
        exact h2 hsame
    · intro k
      rw [hmem]
      constructor
      · rintro ⟨h1, h2, h3⟩
        obtain ⟨kn, h, rfl⟩ := List.mem_map.1 h1
        obtain ⟨v, hv1, -⟩ := hN.values kn h
        obtain ⟨b, hb, hs⟩ := lastLinks_repr (bi := true) (ends := ends) h
        have hsame : |φ kn.1| = |φ b.1| := carried_same hf.anti hs
        refine ⟨kn.2, h, b, hb, hs, ?_⟩
        rw [← hsame]
        simp only [hent, hv1] at h3
        exact (findIdx_short hN h hv1 _).1 h3.symm
      · rintro ⟨n, h, b, hb, hs, hlt⟩
        obtain ⟨v, hv1, -⟩ := hN.values (k, n) h
        have hsame : |φ k| = |φ b.1| := carried_same hf.anti hs
        rw [← hsame] at hlt
        refine ⟨List.mem_map_of_mem (f := Prod.fst) h, ?_, ?_⟩
        · intro h0
          have h1 := hlt 0 (hpos (k, n) h)
          have h2 := hN.capNonneg (List.mem_map_of_mem (f := Prod.fst) h) 0
          rw [h0, abs_zero] at h1
          dsimp only at h2
          linarith
        · have := (findIdx_short hN h hv1 _).2 hlt
          dsimp only at hv1
          simp only [hent, hv1]
          exact this.symm
    · intro r' hr' y hy
      have hc : CanSendIn true L ends varis o d target y := by
        refine ⟨φ, fun k hk => ?_, f2, by rw [f3, hv]⟩
        by_cases hz : φ k = 0
        · rw [hz]; exact Fits.zero (hN'.capNonneg hk _)
        · have hk' : k ∈ vs.map Prod.fst := ((lastLinks_sublist vs).map _).subset hk
          have hin : (k, ent k) ∈ r := (hmem k _).2 ⟨hk', hz, rfl⟩
          have hin' := hin
          rw [hr', List.mem_map] at hin'
          obtain ⟨⟨k1, i⟩, hki, heq⟩ := hin'
          obtain ⟨rfl, h2⟩ := Prod.ext_iff.1 heq
          dsimp only at h2
          have h3 := hin
          rw [← h2, hsome] at h3
          have h1 : i ≤ y k1 := hy (k1, i) hki
          exact (f1 k1 hk).of_abs (h3.2.2.1.trans (hN'.capMono hk h1))
      exact ⟨hc, par_canSend hN hc⟩

/-! ### Consequences -/

namespace Ex

/-- The parallel components of `C47_not_parallel`. -/
theorem parNet : ParNetOK parVs parEnds parFVaris 1 2 0 := by
  refine ⟨by decide, ?_, by decide, by decide, by decide, by decide⟩
  intro kn hk
  refine ⟨.mk' kn.1 (if kn.1 = 1 then [0, 1] else [0, 1, 2]) .dflt, ?_⟩
  revert kn
  decide +kernel

/-- Two parallel components with the same capacities 0, 1 and 2. -/
def evenVaris : List (ℕ × Variable ℕ) := [(1, .mk' 1 [0, 1, 2] .dflt), (2, .mk' 2 [0, 1, 2] .dflt)]

def evenVs : List (ℕ × ℕ) := [(1, 3), (2, 3)]

theorem evenNet : ParNetOK evenVs parEnds evenVaris 1 2 0 := by
  refine ⟨by decide, ?_, by decide, by decide, by decide, by decide⟩
  intro kn hk
  refine ⟨.mk' kn.1 [0, 1, 2] .dflt, ?_⟩
  revert kn
  decide +kernel

/-- Component 2 in its best state sends 2 alone. -/
theorem lastSends {bi : Bool} {vs : List (ℕ × ℕ)} {varis : List (ℕ × Variable ℕ)} {x : ℕ → ℕ}
    (hL : lastLinks bi parEnds vs = [(2, 3)]) (hc : 2 ≤ capAt varis 2 (x 2)) :
    CanSendIn bi (lastLinks bi parEnds vs) parEnds varis 1 2 2 x := by
  rw [hL]
  refine ⟨fun _ => 2, ?_, fun n h1 h2 => ?_, by decide +kernel⟩
  · intro k hk
    rw [List.mem_singleton.1 hk]
    cases bi with
    | true => exact le_trans (by decide +kernel) hc
    | false => exact ⟨by decide +kernel, hc⟩
  · exact netOut_notEnd _ _ _ _ fun k _ => ⟨Ne.symm h1, Ne.symm h2⟩

theorem lastCarries (φ : ℕ → ℚ) : netOut ([((2 : ℕ), (3 : ℕ))].map Prod.fst) parEnds φ 1 = φ 2 := by
  simp [netOut, parEnds]

end Ex

/-- **C86 is false with parallel components: an exception.**  The second of two components from node 1
to node 2 sends the target 2 alone, but the first has no such capacity: `max_flow_fun` raises
`AssertionError`, whichever maximum flow networkx computes. -/
theorem C86_not_parallel_raises {lib : Bool → FlowLib ℕ} (hlib : FlowDirLibOK lib) (bi : Bool) :
    CanSendIn bi Ex.parVs Ex.parEnds Ex.parFVaris 1 2 2 (fun k => if k = 2 then 2 else 0) ∧
    maxFlowFun lib 0 false (compsOf Ex.parVs fun k => if k = 2 then 2 else 0) 1 2 Ex.parEdges
      Ex.parFVaris 2 bi = .error .assertion := by
  have hL : lastLinks bi Ex.parEnds Ex.parVs = [(2, 3)] := by revert bi; decide
  have hs := Ex.lastSends (x := fun k => if k = 2 then 2 else 0) hL
    (show (2 : ℚ) ≤ capAt Ex.parFVaris 2 2 by decide +kernel)
  refine ⟨par_canSend Ex.parNet hs, ?_⟩
  obtain ⟨val, φ, h1, h2, h3, h4, h5, -, -, h6, -⟩ := C86_parallel (bi := bi) hlib Ex.parNet
    (target := 2) (by decide +kernel) (x := fun k => if k = 2 then 2 else 0) (by decide)
  have hval : val = 2 := le_antisymm h1 (h5 2 le_rfl hs)
  rw [hL] at h4
  have hφ : φ 2 = 2 := by rw [← Ex.lastCarries φ, h4, hval]
  refine h6 hval ⟨(1, 2), by decide, (2, 3), by rw [hL]; decide, .inl rfl, ?_⟩
  intro i hi
  rw [hφ]
  revert i
  decide +kernel

/-- **C86 is false with parallel components: the rule.**  The second of two components from node 1 to
node 2 sends the target 2 alone, while the first is closed; `max_flow_fun` reports survival with a rule
that the evaluated vector itself does not meet, because it demands of the first component, too, that it
carries 2. -/
theorem C86_not_parallel_rule {lib : Bool → FlowLib ℕ} (hlib : FlowDirLibOK lib) (bi : Bool) :
    ∃ r : Rule ℕ, maxFlowFun lib 0 false (compsOf Ex.evenVs fun k => if k = 2 then 2 else 0) 1 2
      Ex.parEdges Ex.evenVaris 2 bi = .ok (2, .s, r) ∧ (1, 2) ∈ r ∧
      ¬ AppliesS r fun k => if k = 2 then 2 else 0 := by
  have hL : lastLinks bi Ex.parEnds Ex.evenVs = [(2, 3)] := by revert bi; decide
  have hs := Ex.lastSends (x := fun k => if k = 2 then 2 else 0) hL
    (show (2 : ℚ) ≤ capAt Ex.evenVaris 2 2 by decide +kernel)
  obtain ⟨val, φ, h1, h2, h3, h4, h5, -, -, -, h6⟩ := C86_parallel (bi := bi) hlib Ex.evenNet
    (target := 2) (by decide +kernel) (x := fun k => if k = 2 then 2 else 0) (by decide)
  have hval : val = 2 := le_antisymm h1 (h5 2 le_rfl hs)
  rw [hL] at h4
  have hφ : φ 2 = 2 := by rw [← Ex.lastCarries φ, h4, hval]
  obtain ⟨r, h7, -, h8, -⟩ := h6 hval (by
    rintro ⟨kn, hk, b, hb, -, hlt⟩
    rw [hL, List.mem_singleton] at hb
    subst hb
    rw [hφ] at hlt
    have : ∀ kn ∈ Ex.evenVs, ∃ i, i < kn.2 ∧ ¬ capAt Ex.evenVaris kn.1 i < |2| := by
      have : ∀ kn ∈ Ex.evenVs, 2 < kn.2 ∧ ¬ capAt Ex.evenVaris kn.1 2 < |2| := by decide +kernel
      exact fun kn hk => ⟨2, this kn hk⟩
    obtain ⟨i, hi, hi'⟩ := this kn hk
    exact hi' (hlt i hi))
  have hin : (1, 2) ∈ r := by
    rw [h8]
    refine ⟨by decide, (2, 3), by rw [hL]; decide, .inl rfl, ?_⟩
    rw [hφ]
    decide +kernel
  refine ⟨r, h7, hin, fun h => ?_⟩
  have := h (1, 2) hin
  revert this
  decide

/-- **C47 is false with parallel components: no state.**  In the case of `C86_not_parallel_raises` the
rule of `max_flow` has `None` for the first component, which `update_rule_set` cannot compare. -/
theorem C47_not_parallel_none {lib : FlowLib ℕ} (hlib : FlowLibOK lib) :
    ∃ r : List (ℕ × Option ℕ), maxFlow lib 0 (compsOf Ex.parVs fun k => if k = 2 then 2 else 0) 2 1 2
      Ex.parEdges Ex.parFVaris = .ok (2, .s, r) ∧ (1, none) ∈ r := by
  have hL : lastLinks true Ex.parEnds Ex.parVs = [(2, 3)] := by decide
  have hs := Ex.lastSends (x := fun k => if k = 2 then 2 else 0) hL
    (show (2 : ℚ) ≤ capAt Ex.parFVaris 2 2 by decide +kernel)
  obtain ⟨val, φ, h1, h2, h3, h4, h5, -, -, h6⟩ := C47_parallel (edges := Ex.parEdges) hlib Ex.parNet
    (by decide) (target := 2) (by decide +kernel) (x := fun k => if k = 2 then 2 else 0) (by decide)
  have hval : val = 2 := le_antisymm h1 (h5 2 le_rfl hs)
  rw [hL] at h4
  have hφ : φ 2 = 2 := by rw [← Ex.lastCarries φ, h4, hval]
  obtain ⟨r, h7, -, h8, -⟩ := h6 hval
  refine ⟨r, h7, ?_⟩
  rw [h8]
  refine ⟨2, by decide, (2, 3), by rw [hL]; decide, .inl rfl, ?_⟩
  rw [hφ]
  intro i hi
  revert i
  decide +kernel

end BNS
