import Verif.Proofs.PathLib
import Verif.Props.BrcRun

/-!
# C48: `sf_min_path`; C63: network reliability from end to end

The shortest-path functions of networkx are a parameter with the contract `PathLibOK`, which
`enumLib_ok` shows can be met.
-/

set_option linter.unusedSectionVars false

namespace BNS

variable {K : Type} [DecidableEq K] {G : NGraph K} {varis : List (K × Variable K)}

theorem mem_names_of_label (ht : TimesOK G varis) {o d : K} {es ns} (h : Route G o es ns d) :
    ∀ e ∈ es, e.label ∈ (statesOf varis).map Prod.fst := fun e he => by
  rw [names_statesOf]; exact ht.label e (h.edges e he)

theorem routeTime_anti (ht : TimesOK G varis) {o d : K} {es ns} (h : Route G o es ns d) {x y : K → ℕ}
    (hxy : ∀ e ∈ es, x e.label ≤ y e.label) : routeTime varis y es ≤ routeTime varis x es := by
  refine List.sum_le_sum fun e he => ?_
  exact timeOf_anti ht (ht.label e (h.edges e he)) (hxy e he)

theorem minComps_ruleOK {vs : List (K × ℕ)} (x : K → ℕ) (path : List K) :
    RuleOK vs (minComps (compsOf vs x) path) ∧ AppliesS (minComps (compsOf vs x) path) x := by
  refine ⟨⟨minComps_nodup _ _, fun kv h => ?_⟩, fun kv h => ?_⟩ <;>
  · obtain ⟨k, s⟩ := kv
    have h2 := (mem_minComps.1 h).2
    rw [lookup_compsOf] at h2
    split at h2
    · first | assumption | (cases h2; exact le_refl _)
    · cases h2

theorem minComps_applies {vs : List (K × ℕ)} {x y : K → ℕ} {path : List K}
    (h : AppliesS (minComps (compsOf vs x) path) y) {k : K} (hk : k ∈ path)
    (hv : k ∈ vs.map Prod.fst) : x k ≤ y k :=
  h (k, x k) (mem_minComps.2 ⟨hk, by rw [lookup_compsOf, if_pos hv]⟩)

/-- **C48, travel time.**  In a (directed or undirected) graph that is not a multigraph, with times
that are not negative and get shorter with better states, and with a route between the two nodes:
`sf_min_path` returns the least travel time, `'s'` exactly if it is within the threshold, and then a
rule over known components that applies to the evaluated vector and is valid: every component vector
that dominates it reaches the destination in time. -/
theorem C48_time_partial {lib : PathLib K} (hlib : PathLibOK lib) (hG : GraphOK G)
    (hm : G.multi = false) (ht : TimesOK G varis) (hv : varis ≠ []) {o d : K}
    (hr : ∃ es ns, Route G o es ns d) {th : ℚ} (h0 : th ≠ 0) {x : K → ℕ}
    (hx : InSpace (statesOf varis) x) :
    ∃ t st r, sfMinPath lib (compsOf (statesOf varis) x) G (.pair o d) varis (some th) =
        .ok (some t, st, r) ∧
      (∃ es ns, Route G o es ns d ∧ routeTime varis x es = t) ∧
      (∀ es ns, Route G o es ns d → t ≤ routeTime varis x es) ∧
      (st = .s ↔ InTime G varis o d th x) ∧ (st = .f ↔ ¬ InTime G varis o d th x) ∧
      RuleOK (statesOf varis) r ∧ (st = .s → AppliesS r x ∧
        ∀ y, InSpace (statesOf varis) y → AppliesS r y → InTime G varis o d th y) ∧
      (st = .f → r = []) := by
  obtain ⟨es, ns, h1, h2, h3⟩ := timeAndPath_ok hlib hG hm ht hv hr hx
  have hin : InTime G varis o d th x ↔ routeTime varis x es ≤ th :=
    ⟨fun ⟨es', ns', h', hle⟩ => (h3 es' ns' h').trans hle, fun h => ⟨es, ns, h1, h⟩⟩
  have hsf : sfMinPath lib (compsOf (statesOf varis) x) G (.pair o d) varis (some th) =
      .ok (some (routeTime varis x es), if th < routeTime varis x es then .f else .s,
        if th < routeTime varis x es then [] else
          minComps (compsOf (statesOf varis) x) (es.map NEdge.label ++ ns)) := by
    simp only [sfMinPath, if_neg h0, sfMinPath.timed, h2, ok_bind, pure_ok]
    by_cases hlt : th < routeTime varis x es <;> simp [hlt]
  refine ⟨_, _, _, hsf, ⟨es, ns, h1, rfl⟩, h3, ?_, ?_, ?_, ?_, ?_⟩
  · rw [hin]; split <;> simp <;> linarith
  · rw [hin]; split <;> simp <;> linarith
  · split
    · exact ⟨by simp, by simp⟩
    · exact (minComps_ruleOK x _).1
  · intro hs
    have hlt : ¬ th < routeTime varis x es := fun h => by rw [if_pos h] at hs; cases hs
    rw [if_neg hlt]
    refine ⟨(minComps_ruleOK x _).2, fun y hy ha => ⟨es, ns, h1, ?_⟩⟩
    refine (routeTime_anti ht h1 fun e he => ?_).trans (not_lt.1 hlt)
    exact minComps_applies ha (by
      exact List.mem_append_left _ (List.mem_map_of_mem he)) (mem_names_of_label ht h1 e he)
  · intro hf
    split
    · rfl
    · rename_i h; rw [if_neg h] at hf; cases hf

/-- **C48, several destinations.**  The same for the form `{'origin': .., 'dests': [..]}` in an
undirected graph: the least time to the nearest destination, or no time at all and `'f'` when none
can be reached. -/
theorem C48_multi_dest_partial {lib : PathLib K} (hlib : PathLibOK lib) (hG : GraphOK G)
    (hm : G.multi = false) (hd : G.directed = false) (ht : TimesOK G varis) (hv : varis ≠ []) {o : K}
    {ds : List K} (ho : o ∈ G.nodes) (hds : ∀ d ∈ ds, d ∈ G.nodes) (hne : ds ≠ []) {th : ℚ}
    (h0 : th ≠ 0) {x : K → ℕ} (hx : InSpace (statesOf varis) x) :
    ∃ t st r, sfMinPath lib (compsOf (statesOf varis) x) G (.multi o ds) varis (some th) =
        .ok (t, st, r) ∧
      (t = none ↔ ∀ d ∈ ds, ¬ ∃ es ns, Route G o es ns d) ∧
      (∀ c, t = some c → (∃ d ∈ ds, ∃ es ns, Route G o es ns d ∧ routeTime varis x es = c) ∧
        ∀ d ∈ ds, ∀ es ns, Route G o es ns d → c ≤ routeTime varis x es) ∧
      (st = .s ↔ ∃ d ∈ ds, InTime G varis o d th x) ∧
      (st = .f ↔ ¬ ∃ d ∈ ds, InTime G varis o d th x) ∧
      RuleOK (statesOf varis) r ∧ (st = .s → AppliesS r x ∧
        ∀ y, InSpace (statesOf varis) y → AppliesS r y → ∃ d ∈ ds, InTime G varis o d th y) ∧
      (st = .f → r = []) := by
  rcases timeAndPathMulti_ok hlib hG hm hd ht hv ho hds hne hx with
    ⟨hno, hok⟩ | ⟨d, hdm, es, ns, h1, h2, h3⟩
  · have hsf : sfMinPath lib (compsOf (statesOf varis) x) G (.multi o ds) varis (some th) =
        .ok (none, .f, []) := by
      simp only [sfMinPath, if_neg h0, sfMinPath.timed, hok, ok_bind, pure_ok]
      simp
    have hnot : ¬ ∃ d ∈ ds, InTime G varis o d th x := by
      rintro ⟨d, hd', es, ns, h, -⟩
      exact hno d hd' ⟨es, ns, h⟩
    exact ⟨_, _, _, hsf, by simpa using hno, by simp, by simp [hnot], by simp [hnot],
      ⟨by simp, by simp⟩, by simp, by simp⟩
  · have hin : (∃ d ∈ ds, InTime G varis o d th x) ↔ routeTime varis x es ≤ th :=
      ⟨fun ⟨d', hd', es', ns', h', hle⟩ => (h3 d' hd' es' ns' h').trans hle,
        fun h => ⟨d, hdm, es, ns, h1, h⟩⟩
    have hsf : sfMinPath lib (compsOf (statesOf varis) x) G (.multi o ds) varis (some th) =
        .ok (some (routeTime varis x es), if th < routeTime varis x es then .f else .s,
          if th < routeTime varis x es then [] else
            minComps (compsOf (statesOf varis) x) (es.map NEdge.label ++ ns)) := by
      simp only [sfMinPath, if_neg h0, sfMinPath.timed, h2, ok_bind, pure_ok]
      by_cases hlt : th < routeTime varis x es <;> simp [hlt]
    refine ⟨_, _, _, hsf, ?_, ?_, ?_, ?_, ?_, ?_, ?_⟩
    · simp only [reduceCtorEq, false_iff]
      intro h
      exact h d hdm ⟨es, ns, h1⟩
    · rintro c hc
      cases hc
      exact ⟨⟨d, hdm, es, ns, h1, rfl⟩, h3⟩
    · rw [hin]; split <;> simp <;> linarith
    · rw [hin]; split <;> simp <;> linarith
    · split
      · exact ⟨by simp, by simp⟩
      · exact (minComps_ruleOK x _).1
    · intro hs
      have hlt : ¬ th < routeTime varis x es := fun h => by rw [if_pos h] at hs; cases hs
      rw [if_neg hlt]
      refine ⟨(minComps_ruleOK x _).2, fun y hy ha => ⟨d, hdm, es, ns, h1, ?_⟩⟩
      refine (routeTime_anti ht h1 fun e he => ?_).trans (not_lt.1 hlt)
      exact minComps_applies ha (by
        exact List.mem_append_left _ (List.mem_map_of_mem he)) (mem_names_of_label ht h1 e he)
    · intro hf
      split
      · rfl
      · rename_i h; rw [if_neg h] at hf; cases hf

/-- **C48, connectivity.**  For all four types of graph (the edges of a multigraph keyed by their
labels, as `read_model_from_json` does) and components that are edges or nodes: `'s'` exactly if some
route uses only edges and nodes that have not failed; the rule is then valid.  Unknown or failed ends
are a failure, not an exception. -/
theorem C48_connectivity {lib : PathLib K} (hlib : PathLibOK lib) (hG : GraphOK G)
    (hk : G.multi = true → ∀ e ∈ G.edges, e.key = .inr e.label) (vs : List (K × ℕ)) (o d : K)
    {thres : Option ℚ} (hth : thres = none ∨ thres = some 0) (x : K → ℕ) :
    ∃ st r, sfMinPath lib (compsOf vs x) G (.pair o d) varis thres = .ok (none, st, r) ∧
      (st = .s ↔ Connected G vs o d x) ∧ (st = .f ↔ ¬ Connected G vs o d x) ∧
      RuleOK vs r ∧ (st = .s → AppliesS r x ∧ ∀ y, AppliesS r y → Connected G vs o d y) ∧
      (st = .f → r = []) := by
  have hpre : sfMinPath lib (compsOf vs x) G (.pair o d) varis thres = (do
      let r ← connectivity lib (compsOf vs x) G o d
      return (none, if r.2 = [] then .f else .s,
        if r.2 = [] then [] else minComps (compsOf vs x) (r.1 ++ r.2))) := by
    rcases hth with rfl | rfl <;> simp [sfMinPath, sfMinPath.conn]
  rw [hpre]
  rcases connectivity_ok hlib hG hk vs x o d with ⟨h1, h2⟩ | ⟨es, ns, h1, h2, h3, h4⟩
  · rw [h2]
    exact ⟨.f, [], rfl, by simp [h1], by simp [h1], ⟨by simp, by simp⟩, by simp, by simp⟩
  · have hne : ns ≠ [] := by obtain ⟨t, rfl⟩ := h1.head; simp
    have hc : Connected G vs o d x := ⟨es, ns, h1, h2, h3⟩
    rw [h4]
    refine ⟨.s, minComps (compsOf vs x) (es.map NEdge.label ++ ns), by
      simp [hne], by simp [hc], by simp [hc], (minComps_ruleOK x _).1,
      fun _ => ⟨(minComps_ruleOK x _).2, fun y ha => ⟨es, ns, h1, ?_, ?_⟩⟩, by simp⟩
    · intro e he hn
      have := minComps_applies ha (List.mem_append_left _ (List.mem_map_of_mem he)) hn
      have := h2 e he hn
      omega
    · intro n hm hn
      have := minComps_applies ha (List.mem_append_right _ hm) hn
      have := h3 n hm hn
      omega

/-- **C48, monotone.**  Better components never make the travel-time system fail. -/
theorem C48_monotone_time (ht : TimesOK G varis) (o d : K) (th : ℚ) {x y : K → ℕ}
    (hxy : ∀ kn ∈ statesOf varis, x kn.1 ≤ y kn.1) (h : InTime G varis o d th x) :
    InTime G varis o d th y := by
  obtain ⟨es, ns, h, hle⟩ := h
  refine ⟨es, ns, h, (routeTime_anti ht h fun e he => ?_).trans hle⟩
  obtain ⟨kn, h1, h2⟩ := List.mem_map.1 (mem_names_of_label ht h e he)
  rw [← h2]
  exact hxy kn h1

/-- **C48, monotone.**  Better components never disconnect the network. -/
theorem C48_monotone_connectivity (G : NGraph K) (vs : List (K × ℕ)) (o d : K) {x y : K → ℕ}
    (hxy : ∀ kn ∈ vs, x kn.1 ≤ y kn.1) (h : Connected G vs o d x) : Connected G vs o d y := by
  obtain ⟨es, ns, h, h1, h2⟩ := h
  have : ∀ k, Works vs x k → Works vs y k := by
    intro k hw hk
    obtain ⟨kn, h3, h4⟩ := List.mem_map.1 hk
    have := hxy kn h3
    have := hw hk
    rw [h4] at *
    omega
  exact ⟨es, ns, h, fun e he => this _ (h1 e he), fun n hn => this _ (h2 n hn)⟩

/-- Without a route the travel-time form with one destination raises `NetworkXNoPath`, where the form
with several destinations reports `'f'`. -/
theorem C48_no_route_raises {lib : PathLib K} (hlib : PathLibOK lib)
    (hm : G.multi = false) (ht : TimesOK G varis) (hv : varis ≠ []) {o d : K} (ho : o ∈ G.nodes)
    (hd : d ∈ G.nodes) (hr : ¬ ∃ es ns, Route G o es ns d) {th : ℚ} (h0 : th ≠ 0) {x : K → ℕ}
    (hx : InSpace (statesOf varis) x) :
    sfMinPath lib (compsOf (statesOf varis) x) G (.pair o d) varis (some th) = .error .noPath := by
  have h1 := hlib.noPath (timed G varis x) (fun e => e.weight) [o] d (timed_nonneg ht x)
    (by intro s hs; rw [List.mem_singleton] at hs; rw [hs]; exact ho) hd (by simp) (by
      intro s hs p hp
      rw [List.mem_singleton] at hs
      subst hs
      obtain ⟨es, h2, -⟩ := edgeFromNodes_spec hp
      obtain ⟨es', -, h3⟩ := route_timed.1 h2
      exact hr ⟨es', p, h3⟩)
  simp only [sfMinPath, if_neg h0, sfMinPath.timed]
  rw [timeAndPath, assert_varis hx, ok_bind, pyAssert_true (by simp), ok_bind,
    updateG_timed ht hv hm hx, ok_bind, h1]
  rfl

/-- Several destinations need a threshold: without one, or with the threshold 0, it is a `KeyError`
whatever the states of the components. -/
theorem C48_several_need_threshold (lib : PathLib K) (hG : GraphOK G)
    (hk : G.multi = true → ∀ e ∈ G.edges, e.key = .inr e.label) (comps : List (K × ℕ)) (o : K)
    (ds : List K) (varis : List (K × Variable K)) {th : Option ℚ} (h0 : th = none ∨ th = some 0) :
    sfMinPath lib comps G (.multi o ds) varis th = .error .key := by
  obtain ⟨H, h1, -⟩ := removeFailed_ok hG hk comps
  have hconn : sfMinPath.conn lib comps G (.multi o ds) = .error .key := by
    simp only [sfMinPath.conn, updateG, if_true, h1, ok_bind]
  rcases h0 with rfl | rfl
  · exact hconn
  · simpa [sfMinPath] using hconn

/-- The property fails for multigraphs in the travel-time form: with the edges keyed by their labels
(as `read_model_from_json` makes them) the states of the components are ignored altogether. -/
theorem C48_multigraph_ignores_states (lib : PathLib K) (hm : G.multi = true)
    (hk : ∀ e ∈ G.edges, e.key = .inr e.label) (ht : TimesOK G varis) (hv : varis ≠ []) {o d : K}
    {x y : K → ℕ} (hx : InSpace (statesOf varis) x) (hy : InSpace (statesOf varis) y) :
    timeAndPath lib (compsOf (statesOf varis) x) G o d varis =
      timeAndPath lib (compsOf (statesOf varis) y) G o d varis := by
  have key : ∀ z, InSpace (statesOf varis) z →
      timeAndPath lib (compsOf (statesOf varis) z) G o d varis = (do
        let r ← lib G (fun e => e.weight) [o] d
        let pe ← edgeFromNodes G r.2
        return (r.1, r.2, pe)) := by
    intro z hz
    have h1 : (G.edges.mapM fun e => edgeWeight varis (compsOf (statesOf varis) z) e.label) =
        .ok (G.edges.map fun e => timeOf varis e.label (z e.label)) :=
      mapM_ok fun e he => edgeWeight_ok ht hz (ht.label e he)
    have h2 : updateG G (compsOf (statesOf varis) z) varis = .ok G := by
      rw [updateG, if_neg hv, setWeights, h1, ok_bind, if_pos hm]
      have : ∀ (f : NEdge K → Option (NEdge K × ℚ)),
          G.edges.map (fun e => setKey0 (f e) e) = G.edges := by
        intro f
        conv_rhs => rw [← List.map_id G.edges]
        refine List.map_congr_left fun e he => ?_
        cases f e <;> simp [setKey0, hk e he]
      simp only [this]
      rfl
    rw [timeAndPath, assert_varis hz, ok_bind, pyAssert_true (by simp), ok_bind, h2, ok_bind]
  rw [key x hx, key y hy]

/-- The hypotheses of `run` (`CfgOK`) hold for the travel-time system of a network. -/
theorem sysFun_time {lib : PathLib K} (hlib : PathLibOK lib) (hG : GraphOK G) (hm : G.multi = false)
    (ht : TimesOK G varis) (hv : varis ≠ []) {o d : K} (hr : ∃ es ns, Route G o es ns d) {th : ℚ}
    (h0 : th ≠ 0) {Φ : (K → ℕ) → Bool} (hΦ : ∀ x, Φ x = true ↔ InTime G varis o d th x) :
    SysOK (statesOf varis) Φ
      (sysFunWrap lib G (.pair o d) varis (some th) (statesOf varis)) ∧
    Coherent (statesOf varis) Φ := by
  have key : ∀ x, InSpace (statesOf varis) x →
      let r := sysFunWrap lib G (.pair o d) varis (some th) (statesOf varis) x
      (r.st = .s ↔ Φ x = true) ∧ (r.st = .f ↔ Φ x = false) ∧ RuleOK (statesOf varis) r.min ∧
      (r.st = .s → AppliesS r.min x ∧ ValidS (statesOf varis) Φ r.min) ∧
      (r.st = .f → r.min = []) := by
    intro x hx
    obtain ⟨t, st, r, h1, -, -, h2, h3, h4, h5, h6⟩ := C48_time_partial hlib hG hm ht hv hr h0 hx
    simp only [sysFunWrap, h1]
    rw [hΦ, ← Bool.not_eq_true, hΦ]
    refine ⟨h2, h3, h4, fun hs => ⟨(h5 hs).1, fun y hy ha => ?_⟩, h6⟩
    rw [hΦ]
    exact (h5 hs).2 y hy ha
  constructor
  · constructor
    · intro x hx
      obtain ⟨h1, h2, -⟩ := key x hx
      split
      · rename_i h; exact h1.2 h
      · rename_i h; exact h2.2 (by simpa using h)
    · intro x hx _
      exact (key x hx).2.2.1
    · intro x hx _ hs
      obtain ⟨h1, -, -, h4, -⟩ := key x hx
      exact (h4 (h1.2 hs)).symm
    · intro x hx hne hf
      obtain ⟨-, h2, -, -, h5⟩ := key x hx
      exact absurd (h5 (h2.2 hf)) hne
  · intro x y hxy hs
    rw [hΦ] at hs ⊢
    exact C48_monotone_time ht o d th hxy hs

/-- The same for the connectivity of a network. -/
theorem sysFun_conn {lib : PathLib K} (hlib : PathLibOK lib) (hG : GraphOK G)
    (hk : G.multi = true → ∀ e ∈ G.edges, e.key = .inr e.label) (vs : List (K × ℕ)) {o d : K}
    {Φ : (K → ℕ) → Bool} (hΦ : ∀ x, Φ x = true ↔ Connected G vs o d x) :
    SysOK vs Φ (sysFunWrap lib G (.pair o d) [] none vs) ∧ Coherent vs Φ := by
  have key : ∀ x, let r := sysFunWrap lib G (.pair o d) [] none vs x
      (r.st = .s ↔ Φ x = true) ∧ (r.st = .f ↔ Φ x = false) ∧ RuleOK vs r.min ∧
      (r.st = .s → AppliesS r.min x ∧ ValidS vs Φ r.min) ∧ (r.st = .f → r.min = []) := by
    intro x
    obtain ⟨st, r, h1, h2, h3, h4, h5, h6⟩ :=
      C48_connectivity (varis := []) hlib hG hk vs o d (.inl rfl) x
    simp only [sysFunWrap, h1]
    rw [hΦ, ← Bool.not_eq_true, hΦ]
    refine ⟨h2, h3, h4, fun hs => ⟨(h5 hs).1, fun y hy ha => ?_⟩, h6⟩
    rw [hΦ]
    exact (h5 hs).2 y ha
  constructor
  · constructor
    · intro x hx
      obtain ⟨h1, h2, -⟩ := key x
      split
      · rename_i h; exact h1.2 h
      · rename_i h; exact h2.2 (by simpa using h)
    · intro x hx _
      exact (key x).2.2.1
    · intro x hx _ hs
      obtain ⟨h1, -, -, h4, -⟩ := key x
      exact (h4 (h1.2 hs)).symm
    · intro x hx hne hf
      obtain ⟨-, h2, -, -, h5⟩ := key x
      exact absurd (h5 (h2.2 hf)) hne
  · intro x y hxy hs
    rw [hΦ] at hs ⊢
    exact C48_monotone_connectivity G vs o d hxy hs

/-- The probability that a Boolean system function fails. -/
theorem pFail_decide (vs : List (K × ℕ)) (probs : K → ℕ → ℚ) (E : (K → ℕ) → Prop) [DecidablePred E] :
    pFail vs probs (fun x => decide (E x)) = probOf vs probs (fun x => ¬ E x) := by
  unfold pFail probOf
  congr 1
  funext x
  by_cases h : E x <;> simp [h]

/-- **C63, travel time, any budget.**  `run` with the system function made from a network: whatever
made it stop, the monitored bounds contain the probability that the destination cannot be reached
within the threshold. -/
theorem C63_travel_time_bounds_partial {lib : PathLib K} (hlib : PathLibOK lib) (hG : GraphOK G)
    (hm : G.multi = false) (ht : TimesOK G varis) (hv : varis ≠ []) {o d : K}
    (hr : ∃ es ns, Route G o es ns d) {th : ℚ} (h0 : th ≠ 0) [DecidablePred (InTime G varis o d th)]
    {c : RunCfg K} (hvs : c.vs = statesOf varis) (hp : ProbOK c.vs c.probs)
    (hsf : c.sysFun = sysFunWrap lib G (.pair o d) varis (some th) c.vs) {st : RunState K}
    (h : run c { s := [], f := [] } none = .ok st) :
    ∀ row ∈ st.mon, row.pfLow ≤ probOf c.vs c.probs (fun x => ¬ InTime G varis o d th x) ∧
      probOf c.vs c.probs (fun x => ¬ InTime G varis o d th x) ≤ row.pfUp := by
  have hs := sysFun_time hlib hG hm ht hv hr h0 (Φ := fun x => decide (InTime G varis o d th x))
    (by simp)
  rw [← hvs, ← hsf] at hs
  have hc : CfgOK c fun x => decide (InTime G varis o d th x) :=
    ⟨by rw [hvs]; exact timesOK_varis ht, hs.2, hp, hs.1⟩
  have := (C27_bounds hc (Ex.start_empty c) h).1
  rw [pFail_decide] at this
  exact this

/-- **C63, travel time, exact.**  With a budget larger than the number of component vectors the run
completes, and both bounds are the probability that the destination cannot be reached in time. -/
theorem C63_travel_time_exact_partial {lib : PathLib K} (hlib : PathLibOK lib) (hG : GraphOK G)
    (hm : G.multi = false) (ht : TimesOK G varis) (hv : varis ≠ []) {o d : K}
    (hr : ∃ es ns, Route G o es ns d) {th : ℚ} (h0 : th ≠ 0) [DecidablePred (InTime G varis o d th)]
    {c : RunCfg K} (hvs : c.vs = statesOf varis) (hp : ProbOK c.vs c.probs)
    (hsf : c.sysFun = sysFunWrap lib G (.pair o d) varis (some th) c.vs)
    (hfirst : c.survFirst = true) (hmax : (c.vs.map Prod.snd).prod < c.maxSf)
    (hnb : 2 * (c.vs.map Prod.snd).prod ≤ c.maxNb) (hw : c.pfBndWr = 0) (hmr : c.maxRules = none) :
    ∃ st row, run c { s := [], f := [] } none = .ok st ∧ st.outFlag = some .complete ∧
      st.mon.getLast? = some row ∧
      row.pfLow = probOf c.vs c.probs (fun x => ¬ InTime G varis o d th x) ∧
      row.pfUp = probOf c.vs c.probs (fun x => ¬ InTime G varis o d th x) := by
  have hs := sysFun_time hlib hG hm ht hv hr h0 (Φ := fun x => decide (InTime G varis o d th x))
    (by simp)
  rw [← hvs, ← hsf] at hs
  have hc : CfgOK c fun x => decide (InTime G varis o d th x) :=
    ⟨by rw [hvs]; exact timesOK_varis ht, hs.2, hp, hs.1⟩
  obtain ⟨st, h1, h2⟩ := C29_completes hc hfirst hmax hnb hw hmr (Ex.start_empty c)
  obtain ⟨-, row, -, h3, -, h4, h5⟩ := C28_enough_branches_partial hc (Ex.start_empty c)
    (resume_none c _) hnb h1 h2
  rw [pFail_decide] at h4 h5
  exact ⟨st, row, h1, h2, h3, h4, h5⟩

/-- **C63, connectivity.**  The same for the probability that the two nodes are disconnected, for all
types of graph and for components that are edges or nodes. -/
theorem C63_connectivity {lib : PathLib K} (hlib : PathLibOK lib) (hG : GraphOK G)
    (hk : G.multi = true → ∀ e ∈ G.edges, e.key = .inr e.label) {o d : K} {c : RunCfg K}
    [DecidablePred (Connected G c.vs o d)] (hvs : VarisOK c.vs) (hp : ProbOK c.vs c.probs)
    (hsf : c.sysFun = sysFunWrap lib G (.pair o d) [] none c.vs) :
    (∀ st, run c { s := [], f := [] } none = .ok st → ∀ row ∈ st.mon,
      row.pfLow ≤ probOf c.vs c.probs (fun x => ¬ Connected G c.vs o d x) ∧
      probOf c.vs c.probs (fun x => ¬ Connected G c.vs o d x) ≤ row.pfUp) ∧
    (c.survFirst = true → (c.vs.map Prod.snd).prod < c.maxSf →
      2 * (c.vs.map Prod.snd).prod ≤ c.maxNb → c.pfBndWr = 0 → c.maxRules = none →
      ∃ st row, run c { s := [], f := [] } none = .ok st ∧ st.outFlag = some .complete ∧
        st.mon.getLast? = some row ∧
        row.pfLow = probOf c.vs c.probs (fun x => ¬ Connected G c.vs o d x) ∧
        row.pfUp = probOf c.vs c.probs (fun x => ¬ Connected G c.vs o d x)) := by
  have hs := sysFun_conn hlib hG hk c.vs (o := o) (d := d)
    (Φ := fun x => decide (Connected G c.vs o d x)) (by simp)
  rw [← hsf] at hs
  have hc : CfgOK c fun x => decide (Connected G c.vs o d x) := ⟨hvs, hs.2, hp, hs.1⟩
  constructor
  · intro st h
    have := (C27_bounds hc (Ex.start_empty c) h).1
    rw [pFail_decide] at this
    exact this
  · intro hfirst hmax hnb hw hmr
    obtain ⟨st, h1, h2⟩ := C29_completes hc hfirst hmax hnb hw hmr (Ex.start_empty c)
    obtain ⟨-, row, -, h3, -, h4, h5⟩ := C28_enough_branches_partial hc (Ex.start_empty c)
      (resume_none c _) hnb h1 h2
    rw [pFail_decide] at h4 h5
    exact ⟨st, row, h1, h2, h3, h4, h5⟩

/-! ### Examples: a triangle -/

namespace Ex

/-- Nodes 0, 1, 2; the direct edge 12 from 0 to 2 and the detour over 10 and 11. -/
def tri : NGraph ℕ :=
  { directed := false, multi := false, nodes := [0, 1, 2]
    edges := [⟨0, 1, .inl 0, 10, 1⟩, ⟨1, 2, .inl 0, 11, 1⟩, ⟨0, 2, .inl 0, 12, 1⟩] }

/-- Times: 4, 2 or 1 hours on the detour edges, 9 or 3 hours on the direct one. -/
def triVaris : List (ℕ × Variable ℕ) :=
  [(10, .mk' 10 [4, 2, 1] .dflt), (11, .mk' 11 [4, 1] .dflt), (12, .mk' 12 [9, 3] .dflt)]

theorem tri_ok : GraphOK tri := by
  refine ⟨by decide, fun _ => ?_, fun h => by simp [tri] at h⟩
  simp only [tri, List.pairwise_cons, List.mem_cons, Links]
  refine ⟨?_, ?_, ?_, List.Pairwise.nil⟩
  · simp; refine ⟨fun u v => ?_, fun u v => ?_⟩ <;> omega
  · simp; intro u v; omega
  · simp

theorem tri_times : TimesOK tri triVaris := by
  refine ⟨by decide, by decide, by decide, by decide +kernel, by decide +kernel⟩

theorem tri_route : ∃ es ns, Route tri 0 es ns 2 :=
  ⟨[⟨0, 2, .inl 0, 12, 1⟩], [0, 2], .cons (by decide) (by simp [tri]) (by simp [Links])
    (.nil (by decide))⟩

example : ∃ t st r, sfMinPath enumLib (compsOf (statesOf triVaris) fun k => if k = 12 then 0 else 1)
    tri (.pair 0 2) triVaris (some 3) = .ok (some t, st, r) ∧
      (st = .s ↔ InTime tri triVaris 0 2 3 fun k => if k = 12 then 0 else 1) := by
  obtain ⟨t, st, r, h, -, -, h2, -⟩ := C48_time_partial enumLib_ok tri_ok rfl tri_times (by decide)
    tri_route (th := 3) (by decide +kernel) (x := fun k => if k = 12 then 0 else 1) (by decide)
  exact ⟨t, st, r, h, h2⟩

/-- With the direct edge in its bad state the detour takes three hours. -/
example : sfMinPath enumLib (compsOf (statesOf triVaris) fun k => if k = 12 then 0 else 1)
    tri (.pair 0 2) triVaris (some 3) = .ok (some 3, .s, [(10, 1), (11, 1)]) := by decide +kernel

example : sfMinPath enumLib (compsOf (statesOf triVaris) fun _ => 0)
    tri (.multi 0 [1, 2]) triVaris (some 3) = .ok (some 4, .f, []) := by decide +kernel

example : GraphOK tri ∧ tri.multi = false ∧ sfMinPath enumLib (compsOf (statesOf triVaris) fun _ => 1)
    tri (.multi 0 [1, 2]) triVaris none = .error .key := ⟨tri_ok, rfl, by decide +kernel⟩

/-- Components: the three edges and node 1. -/
def triVs : List (ℕ × ℕ) := [(10, 2), (11, 2), (12, 2), (1, 2)]

example : sfMinPath enumLib (compsOf triVs fun k => if k = 12 then 0 else 1) tri (.pair 0 2) [] none =
    .ok (none, .s, [(10, 1), (11, 1), (1, 1)]) := by decide +kernel

example : sfMinPath enumLib (compsOf triVs fun k => if k = 12 ∨ k = 1 then 0 else 1) tri
    (.pair 0 2) [] none = .ok (none, .f, []) := by decide +kernel

/-- The whole pipeline on the triangle. -/
def triCfg : RunCfg ℕ :=
  { vs := triVs, probs := fun _ _ => 1 / 2
    sysFun := sysFunWrap enumLib tri (.pair 0 2) [] none triVs
    maxSf := 20, maxNb := 40 }

open Classical in
example : ∃ st row, run triCfg { s := [], f := [] } none = .ok st ∧ st.mon.getLast? = some row ∧
    row.pfLow = probOf triVs (fun _ _ => 1 / 2) (fun x => ¬ Connected tri triVs 0 2 x) := by
  obtain ⟨st, row, h1, -, h2, h3, -⟩ := (C63_connectivity (c := triCfg) (o := 0) (d := 2) enumLib_ok
    tri_ok (fun h => by simp [tri] at h) ⟨by decide, by decide⟩
    ⟨by decide +kernel, by decide +kernel⟩ rfl).2 rfl (by decide) (by decide) rfl rfl
  exact ⟨st, row, h1, h2, h3⟩

/-- Two parallel edges, keyed by their labels as `read_model_from_json` does. -/
def parG : NGraph ℕ :=
  { directed := false, multi := true, nodes := [0, 1]
    edges := [⟨0, 1, .inr 10, 10, 1⟩, ⟨0, 1, .inr 11, 11, 1⟩] }

def parVaris : List (ℕ × Variable ℕ) := [(10, .mk' 10 [9, 1] .dflt), (11, .mk' 11 [9, 1] .dflt)]

end Ex

/-- Negation for multigraphs: with both edges in their bad state the node is nine hours away, yet the
system is reported to survive a threshold of two hours. -/
theorem C48_not_multigraph : ∃ (G : NGraph ℕ) (varis : List (ℕ × Variable ℕ)) (x : ℕ → ℕ),
    GraphOK G ∧ TimesOK G varis ∧ InSpace (statesOf varis) x ∧
    sfMinPath enumLib (compsOf (statesOf varis) x) G (.pair 0 1) varis (some 2) =
      .ok (some 1, .s, [(10, 0)]) ∧ ¬ InTime G varis 0 1 2 x := by
  refine ⟨Ex.parG, Ex.parVaris, fun _ => 0, ⟨by decide, fun h => by simp [Ex.parG] at h, fun _ => ?_⟩,
    ⟨by decide, by decide, by decide, by decide +kernel, by decide +kernel⟩, by decide,
    by decide +kernel, ?_⟩
  · simp [Ex.parG]
  · rintro ⟨es, ns, h, hle⟩
    cases h with
    | cons hu he hl h' =>
      rename_i m e es ns
      have h9 : timeOf Ex.parVaris e.label 0 = 9 := by
        simp only [Ex.parG, List.mem_cons, List.not_mem_nil, or_false] at he
        rcases he with rfl | rfl <;> decide +kernel
      have hnn : 0 ≤ routeTime Ex.parVaris (fun _ => 0) es := by
        refine List.sum_nonneg fun a ha => ?_
        obtain ⟨e', -, rfl⟩ := List.mem_map.1 ha
        rw [timeOf]
        split
        · rename_i v hv
          have : v.values = [9, 1] := by
            simp only [Ex.parVaris, List.lookup_cons, List.lookup_nil] at hv
            split at hv
            · cases hv; rfl
            · split at hv
              · cases hv; rfl
              · cases hv
          rw [this]
          show (0 : ℚ) ≤ 9
          decide +kernel
        · exact le_refl _
      rw [routeTime, List.map_cons, List.sum_cons, h9] at hle
      unfold routeTime at hnn
      linarith

/-- Negation for the threshold zero, which the code takes for no threshold: the destination is two
hours away and the system is reported to survive. -/
theorem C48_not_zero_threshold : ∃ (G : NGraph ℕ) (varis : List (ℕ × Variable ℕ)) (x : ℕ → ℕ),
    GraphOK G ∧ G.multi = false ∧ TimesOK G varis ∧ InSpace (statesOf varis) x ∧
    (∃ r, sfMinPath enumLib (compsOf (statesOf varis) x) G (.pair 0 2) varis (some 0) =
      .ok (none, .s, r)) ∧ ¬ InTime G varis 0 2 0 x := by
  refine ⟨Ex.tri, Ex.triVaris, fun _ => 1, Ex.tri_ok, rfl, Ex.tri_times, by decide,
    ⟨[(12, 1)], by decide +kernel⟩, ?_⟩
  rintro ⟨es, ns, h, hle⟩
  cases h with
  | cons hu he hl h' =>
    rename_i m e es ns
    have h1 : 1 ≤ timeOf Ex.triVaris e.label 1 := by
      simp only [Ex.tri, List.mem_cons, List.not_mem_nil, or_false] at he
      rcases he with rfl | rfl | rfl <;> decide +kernel
    have hnn : 0 ≤ routeTime Ex.triVaris (fun _ => 1) es := by
      refine List.sum_nonneg fun a ha => ?_
      obtain ⟨e', -, rfl⟩ := List.mem_map.1 ha
      exact timeOf_nonneg Ex.tri_times _ _
    rw [routeTime, List.map_cons, List.sum_cons] at hle
    unfold routeTime at hnn
    linarith

end BNS
