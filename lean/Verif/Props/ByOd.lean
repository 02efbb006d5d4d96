import Verif.Proofs.ByOd
import Verif.Props.Paths

/-!
# Property C74: event matrices of the origins and destinations of a road network
-/

namespace BNS

set_option linter.unusedSectionVars false

section
variable {K : Type} [DecidableEq K] {m : NetJson K} {scen : List (K × List ℚ)}
  {scens : List (K × List (K × List ℚ))} {s1 : K}

/-- **C74, event matrices.**  A model file without parallel connections that does not ask for a
multigraph, and a scenario `s1` with one to six positive travel times per connection, shorter in
better states: `get_branches_by_od` returns one event matrix per origin and destination and the
variables of the connections.  With `t` the shortest travel time when everything is intact: every
vector of connection states is covered by exactly one row; if this row says failure no route is within
twice `t`, if it says survival some route is; and with a branch limit larger than twice the number of
vectors no row says unknown.  Missing for the full claim: multigraphs (`C74_not_multigraph`), more than
six states (`C74_not_seven_states`), travel time zero (`C74_not_zero_time`). -/
theorem C74_event_matrix_partial {lib : PathLib K} (hlib : PathLibOK lib) (h : DelayModelOK m scen)
    (hs : scens.lookup s1 = some scen) {maxB : ℕ} (hB : 0 < maxB) :
    ∃ inf csys varis, readModel m = .ok inf ∧
      getBranchesByOd lib inf scens s1 maxB = .ok (csys, varis) ∧
      csys.map Prod.fst = m.ods.map Prod.fst ∧
      varis.map (fun kv => (kv.1, kv.2.name, some kv.2.values)) =
        m.conns.map (fun c => (c.1, c.1, scen.lookup c.1)) ∧
      ∀ (i : ℕ) (od o d : K), m.ods[i]? = some (od, o, d) → ∃ (C : List (List ℕ)) (t : ℚ), csys[i]? = some (od, C) ∧
        ShortestTime m scen o d (allIntact scen) t ∧
        ∀ x, InSpace (delayVs m scen) x → ∃ (j s : ℕ) (cs : List ℕ), C[j]? = some (s :: cs) ∧
          RowMatches (varis.map Prod.snd) cs x ∧
          (∀ (j' : ℕ) (r : List ℕ), C[j']? = some r → RowMatches (varis.map Prod.snd) r.tail x → j' = j) ∧
          s < 3 ∧ (s = 0 → ¬ Reachable m scen o d (2 * t) x) ∧
          (s = 1 → Reachable m scen o d (2 * t) x) ∧
          (2 * ((delayVs m scen).map Prod.snd).prod < maxB → s ≠ 2) := by
  classical
  obtain ⟨nodes, hn, hG, hread⟩ := readModel_simple h.gtype h.simple h.noParallel
  obtain ⟨csys, e1, e2⟩ := byOd_run hlib h hB hn hG m.ods h.ods
  refine ⟨_, csys, delayVaris m scen, hread, ?_, ?_, ?_, ?_⟩
  · unfold getBranchesByOd
    simp only [delayVaris_made h hs, ok_bind]
    exact e1
  · have := e2.imp fun _ _ h => h.1
    refine List.ext_getElem (by simp [e2.length_eq]) fun i h1 h2 => ?_
    rw [List.getElem_map, List.getElem_map]
    exact (List.forall₂_iff_get.1 this).2 i (by simpa using h2) (by simpa using h1)
  · unfold delayVaris
    rw [List.map_map, List.map_map]
    refine List.map_congr_left fun c hc => ?_
    obtain ⟨ts, h1, -⟩ := h.times c hc
    simp [Variable.mk', h1]
  · intro i od o d hi
    obtain ⟨hlt, hi'⟩ := List.getElem?_eq_some_iff.1 hi
    have hlt' : i < csys.length := by rw [← e2.length_eq]; exact hlt
    obtain ⟨f1, t, c, st, bs, f2, f3, f4, f5, f6, f7, f8, f9, f10, f11, f12⟩ :=
      (List.forall₂_iff_get.1 e2).2 i hlt hlt'
    have hget : m.ods.get ⟨i, hlt⟩ = (od, o, d) := hi'
    rw [hget] at f1 f2 f9
    refine ⟨csys[i].2, t, ?_, f2, ?_⟩
    · rw [List.getElem?_eq_getElem hlt']
      exact congrArg some (Prod.ext f1 rfl)
    have hT : TablesOK c.vs (fun k => (delayVaris m scen).lookup k) := by
      intro kn hkn
      rw [f3, ← delayVaris_states] at hkn
      obtain ⟨kv, hkv, rfl⟩ := List.mem_map.1 hkn
      obtain ⟨g1, g2⟩ := delayVaris_tables h kv hkv
      exact ⟨kv.2, _, lookup_mem_items (by rw [delayVaris_names]; exact h.names) hkv, g1, g2,
        fun i hi => genB_getElem_lt _ _ hi⟩
    obtain ⟨bs', C, varis', g1, g2, g3, g4⟩ := C32_of_run f9 (by rw [f4]; exact hB)
      (Ex.start_empty c) f10 _ hT stBrToCs
      (fun l => by obtain ⟨j, hj, -⟩ := stBrToCs_some l; rw [hj]; simp)
    rw [f11] at g1
    cases g1
    rw [f12] at g2
    cases g2
    have hcv : compVars c.vs (fun k => (delayVaris m scen).lookup k) =
        (delayVaris m scen).map Prod.snd := by
      unfold compVars
      rw [f3, ← delayVaris_states, statesOf, List.filterMap_map, ← List.filterMap_eq_map]
      exact List.filterMap_congr fun kv hkv =>
        lookup_mem_items (by rw [delayVaris_names]; exact h.names) hkv
    intro x hx
    obtain ⟨j, b, s, cs, k1, k2, k3, k4, k5, k6, k7⟩ := g4 x (by rw [f3]; exact hx)
    rw [hcv] at k4 k5
    refine ⟨j, s, cs, k2, k4, ?_, ?_, ?_, ?_, ?_⟩
    · intro j' r hj' hrm
      cases r with
      | nil =>
        have hlt2 : j' < bs.length := by
          rw [← g3]; exact (List.getElem?_eq_some_iff.1 hj').1
        obtain ⟨-, -, -, hrun⟩ := C27_bounds f9 (Ex.start_empty c) f10
        obtain ⟨bs2, -, q1, q2, -⟩ := hrun (by rw [f4]; exact hB)
        rw [f11] at q1
        cases q1
        obtain ⟨C2, v2, q3, -, -, -, q4⟩ := C32_rows_partial c.vs bs _ stBrToCs hT
          (by rintro rfl; simp at hlt2) q2.1
          (fun b _ => by obtain ⟨j, hj, -⟩ := stBrToCs_some b.label; rw [hj]; simp)
        rw [f12] at q3
        cases q3
        obtain ⟨s2, cs2, q5, -⟩ := q4 j' bs[j'] (List.getElem?_eq_getElem hlt2)
        have := hj'.symm.trans q5
        cases this
      | cons s' cs' => exact k5 j' s' cs' hj' hrm
    · obtain ⟨j, hj, hj3⟩ := stBrToCs_some b.label
      rw [hj] at k3
      cases k3
      exact hj3
    · rintro rfl
      have : b.label = .f := by
        cases hl : b.label <;> rw [hl] at k3 <;> simp [stBrToCs] at k3 ⊢
      simpa using k7 this
    · rintro rfl
      have : b.label = .s := by
        cases hl : b.label <;> rw [hl] at k3 <;> simp [stBrToCs] at k3 ⊢
      simpa using k6 this
    · rintro hbig rfl
      have hpos : 0 < ((delayVs m scen).map Prod.snd).prod := by
        refine Nat.pos_of_ne_zero fun h0 => ?_
        obtain ⟨kn, hkn, hz⟩ := List.mem_map.1 (List.prod_eq_zero_iff.1 h0)
        have := f9.vs.pos kn (by rw [f3]; exact hkn)
        omega
      obtain ⟨st', q1, q2⟩ := C29_completes f9 f6 (by rw [f3, f4]; omega) (by rw [f3, f5]; omega) f7
        f8 (Ex.start_empty c)
      rw [f10] at q1
      cases q1
      obtain ⟨bs2, row, r1, -, r2, -⟩ := C28_enough_branches_partial f9 (Ex.start_empty c)
        (resume_none c _) (by rw [f3, f5]; omega) f10 q2
      rw [f11] at r1
      cases r1
      obtain ⟨r3, r4⟩ := r2 b (List.mem_of_getElem? k1)
      have hl : b.label = b.downState := by unfold Branch.label; rw [if_pos r3]
      rw [hl] at k3
      cases hd : b.downState <;> rw [hd] at k3 r4 <;> simp [stBrToCs] at k3 r4

/-- Without a connection between some origin and its destination the whole call raises
`NetworkXNoPath`, also for the other origins and destinations. -/
theorem C74_no_route_raises {lib : PathLib K} (hlib : PathLibOK lib) {G : NGraph K}
    {varis : List (K × Variable K)} (hm : G.multi = false) (ht : TimesOK G varis) (hv : varis ≠ [])
    {o d : K} (ho : o ∈ G.nodes) (hd : d ∈ G.nodes) (hr : ¬ ∃ es ns, Route G o es ns d) (maxB : ℕ) :
    branchesOfOd lib G maxB o d varis = .error .noPath := by
  have := C48_no_route_raises hlib hm ht hv ho hd hr (th := 1) (by decide)
    (intact_inSpace ht.nodup ht.states)
  simp only [sfMinPath, if_neg (by decide : (1 : ℚ) ≠ 0), sfMinPath.timed] at this
  unfold branchesOfOd
  cases hx : timeAndPath lib (compsOf (statesOf varis) (intactState varis)) G o d varis with
  | error e =>
    rw [hx] at this
    simp only [error_bind] at this
    rw [error_bind]
    cases this
    rfl
  | ok r =>
    rw [hx] at this
    simp only [ok_bind, pure_ok] at this
    cases this

/-- `KeyError` without the scenario `s1`, or if it lacks a connection. -/
theorem C74_missing_scenario (lib : PathLib K) (inf : Infra K) (maxB : ℕ) {k : K} {ks : List K}
    (hc : inf.conns.map Prod.fst = k :: ks)
    (h : scens.lookup s1 = none ∨ scens.lookup s1 = some scen ∧ scen.lookup k = none) :
    getBranchesByOd lib inf scens s1 maxB = .error .key := by
  unfold getBranchesByOd
  rw [hc, List.mapM_cons]
  have : delayVariable scens s1 k = .error .key := by
    unfold delayVariable itemsGet dictGet
    rcases h with h | ⟨h, h'⟩
    · simp only [h, error_bind]
    · simp only [h, ok_bind, h', error_bind]
  rw [this]
  rfl

end

section
variable {K : Type} [LinearOrder K] {m : NetJson K} {scen : List (K × List ℚ)}
  {scens : List (K × List (K × List ℚ))} {s1 : K}

open Classical in
/-- **C74, probabilities.**  An event matrix of `get_branches_by_od` as the CPM of the travel time next
to one CPM per connection: eliminating the connections, in any order, gives a table whose entries for
failure and survival bound, and with a large enough branch limit are, the probability that no route,
or some route, is within twice the shortest intact travel time. -/
theorem C74_probability_partial {lib : PathLib K} (hlib : PathLibOK lib) (h : DelayModelOK m scen)
    (hs : scens.lookup s1 = some scen) {maxB : ℕ} (hB : 0 < maxB) {U : K → Variable K} {sys : K}
    (hU : SysVars U (delayVs m scen) sys 3)
    (hUv : ∀ k, k ∈ m.conns.map Prod.fst → U k = Variable.mk' k ((scen.lookup k).getD []) .dflt)
    {probs : K → ℕ → ℚ} (hp : ProbOK (delayVs m scen) probs) :
    ∃ inf csys varis, readModel m = .ok inf ∧
      getBranchesByOd lib inf scens s1 maxB = .ok (csys, varis) ∧
      ∀ (i : ℕ) (od o d : K), m.ods[i]? = some (od, o, d) → ∃ (C : List (List ℕ)) (t : ℚ), csys[i]? = some (od, C) ∧
        ShortestTime m scen o d (allIntact scen) t ∧
        ∀ (cpms : List (Cpm K)) (ve : List (Variable K)),
          cpms.Perm ((delayVs m scen).map (compCpm U probs) ++ [sysCpm U (delayVs m scen) sys C]) →
          ve.Perm (compVariables U (delayVs m scen)) →
          ∃ P pf ps, variableElim cpms ve = .ok P ∧ P.getProb [U sys] [0] true = .ok pf ∧
            P.getProb [U sys] [1] true = .ok ps ∧
            pf ≤ probOf (delayVs m scen) probs (fun x => ¬ Reachable m scen o d (2 * t) x) ∧
            ps ≤ probOf (delayVs m scen) probs (Reachable m scen o d (2 * t)) ∧
            (2 * ((delayVs m scen).map Prod.snd).prod < maxB →
              pf = probOf (delayVs m scen) probs (fun x => ¬ Reachable m scen o d (2 * t) x) ∧
              ps = probOf (delayVs m scen) probs (Reachable m scen o d (2 * t))) := by
  obtain ⟨inf, csys, varis, e1, e2, e3, e4, e5⟩ := C74_event_matrix_partial hlib h hs hB
  refine ⟨inf, csys, varis, e1, e2, fun i od o d hi => ?_⟩
  obtain ⟨C, t, f1, f2, f3⟩ := e5 i od o d hi
  refine ⟨C, t, f1, f2, fun cpms ve hcp hve => ?_⟩
  -- the run behind the matrix
  obtain ⟨nodes, hn, hG, hread⟩ := readModel_simple h.gtype h.simple h.noParallel
  obtain ⟨csys', g1, g2⟩ := byOd_run hlib h hB hn hG m.ods h.ods
  rw [hread] at e1
  cases e1
  have hcs : csys = csys' ∧ varis = delayVaris m scen := by
    unfold getBranchesByOd at e2
    simp only [delayVaris_made h hs, ok_bind] at e2
    rw [g1] at e2
    cases e2
    exact ⟨rfl, rfl⟩
  obtain ⟨rfl, rfl⟩ := hcs
  obtain ⟨hlt, hi'⟩ := List.getElem?_eq_some_iff.1 hi
  have hlt' : i < csys.length := by rw [← g2.length_eq]; exact hlt
  obtain ⟨-, t', c, st, bs, -, k3, k4, -, -, -, -, k9, k10, k11, k12⟩ :=
    (List.forall₂_iff_get.1 g2).2 i hlt hlt'
  rw [List.getElem?_eq_getElem hlt'] at f1
  have hC : (csys.get ⟨i, hlt'⟩).2 = C := by
    have := congrArg (Option.map Prod.snd) f1
    simpa using this
  rw [hC] at k12
  obtain ⟨-, -, -, hrun⟩ := C27_bounds k9 (Ex.start_empty c) k10
  obtain ⟨bs2, -, q1, q2, -⟩ := hrun (by rw [k4]; exact hB)
  rw [k11] at q1
  cases q1
  rw [k3] at q2 k12
  have hvar : ∀ kn ∈ delayVs m scen, (delayVaris m scen).lookup kn.1 = some (U kn.1) := by
    intro kn hkn
    have hk : kn.1 ∈ m.conns.map Prod.fst := by
      obtain ⟨c, hc, rfl⟩ := List.mem_map.1 hkn
      exact List.mem_map_of_mem hc
    have := delayVaris_lookup (m := m) (scen := scen) hk
    rw [this, hUv _ hk]
  obtain ⟨C2, r1, r2, -⟩ := csys_events hU q2 (varis := fun k => (delayVaris m scen).lookup k) hvar
    (lbl := stBrToCs) (fun b _ => stBrToCs_some b.label)
  have hCC : C2 = C := by
    have := r1.symm.trans k12
    cases this
    rfl
  subst hCC
  obtain ⟨P, w1, w2, w3, w4, w5⟩ := sysNet_elim hU probs r2 hcp hve
  have hcv : compVariables U (delayVs m scen) = (delayVaris m scen).map Prod.snd := by
    unfold compVariables delayVs delayVaris
    rw [List.map_map, List.map_map, List.map_map]
    refine List.map_congr_left fun c hc => ?_
    exact hUv c.1 (List.mem_map_of_mem hc)
  have key : ∀ x, InSpace (delayVs m scen) x → ∃ s, (∀ j, SysState U (delayVs m scen) C2 j x ↔ s = j) ∧
      s < 3 ∧ (s = 0 → ¬ Reachable m scen o d (2 * t) x) ∧
      (s = 1 → Reachable m scen o d (2 * t) x) ∧
      (2 * ((delayVs m scen).map Prod.snd).prod < maxB → s ≠ 2) := by
    intro x hx
    obtain ⟨j, s, cs, v1, v2, v3, v4, v5, v6, v7⟩ := f3 x hx
    refine ⟨s, fun j' => ?_, v4, v5, v6, v7⟩
    unfold SysState
    rw [hcv]
    constructor
    · rintro ⟨r, hr, hh, hm⟩
      obtain ⟨i', hi', rfl⟩ := List.getElem_of_mem hr
      have := v3 i' _ (List.getElem?_eq_getElem hi') hm
      subst this
      rw [List.getElem?_eq_getElem hi'] at v1
      rw [Option.some.inj v1] at hh
      simpa using hh
    · rintro rfl
      exact ⟨s :: cs, List.mem_of_getElem? v1, rfl, v2⟩
  refine ⟨P, _, _, w1, sysNet_getProb hU probs w2 w3 w4 w5 (by omega),
    sysNet_getProb hU probs w2 w3 w4 w5 (by omega), ?_, ?_, fun hbig => ⟨?_, ?_⟩⟩
  · refine probOf_mono hU.varis hp _ _ fun x hx hst => ?_
    obtain ⟨s, y1, -, y2, -⟩ := key x hx
    exact y2 ((y1 0).1 hst)
  · refine probOf_mono hU.varis hp _ _ fun x hx hst => ?_
    obtain ⟨s, y1, -, -, y2, -⟩ := key x hx
    exact y2 ((y1 1).1 hst)
  · refine probOf_congr hU.varis probs _ _ fun x hx => ?_
    obtain ⟨s, y1, y2, y3, y4, y5⟩ := key x hx
    rw [y1]
    refine ⟨y3, fun hnr => ?_⟩
    have := y5 hbig
    have h1 : s ≠ 1 := fun e => hnr (y4 e)
    omega
  · refine probOf_congr hU.varis probs _ _ fun x hx => ?_
    obtain ⟨s, y1, y2, y3, y4, y5⟩ := key x hx
    rw [y1]
    refine ⟨y4, fun hr => ?_⟩
    have := y5 hbig
    have h1 : s ≠ 0 := fun e => y3 e hr
    omega

end

/-! ### Examples: the triangle as a model file -/

namespace Ex

/-- Connections 10 and 11 form a detour, 12 is the direct road. -/
def byFile : NetJson ℕ :=
  { comps := [(0, 0, 0), (1, 1, 1), (2, 2, 0)]
    conns := [(10, 0, 1, 1), (11, 1, 2, 1), (12, 0, 2, 3)]
    ods := [(20, 0, 2), (21, 1, 0)], gtype := none }

/-- Travel times, worst state first. -/
def byScen : List (ℕ × List ℚ) := [(10, [4, 2, 1]), (12, [9, 3]), (11, [4, 1])]

theorem byOK : DelayModelOK byFile byScen := by
  refine ⟨by decide, by decide, ?_, by decide, ?_, ?_⟩
  · refine .cons ?_ (.cons ?_ (.cons (by simp) .nil))
    · intro c hc u v
      simp only [List.mem_cons, List.not_mem_nil, or_false] at hc
      rcases hc with rfl | rfl <;> simp [ConnLinks, byFile] <;> omega
    · intro c hc u v
      simp only [List.mem_cons, List.not_mem_nil, or_false] at hc
      subst hc
      simp [ConnLinks, byFile]
      omega
  · intro c hc
    simp only [byFile, List.mem_cons, List.not_mem_nil, or_false] at hc
    rcases hc with rfl | rfl | rfl
    · exact ⟨[4, 2, 1], rfl, by decide +kernel, by decide, by decide +kernel, by decide +kernel⟩
    · exact ⟨[4, 1], rfl, by decide +kernel, by decide, by decide +kernel, by decide +kernel⟩
    · exact ⟨[9, 3], rfl, by decide +kernel, by decide, by decide +kernel, by decide +kernel⟩
  · intro od hod
    simp only [byFile, List.mem_cons, List.not_mem_nil, or_false] at hod
    rcases hod with rfl | rfl
    · exact ⟨by decide, [⟨0, 2, .inl 0, 12, 3⟩], [0, 2], .cons (by decide) (by simp [fileGraph, byFile])
        (by simp [Links]) (.nil (by decide))⟩
    · exact ⟨by decide, [⟨0, 1, .inl 0, 10, 1⟩], [1, 0], .cons (by decide) (by simp [fileGraph, byFile])
        (by simp [Links, fileGraph, byFile]) (.nil (by decide))⟩

example : ∃ inf csys varis, readModel byFile = .ok inf ∧
    getBranchesByOd enumLib inf [(1, byScen)] 1 100 = .ok (csys, varis) ∧
    csys.map Prod.fst = [20, 21] := by
  obtain ⟨inf, csys, varis, h1, h2, h3, -⟩ := C74_event_matrix_partial (s1 := 1) enumLib_ok byOK
    (scens := [(1, byScen)]) rfl (maxB := 100) (by decide)
  exact ⟨inf, csys, varis, h1, h2, h3⟩

/-- The shortest intact time from 0 to 2 is 2, late is more than 4; from 1 to 0 they are 1 and 2. -/
example : (readModel byFile >>= fun inf => getBranchesByOd enumLib inf [(1, byScen)] 1 100).toOption.map
    (fun r => r.1) = some [(20, [[1, 6, 2, 1], [0, 6, 0, 0], [0, 0, 1, 0], [1, 5, 1, 0]]),
      (21, [[0, 0, 2, 2], [1, 5, 2, 2]])] := by decide +kernel

/-- The variables of the triangle and of a travel time with three states. -/
def byU (k : ℕ) : Variable ℕ :=
  if k = 30 then Variable.mk' 30 [0, 1, 2] .dflt
  else Variable.mk' k ((byScen.lookup k).getD []) .dflt

theorem byU_ok : SysVars byU (delayVs byFile byScen) 30 3 := by
  refine ⟨⟨by decide +kernel, by decide +kernel⟩, by decide +kernel, by decide +kernel, ?_,
    by decide +kernel, rfl, rfl, rfl⟩
  intro kn hkn
  obtain ⟨c, hc, rfl⟩ := List.mem_map.1 hkn
  simp only [byFile, List.mem_cons, List.not_mem_nil, or_false] at hc
  rcases hc with rfl | rfl | rfl <;> rfl

example : ∃ inf csys varis, readModel byFile = .ok inf ∧
    getBranchesByOd enumLib inf [(1, byScen)] 1 100 = .ok (csys, varis) := by
  obtain ⟨inf, csys, varis, h1, h2, -⟩ := C74_probability_partial (s1 := 1) enumLib_ok byOK
    (scens := [(1, byScen)]) rfl (maxB := 100) (by decide) byU_ok
    (by intro k hk; unfold byU; rw [if_neg (by rintro rfl; revert hk; decide)])
    (probs := uniformProbs (delayVaris byFile byScen))
    (by
      rw [← delayVaris_states]
      exact uniformProbs_ok (by decide +kernel) (by decide +kernel))
  exact ⟨inf, csys, varis, h1, h2⟩

/-- A file with one road between two nodes. -/
def oneRoad (g : Option GType) : NetJson ℕ :=
  { comps := [(0, 0, 0), (1, 1, 1)], conns := [(10, 0, 1, 1)], ods := [(20, 0, 1)], gtype := g }

end Ex

/-- Defect: in a multigraph the states of the connections are ignored.  With travel times 10 and 1 and
state 0 the only route takes 10, more than twice 1, but the one row covers both states and says
survival. -/
theorem C74_not_multigraph :
    (readModel (Ex.oneRoad (some .multigraph)) >>= fun inf =>
      getBranchesByOd enumLib inf [(1, [(10, [10, 1])])] 1 100).toOption.map (fun r => r.1) =
        some [(20, [[1, 2]])] ∧
    ∀ es ns, Route (fileGraph (Ex.oneRoad none)) 0 es ns 1 →
      2 * 1 < delayOf [(10, [10, 1])] (fun _ => 0) es := by
  refine ⟨by decide +kernel, fun es ns hr => ?_⟩
  have hall : ∀ e ∈ es, delayTime [(10, [10, 1])] e.label 0 = 10 := by
    intro e he
    have := hr.edges e he
    simp only [fileGraph, Ex.oneRoad, List.map_cons, List.map_nil, List.mem_singleton] at this
    subst this
    decide +kernel
  cases hr with
  | @cons _ _ _ e es ns _ _ _ _ =>
    unfold delayOf
    rw [List.map_cons, List.sum_cons, hall e (by simp)]
    have : 0 ≤ (es.map fun e => delayTime [(10, [10, 1])] e.label 0).sum :=
      List.sum_nonneg fun y hy => by
        obtain ⟨e', he', rfl⟩ := List.mem_map.1 hy
        rw [hall e' (List.mem_cons_of_mem _ he')]
        norm_num
    linarith

/-- Defect: a connection with seven states stops the call with `TypeError` when a branch leaves it
open. -/
theorem C74_not_seven_states :
    (readModel (Ex.oneRoad none) >>= fun inf =>
      getBranchesByOd enumLib inf [(1, [(10, [7, 6, 5, 4, 3, 2, 1])])] 1 100) = .error .type := by
  have : (match (readModel (Ex.oneRoad none) >>= fun inf =>
      getBranchesByOd enumLib inf [(1, [(10, [7, 6, 5, 4, 3, 2, 1])])] 1 100) with
      | .error .type => true
      | _ => false) = true := by decide +kernel
  revert this
  generalize (readModel (Ex.oneRoad none) >>= fun inf =>
      getBranchesByOd enumLib inf [(1, [(10, [7, 6, 5, 4, 3, 2, 1])])] 1 100) = r
  intro h
  split at h
  · rfl
  · cases h

/-- Defect: if the intact travel time is zero the threshold zero is taken for no threshold, and the
test is one of connectivity: with travel times 2, 1 and 0 the row that covers state 1 says survival,
although twice the intact time is 0 and the only route takes 1. -/
theorem C74_not_zero_time :
    (readModel (Ex.oneRoad none) >>= fun inf =>
      getBranchesByOd enumLib inf [(1, [(10, [2, 1, 0])])] 1 100).toOption.map (fun r => r.1) =
        some [(20, [[0, 0], [1, 5]])] ∧
    (genB 3)[5]? = some {1, 2} ∧
    delayTime [(10, [2, 1, 0])] 10 1 = 1 ∧ delayTime [(10, [2, 1, 0])] 10 2 = 0 := by
  refine ⟨by decide +kernel, by decide +kernel, by decide +kernel, by decide +kernel⟩

end BNS
