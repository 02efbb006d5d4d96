import Verif.Proofs.ModelPy

/-!
# Property C62: from a road network to the distribution of its travel time
-/

namespace BNS

set_option linter.unusedSectionVars false

section
variable {K : Type} [LinearOrder K]

theorem TravelTime.unique {pt : List (List K × Option ℚ)} {x : K → ℕ} {cond : ℕ} {t u : Option ℚ}
    (ht : TravelTime pt x cond t) (hu : TravelTime pt x cond u) : t = u := by
  by_cases h : ∀ p ∈ pt, ¬ Surv x cond p.1
  · rw [ht.1.2 h, hu.1.2 h]
  · have h1 : t ≠ none := fun e => h (ht.1.1 e)
    have h2 : u ≠ none := fun e => h (hu.1.1 e)
    obtain ⟨p, hp, hps, rfl⟩ := ht.2.1 h1
    obtain ⟨q, hq, hqs, rfl⟩ := hu.2.1 h2
    have h3 := ht.2.2 q hq hqs
    have h4 := hu.2.2 p hp hps
    cases h5 : p.2 with
    | none => exact absurd h5 h1
    | some a =>
      cases h6 : q.2 with
      | none => exact absurd h6 h2
      | some b =>
        rw [h5, h6] at h3 h4
        exact congrArg some (le_antisymm h3 h4)

/-- The model of a road network with one OD, built in a directory without files of the key: no step
raises, and the probability computed for system state `j`, in any elimination order, is the
probability that the best surviving path has index `j`. -/
theorem C62_states {edges : List K} {damage : List ℚ} {scen : List (K × List ℚ)} {od : K}
    {pt : List (List K × Option ℚ)} (h : RoadNetOK edges damage scen od pt) (key : List Char)
    {dir : Dir K} (hdir : ∀ f ∈ dir, globMatch key f.1 = false) :
    ∃ brs dir' cpms varis, getBranches edges key [(od, pt)] dir = .ok ([(od, brs)], dir') ∧
      modelGivenOd edges damage scen od pt brs = .ok (cpms, varis) ∧
      ∀ ve : List K, ve.Perm edges → ∀ j < pt.length + 1, ∃ P,
        computeProb cpms varis ve od j true = .ok (probOf (binVs edges) (scenProbs scen)
          fun x => bestState 0 (pathStates pt (odValues pt)) x 1 = j, P) := by
  obtain ⟨brs, dir', e1, e2, e3⟩ := h.branches key hdir
  obtain ⟨C, f1, f2, f3⟩ := h.events e2 e3
  refine ⟨brs, dir', _, _, ?_, h.model f1 f2, fun ve hve j hj => ?_⟩
  · unfold getBranches
    rw [e1]
    rfl
  · obtain ⟨P, g⟩ := h.computeProb f2 hve hj
    refine ⟨P, ?_⟩
    rw [g]
    congr 2
    exact probOf_congr h.sysVars.varis (scenProbs scen) _ _ fun x hx => f3 j x hx

/-- The same in terms of travel times: for every possible travel time `t` (infinity included) there
is a state whose value is `t` and whose computed probability is the probability that the fastest
surviving path takes time `t` (that no path survives, for infinity).  Missing for the full claim: more
than five paths, more than one OD or files of an earlier run in the output directory (see
`C62_not_two_ods`, `C62_not_six_paths`), and times that are close but not equal. -/
theorem C62_travel_time_partial {edges : List K} {damage : List ℚ} {scen : List (K × List ℚ)}
    {od : K} {pt : List (List K × Option ℚ)} (h : RoadNetOK edges damage scen od pt)
    (key : List Char) {dir : Dir K} (hdir : ∀ f ∈ dir, globMatch key f.1 = false) :
    ∃ brs dir' cpms varis, getBranches edges key [(od, pt)] dir = .ok ([(od, brs)], dir') ∧
      modelGivenOd edges damage scen od pt brs = .ok (cpms, varis) ∧
      ∀ ve : List K, ve.Perm edges → ∀ t ∈ odValues pt, ∃ j P, (odValues pt)[j]? = some t ∧
        computeProb cpms varis ve od j true =
          .ok (probOf (binVs edges) (scenProbs scen) fun x => TravelTime pt x 1 t, P) := by
  obtain ⟨brs, dir', cpms, varis, e1, e2, e3⟩ := C62_states h key hdir
  refine ⟨brs, dir', cpms, varis, e1, e2, fun ve hve t ht => ?_⟩
  obtain ⟨j, hj, hiff⟩ : ∃ (j : ℕ), (odValues pt)[j]? = some t ∧
      ∀ x, bestState 0 (pathStates pt (odValues pt)) x 1 = j ↔ TravelTime pt x 1 t := by
    have hv := h.values
    cases t with
    | none =>
      refine ⟨0, rfl, fun x => ?_⟩
      obtain ⟨u, h1, h2, -⟩ := bestState_fastest hv x 1
      constructor
      · intro h0
        rw [h0] at h1
        cases h1
        exact h2
      · intro hT
        refine Nat.le_zero.1 (bestState_le le_rfl fun r hr hs => ?_)
        obtain ⟨p, hp, hpr⟩ := List.mem_filterMap.1 hr
        obtain ⟨i, -, rfl⟩ := Option.map_eq_some_iff.1 hpr
        exact absurd hs (hT.1.1 rfl p hp)
    | some a =>
      have : ∃ p ∈ pt, p.2 = some a := by
        unfold odValues at ht
        rw [List.mem_cons, (List.perm_insertionSort _ _).mem_iff, List.mem_map] at ht
        exact ht.resolve_left (by simp)
      obtain ⟨p, hp, hpa⟩ := this
      obtain ⟨j, h1, h2⟩ := timeIdx_spec hv hp
      rw [hpa] at h1 h2
      refine ⟨j, h2, fun x => ?_⟩
      obtain ⟨u, g1, g2, g3⟩ := bestState_fastest hv x 1
      constructor
      · rintro rfl
        rw [h2] at g1
        cases g1
        exact g2
      · intro hT
        obtain rfl := g2.unique hT
        have := g3 (by simp)
        rw [h1] at this
        exact (Option.some.inj this).symm
  have hlt : j < pt.length + 1 := by
    rw [← length_odValues pt]
    exact (List.getElem?_eq_some_iff.1 hj).1
  obtain ⟨P, hP⟩ := e3 ve hve j hlt
  refine ⟨j, P, hj, ?_⟩
  rw [hP]
  congr 2
  exact probOf_congr h.sysVars.varis (scenProbs scen) _ _ fun x _ => hiff x

/-- A scenario that lacks an arc: `KeyError`. -/
theorem C62_missing_arc_raises (edges : List K) (damage : List ℚ) (scen : List (K × List ℚ)) (od : K)
    (pt : List (List K × Option ℚ)) (brs : List (BBranch K)) (k : K) (hk : k ∈ edges)
    (hks : k ∉ scen.map Prod.fst) (hod : k ≠ od)
    (hs : ∀ kv ∈ scen, ∃ M, arcCpm (Variable.mk' kv.1 damage .dflt) kv.2 = .ok M) :
    modelGivenOd edges damage scen od pt brs = .error .key := by
  have e1 : ∃ l, (scen.mapM fun kv => do
      let M ← arcCpm (Variable.mk' kv.1 damage .dflt) kv.2
      return (kv.1, M)) = Except.ok l := by
    clear hks
    induction scen with
    | nil => exact ⟨[], rfl⟩
    | cons a scen ih =>
      obtain ⟨l, hl⟩ := ih fun kv h => hs kv (by simp [h])
      obtain ⟨M, hM⟩ := hs a (by simp)
      exact ⟨(a.1, M) :: l, by rw [List.mapM_cons, hM, ok_bind, pure_ok, ok_bind, hl]; rfl⟩
  obtain ⟨l, hl⟩ := e1
  have hnone : ∀ d : List (K × Variable K), k ∉ d.map Prod.fst → itemGet d k = .error .key := by
    intro d hd
    unfold itemGet
    have : d.find? (fun kv => kv.1 = k) = none := by
      rw [List.find?_eq_none]
      intro kv hkv e
      exact hd ((by simpa using e : kv.1 = k) ▸ List.mem_map_of_mem hkv)
    rw [this]
  have hk' : k ∉ (itemSet (scen.map fun kv => (kv.1, Variable.mk' kv.1 damage .dflt)) od
      (odVariable od pt)).map Prod.fst := by
    unfold itemSet
    split
    · intro hm
      obtain ⟨kv, hkv, e⟩ := List.mem_map.1 hm
      obtain ⟨kv', hkv', rfl⟩ := List.mem_map.1 hkv
      obtain ⟨q, hq, rfl⟩ := List.mem_map.1 hkv'
      split at e
      · exact hod e.symm
      · exact hks (e ▸ List.mem_map_of_mem hq)
    · intro hm
      rw [List.map_append, List.mem_append] at hm
      rcases hm with hm | hm
      · obtain ⟨kv, hkv, e⟩ := List.mem_map.1 hm
        obtain ⟨q, hq, rfl⟩ := List.mem_map.1 hkv
        exact hks (e ▸ List.mem_map_of_mem hq)
      · simp only [List.map_singleton, List.mem_singleton] at hm
        exact hod hm
  have e2 : ∀ d : List (K × Variable K), k ∉ d.map Prod.fst → (edges.mapM fun k => do
      let v ← itemGet d k
      return (k, v)) = Except.error .key := by
    intro d hd
    clear hks hk'
    induction edges with
    | nil => cases hk
    | cons a edges ih =>
      rw [List.mapM_cons]
      cases ha : itemGet d a with
      | error e =>
        have : e = .key := by
          unfold itemGet at ha
          split at ha <;> cases ha
          rfl
        rw [this]
        rfl
      | ok v =>
        rcases List.mem_cons.1 hk with rfl | hk
        · rw [hnone d hd] at ha
          cases ha
        · rw [ok_bind, pure_ok, ok_bind, ih hk]
          rfl
  unfold modelGivenOd
  simp only
  rw [hl, ok_bind, e2 _ hk']
  rfl

end

/-! ## Concrete cases, and where the claim fails -/

namespace Ex

def rEdges : List ℕ := [1, 2, 3]

def rScen : List (ℕ × List ℚ) := [(2, [1 / 5, 4 / 5]), (1, [1 / 2, 1 / 2]), (3, [1 / 10, 9 / 10])]

theorem rNet : RoadNetOK rEdges [0, 1] rScen 9 bPaths where
  nodup := by decide
  two := rfl
  keys := by decide
  scenLen := by decide
  odNew := by decide
  ne := by decide
  few := by decide
  path := by decide
  finite := by decide
  apart := by decide +kernel

example : ∃ brs dir' cpms varis, getBranches rEdges bKey [(9, bPaths)] [] = .ok ([(9, brs)], dir') ∧
    modelGivenOd rEdges [0, 1] rScen 9 bPaths brs = .ok (cpms, varis) ∧
    ∀ ve : List ℕ, ve.Perm rEdges → ∀ t ∈ odValues bPaths, ∃ j P, (odValues bPaths)[j]? = some t ∧
      computeProb cpms varis ve 9 j true =
        .ok (probOf (binVs rEdges) (scenProbs rScen) fun x => TravelTime bPaths x 1 t, P) :=
  C62_travel_time_partial rNet bKey (by simp)

/-- The whole computation for one OD, from an output directory. -/
def rProb (edges : List ℕ) (scen : List (ℕ × List ℚ)) (ods : List (ℕ × List (List ℕ × Option ℚ)))
    (i : ℕ) (state : ℕ) : Except Err ℚ := do
  let (brs, _) ← getBranches edges bKey ods []
  let b ← pyGet brs i
  let od ← pyGet ods i
  let (cpms, varis) ← modelGivenOd edges [0, 1] scen od.1 od.2 b.2
  let (p, _) ← computeProb cpms varis edges od.1 state true
  return p

/-- No path: 1/2 · (1 - 4/5 · 9/10). -/
example : rProb rEdges rScen [(9, bPaths)] 0 0 = .ok (7 / 50) := by decide +kernel

/-- The second OD only uses arc 1. -/
def rTwo : List (ℕ × List (List ℕ × Option ℚ)) := [(9, bPaths), (8, [([1], some 2)])]

/-- Seven values. -/
def rMany : List (List ℕ × Option ℚ) :=
  [([1], some 1), ([2], some 2), ([3], some 3), ([1, 2], some 4), ([1, 3], some 5), ([2, 3], some 6)]

end Ex

/-- With two ODs in one configuration the branches of the first are read back for the second: alone
its two probabilities are 1/2 and 1/2, after another OD they are 16/25 and 43/50. -/
theorem C62_not_two_ods :
    Ex.rProb Ex.rEdges Ex.rScen [(8, [([1], some 2)])] 0 0 = .ok (1 / 2) ∧
      Ex.rProb Ex.rEdges Ex.rScen [(8, [([1], some 2)])] 0 1 = .ok (1 / 2) ∧
      Ex.rProb Ex.rEdges Ex.rScen Ex.rTwo 1 0 = .ok (16 / 25) ∧
      Ex.rProb Ex.rEdges Ex.rScen Ex.rTwo 1 1 = .ok (43 / 50) := by decide +kernel

/-- With six paths the travel time has seven values, its table is not stored and the computation
raises; with the first five of them it does not. -/
theorem C62_not_six_paths :
    Ex.rProb Ex.rEdges Ex.rScen [(9, Ex.rMany)] 0 0 = .error .attribute ∧
      Ex.rProb Ex.rEdges Ex.rScen [(9, Ex.rMany.take 5)] 0 0 = .ok (1 / 100) := by decide +kernel

end BNS
