import Verif.Spec.ModelPy
import Verif.Props.Bnb
import Verif.Proofs.SysNetRun

/-!
# Lemmas on the path-based network model
-/

namespace BNS

set_option linter.unusedSectionVars false

section
variable {K : Type} [DecidableEq K]

theorem timeGe_iff {a b : Option ℚ} : timeGe a b = true ↔ timeLe b a := by
  cases a <;> cases b <;> simp [timeGe, timeLe]

instance : Std.Total fun (a b : Option ℚ) => timeGe a b = true :=
  ⟨fun a b => by
    cases a <;> cases b <;> simp [timeGe]
    exact le_total _ _⟩

instance : IsTrans (Option ℚ) fun a b => timeGe a b = true :=
  ⟨fun a b c => by
    cases a <;> cases b <;> cases c <;> simp [timeGe]
    exact fun h1 h2 => le_trans h2 h1⟩

theorem RoadNetOK.values {edges : List K} {damage : List ℚ} {scen : List (K × List ℚ)} {od : K}
    {pt : List (List K × Option ℚ)} (h : RoadNetOK edges damage scen od pt) :
    ValuesOK pt (odValues pt) := by
  have hmem : ∀ t, t ∈ odValues pt ↔ t = none ∨ ∃ x ∈ pt, x.2 = t := by
    intro t
    unfold odValues
    rw [List.mem_cons, (List.perm_insertionSort _ _).mem_iff, List.mem_map]
  refine ⟨rfl, ?_, fun x hx => ⟨h.finite x hx, (hmem _).2 (.inr ⟨x, hx, rfl⟩)⟩, ?_⟩
  · unfold odValues
    rw [List.pairwise_cons]
    refine ⟨fun b _ => by cases b <;> trivial, ?_⟩
    exact (List.pairwise_insertionSort (fun a b => timeGe a b = true) _).imp
      fun h => timeGe_iff.1 h
  · intro x hx y hy
    rcases (hmem y).1 hy with rfl | ⟨z, hz, rfl⟩
    · cases x.2 <;> trivial
    · exact h.apart x hx z hz

theorem length_odValues (pt : List (List K × Option ℚ)) : (odValues pt).length = pt.length + 1 := by
  unfold odValues
  rw [List.length_cons, List.length_insertionSort, List.length_map]

theorem bestState_lt {pt : List (List K × Option ℚ)} (x : K → ℕ) :
    bestState 0 (pathStates pt (odValues pt)) x 1 < pt.length + 1 := by
  rcases bestState_mem 0 (pathStates pt (odValues pt)) x 1 with h | ⟨r, hr, -, h⟩
  · omega
  · rw [← h]
    obtain ⟨y, hy, hyr⟩ := List.mem_filterMap.1 hr
    obtain ⟨i, hi, rfl⟩ := Option.map_eq_some_iff.1 hyr
    have := (List.findIdx?_eq_some_iff_getElem.1 hi).1
    rwa [length_odValues] at this

theorem itemGet_ok {α : Type} {d : List (K × α)} (hn : (d.map Prod.fst).Nodup) {k : K} {v : α}
    (h : (k, v) ∈ d) : itemGet d k = .ok v := by
  unfold itemGet
  induction d with
  | nil => cases h
  | cons a d ih =>
    rw [List.map_cons, List.nodup_cons] at hn
    rw [List.find?_cons]
    rcases List.mem_cons.1 h with rfl | h
    · simp
    · have : a.1 ≠ k := fun e => hn.1 (e ▸ List.mem_map_of_mem (f := Prod.fst) h)
      simp only [this, decide_false]
      exact ih hn.2 h

theorem itemSet_new {α : Type} {d : List (K × α)} {k : K} (h : k ∉ d.map Prod.fst) (v : α) :
    itemSet d k v = d ++ [(k, v)] := by
  unfold itemSet
  rw [if_neg h]

theorem find?_eq_of_mem {α : Type} {d : List (K × α)} (hn : (d.map Prod.fst).Nodup) {kv : K × α}
    (h : kv ∈ d) : d.find? (fun q => q.1 = kv.1) = some kv := by
  induction d with
  | nil => cases h
  | cons a d ih =>
    rw [List.map_cons, List.nodup_cons] at hn
    rw [List.find?_cons]
    rcases List.mem_cons.1 h with rfl | h
    · simp
    · have : a.1 ≠ kv.1 := fun e => hn.1 (e ▸ List.mem_map_of_mem (f := Prod.fst) h)
      simp only [this, decide_false]
      exact ih hn.2 h

/-- The variables of the network. -/
def netVar (damage : List ℚ) (od : K) (pt : List (List K × Option ℚ)) (k : K) : Variable K :=
  if k = od then odVariable od pt else Variable.mk' k damage .dflt

theorem mk'_stored (k : K) {values : List ℚ} (h0 : 0 < values.length) (h6 : values.length ≤ 6) :
    (Variable.mk' k values .dflt).B = some (genB values.length) := by
  unfold Variable.mk' storesB
  simp [h0, h6]

theorem RoadNetOK.sysVars {edges : List K} {damage : List ℚ} {scen : List (K × List ℚ)} {od : K}
    {pt : List (List K × Option ℚ)} (h : RoadNetOK edges damage scen od pt) :
    SysVars (netVar damage od pt) (binVs edges) od (pt.length + 1) := by
  have hfst : (binVs edges).map Prod.fst = edges := by
    unfold binVs
    rw [List.map_map]
    exact List.map_id _
  have hmem : ∀ kn ∈ binVs edges, kn.2 = 2 ∧ netVar damage od pt kn.1 =
      Variable.mk' kn.1 damage .dflt := by
    intro kn hkn
    obtain ⟨k, hk, rfl⟩ := List.mem_map.1 hkn
    refine ⟨rfl, ?_⟩
    unfold netVar
    rw [if_neg (fun e : k = od => h.odNew (e ▸ hk))]
  have hlen : ((odValues pt).map fun t => t.getD (-1)).length = pt.length + 1 := by
    rw [List.length_map, length_odValues]
  refine ⟨⟨by rw [hfst]; exact h.nodup, fun kn hkn => by rw [(hmem kn hkn).1]; omega⟩,
    fun kn hkn => by rw [(hmem kn hkn).2]; rfl, fun kn hkn => ?_, fun kn hkn => ?_,
    by rw [hfst]; exact h.odNew, ?_, ?_, ?_⟩
  · rw [(hmem kn hkn).2, (hmem kn hkn).1]
    exact h.two
  · rw [(hmem kn hkn).2, (hmem kn hkn).1, mk'_stored _ (by rw [h.two]; omega)
      (by rw [h.two]; omega), h.two]
  · unfold netVar; rw [if_pos rfl]; rfl
  · unfold netVar; rw [if_pos rfl]; exact hlen
  · unfold netVar odVariable
    rw [if_pos rfl, mk'_stored _ (by rw [hlen]; omega)
      (by rw [hlen]; have := h.few; omega), hlen]

/-- The arcs with their variables. -/
def netArcs (edges : List K) (damage : List ℚ) : List (K × Variable K) :=
  edges.map fun k => (k, Variable.mk' k damage .dflt)

theorem netArcs_fst (edges : List K) (damage : List ℚ) :
    (netArcs edges damage).map Prod.fst = edges := by
  unfold netArcs
  rw [List.map_map]
  exact List.map_id _

theorem RoadNetOK.netArcs_snd {edges : List K} {damage : List ℚ} {scen : List (K × List ℚ)} {od : K}
    {pt : List (List K × Option ℚ)} (h : RoadNetOK edges damage scen od pt) :
    (netArcs edges damage).map Prod.snd = compVariables (netVar damage od pt) (binVs edges) := by
  unfold netArcs compVariables binVs
  rw [List.map_map, List.map_map]
  refine List.map_congr_left fun k hk => ?_
  show _ = netVar damage od pt k
  unfold netVar
  rw [if_neg (fun e : k = od => h.odNew (e ▸ hk))]
  rfl

theorem RoadNetOK.arcVars {edges : List K} {damage : List ℚ} {scen : List (K × List ℚ)} {od : K}
    {pt : List (List K × Option ℚ)} (h : RoadNetOK edges damage scen od pt) :
    ArcVars (netArcs edges damage) := by
  intro kv hkv
  obtain ⟨k, hk, rfl⟩ := List.mem_map.1 hkv
  refine ⟨rfl, mk'_stored _ (by rw [h.two]; omega) (by rw [h.two]; omega), ?_⟩
  show 2 ≤ damage.length
  rw [h.two]

/-- The event matrix of the branches, as the system event. -/
theorem RoadNetOK.events {edges : List K} {damage : List ℚ} {scen : List (K × List ℚ)} {od : K}
    {pt : List (List K × Option ℚ)} (h : RoadNetOK edges damage scen od pt) {brs : List (BBranch K)}
    (hb : ∀ b ∈ brs, BBoxOK edges b ∧ b.fl = b.fu ∧ ∀ x, InBBox edges b x →
      bestState 0 (pathStates pt (odValues pt)) x 1 = b.fl)
    (hhit : ∀ x, (∀ k ∈ edges, x k ≤ 1) → bhits edges brs x = 1) :
    ∃ C, cmatFromBranches brs (netArcs edges damage) = .ok C ∧
      EventsOK (netVar damage od pt) (binVs edges) (pt.length + 1) C ∧
      ∀ j x, InSpace (binVs edges) x → (SysState (netVar damage od pt) (binVs edges) C j x ↔
        bestState 0 (pathStates pt (odValues pt)) x 1 = j) := by
  obtain ⟨C, rows, e1, e2, -, e4⟩ := cmat_ok (brs := brs) h.arcVars
    (fun b hbm => by rw [netArcs_fst]; exact ⟨(hb b hbm).1, (hb b hbm).2.1⟩)
  have hbin : ∀ x, InSpace (binVs edges) x → ∀ k ∈ edges, x k ≤ 1 := by
    intro x hx k hk
    have := hx (k, 2) (List.mem_map.2 ⟨k, hk, rfl⟩)
    simp only at this
    omega
  have hex : ∀ x, (∀ k ∈ edges, x k ≤ 1) → ∃ b ∈ brs, InBBox edges b x := by
    intro x hx
    have : 0 < bhits edges brs x := by rw [hhit x hx]; omega
    obtain ⟨b, hbm, hbx⟩ := List.countP_pos_iff.1 this
    exact ⟨b, hbm, by simpa using hbx⟩
  refine ⟨C, e1, ⟨?_, ?_, ?_⟩, fun j x hx => ?_⟩
  · rintro rfl
    obtain ⟨b, hbm, -⟩ := hex (fun _ => 0) (fun _ _ => Nat.zero_le _)
    have : rows = [] := e2.symm.eq_nil
    rw [this] at e4
    cases e4
    cases hbm
  · intro r hr
    have hr := e2.mem_iff.1 hr
    obtain ⟨b, hbm, cs, h1, h2, h3, -⟩ : ∃ b ∈ brs, RowOf (netArcs edges damage) b r := by
      have : ∃ c ∈ rows, c = r := ⟨r, hr, rfl⟩
      clear e1 e2 hhit hex
      induction e4 with
      | nil => cases hr
      | cons hab _ ih =>
        rcases List.mem_cons.1 hr with rfl | hr
        · exact ⟨_, List.mem_cons_self, hab⟩
        · obtain ⟨b, hbm, hbr⟩ := ih (fun b h => hb b (by simp [h])) hr ⟨r, hr, rfl⟩
          exact ⟨b, by simp [hbm], hbr⟩
    refine ⟨b.fl, cs, h1, ?_, ?_, ?_⟩
    · rw [← (hb b hbm).2.2 _ (hb b hbm).1.nonempty]
      exact bestState_lt _
    · rw [h2]; unfold netArcs binVs; rw [List.length_map, List.length_map]
    · rw [h.netArcs_snd] at h3
      exact h3
  · intro x hx
    rw [e2.countP_eq]
    have := hhit x (hbin x hx)
    unfold bhits at this
    rw [← this]
    refine le_of_eq (countP_forall₂ e4 ?_).symm
    rintro b r ⟨cs, rfl, -, -, h4⟩
    rw [decide_eq_decide, List.tail_cons, ← h.netArcs_snd, h4, netArcs_fst]
  · have h1 : SysState (netVar damage od pt) (binVs edges) C j x ↔
        ∃ b ∈ brs, b.fl = j ∧ InBBox edges b x := by
      unfold SysState
      have : (∃ r ∈ C, r.head? = some j ∧
          RowMatches (compVariables (netVar damage od pt) (binVs edges)) r.tail x) ↔
          ∃ r ∈ rows, r.head? = some j ∧
          RowMatches (compVariables (netVar damage od pt) (binVs edges)) r.tail x := by
        simp only [e2.mem_iff]
      rw [this]
      refine (exists_forall₂ e4 ?_).symm
      rintro b r ⟨cs, rfl, -, -, h4⟩
      rw [List.tail_cons, ← h.netArcs_snd, h4, netArcs_fst, List.head?_cons, Option.some.injEq]
    rw [h1]
    constructor
    · rintro ⟨b, hbm, rfl, hin⟩
      exact (hb b hbm).2.2 x hin
    · rintro rfl
      obtain ⟨b, hbm, hin⟩ := hex x (hbin x hx)
      exact ⟨b, hbm, ((hb b hbm).2.2 x hin).symm, hin⟩

/-- `get_branches` for one OD in a directory without files of the key. -/
theorem RoadNetOK.branches {edges : List K} {damage : List ℚ} {scen : List (K × List ℚ)} {od : K}
    {pt : List (List K × Option ℚ)} (h : RoadNetOK edges damage scen od pt) (key : List Char)
    {dir : Dir K} (hdir : ∀ f ∈ dir, globMatch key f.1 = false) :
    ∃ brs dir', getBranchesOne edges key pt dir = .ok (brs, dir') ∧
      (∀ b ∈ brs, BBoxOK edges b ∧ b.fl = b.fu ∧ ∀ x, InBBox edges b x →
        bestState 0 (pathStates pt (odValues pt)) x 1 = b.fl) ∧
      ∀ x, (∀ k ∈ edges, x k ≤ 1) → bhits edges brs x = 1 := by
  have hone : ∃ r ∈ pathStates pt (odValues pt), 0 < r.2 := by
    obtain ⟨x, hx⟩ := List.exists_mem_of_ne_nil _ h.ne
    obtain ⟨i, h1, h2⟩ := timeIdx_spec h.values hx
    refine ⟨(x.1, i), List.mem_filterMap.2 ⟨x, hx, by rw [h1]; rfl⟩, ?_⟩
    rcases Nat.eq_zero_or_pos i with rfl | hi
    · exact absurd (Option.some.inj h2).symm (h.finite x hx)
    · exact hi
  obtain ⟨fl, fu, dir', e1, e2, e3, e4, e5⟩ := C37_full_box h.nodup h.finite h.path hone key hdir
  refine ⟨_, dir', ?_, e4, e5⟩
  unfold getBranchesOne
  simp only [e1, ok_bind, e2, e3]
  rfl

end

section
variable {K : Type} [LinearOrder K]

theorem RoadNetOK.arcCpm {edges : List K} {damage : List ℚ} {scen : List (K × List ℚ)} {od : K}
    {pt : List (List K × Option ℚ)} (h : RoadNetOK edges damage scen od pt) {kv : K × List ℚ}
    (hkv : kv ∈ scen) : BNS.arcCpm (Variable.mk' kv.1 damage .dflt) kv.2 =
      .ok (compCpm (netVar damage od pt) (scenProbs scen) (kv.1, 2)) := by
  have hk : kv.1 ∈ edges := h.keys.mem_iff.1 (List.mem_map_of_mem hkv)
  have hU : netVar damage od pt kv.1 = Variable.mk' kv.1 damage .dflt := by
    unfold netVar
    rw [if_neg (fun e : kv.1 = od => h.odNew (e ▸ hk))]
  have hw := compCpm_WF h.sysVars (scenProbs scen) (kn := (kv.1, 2))
    (List.mem_map.2 ⟨kv.1, hk, rfl⟩)
  have hmk := mk'_ok hw.rowLen hw.entry hw.child (.inr hw.pLen) rfl
  rw [← hmk]
  unfold BNS.arcCpm
  congr 1
  unfold compCpm
  have hl := h.scenLen kv hkv
  have hp : (List.range 2).map (scenProbs scen kv.1) = kv.2 := by
    have hf : ∀ i, scenProbs scen kv.1 i = kv.2.getD i 0 := by
      intro i
      unfold scenProbs
      rw [find?_eq_of_mem (h.keys.nodup_iff.2 h.nodup) hkv]
      rfl
    match hkv2 : kv.2, hl with
    | [a, b], _ => simp [List.range_succ, hf, hkv2]
  simp only [hU, hl, hp]

/-- `model_given_od_scen` on right branches. -/
theorem RoadNetOK.model {edges : List K} {damage : List ℚ} {scen : List (K × List ℚ)} {od : K}
    {pt : List (List K × Option ℚ)} (h : RoadNetOK edges damage scen od pt) {brs : List (BBranch K)}
    {C : List (List ℕ)} (hC : cmatFromBranches brs (netArcs edges damage) = .ok C)
    (hE : EventsOK (netVar damage od pt) (binVs edges) (pt.length + 1) C) :
    modelGivenOd edges damage scen od pt brs = .ok
      ((scen.map fun kv => (kv.1, compCpm (netVar damage od pt) (scenProbs scen) (kv.1, 2))) ++
        [(od, sysCpm (netVar damage od pt) (binVs edges) od C)],
       (scen.map fun kv => (kv.1, Variable.mk' kv.1 damage .dflt)) ++ [(od, odVariable od pt)]) := by
  have hodk : od ∉ scen.map Prod.fst := fun hm => h.odNew (h.keys.mem_iff.1 hm)
  have hk1 : ∀ {α : Type} (f : K × List ℚ → α),
      (scen.map fun kv => (kv.1, f kv)).map Prod.fst = scen.map Prod.fst := by
    intro α f
    rw [List.map_map]
    rfl
  have hnod : ∀ {α : Type} (f : K × List ℚ → α) (v : α),
      (((scen.map fun kv => (kv.1, f kv)) ++ [(od, v)]).map Prod.fst).Nodup := by
    intro α f v
    rw [List.map_append, hk1, List.map_singleton]
    refine List.nodup_append.2 ⟨h.keys.nodup_iff.2 h.nodup, by simp, ?_⟩
    intro a ha b hb e
    rw [List.mem_singleton] at hb
    simp only at hb
    subst hb e
    exact hodk ha
  have e1 : (scen.mapM fun kv => do
      let M ← BNS.arcCpm (Variable.mk' kv.1 damage .dflt) kv.2
      return (kv.1, M)) = Except.ok
      (scen.map fun kv => (kv.1, compCpm (netVar damage od pt) (scenProbs scen) (kv.1, 2))) := by
    refine mapM_ok fun kv hkv => ?_
    rw [h.arcCpm hkv]
    rfl
  have e2 : (edges.mapM fun k => do
      let v ← itemGet ((scen.map fun kv => (kv.1, Variable.mk' kv.1 damage .dflt)) ++
        [(od, odVariable od pt)]) k
      return (k, v)) = Except.ok (netArcs edges damage) := by
    refine mapM_ok fun k hk => ?_
    obtain ⟨kv, hkv, rfl⟩ := List.mem_map.1 (h.keys.mem_iff.2 hk)
    rw [itemGet_ok (hnod _ _) (v := Variable.mk' kv.1 damage .dflt)
      (List.mem_append_left _ (List.mem_map.2 ⟨kv, hkv, rfl⟩))]
    rfl
  have hw := sysCpm_WF h.sysVars hE
  have hmk := mk'_ok hw.rowLen hw.entry hw.child (.inr hw.pLen) rfl
  have hsys : sysCpm (netVar damage od pt) (binVs edges) od C =
      { vars := odVariable od pt :: (netArcs edges damage).map Prod.snd, noChild := 1, C := C
        p := C.map fun _ => 1 } := by
    unfold sysCpm
    rw [h.netArcs_snd]
    unfold netVar
    rw [if_pos rfl]
  unfold modelGivenOd
  simp only
  rw [itemSet_new (by rw [hk1]; exact hodk), e1, ok_bind, e2]
  simp only [ok_bind, hC]
  rw [← hsys, hmk, ok_bind, itemSet_new (by rw [hk1]; exact hodk)]
  rfl

/-- `compute_prob` on the model of the network. -/
theorem RoadNetOK.computeProb {edges : List K} {damage : List ℚ} {scen : List (K × List ℚ)} {od : K}
    {pt : List (List K × Option ℚ)} (h : RoadNetOK edges damage scen od pt) {C : List (List ℕ)}
    (hE : EventsOK (netVar damage od pt) (binVs edges) (pt.length + 1) C)
    {ve : List K} (hve : ve.Perm edges) {j : ℕ} (hj : j < pt.length + 1) :
    ∃ P, BNS.computeProb
      ((scen.map fun kv => (kv.1, compCpm (netVar damage od pt) (scenProbs scen) (kv.1, 2))) ++
        [(od, sysCpm (netVar damage od pt) (binVs edges) od C)])
      ((scen.map fun kv => (kv.1, Variable.mk' kv.1 damage .dflt)) ++ [(od, odVariable od pt)])
      ve od j true = .ok (probOf (binVs edges) (scenProbs scen)
        (SysState (netVar damage od pt) (binVs edges) C j), P) := by
  have hodk : od ∉ scen.map Prod.fst := fun hm => h.odNew (h.keys.mem_iff.1 hm)
  have hnod : ∀ {α : Type} (f : K × List ℚ → α) (v : α),
      (((scen.map fun kv => (kv.1, f kv)) ++ [(od, v)]).map Prod.fst).Nodup := by
    intro α f v
    have hk1 : (scen.map fun kv => (kv.1, f kv)).map Prod.fst = scen.map Prod.fst := by
      rw [List.map_map]
      rfl
    rw [List.map_append, hk1, List.map_singleton]
    refine List.nodup_append.2 ⟨h.keys.nodup_iff.2 h.nodup, by simp, ?_⟩
    intro a ha b hb e
    rw [List.mem_singleton] at hb
    simp only at hb
    subst hb e
    exact hodk ha
  have hU : ∀ k ∈ edges, netVar damage od pt k = Variable.mk' k damage .dflt := by
    intro k hk
    unfold netVar
    rw [if_neg (fun e : k = od => h.odNew (e ▸ hk))]
  have e1 : ((ve ++ [od]).mapM fun k => itemGet
      ((scen.map fun kv => (kv.1, compCpm (netVar damage od pt) (scenProbs scen) (kv.1, 2))) ++
        [(od, sysCpm (netVar damage od pt) (binVs edges) od C)]) k) = Except.ok
      ((ve ++ [od]).map fun k => if k = od then sysCpm (netVar damage od pt) (binVs edges) od C
        else compCpm (netVar damage od pt) (scenProbs scen) (k, 2)) := by
    refine mapM_ok fun k hk => ?_
    rcases List.mem_append.1 hk with hk | hk
    · obtain ⟨kv, hkv, rfl⟩ := List.mem_map.1 (h.keys.mem_iff.2 (hve.mem_iff.1 hk))
      rw [if_neg (fun e : kv.1 = od => hodk (e ▸ List.mem_map_of_mem hkv))]
      exact itemGet_ok (hnod _ _) (List.mem_append_left _ (List.mem_map.2 ⟨kv, hkv, rfl⟩))
    · rw [List.mem_singleton] at hk
      subst hk
      rw [if_pos rfl]
      exact itemGet_ok (hnod _ _) (List.mem_append_right _ (by simp))
  have e2 : (ve.mapM fun k => itemGet
      ((scen.map fun kv => (kv.1, Variable.mk' kv.1 damage .dflt)) ++ [(od, odVariable od pt)]) k) =
      Except.ok (ve.map (netVar damage od pt)) := by
    refine mapM_ok fun k hk => ?_
    have hke := hve.mem_iff.1 hk
    obtain ⟨kv, hkv, rfl⟩ := List.mem_map.1 (h.keys.mem_iff.2 hke)
    rw [hU _ hke]
    exact itemGet_ok (hnod _ _) (List.mem_append_left _ (List.mem_map.2 ⟨kv, hkv, rfl⟩))
  have e3 : itemGet
      ((scen.map fun kv => (kv.1, Variable.mk' kv.1 damage .dflt)) ++ [(od, odVariable od pt)]) od =
      .ok (netVar damage od pt od) := by
    unfold netVar
    rw [if_pos rfl]
    exact itemGet_ok (hnod _ _) (List.mem_append_right _ (by simp))
  have hperm : ((ve ++ [od]).map fun k => if k = od then
      sysCpm (netVar damage od pt) (binVs edges) od C
      else compCpm (netVar damage od pt) (scenProbs scen) (k, 2)).Perm
      ((binVs edges).map (compCpm (netVar damage od pt) (scenProbs scen)) ++
        [sysCpm (netVar damage od pt) (binVs edges) od C]) := by
    have h1 : (ve ++ [od]).Perm (edges ++ [od]) := hve.append_right _
    refine (h1.map _).trans ?_
    rw [List.map_append, List.map_singleton, if_pos rfl]
    refine List.Perm.append_right _ (List.Perm.of_eq ?_)
    unfold binVs
    rw [List.map_map]
    refine List.map_congr_left fun k hk => ?_
    rw [if_neg (fun e : k = od => h.odNew (e ▸ hk))]
    rfl
  have hvev : (ve.map (netVar damage od pt)).Perm
      (compVariables (netVar damage od pt) (binVs edges)) := by
    refine (hve.map _).trans (List.Perm.of_eq ?_)
    unfold compVariables binVs
    rw [List.map_map]
    rfl
  obtain ⟨P, f1, f2, f3, f4, f5⟩ := sysNet_elim h.sysVars (scenProbs scen) hE hperm hvev
  refine ⟨P, ?_⟩
  unfold BNS.computeProb
  rw [e1, ok_bind, e2, ok_bind, f1, ok_bind, e3, ok_bind,
    sysNet_getProb h.sysVars (scenProbs scen) f2 f3 f4 f5 hj]
  rfl

end

end BNS
