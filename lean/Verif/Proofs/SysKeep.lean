import Verif.Proofs.SysNet

/-!
# Keeping some components of a system network
-/

namespace BNS

set_option linter.unusedSectionVars false

variable {K : Type} [LinearOrder K] {U : K → Variable K} {vs : List (K × ℕ)} {sys : K} {m : ℕ}
  {C : List (List ℕ)}

/-- Fewer variables may be eliminated. -/
theorem ElimOK.mono {cpms : List (Cpm K)} {ve ve' : List (Variable K)} (h : ElimOK U cpms ve)
    (hn : (ve'.map Variable.name).Nodup) (hs : ∀ v ∈ ve', v ∈ ve) : ElimOK U cpms ve' where
  net := h.net
  ne := h.ne
  scope := h.scope
  covered := h.covered
  nodup := hn
  env v hv := h.env v (hs v hv)
  defined v hv := h.defined v (hs v hv)
  linked v hv := by
    obtain ⟨q, hq, hl⟩ := h.linked v (hs v hv)
    refine ⟨q, fun hc => hq ?_, hl⟩
    obtain ⟨w, hw, rfl⟩ := List.mem_map.1 hc
    exact List.mem_map_of_mem (hs w hw)

/-- The CPM after the elimination of some components. -/
theorem sysNet_keep (h : SysVars U vs sys m) (probs : K → ℕ → ℚ) (hC : EventsOK U vs m C)
    {gone kept : List (K × ℕ)} (hgk : vs.Perm (gone ++ kept))
    {cpms : List (Cpm K)} (hp : cpms.Perm (vs.map (compCpm U probs) ++ [sysCpm U vs sys C]))
    {ve : List (Variable K)} (hve : ve.Perm (compVariables U gone)) :
    ∃ P, variableElim cpms ve = .ok P ∧ WF U P ∧ AllBasic P ∧
      (P.vars.map fun v => (v.name, v.values.length)).Perm ((sys, m) :: kept) ∧
      ∀ x, dens P x = sumOver gone (jointDens cpms) x := by
  have hg : ∀ kn ∈ gone, kn ∈ vs := fun kn hkn => hgk.mem_iff.2 (List.mem_append_left _ hkn)
  have hk : ∀ kn ∈ kept, kn ∈ vs := fun kn hkn => hgk.mem_iff.2 (List.mem_append_right _ hkn)
  have hnd : ((gone ++ kept).map Prod.fst).Nodup := (hgk.map Prod.fst).nodup_iff.1 h.varis.nodup
  rw [List.map_append, List.nodup_append] at hnd
  have hnames : (ve.map Variable.name).Perm (gone.map Prod.fst) := by
    have := hve.map Variable.name
    have e : (compVariables U gone).map Variable.name = gone.map Prod.fst := by
      unfold compVariables
      rw [List.map_map]
      exact List.map_congr_left fun kn hkn => h.name kn (hg kn hkn)
    rwa [e] at this
  have hok : ElimOK U cpms ve := by
    refine (sysNet_elimOK h probs hC hp (List.Perm.refl _)).mono (hnames.nodup_iff.2 hnd.1) ?_
    intro v hv
    obtain ⟨kn, hkn, rfl⟩ := mem_compVariables.1 (hve.mem_iff.1 hv)
    exact mem_compVariables.2 ⟨kn, hg kn hkn, rfl⟩
  obtain ⟨P, e1, e2, e3, e4, e5, e6⟩ := C15_elimination_partial cpms ve hok
  have hmem : ∀ M, M ∈ cpms ↔ (∃ kn ∈ vs, compCpm U probs kn = M) ∨ M = sysCpm U vs sys C := by
    intro M
    rw [hp.mem_iff, List.mem_append, List.mem_map, List.mem_singleton]
  have hsysve : sys ∉ ve.map Variable.name := by
    rw [hnames.mem_iff]
    intro hc
    obtain ⟨kn, hkn, e⟩ := List.mem_map.1 hc
    exact h.sysNew (e ▸ List.mem_map_of_mem (hg kn hkn))
  have hin : ∀ k, k ∈ P.getNames ↔ k = sys ∨ k ∈ kept.map Prod.fst := by
    intro k
    rw [e6, hnames.mem_iff]
    have hvs : k ∈ vs.map Prod.fst ↔ k ∈ gone.map Prod.fst ∨ k ∈ kept.map Prod.fst := by
      rw [(hgk.map Prod.fst).mem_iff, List.map_append, List.mem_append]
    have hsome : (∃ M ∈ cpms, k ∈ M.getNames) ↔ k = sys ∨ k ∈ vs.map Prod.fst := by
      constructor
      · rintro ⟨M, hM, hkM⟩
        rcases (hmem M).1 hM with ⟨kn, hkn, rfl⟩ | rfl
        · have : k = kn.1 := by simpa [Cpm.getNames, compCpm, h.name kn hkn] using hkM
          exact .inr (this ▸ List.mem_map_of_mem hkn)
        · unfold Cpm.getNames at hkM
          rwa [sysCpm_names h, List.mem_cons] at hkM
      · intro hk'
        refine ⟨_, (hmem _).2 (.inr rfl), ?_⟩
        unfold Cpm.getNames
        rwa [sysCpm_names h, List.mem_cons]
    rw [hsome, hvs]
    constructor
    · rintro ⟨h1 | h1 | h1, h2⟩
      · exact .inl h1
      · exact absurd h1 h2
      · exact .inr h1
    · rintro (rfl | h1)
      · exact ⟨.inl rfl, by rwa [hnames.mem_iff] at hsysve⟩
      · exact ⟨.inr (.inr h1), fun h2 => hnd.2.2 _ h2 _ h1 rfl⟩
  have hall : P.noChild = P.vars.length := by
    refine le_antisymm e2.child ?_
    have hsub : P.getNames ⊆ childNames P := by
      intro k hkP
      rw [e5.mem_iff, List.mem_filter]
      obtain ⟨⟨M, hM, hkM⟩, hnot⟩ := (e6 k).1 hkP
      refine ⟨List.mem_flatMap.2 ?_, by simpa using hnot⟩
      rcases (hmem M).1 hM with ⟨kn, hkn, rfl⟩ | rfl
      · exact ⟨_, hM, by simpa [childNames, compCpm, Cpm.getNames] using hkM⟩
      · unfold Cpm.getNames at hkM
        rw [sysCpm_names h, List.mem_cons] at hkM
        rcases hkM with rfl | hkM
        · exact ⟨_, hM, by simp [childNames, sysCpm, h.sysName]⟩
        · obtain ⟨kn, hkn, rfl⟩ := List.mem_map.1 hkM
          exact ⟨_, (hmem _).2 (.inl ⟨kn, hkn, rfl⟩), by simp [childNames, compCpm, h.name kn hkn]⟩
    have := (List.subperm_of_subset (show P.getNames.Nodup from e2.nodup) hsub).length_le
    unfold Cpm.getNames childNames at this
    rw [List.length_map, List.length_map, List.length_take] at this
    omega
  refine ⟨P, e1, e2, ?_, ?_, fun x => ?_⟩
  · intro r hr vc hvc
    refine e3 r hr vc ?_
    rw [hall, List.take_of_length_le (le_refl _)]
    exact hvc
  · have hsize : ∀ v ∈ P.vars, (v.name = sys ∧ v.values.length = m) ∨ (v.name, v.values.length) ∈ kept := by
      intro v hv
      rcases (hin v.name).1 (List.mem_map_of_mem hv) with h1 | h1
      · left
        refine ⟨h1, ?_⟩
        rw [← e2.env v hv, h1, h.sysSize]
      · right
        obtain ⟨kn, hkn, he⟩ := List.mem_map.1 h1
        have : (v.name, v.values.length) = kn := by
          refine Prod.ext he.symm ?_
          simp only
          rw [← e2.env v hv, ← he, h.size kn (hk kn hkn)]
        rw [this]; exact hkn
    have hn1 : (P.vars.map fun v => (v.name, v.values.length)).Nodup := by
      refine List.Nodup.of_map Prod.fst ?_
      rw [List.map_map]
      exact e2.nodup
    have hn2 : (((sys, m) :: kept).map Prod.fst).Nodup := by
      rw [List.map_cons, List.nodup_cons]
      refine ⟨fun hc => ?_, hnd.2.1⟩
      obtain ⟨kn, hkn, e⟩ := List.mem_map.1 hc
      have e : kn.1 = sys := e
      exact h.sysNew (e ▸ List.mem_map_of_mem (hk kn hkn))
    refine (List.perm_ext_iff_of_nodup hn1 (List.Nodup.of_map _ hn2)).2 fun kn => ?_
    rw [List.mem_map, List.mem_cons]
    constructor
    · rintro ⟨v, hv, rfl⟩
      rcases hsize v hv with ⟨h1, h2⟩ | h1
      · left; rw [h1, h2]
      · exact .inr h1
    · intro hkn
      have hkP : kn.1 ∈ P.getNames := (hin _).2 (by
        rcases hkn with rfl | hkn
        · exact .inl rfl
        · exact .inr (List.mem_map_of_mem hkn))
      obtain ⟨v, hv, he⟩ := List.mem_map.1 hkP
      refine ⟨v, hv, Prod.ext he ?_⟩
      simp only
      rw [← e2.env v hv, he]
      rcases hkn with rfl | hkn
      · exact h.sysSize
      · exact h.size kn (hk kn hkn)
  · rw [e4]
    refine sumOver_perm ?_ ?_ _ _
    · have h1 := hve.map fun v => (v.name, v.values.length)
      have h2 : (compVariables U gone).map (fun v => (v.name, v.values.length)) = gone := by
        unfold compVariables
        rw [List.map_map]
        conv_rhs => rw [← List.map_id gone]
        exact List.map_congr_left fun kn hkn => by
          simp [h.name kn (hg kn hkn), h.size kn (hg kn hkn)]
      rwa [h2] at h1
    · rw [List.map_map]; exact hok.nodup

theorem sysState_congr (h : SysVars U vs sys m) (j : ℕ) {y y' : K → ℕ}
    (hyy : ∀ k ∈ vs.map Prod.fst, y k = y' k) : SysState U vs C j y ↔ SysState U vs C j y' := by
  have hm : ∀ cs, RowMatches (compVariables U vs) cs y ↔ RowMatches (compVariables U vs) cs y' := by
    intro cs
    unfold RowMatches
    refine forall₂_congr fun vc hvc => ?_
    obtain ⟨kn, hkn, he⟩ := mem_compVariables.1 (List.of_mem_zip hvc).1
    rw [← he, h.name kn hkn, hyy _ (List.mem_map_of_mem hkn)]
  unfold SysState
  simp only [hm]

theorem weight_congr (probs : K → ℕ → ℚ) {y y' : K → ℕ}
    (hyy : ∀ k ∈ vs.map Prod.fst, y k = y' k) : weight vs probs y = weight vs probs y' := by
  unfold weight
  congr 1
  exact List.map_congr_left fun kn hkn => by rw [hyy _ (List.mem_map_of_mem hkn)]

theorem sysNet_joint (h : SysVars U vs sys m) (probs : K → ℕ → ℚ) (hC : EventsOK U vs m C)
    {cpms : List (Cpm K)} (hp : cpms.Perm (vs.map (compCpm U probs) ++ [sysCpm U vs sys C]))
    {y : K → ℕ} (hy : InSpace vs y) :
    jointDens cpms y = if SysState U vs C (y sys) y then weight vs probs y else 0 := by
  rw [jointDens_perm hp, jointDens_append]
  have hw : jointDens (vs.map (compCpm U probs)) y = weight vs probs y := by
    unfold jointDens weight
    rw [List.map_map]
    congr 1
    exact List.map_congr_left fun kn hkn => compCpm_dens h probs hkn (hy kn hkn)
  have hs : jointDens [sysCpm U vs sys C] y = if SysState U vs C (y sys) y then 1 else 0 := by
    unfold jointDens
    rw [List.map_singleton, List.prod_singleton, sysCpm_dens h hC hy]
  rw [hw, hs]
  split <;> simp

/-- Asking for the system together with components that were kept. -/
theorem sysNet_query (h : SysVars U vs sys m) (probs : K → ℕ → ℚ) (hC : EventsOK U vs m C)
    {gone kept : List (K × ℕ)} (hgk : vs.Perm (gone ++ kept))
    {cpms : List (Cpm K)} (hp : cpms.Perm (vs.map (compCpm U probs) ++ [sysCpm U vs sys C]))
    {P : Cpm K} (hw : WF U P) (hb : AllBasic P)
    (hv : (P.vars.map fun v => (v.name, v.values.length)).Perm ((sys, m) :: kept))
    (hd : ∀ x, dens P x = sumOver gone (jointDens cpms) x) {j : ℕ} (hj : j < m)
    (q : List ((K × ℕ) × ℕ)) (hq : ∀ a ∈ q, a.1 ∈ kept ∧ a.2 < a.1.2)
    (hqn : (q.map fun a => a.1.1).Nodup) :
    P.getProb (U sys :: q.map fun a => U a.1.1) (j :: q.map Prod.snd) true =
      .ok (probOf vs probs fun x => SysState U vs C j x ∧ ∀ a ∈ q, x a.1.1 = a.2) := by
  have hkv : ∀ kn ∈ kept, kn ∈ vs := fun kn hkn => hgk.mem_iff.2 (List.mem_append_right _ hkn)
  have hgv : ∀ kn ∈ gone, kn ∈ vs := fun kn hkn => hgk.mem_iff.2 (List.mem_append_left _ hkn)
  have hqv : ∀ a ∈ q, a.1 ∈ vs := fun a ha => hkv _ (hq a ha).1
  have hnd : ((gone ++ kept).map Prod.fst).Nodup := (hgk.map Prod.fst).nodup_iff.1 h.varis.nodup
  have hnd' := hnd
  rw [List.map_append, List.nodup_append] at hnd'
  have hsn : ∀ kn ∈ vs, kn.1 ≠ sys := fun kn hkn e => h.sysNew (e ▸ List.mem_map_of_mem hkn)
  have hB : ∀ a ∈ q, stateSet (U a.1.1) a.2 = {a.2} := fun a ha =>
    stateSet_basic (by rw [h.size _ (hqv a ha)]; exact h.table _ (hqv a ha))
      (by rw [h.size _ (hqv a ha)]; exact (hq a ha).2)
  have hBs : stateSet (U sys) j = {j} :=
    stateSet_basic (by rw [h.sysSize]; exact h.sysTable) (by rw [h.sysSize]; exact hj)
  have hzip : (U sys :: q.map fun a => U a.1.1).zip (j :: q.map Prod.snd) =
      (U sys, j) :: q.map fun a => (U a.1.1, a.2) := by
    rw [List.zip_cons_cons, List.zip_map']
  have hnm : (U sys :: q.map fun a => U a.1.1).map Variable.name = sys :: q.map fun a => a.1.1 := by
    rw [List.map_cons, h.sysName, List.map_map]
    congr 1
    exact List.map_congr_left fun a ha => h.name _ (hqv a ha)
  have hin : ∀ k, k ∈ P.getNames ↔ k = sys ∨ k ∈ kept.map Prod.fst := by
    intro k
    have := (hv.map Prod.fst).mem_iff (a := k)
    rw [List.map_map, List.map_cons, List.mem_cons] at this
    exact this
  have hlt : ∀ p ∈ (U sys :: q.map fun a => U a.1.1).zip (j :: q.map Prod.snd),
      p.2 + 1 < 2 ^ p.1.values.length := by
    intro p hp
    rw [hzip, List.mem_cons, List.mem_map] at hp
    rcases hp with rfl | ⟨a, ha, rfl⟩
    · simp only
      rw [h.sysSize]; exact lt_two_pow_aux hj
    · simp only
      rw [h.size _ (hqv a ha)]; exact lt_two_pow_aux (hq a ha).2
  have hQ : QueryOK U P.getNames (U sys :: q.map fun a => U a.1.1) (j :: q.map Prod.snd) := by
    refine ⟨⟨by simp, ?_, fun p hp _ => hlt p hp⟩, by simp, hlt, ?_⟩
    · intro p hp _
      rw [hzip, List.mem_cons, List.mem_map] at hp
      rcases hp with rfl | ⟨a, ha, rfl⟩
      · simp only; rw [h.sysName]
      · simp only; rw [h.name _ (hqv a ha)]
    · rw [hnm, List.nodup_cons]
      refine ⟨fun hc => ?_, hqn⟩
      obtain ⟨a, ha, e⟩ := List.mem_map.1 hc
      exact hsn _ (hqv a ha) e
  have hcons : ∀ y, Consistent P.getNames (U sys :: q.map fun a => U a.1.1) (j :: q.map Prod.snd) y ↔
      y sys = j ∧ ∀ a ∈ q, y a.1.1 = a.2 := by
    intro y
    unfold Consistent
    rw [hzip, List.forall_mem_cons, List.forall_mem_map]
    simp only [h.sysName, hBs, Finset.mem_singleton]
    refine and_congr ⟨fun h1 => h1 ((hin _).2 (.inl rfl)), fun h1 _ => h1⟩
      (forall₂_congr fun a ha => ?_)
    rw [h.name _ (hqv a ha), hB a ha, Finset.mem_singleton]
    exact ⟨fun h1 => h1 ((hin _).2 (.inr (List.mem_map_of_mem (hq a ha).1))), fun h1 _ => h1⟩
  rw [C11_event_probability P hw hb _ _ hQ (fun _ => 0)]
  congr 1
  rw [sumOver_perm hv (by rw [List.map_map]; exact hw.nodup)]
  simp only [hcons, hd]
  -- the event is decided before the eliminated components are summed
  have hstep : ∀ x, sumOver kept (fun y => if y sys = j ∧ ∀ a ∈ q, y a.1.1 = a.2 then
      sumOver gone (jointDens cpms) y else 0) x =
      sumOver vs (fun y => if y sys = j ∧ ∀ a ∈ q, y a.1.1 = a.2 then jointDens cpms y else 0) x := by
    intro x
    rw [sumOver_perm (hgk.trans List.perm_append_comm) h.varis.nodup, sumOver_append]
    refine sumOver_congr _ x fun y => ?_
    have hsg : sys ∉ gone.map Prod.fst := fun hc => by
      obtain ⟨kn, hkn, e⟩ := List.mem_map.1 hc
      exact hsn kn (hgv kn hkn) e
    have hqg : ∀ a ∈ q, a.1.1 ∉ gone.map Prod.fst := fun a ha hc =>
      hnd'.2.2 _ hc _ (List.mem_map_of_mem (hq a ha).1) rfl
    have hEz : ∀ z : K → ℕ, (∀ k ∉ gone.map Prod.fst, z k = y k) →
        ((z sys = j ∧ ∀ a ∈ q, z a.1.1 = a.2) ↔ (y sys = j ∧ ∀ a ∈ q, y a.1.1 = a.2)) := by
      intro z hz
      rw [hz sys hsg]
      exact and_congr_right fun _ => forall₂_congr fun a ha => by rw [hz _ (hqg a ha)]
    by_cases hE : y sys = j ∧ ∀ a ∈ q, y a.1.1 = a.2
    · rw [if_pos hE]
      exact sumOver_congr' gone hnd'.1 y fun z _ hz => by rw [if_pos ((hEz z hz).2 hE)]
    · rw [if_neg hE]
      refine (sumOver_zero gone y).symm.trans ?_
      exact sumOver_congr' gone hnd'.1 y fun z _ hz => by rw [if_neg fun e => hE ((hEz z hz).1 e)]
  rw [sumOver]
  simp only [hstep]
  have hterm : ∀ i, sumOver vs (fun y => if y sys = j ∧ ∀ a ∈ q, y a.1.1 = a.2 then
      jointDens cpms y else 0) (Function.update (fun _ => 0) sys i) =
      if i = j then probOf vs probs fun x => SysState U vs C j x ∧ ∀ a ∈ q, x a.1.1 = a.2 else 0 := by
    intro i
    have h1 : sumOver vs (fun y => if y sys = j ∧ ∀ a ∈ q, y a.1.1 = a.2 then
        jointDens cpms y else 0) (Function.update (fun _ => 0) sys i) =
        sumOver vs (fun y => if i = j then (if SysState U vs C j y ∧ ∀ a ∈ q, y a.1.1 = a.2 then
          weight vs probs y else 0) else 0) (Function.update (fun _ => 0) sys i) := by
      refine sumOver_congr' vs h.varis.nodup _ fun y hy hoff => ?_
      have hys : y sys = i := by rw [hoff sys h.sysNew, Function.update_self]
      rw [sysNet_joint h probs hC hp hy, hys]
      by_cases hij : i = j
      · subst hij
        rw [if_pos rfl]
        by_cases hE : ∀ a ∈ q, y a.1.1 = a.2
        · rw [if_pos ⟨rfl, hE⟩]
          exact if_congr (by simp only [and_iff_left hE]) rfl rfl
        · rw [if_neg fun e => hE e.2, if_neg fun e => hE e.2]
      · simp [hij]
    rw [h1]
    by_cases hij : i = j
    · simp only [hij, if_true]
      unfold probOf
      refine sumOver_base vs _ (fun k => k ∈ vs.map Prod.fst) ?_ _ _ (fun k hk hn => absurd hk hn)
      intro y y' hyy
      rw [weight_congr probs hyy]
      refine if_congr (and_congr (sysState_congr h j hyy) (forall₂_congr fun a ha => ?_)) rfl rfl
      rw [hyy _ (List.mem_map_of_mem (hqv a ha))]
    · simp only [hij, if_false]
      exact sumOver_zero _ _
  simp only [hterm]
  rw [Finset.sum_ite_eq' (Finset.range m) j, if_pos (Finset.mem_range.2 hj)]

end BNS
