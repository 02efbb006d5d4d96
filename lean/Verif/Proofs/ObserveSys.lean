import Verif.Proofs.Observe

/-!
# A system network with observed components
-/

namespace BNS

set_option linter.unusedSectionVars false

variable {K : Type} [LinearOrder K] {U : K → Variable K} {vs : List (K × ℕ)} {sys : K} {m : ℕ}
  {C : List (List ℕ)} {obs : List (Obs K)}

theorem ObsVars.compOK (h : SysVars U vs sys m) (ho : ObsVars U vs sys obs) {o : Obs K} (hm : o ∈ obs) :
    (U o.comp).name = o.comp ∧ (U o.comp).B = some (genB (U o.comp).values.length) ∧
      (o.comp, (U o.comp).values.length) ∈ vs := by
  obtain ⟨kn, hk, he⟩ := List.mem_map.1 (ho.comp o hm)
  rw [← he, h.name kn hk, h.table kn hk, h.size kn hk]
  exact ⟨rfl, rfl, hk⟩

theorem mem_obsRows {U : K → Variable K} {lik : K → ℕ → ℕ → ℚ} {o : Obs K} {r : List ℕ} :
    r ∈ (obsCpm U lik o).C ↔ ∃ i < (U o.comp).values.length, ∃ j < (U o.node).values.length,
      r = [j, i] := by
  unfold obsCpm
  simp only [List.mem_map, List.mem_flatMap, List.mem_range]
  constructor
  · rintro ⟨a, ⟨i, hi, j, hj, rfl⟩, rfl⟩
    exact ⟨i, hi, j, hj, rfl⟩
  · rintro ⟨i, hi, j, hj, rfl⟩
    exact ⟨(j, i), ⟨i, hi, j, hj, rfl⟩, rfl⟩

theorem obsCpm_names (h : SysVars U vs sys m) (ho : ObsVars U vs sys obs) (lik : K → ℕ → ℕ → ℚ)
    {o : Obs K} (hm : o ∈ obs) :
    (obsCpm U lik o).vars.map Variable.name = [o.node, o.comp] := by
  simp [obsCpm, ho.name o hm, (ho.compOK h hm).1]

theorem obsCpm_WF (h : SysVars U vs sys m) (ho : ObsVars U vs sys obs) (lik : K → ℕ → ℕ → ℚ)
    {o : Obs K} (hm : o ∈ obs) : WF U (obsCpm U lik o) := by
  obtain ⟨c1, c2, c3⟩ := ho.compOK h hm
  refine ⟨?_, ?_, ?_, ?_, ?_, ?_, ?_, ⟨rfl, rfl, rfl, rfl⟩⟩
  · intro v hv
    have : v = U o.node ∨ v = U o.comp := by simpa [obsCpm] using hv
    rcases this with rfl | rfl
    · rw [ho.name o hm]
    · rw [c1]
  · intro v hv
    have : v = U o.node ∨ v = U o.comp := by simpa [obsCpm] using hv
    rcases this with rfl | rfl
    · exact ho.table o hm
    · exact c2
  · rw [obsCpm_names h ho lik hm]
    have : o.node ≠ o.comp := fun e => (ho.new o hm).1 (e ▸ ho.comp o hm)
    simpa using this
  · intro r hr
    obtain ⟨i, -, j, -, rfl⟩ := mem_obsRows.1 hr
    rfl
  · intro r hr vc hvc
    obtain ⟨i, hi, j, hj, rfl⟩ := mem_obsRows.1 hr
    have : vc = (U o.node, j) ∨ vc = (U o.comp, i) := by simpa [obsCpm] using hvc
    rcases this with rfl | rfl
    · exact lt_two_pow_aux hj
    · exact lt_two_pow_aux hi
  · simp [obsCpm]
  · simp [obsCpm]

theorem obsCpm_rowMatches (h : SysVars U vs sys m) (ho : ObsVars U vs sys obs) {o : Obs K}
    (hm : o ∈ obs) {i j : ℕ} (hi : i < (U o.comp).values.length) (hj : j < (U o.node).values.length)
    (x : K → ℕ) : RowMatches [U o.node, U o.comp] [j, i] x ↔ x o.node = j ∧ x o.comp = i := by
  obtain ⟨c1, c2, -⟩ := ho.compOK h hm
  have h1 : stateSet (U o.node) j = {j} := stateSet_basic (ho.table o hm) hj
  have h2 : stateSet (U o.comp) i = {i} := stateSet_basic c2 hi
  unfold RowMatches
  simp [h1, h2, ho.name o hm, c1]

theorem obsCpm_dens (h : SysVars U vs sys m) (ho : ObsVars U vs sys obs) (lik : K → ℕ → ℕ → ℚ)
    {o : Obs K} (hm : o ∈ obs) {x : K → ℕ} (hn : x o.node < (U o.node).values.length)
    (hc : x o.comp < (U o.comp).values.length) :
    dens (obsCpm U lik o) x = lik o.node (x o.node) (x o.comp) := by
  refine dens_of_row (M := obsCpm U lik o) (r := [x o.node, x o.comp]) ?_ ?_ ?_
  · unfold RowsDisjoint obsCpm
    simp only
    rw [List.pairwise_map, List.pairwise_flatMap]
    refine ⟨fun i hi => ?_, ?_⟩
    · rw [List.pairwise_map]
      refine (List.pairwise_lt_range (n := (U o.node).values.length)).imp_of_mem ?_
      intro j j' hj hj' hlt y hy
      rw [List.mem_range] at hi hj hj'
      rw [obsCpm_rowMatches h ho hm hi hj, obsCpm_rowMatches h ho hm hi hj'] at hy
      omega
    · refine (List.pairwise_lt_range (n := (U o.comp).values.length)).imp_of_mem ?_
      intro i i' hi hi' hlt a ha b hb y hy
      obtain ⟨j, hj, rfl⟩ := List.mem_map.1 ha
      obtain ⟨j', hj', rfl⟩ := List.mem_map.1 hb
      rw [List.mem_range] at hi hi' hj hj'
      rw [obsCpm_rowMatches h ho hm hi hj, obsCpm_rowMatches h ho hm hi' hj'] at hy
      omega
  · unfold obsCpm
    simp only
    rw [List.zip_map']
    refine List.mem_map.2 ⟨(x o.node, x o.comp), ?_, rfl⟩
    exact List.mem_flatMap.2 ⟨_, List.mem_range.2 hc, List.mem_map.2 ⟨_, List.mem_range.2 hn, rfl⟩⟩
  · exact (obsCpm_rowMatches h ho hm hc hn x).2 ⟨rfl, rfl⟩

theorem obsCpm_covers (h : SysVars U vs sys m) (ho : ObsVars U vs sys obs) (lik : K → ℕ → ℕ → ℚ)
    {o : Obs K} (hm : o ∈ obs) {x : K → ℕ} (hn : x o.node < (U o.node).values.length)
    (hc : x o.comp < (U o.comp).values.length) : Covers (obsCpm U lik o) x :=
  ⟨[x o.node, x o.comp], mem_obsRows.2 ⟨_, hc, _, hn, rfl⟩,
    (obsCpm_rowMatches h ho hm hc hn x).2 ⟨rfl, rfl⟩⟩

theorem compCpm_childBasic (h : SysVars U vs sys m) (probs : K → ℕ → ℚ) {kn : K × ℕ} (hk : kn ∈ vs) :
    ChildBasic (compCpm U probs kn) := by
  intro r hr vc hvc
  obtain ⟨i, hi, rfl⟩ := List.mem_map.1 hr
  have : vc = (U kn.1, i) := by simpa [compCpm] using hvc
  rw [this]
  simp only
  rw [h.size kn hk]
  exact List.mem_range.1 hi

theorem obsCpm_childBasic (lik : K → ℕ → ℕ → ℚ) (o : Obs K) : ChildBasic (obsCpm U lik o) := by
  intro r hr vc hvc
  obtain ⟨i, hi, j, hj, rfl⟩ := mem_obsRows.1 hr
  have : vc = (U o.node, j) := by simpa [obsCpm] using hvc
  rw [this]
  exact hj

/-- The states that were seen, by the name of the observation. -/
def seenAt (obs : List (Obs K)) (k : K) : ℕ := ((obs.find? fun o => o.node = k).map Obs.seen).getD 0

theorem seenAt_eq (hn : (obs.map Obs.node).Nodup) {o : Obs K} (ho : o ∈ obs) :
    seenAt obs o.node = o.seen := by
  induction obs with
  | nil => cases ho
  | cons a l ih =>
    rw [List.map_cons, List.nodup_cons] at hn
    unfold seenAt
    rcases List.mem_cons.1 ho with rfl | hl
    · simp
    · have hne : a.node ≠ o.node := fun e => hn.1 (e ▸ List.mem_map_of_mem hl)
      rw [List.find?_cons_of_neg (by simpa using hne)]
      exact ih hn.2 hl

/-- The observed states as evidence. -/
theorem obsEvidence {U : K → Variable K} (ho : ObsVars U vs sys obs) {cpms : List (Cpm K)}
    (lik : K → ℕ → ℕ → ℚ) (hc : ∀ o ∈ obs, obsCpm U lik o ∈ cpms) :
    Observed U cpms (obs.map Obs.node) (obs.map Obs.seen) where
  len := by simp
  nodup := ho.nodup
  scope k hk := by
    obtain ⟨o, hm, rfl⟩ := List.mem_map.1 hk
    exact ⟨_, hc o hm, List.mem_map.2 ⟨U o.node, by simp [obsCpm], ho.name o hm⟩⟩
  state p hp := by
    rw [List.zip_map'] at hp
    obtain ⟨o, hm, rfl⟩ := List.mem_map.1 hp
    exact lt_two_pow_aux (ho.seen o hm)

theorem obsAgrees (ho : ObsVars U vs sys obs) (x : K → ℕ) :
    Agrees U (obs.map Obs.node) (obs.map Obs.seen) x ↔ ∀ o ∈ obs, x o.node = o.seen := by
  unfold Agrees
  rw [List.zip_map', List.forall_mem_map]
  refine forall₂_congr fun o hm => ?_
  simp only
  rw [stateSet_basic (ho.table o hm) (ho.seen o hm), Finset.mem_singleton]

/-- The network meets the requirements of `variable_elim`, whatever was observed. -/
theorem obsNet_elimOK (h : SysVars U vs sys m) (probs : K → ℕ → ℚ) (hC : EventsOK U vs m C)
    (ho : ObsVars U vs sys obs) (lik : K → ℕ → ℕ → ℚ)
    {cpms : List (Cpm K)} (hp : cpms.Perm
      (vs.map (compCpm U probs) ++ obs.map (obsCpm U lik) ++ [sysCpm U vs sys C]))
    {ve : List (Variable K)} (hve : ve.Perm ((obs.map fun o => U o.node) ++ compVariables U vs)) :
    ElimOK U cpms ve ∧ ∃ x, Agrees U (obs.map Obs.node) (obs.map Obs.seen) x ∧
      ∀ M ∈ cpms, Covers M x := by
  have hmem : ∀ M, M ∈ cpms ↔ (∃ kn ∈ vs, compCpm U probs kn = M) ∨
      (∃ o ∈ obs, obsCpm U lik o = M) ∨ M = sysCpm U vs sys C := by
    intro M
    rw [hp.mem_iff, List.mem_append, List.mem_append, List.mem_map, List.mem_map, List.mem_singleton,
      or_assoc]
  have hsys : sysCpm U vs sys C ∈ cpms := (hmem _).2 (.inr (.inr rfl))
  have hvm : ∀ v, v ∈ ve ↔ (∃ o ∈ obs, U o.node = v) ∨ ∃ kn ∈ vs, U kn.1 = v := fun v => by
    rw [hve.mem_iff, List.mem_append, List.mem_map, mem_compVariables]
  have honames : (obs.map fun o => U o.node).map Variable.name = obs.map Obs.node := by
    rw [List.map_map]
    exact List.map_congr_left fun o hm => ho.name o hm
  have hnames : (ve.map Variable.name).Perm (obs.map Obs.node ++ vs.map Prod.fst) := by
    have := hve.map Variable.name
    rwa [List.map_append, h.compNames, honames] at this
  have hnd : (obs.map Obs.node ++ vs.map Prod.fst).Nodup := by
    rw [List.nodup_append]
    refine ⟨ho.nodup, h.varis.nodup, ?_⟩
    rintro a ha b hb rfl
    obtain ⟨o, hm, rfl⟩ := List.mem_map.1 ha
    exact (ho.new o hm).1 hb
  have hsysne : sys ∉ ve.map Variable.name := by
    rw [hnames.mem_iff, List.mem_append]
    rintro (hs | hs)
    · obtain ⟨o, hm, e⟩ := List.mem_map.1 hs
      exact (ho.new o hm).2 e
    · exact h.sysNew hs
  have hwf : ∀ M ∈ cpms, WF U M := by
    intro M hM
    rcases (hmem M).1 hM with ⟨kn, hk, rfl⟩ | ⟨o, hm, rfl⟩ | rfl
    · exact compCpm_WF h probs hk
    · exact obsCpm_WF h ho lik hm
    · exact sysCpm_WF h hC
  have hcn : ∀ kn ∈ vs, childNames (compCpm U probs kn) = [kn.1] := fun kn hk => by
    simp [childNames, compCpm, h.name kn hk]
  have hon : ∀ o ∈ obs, childNames (obsCpm U lik o) = [o.node] := fun o hm => by
    simp [childNames, obsCpm, ho.name o hm]
  have hsn : childNames (sysCpm U vs sys C) = [sys] := by
    simp [childNames, sysCpm, h.sysName]
  have hcov : ∃ x, Agrees U (obs.map Obs.node) (obs.map Obs.seen) x ∧ ∀ M ∈ cpms, Covers M x := by
    obtain ⟨r, hr⟩ := List.exists_mem_of_ne_nil _ hC.ne
    have hw := sysCpm_WF h hC
    obtain ⟨x, hx⟩ := exists_matches hw hr
    have hlt : ∀ kn ∈ vs, x kn.1 < kn.2 := by
      intro kn hk
      have hv : U kn.1 ∈ (sysCpm U vs sys C).vars :=
        List.mem_cons_of_mem _ (mem_compVariables.2 ⟨kn, hk, rfl⟩)
      have hin := (rowMatches_iff hw.nodup (hw.rowLen r hr) x).1 hx _ hv
      have hg := mem_genB_stateSet (hw.table _ hv) (hw.entry_lt hr hv)
      have := (mem_genB.1 hg).2 _ hin
      rw [h.size kn hk, h.name kn hk] at this
      exact this
    -- the observations are replaced by what was seen
    refine ⟨fun k => if k ∈ obs.map Obs.node then seenAt obs k else x k, ?_, ?_⟩
    · rw [obsAgrees ho]
      intro o hm
      rw [if_pos (List.mem_map_of_mem hm), seenAt_eq ho.nodup hm]
    · have hcomp : ∀ k ∈ vs.map Prod.fst, k ∉ obs.map Obs.node := by
        intro k hk hk'
        obtain ⟨o, hm, rfl⟩ := List.mem_map.1 hk'
        exact (ho.new o hm).1 hk
      intro M hM
      rcases (hmem M).1 hM with ⟨kn, hk, rfl⟩ | ⟨o, hm, rfl⟩ | rfl
      · refine compCpm_covers h probs hk ?_
        rw [if_neg (hcomp _ (List.mem_map_of_mem hk))]
        exact hlt kn hk
      · refine obsCpm_covers h ho lik hm ?_ ?_
        · rw [if_pos (List.mem_map_of_mem hm), seenAt_eq ho.nodup hm]
          exact ho.seen o hm
        · rw [if_neg (hcomp _ (ho.comp o hm))]
          exact hlt _ (ho.compOK h hm).2.2
      · refine ⟨r, hr, ?_⟩
        rw [rowMatches_iff hw.nodup (hw.rowLen r hr)] at hx ⊢
        intro v hv
        have hvn : v.name ∉ obs.map Obs.node := by
          have : v.name ∈ sys :: vs.map Prod.fst := by
            rw [← sysCpm_names h C]
            exact List.mem_map_of_mem hv
          rcases List.mem_cons.1 this with e | e
          · rw [e]
            intro hs
            obtain ⟨o, hm, e'⟩ := List.mem_map.1 hs
            exact (ho.new o hm).2 e'
          · exact hcomp _ e
        simp only [if_neg hvn]
        exact hx v hv
  refine ⟨⟨⟨hwf, ?_, ?_⟩, ?_, ?_, ?_, ?_, ?_, ?_, ?_⟩, hcov⟩
  · intro M hM
    rcases (hmem M).1 hM with ⟨kn, hk, rfl⟩ | ⟨o, hm, rfl⟩ | rfl
    · exact compCpm_childBasic h probs hk
    · exact obsCpm_childBasic lik o
    · exact sysCpm_childBasic h hC
  · unfold ChildDisjoint
    refine (List.Perm.pairwise_iff ?_ hp).2 ?_
    · intro A B hAB k hk hk'
      exact hAB k hk' hk
    · rw [List.pairwise_append, List.pairwise_append]
      refine ⟨⟨?_, ?_, ?_⟩, List.pairwise_singleton _ _, ?_⟩
      · rw [List.pairwise_map]
        have := h.varis.nodup
        rw [List.nodup_iff_pairwise_ne, List.pairwise_map] at this
        refine this.imp_of_mem ?_
        intro a b ha hb hab k hk
        rw [hcn a ha, List.mem_singleton] at hk
        rw [hcn b hb, List.mem_singleton, hk]
        exact hab
      · rw [List.pairwise_map]
        have := ho.nodup
        rw [List.nodup_iff_pairwise_ne, List.pairwise_map] at this
        refine this.imp_of_mem ?_
        intro a b ha hb hab k hk
        rw [hon a ha, List.mem_singleton] at hk
        rw [hon b hb, List.mem_singleton, hk]
        exact hab
      · intro A hA B hB k hk
        obtain ⟨kn, hkn, rfl⟩ := List.mem_map.1 hA
        obtain ⟨o, hm, rfl⟩ := List.mem_map.1 hB
        rw [hon o hm, List.mem_singleton]
        rw [hcn kn hkn, List.mem_singleton] at hk
        rintro rfl
        exact (ho.new o hm).1 (hk ▸ List.mem_map_of_mem hkn)
      · intro A hA B hB k hk
        rw [List.mem_singleton.1 hB, hsn, List.mem_singleton]
        rcases List.mem_append.1 hA with hA | hA
        · obtain ⟨kn, hkn, rfl⟩ := List.mem_map.1 hA
          rw [hcn kn hkn, List.mem_singleton] at hk
          rintro rfl
          exact h.sysNew (hk ▸ List.mem_map_of_mem hkn)
        · obtain ⟨o, hm, rfl⟩ := List.mem_map.1 hA
          rw [hon o hm, List.mem_singleton] at hk
          rintro rfl
          exact (ho.new o hm).2 hk.symm
  · intro h0
    rw [h0] at hsys
    cases hsys
  · intro M hM
    rcases (hmem M).1 hM with ⟨kn, hk, rfl⟩ | ⟨o, hm, rfl⟩ | rfl
    · simp [compCpm]
    · simp [obsCpm]
    · simp [sysCpm]
  · obtain ⟨x, -, hx⟩ := hcov
    exact ⟨x, hx⟩
  · exact hnames.nodup_iff.2 hnd
  · intro v hv
    rcases (hvm v).1 hv with ⟨o, hm, rfl⟩ | ⟨kn, hk, rfl⟩
    · rw [ho.name o hm]
    · rw [h.name kn hk]
  · intro v hv
    rcases (hvm v).1 hv with ⟨o, hm, rfl⟩ | ⟨kn, hk, rfl⟩
    · exact ⟨_, (hmem _).2 (.inr (.inl ⟨o, hm, rfl⟩)), by rw [hon o hm, ho.name o hm]; simp⟩
    · exact ⟨_, (hmem _).2 (.inl ⟨kn, hk, rfl⟩), by rw [hcn kn hk, h.name kn hk]; simp⟩
  · have hcs : ∀ k ∈ vs.map Prod.fst, Share cpms k sys := by
      intro k hk
      refine ⟨_, hsys, ?_, ?_⟩
      · rw [sysCpm_names h]
        exact List.mem_cons_of_mem _ hk
      · rw [sysCpm_names h]
        simp
    intro v hv
    rcases (hvm v).1 hv with ⟨o, hm, rfl⟩ | ⟨kn, hk, rfl⟩
    · refine ⟨sys, hsysne, .head (b := o.comp) ?_ (.single (hcs _ (ho.comp o hm)))⟩
      refine ⟨_, (hmem _).2 (.inr (.inl ⟨o, hm, rfl⟩)), ?_, ?_⟩
      · rw [obsCpm_names h ho lik hm, ho.name o hm]
        simp
      · rw [obsCpm_names h ho lik hm]
        simp
    · refine ⟨sys, hsysne, .single ?_⟩
      rw [h.name kn hk]
      exact hcs _ (List.mem_map_of_mem hk)

/-- The observations with their numbers of states. -/
def obsSizes (U : K → Variable K) (obs : List (Obs K)) : List (K × ℕ) :=
  obs.map fun o => (o.node, (U o.node).values.length)

/-- The states of the observations are summed out. -/
theorem obs_sumOut (h : SysVars U vs sys m) (probs : K → ℕ → ℚ) (hC : EventsOK U vs m C)
    (ho : ObsVars U vs sys obs) (lik : K → ℕ → ℕ → ℚ)
    {cpms : List (Cpm K)} (hp : cpms.Perm
      (vs.map (compCpm U probs) ++ obs.map (obsCpm U lik) ++ [sysCpm U vs sys C]))
    {y : K → ℕ} (hy : InSpace vs y) :
    sumOver (obsSizes U obs)
      (fun z => if Agrees U (obs.map Obs.node) (obs.map Obs.seen) z then jointDens cpms z else 0) y =
      if SysState U vs C (y sys) y then weight vs probs y * likelihood lik obs y else 0 := by
  have hfst : (obsSizes U obs).map Prod.fst =
      obs.map Obs.node := by
    unfold obsSizes; rw [List.map_map]; rfl
  have hcomp : ∀ k ∈ vs.map Prod.fst, k ∉ obs.map Obs.node := by
    intro k hk hk'
    obtain ⟨o, hm, rfl⟩ := List.mem_map.1 hk'
    exact (ho.new o hm).1 hk
  have hsysn : sys ∉ obs.map Obs.node := by
    intro hs
    obtain ⟨o, hm, e⟩ := List.mem_map.1 hs
    exact (ho.new o hm).2 e
  set G : ℚ := if SysState U vs C (y sys) y then weight vs probs y * likelihood lik obs y else 0
    with hG
  have hcong : sumOver (obsSizes U obs)
      (fun z => if Agrees U (obs.map Obs.node) (obs.map Obs.seen) z then jointDens cpms z else 0) y =
      sumOver (obsSizes U obs)
      (fun z => G * if ∀ kn ∈ obsSizes U obs,
        z kn.1 = seenAt obs kn.1 then 1 else 0) y := by
    refine sumOver_congr' _ (by rw [hfst]; exact ho.nodup) y fun z hz hoff => ?_
    rw [hfst] at hoff
    have hiff : (∀ kn ∈ obsSizes U obs,
        z kn.1 = seenAt obs kn.1) ↔ ∀ o ∈ obs, z o.node = o.seen := by
      unfold obsSizes
      rw [List.forall_mem_map]
      exact forall₂_congr fun o hm => by simp only [seenAt_eq ho.nodup hm]
    by_cases ha : ∀ o ∈ obs, z o.node = o.seen
    · rw [if_pos ((obsAgrees ho z).2 ha), if_pos (hiff.2 ha), mul_one, jointDens_perm hp,
        jointDens_append, jointDens_append]
      have hzc : ∀ k ∈ vs.map Prod.fst, z k = y k := fun k hk => hoff k (hcomp k hk)
      have hzs : InSpace vs z := by
        intro kn hk
        rw [hzc _ (List.mem_map_of_mem hk)]
        exact hy kn hk
      have hw : jointDens (vs.map (compCpm U probs)) z = weight vs probs y := by
        unfold jointDens weight
        rw [List.map_map]
        congr 1
        refine List.map_congr_left fun kn hk => ?_
        rw [Function.comp_apply, compCpm_dens h probs hk (hzs kn hk), hzc _ (List.mem_map_of_mem hk)]
      have hl : jointDens (obs.map (obsCpm U lik)) z = likelihood lik obs y := by
        unfold jointDens likelihood
        rw [List.map_map]
        congr 1
        refine List.map_congr_left fun o hm => ?_
        rw [Function.comp_apply, obsCpm_dens h ho lik hm (by rw [ha o hm]; exact ho.seen o hm)
          (hzs _ (ho.compOK h hm).2.2), ha o hm, hzc _ (ho.comp o hm)]
      have hs : jointDens [sysCpm U vs sys C] z = if SysState U vs C (y sys) y then 1 else 0 := by
        unfold jointDens
        rw [List.map_singleton, List.prod_singleton, sysCpm_dens h hC hzs, hoff sys hsysn]
        have hm : ∀ cs, RowMatches (compVariables U vs) cs z ↔ RowMatches (compVariables U vs) cs y := by
          intro cs
          unfold RowMatches
          refine forall₂_congr fun vc hvc => ?_
          obtain ⟨kn, hkn, he⟩ := mem_compVariables.1 (List.of_mem_zip hvc).1
          rw [← he, h.name kn hkn, hzc _ (List.mem_map_of_mem hkn)]
        refine if_congr ?_ rfl rfl
        unfold SysState
        simp only [hm]
      rw [hw, hl, hs, hG]
      split <;> simp
    · rw [if_neg (fun hh => ha ((obsAgrees ho z).1 hh)), if_neg (fun hh => ha (hiff.1 hh)), mul_zero]
  rw [hcong, sumOver_mul_left, sumOver_det _ (by rw [hfst]; exact ho.nodup) (seenAt obs), mul_one]
  intro kn hk
  obtain ⟨o, hm, rfl⟩ := List.mem_map.1 hk
  simp only [seenAt_eq ho.nodup hm]
  exact ho.seen o hm

/-- The only variable left. -/
theorem only_var {P : Cpm K} (hw : WF U P) (hin : ∀ k, k ∈ P.getNames ↔ k = sys) : P.vars = [U sys] := by
  have hn := hw.nodup
  cases hv : P.vars with
  | nil => exact absurd ((hin sys).2 rfl) (by simp [Cpm.getNames, hv])
  | cons a l =>
    have ha : a.name = sys := (hin _).1 (by simp [Cpm.getNames, hv])
    have hl : l = [] := by
      cases l with
      | nil => rfl
      | cons b l =>
        have hb : b.name = sys := (hin _).1 (by simp [Cpm.getNames, hv])
        rw [hv] at hn
        simp [ha, hb] at hn
    have := hw.env a (by simp [hv])
    rw [hl, ← this, ha]

/-- Eliminating the observations and the components, in any order: the distribution of the system
state together with the observations. -/
theorem obsNet_elim (h : SysVars U vs sys m) (probs : K → ℕ → ℚ) (hC : EventsOK U vs m C)
    (ho : ObsVars U vs sys obs) (lik : K → ℕ → ℕ → ℚ)
    {cpms : List (Cpm K)} (hp : cpms.Perm
      (vs.map (compCpm U probs) ++ obs.map (obsCpm U lik) ++ [sysCpm U vs sys C]))
    {ve : List (Variable K)} (hve : ve.Perm ((obs.map fun o => U o.node) ++ compVariables U vs)) :
    ∃ P, variableElim (condNet U cpms (obs.map Obs.node) (obs.map Obs.seen)) ve = .ok P ∧ WF U P ∧
      P.vars = [U sys] ∧ AllBasic P ∧
      ∀ x, dens P x = probWith vs probs lik obs (SysState U vs C (x sys)) := by
  obtain ⟨hok, hcov⟩ := obsNet_elimOK h probs hC ho lik hp hve
  have hmem : ∀ M, M ∈ cpms ↔ (∃ kn ∈ vs, compCpm U probs kn = M) ∨
      (∃ o ∈ obs, obsCpm U lik o = M) ∨ M = sysCpm U vs sys C := by
    intro M
    rw [hp.mem_iff, List.mem_append, List.mem_append, List.mem_map, List.mem_map, List.mem_singleton,
      or_assoc]
  have hsys : sysCpm U vs sys C ∈ cpms := (hmem _).2 (.inr (.inr rfl))
  have hev := obsEvidence ho (cpms := cpms) lik fun o hm => (hmem _).2 (.inr (.inl ⟨o, hm, rfl⟩))
  obtain ⟨P, e1, e2, e3, e4, e5, e6⟩ := C15_elimination_partial _ ve (condNet_elimOK hev hok hcov)
  have honames : (obs.map fun o => U o.node).map Variable.name = obs.map Obs.node := by
    rw [List.map_map]
    exact List.map_congr_left fun o hm => ho.name o hm
  have hnames : (ve.map Variable.name).Perm (obs.map Obs.node ++ vs.map Prod.fst) := by
    have := hve.map Variable.name
    rwa [List.map_append, h.compNames, honames] at this
  have hsysve : sys ∉ ve.map Variable.name := by
    rw [hnames.mem_iff, List.mem_append]
    rintro (hs | hs)
    · obtain ⟨o, hm, e⟩ := List.mem_map.1 hs
      exact (ho.new o hm).2 e
    · exact h.sysNew hs
  have hin : ∀ k, k ∈ P.getNames ↔ k = sys := by
    intro k
    rw [e6]
    constructor
    · rintro ⟨⟨N, hN, hk⟩, hn⟩
      obtain ⟨M, hM, rfl⟩ := List.mem_map.1 hN
      have hk : k ∈ M.vars.map Variable.name := hk
      rw [hnames.mem_iff, List.mem_append, not_or] at hn
      rcases (hmem M).1 hM with ⟨kn, hkn, rfl⟩ | ⟨o, hm, rfl⟩ | rfl
      · have : k = kn.1 := by simpa [compCpm, h.name kn hkn] using hk
        exact absurd (this ▸ List.mem_map_of_mem hkn) hn.2
      · rw [obsCpm_names h ho lik hm] at hk
        have : k = o.node ∨ k = o.comp := by simpa using hk
        rcases this with rfl | rfl
        · exact absurd (List.mem_map_of_mem hm) hn.1
        · exact absurd (ho.comp o hm) hn.2
      · rw [sysCpm_names h, List.mem_cons] at hk
        exact hk.resolve_right hn.2
    · rintro rfl
      refine ⟨⟨_, List.mem_map_of_mem hsys, ?_⟩, hsysve⟩
      show k ∈ (sysCpm U vs k C).vars.map Variable.name
      rw [sysCpm_names h]
      simp
  have hvars := only_var e2 hin
  have hchild : P.noChild = 1 := by
    have hc : sys ∈ childNames P := by
      rw [e5.mem_iff, List.mem_filter]
      refine ⟨List.mem_flatMap.2 ⟨_, List.mem_map_of_mem hsys, ?_⟩, by simpa using hsysve⟩
      show sys ∈ childNames (sysCpm U vs sys C)
      simp [childNames, sysCpm, h.sysName]
    have h1 := e2.child
    rw [hvars, List.length_singleton] at h1
    have h2 : P.noChild ≠ 0 := by
      intro h0
      simp [childNames, h0] at hc
    omega
  refine ⟨P, e1, e2, hvars, ?_, fun x => ?_⟩
  · intro r hr vc hvc
    refine e3 r hr vc ?_
    rw [hchild, hvars]
    rw [hvars] at hvc
    exact hvc
  · rw [e4]
    have hsz : (ve.map fun v => (v.name, v.values.length)).Perm (vs ++ obsSizes U obs) := by
      have h1 := hve.map fun v => (v.name, v.values.length)
      have h2 : (compVariables U vs).map (fun v => (v.name, v.values.length)) = vs := by
        unfold compVariables
        rw [List.map_map]
        conv_rhs => rw [← List.map_id vs]
        exact List.map_congr_left fun kn hkn => by
          simp [h.name kn hkn, h.size kn hkn]
      have h3 : (obs.map fun o => U o.node).map (fun v => (v.name, v.values.length)) =
          obsSizes U obs := by
        unfold obsSizes
        rw [List.map_map]
        exact List.map_congr_left fun o hm => by simp [ho.name o hm]
      rw [List.map_append, h2, h3] at h1
      exact h1.trans List.perm_append_comm
    rw [sumOver_perm hsz (by rw [List.map_map]; exact hok.nodup), sumOver_append,
      sumOver_congr _ x fun y => sumOver_congr _ y (condNet_joint hev hok.net.wf)]
    unfold probWith
    have hcong : sumOver vs (sumOver (obsSizes U obs) fun z =>
        if Agrees U (obs.map Obs.node) (obs.map Obs.seen) z then jointDens cpms z else 0) x =
        sumOver vs (fun y => if SysState U vs C (x sys) y then
          weight vs probs y * likelihood lik obs y else 0) x := by
      refine sumOver_congr' vs h.varis.nodup x fun y hy hoff => ?_
      rw [obs_sumOut h probs hC ho lik hp hy, hoff sys h.sysNew]
    rw [hcong]
    refine sumOver_base vs _ (fun k => k ∈ vs.map Prod.fst) ?_ _ _ (fun k hk hn => absurd hk hn)
    intro y y' hyy
    have hw : weight vs probs y = weight vs probs y' := by
      unfold weight
      congr 1
      exact List.map_congr_left fun kn hkn => by rw [hyy _ (List.mem_map_of_mem hkn)]
    have hl : likelihood lik obs y = likelihood lik obs y' := by
      unfold likelihood
      congr 1
      exact List.map_congr_left fun o hm => by rw [hyy _ (ho.comp o hm)]
    have hm : ∀ cs, RowMatches (compVariables U vs) cs y ↔ RowMatches (compVariables U vs) cs y' := by
      intro cs
      unfold RowMatches
      refine forall₂_congr fun vc hvc => ?_
      obtain ⟨kn, hkn, he⟩ := mem_compVariables.1 (List.of_mem_zip hvc).1
      rw [← he, h.name kn hkn, hyy _ (List.mem_map_of_mem hkn)]
    have : SysState U vs C (x sys) y ↔ SysState U vs C (x sys) y' := by
      unfold SysState
      simp only [hm]
    rw [hw, hl]
    exact if_congr this rfl rfl

/-- Asking a table over the system for the probability of a system state. -/
theorem sysTable_getProb (h : SysVars U vs sys m) {P : Cpm K} (hw : WF U P)
    (hv : P.vars = [U sys]) (hb : AllBasic P) {f : ℕ → ℚ} (hd : ∀ x, dens P x = f (x sys)) {j : ℕ}
    (hj : j < m) :
    P.getProb [U sys] [j] true = .ok (f j) ∧ P.p.sum = ∑ i ∈ Finset.range m, f i := by
  have hB : (U sys).B = some (genB (U sys).values.length) := by rw [h.sysSize]; exact h.sysTable
  have hst : j + 1 < 2 ^ (U sys).values.length := by rw [h.sysSize]; exact lt_two_pow_aux hj
  have hq : QueryOK U P.getNames [U sys] [j] := by
    refine ⟨⟨rfl, ?_, ?_⟩, by simp, ?_, by simp⟩
    · intro p hp _
      rw [show p = (U sys, j) by simpa using hp, h.sysName]
    · intro p hp _
      rw [show p = (U sys, j) by simpa using hp]
      exact hst
    · intro p hp
      rw [show p = (U sys, j) by simpa using hp]
      exact hst
  constructor
  · rw [C11_event_probability P hw hb _ _ hq (fun _ => 0), hv]
    congr 1
    simp only [List.map_singleton, sumOver, h.sysName, h.sysSize]
    have hc : ∀ i, Consistent P.getNames [U sys] [j] (Function.update (fun _ => 0) sys i) ↔ i = j := by
      intro i
      have hs : stateSet (U sys) j = {j} := stateSet_basic hB (by rw [h.sysSize]; exact hj)
      unfold Consistent
      simp [hs, h.sysName, Cpm.getNames, hv]
    simp only [hc, hd, Function.update_self]
    rw [Finset.sum_ite_eq' (Finset.range m) j, if_pos (Finset.mem_range.2 hj)]
  · rw [sum_p_eq hw hb (fun _ => 0), hv]
    simp only [List.map_singleton, sumOver, h.sysName, h.sysSize, hd, Function.update_self]

end BNS
