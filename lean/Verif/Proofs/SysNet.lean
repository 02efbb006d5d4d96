import Verif.Spec.SysNet
import Verif.Props.Elim
import Verif.Props.CpmQuery
import Verif.Proofs.BrcBox
import Verif.Proofs.Msys

/-!
# Eliminating the components of a system network
-/

namespace BNS

set_option linter.unusedSectionVars false

variable {K : Type} [LinearOrder K] {U : K → Variable K} {vs : List (K × ℕ)} {sys : K} {m : ℕ}
  {C : List (List ℕ)}

theorem mem_compVariables {v : Variable K} : v ∈ compVariables U vs ↔ ∃ kn ∈ vs, U kn.1 = v := by
  unfold compVariables
  rw [List.mem_map]

theorem SysVars.compNames (h : SysVars U vs sys m) :
    (compVariables U vs).map Variable.name = vs.map Prod.fst := by
  unfold compVariables
  rw [List.map_map]
  exact List.map_congr_left fun kn hkn => h.name kn hkn

theorem lt_two_pow_aux {i n : ℕ} (h : i < n) : i + 1 < 2 ^ n :=
  lt_of_le_of_lt (Nat.succ_le_of_lt h) Nat.lt_two_pow_self

theorem compCpm_WF (h : SysVars U vs sys m) (probs : K → ℕ → ℚ) {kn : K × ℕ} (hk : kn ∈ vs) :
    WF U (compCpm U probs kn) := by
  refine ⟨?_, ?_, ?_, ?_, ?_, ?_, ?_, ⟨rfl, rfl, rfl, rfl⟩⟩
  · intro v hv
    rw [List.mem_singleton.1 hv, h.name kn hk]
  · intro v hv
    rw [List.mem_singleton.1 hv, h.table kn hk, h.size kn hk]
  · simp [compCpm]
  · intro r hr
    obtain ⟨i, -, rfl⟩ := List.mem_map.1 hr
    rfl
  · intro r hr vc hvc
    obtain ⟨i, hi, rfl⟩ := List.mem_map.1 hr
    have : vc = (U kn.1, i) := by simpa [compCpm] using hvc
    rw [this]
    simp only
    rw [h.size kn hk]
    exact lt_two_pow_aux (List.mem_range.1 hi)
  · simp [compCpm]
  · simp [compCpm]

theorem compCpm_rowMatches (h : SysVars U vs sys m) {kn : K × ℕ} (hk : kn ∈ vs) {i : ℕ}
    (hi : i < kn.2) (x : K → ℕ) : RowMatches [U kn.1] [i] x ↔ x kn.1 = i := by
  have hs : stateSet (U kn.1) i = {i} :=
    stateSet_basic (by rw [h.size kn hk]; exact h.table kn hk) (by rw [h.size kn hk]; exact hi)
  unfold RowMatches
  simp [hs, h.name kn hk]

theorem compCpm_dens (h : SysVars U vs sys m) (probs : K → ℕ → ℚ) {kn : K × ℕ} (hk : kn ∈ vs)
    {x : K → ℕ} (hx : x kn.1 < kn.2) : dens (compCpm U probs kn) x = probs kn.1 (x kn.1) := by
  refine dens_of_row (M := compCpm U probs kn) (r := [x kn.1]) ?_ ?_ ?_
  · unfold RowsDisjoint compCpm
    simp only
    rw [List.pairwise_map]
    refine (List.pairwise_lt_range (n := kn.2)).imp_of_mem ?_
    intro i j hi hj hlt y hy
    rw [compCpm_rowMatches h hk (List.mem_range.1 hi), compCpm_rowMatches h hk (List.mem_range.1 hj)]
      at hy
    omega
  · unfold compCpm
    simp only
    rw [List.zip_map']
    exact List.mem_map_of_mem (List.mem_range.2 hx)
  · exact (compCpm_rowMatches h hk hx x).2 rfl

theorem compCpm_covers (h : SysVars U vs sys m) (probs : K → ℕ → ℚ) {kn : K × ℕ} (hk : kn ∈ vs)
    {x : K → ℕ} (hx : x kn.1 < kn.2) : Covers (compCpm U probs kn) x :=
  ⟨[x kn.1], List.mem_map_of_mem (List.mem_range.2 hx), (compCpm_rowMatches h hk hx x).2 rfl⟩

theorem sysCpm_names (h : SysVars U vs sys m) (C : List (List ℕ)) :
    (sysCpm U vs sys C).vars.map Variable.name = sys :: vs.map Prod.fst := by
  unfold sysCpm
  rw [List.map_cons, h.sysName, h.compNames]

theorem sysCpm_WF (h : SysVars U vs sys m) (hC : EventsOK U vs m C) : WF U (sysCpm U vs sys C) := by
  refine ⟨?_, ?_, ?_, ?_, ?_, ?_, ?_, ⟨rfl, rfl, rfl, rfl⟩⟩
  · intro v hv
    rcases List.mem_cons.1 hv with rfl | hv
    · rw [h.sysName]
    · obtain ⟨kn, hk, rfl⟩ := mem_compVariables.1 hv
      rw [h.name kn hk]
  · intro v hv
    rcases List.mem_cons.1 hv with rfl | hv
    · rw [h.sysTable, h.sysSize]
    · obtain ⟨kn, hk, rfl⟩ := mem_compVariables.1 hv
      rw [h.table kn hk, h.size kn hk]
  · rw [sysCpm_names h, List.nodup_cons]
    exact ⟨h.sysNew, h.varis.nodup⟩
  · intro r hr
    obtain ⟨s, cs, rfl, -, h3, -⟩ := hC.rows r hr
    simp [sysCpm, compVariables, h3]
  · intro r hr vc hvc
    obtain ⟨s, cs, rfl, h2, h3, h4⟩ := hC.rows r hr
    unfold sysCpm at hvc
    rw [List.zip_cons_cons, List.mem_cons] at hvc
    rcases hvc with rfl | hvc
    · simp only
      rw [h.sysSize]
      exact lt_two_pow_aux h2
    · exact h4 vc hvc
  · simp [sysCpm]
  · simp [sysCpm]

theorem sysCpm_childBasic (h : SysVars U vs sys m) (hC : EventsOK U vs m C) :
    ChildBasic (sysCpm U vs sys C) := by
  intro r hr vc hvc
  obtain ⟨s, cs, rfl, h2, -, -⟩ := hC.rows r hr
  have : vc = (U sys, s) := by simpa [sysCpm] using hvc
  rw [this]
  simp only
  rw [h.sysSize]
  exact h2

theorem sys_rowMatches (h : SysVars U vs sys m) {s : ℕ} (hs : s < m) (cs : List ℕ) (x : K → ℕ) :
    RowMatches (sysCpm U vs sys C).vars (s :: cs) x ↔
      x sys = s ∧ RowMatches (compVariables U vs) cs x := by
  have he : stateSet (U sys) s = {s} :=
    stateSet_basic (by rw [h.sysSize]; exact h.sysTable) (by rw [h.sysSize]; exact hs)
  unfold RowMatches sysCpm
  rw [List.zip_cons_cons, List.forall_mem_cons]
  simp only [he, h.sysName, Finset.mem_singleton]

theorem sysCpm_dens (h : SysVars U vs sys m) (hC : EventsOK U vs m C) {x : K → ℕ}
    (hx : InSpace vs x) :
    dens (sysCpm U vs sys C) x = if SysState U vs C (x sys) x then 1 else 0 := by
  have hrows := hC.rows
  have honce := hC.once x hx
  have key : ∀ l : List (List ℕ), (∀ r ∈ l, ∃ s cs, r = s :: cs ∧ s < m ∧ cs.length = vs.length ∧
      ∀ vc ∈ (compVariables U vs).zip cs, vc.2 + 1 < 2 ^ vc.1.values.length) →
      l.countP (fun r => decide (RowMatches (compVariables U vs) r.tail x)) ≤ 1 →
      ((l.zip (l.map fun _ => (1 : ℚ))).map fun cp =>
        if RowMatches (sysCpm U vs sys C).vars cp.1 x then cp.2 else 0).sum =
        if SysState U vs l (x sys) x then 1 else 0 := by
    intro l hl hc
    induction l with
    | nil => simp [SysState]
    | cons r l ih =>
      obtain ⟨s, cs, rfl, h2, -, -⟩ := hl r (by simp)
      have ih' := ih (fun r hr => hl r (by simp [hr]))
      rw [List.map_cons, List.zip_cons_cons, List.map_cons, List.sum_cons]
      simp only
      have hiff : SysState U vs ((s :: cs) :: l) (x sys) x ↔
          (x sys = s ∧ RowMatches (compVariables U vs) cs x) ∨ SysState U vs l (x sys) x := by
        unfold SysState
        simp only [List.mem_cons, exists_eq_or_imp, List.head?_cons, Option.some.injEq,
          List.tail_cons]
        rw [eq_comm (a := s)]
      by_cases hm : RowMatches (compVariables U vs) cs x
      · rw [List.countP_cons_of_pos (by rw [List.tail_cons, decide_eq_true_eq]; exact hm)] at hc
        have h0 : ¬ SysState U vs l (x sys) x := by
          rintro ⟨r, hr, -, hr2⟩
          have := List.countP_eq_zero.1 (by omega : l.countP (fun r =>
            decide (RowMatches (compVariables U vs) r.tail x)) = 0) r hr
          simp [hr2] at this
        rw [ih' (by omega), if_neg h0, add_zero]
        refine if_congr ?_ rfl rfl
        rw [hiff, sys_rowMatches h h2]
        simp [h0]
      · rw [List.countP_cons_of_neg (by rw [List.tail_cons, decide_eq_true_eq]; exact hm)] at hc
        rw [ih' hc, if_neg (by rw [sys_rowMatches h h2]; simp [hm]), zero_add]
        refine if_congr ?_ rfl rfl
        rw [hiff]
        simp [hm]
  exact key C hrows honce

/-- The network meets the requirements of `variable_elim`. -/
theorem sysNet_elimOK (h : SysVars U vs sys m) (probs : K → ℕ → ℚ) (hC : EventsOK U vs m C)
    {cpms : List (Cpm K)} (hp : cpms.Perm (vs.map (compCpm U probs) ++ [sysCpm U vs sys C]))
    {ve : List (Variable K)} (hve : ve.Perm (compVariables U vs)) : ElimOK U cpms ve := by
  have hmem : ∀ M, M ∈ cpms ↔ (∃ kn ∈ vs, compCpm U probs kn = M) ∨ M = sysCpm U vs sys C := by
    intro M
    rw [hp.mem_iff, List.mem_append, List.mem_map, List.mem_singleton]
  have hsys : sysCpm U vs sys C ∈ cpms := (hmem _).2 (.inr rfl)
  have hvm : ∀ v, v ∈ ve ↔ ∃ kn ∈ vs, U kn.1 = v := fun v => by
    rw [hve.mem_iff, mem_compVariables]
  have hnames : (ve.map Variable.name).Perm (vs.map Prod.fst) := by
    have := hve.map Variable.name
    rwa [h.compNames] at this
  have hwf : ∀ M ∈ cpms, WF U M := by
    intro M hM
    rcases (hmem M).1 hM with ⟨kn, hk, rfl⟩ | rfl
    · exact compCpm_WF h probs hk
    · exact sysCpm_WF h hC
  refine ⟨⟨hwf, ?_, ?_⟩, ?_, ?_, ?_, ?_, ?_, ?_, ?_⟩
  · intro M hM
    rcases (hmem M).1 hM with ⟨kn, hk, rfl⟩ | rfl
    · intro r hr vc hvc
      obtain ⟨i, hi, rfl⟩ := List.mem_map.1 hr
      have : vc = (U kn.1, i) := by simpa [compCpm] using hvc
      rw [this]
      simp only
      rw [h.size kn hk]
      exact List.mem_range.1 hi
    · exact sysCpm_childBasic h hC
  · unfold ChildDisjoint
    refine (List.Perm.pairwise_iff ?_ hp).2 ?_
    · intro A B hAB k hk hk'
      exact hAB k hk' hk
    · have hcn : ∀ kn ∈ vs, childNames (compCpm U probs kn) = [kn.1] := fun kn hk => by
        simp [childNames, compCpm, h.name kn hk]
      have hsn : childNames (sysCpm U vs sys C) = [sys] := by
        simp [childNames, sysCpm, h.sysName]
      rw [List.pairwise_append]
      refine ⟨?_, List.pairwise_singleton _ _, ?_⟩
      · rw [List.pairwise_map]
        have := h.varis.nodup
        rw [List.nodup_iff_pairwise_ne, List.pairwise_map] at this
        refine this.imp_of_mem ?_
        intro a b ha hb hab k hk
        rw [hcn a ha, List.mem_singleton] at hk
        rw [hcn b hb, List.mem_singleton, hk]
        exact hab
      · intro A hA B hB k hk
        obtain ⟨kn, hkn, rfl⟩ := List.mem_map.1 hA
        rw [List.mem_singleton.1 hB, hsn, List.mem_singleton]
        rw [hcn kn hkn, List.mem_singleton] at hk
        rintro rfl
        exact h.sysNew (hk ▸ List.mem_map_of_mem hkn)
  · intro h0
    rw [h0] at hsys
    cases hsys
  · intro M hM
    rcases (hmem M).1 hM with ⟨kn, hk, rfl⟩ | rfl
    · simp [compCpm]
    · simp [sysCpm]
  · obtain ⟨r, hr⟩ := List.exists_mem_of_ne_nil _ hC.ne
    obtain ⟨x, hx⟩ := exists_matches (sysCpm_WF h hC) hr
    refine ⟨x, fun M hM => ?_⟩
    rcases (hmem M).1 hM with ⟨kn, hk, rfl⟩ | rfl
    · refine compCpm_covers h probs hk ?_
      have hv : U kn.1 ∈ (sysCpm U vs sys C).vars :=
        List.mem_cons_of_mem _ (mem_compVariables.2 ⟨kn, hk, rfl⟩)
      have hw := sysCpm_WF h hC
      have hin := (rowMatches_iff hw.nodup (hw.rowLen r hr) x).1 hx _ hv
      have hg := mem_genB_stateSet (hw.table _ hv) (hw.entry_lt hr hv)
      have := (mem_genB.1 hg).2 _ hin
      rw [h.size kn hk, h.name kn hk] at this
      exact this
    · exact ⟨r, hr, hx⟩
  · exact hnames.nodup_iff.2 h.varis.nodup
  · intro v hv
    obtain ⟨kn, hk, rfl⟩ := (hvm v).1 hv
    rw [h.name kn hk]
  · intro v hv
    obtain ⟨kn, hk, rfl⟩ := (hvm v).1 hv
    exact ⟨_, (hmem _).2 (.inl ⟨kn, hk, rfl⟩), by simp [childNames, compCpm]⟩
  · intro v hv
    obtain ⟨kn, hk, rfl⟩ := (hvm v).1 hv
    refine ⟨sys, ?_, .single ⟨_, hsys, ?_, ?_⟩⟩
    · simp only [hnames.mem_iff]
      exact h.sysNew
    · rw [sysCpm_names h, h.name kn hk]
      exact List.mem_cons_of_mem _ (List.mem_map_of_mem hk)
    · rw [sysCpm_names h]
      simp

/-- Eliminating the components, in any order: the distribution of the system state. -/
theorem sysNet_elim (h : SysVars U vs sys m) (probs : K → ℕ → ℚ) (hC : EventsOK U vs m C)
    {cpms : List (Cpm K)} (hp : cpms.Perm (vs.map (compCpm U probs) ++ [sysCpm U vs sys C]))
    {ve : List (Variable K)} (hve : ve.Perm (compVariables U vs)) :
    ∃ P, variableElim cpms ve = .ok P ∧ WF U P ∧ P.vars = [U sys] ∧ AllBasic P ∧
      ∀ x, dens P x = probOf vs probs (SysState U vs C (x sys)) := by
  have hok := sysNet_elimOK h probs hC hp hve
  obtain ⟨P, e1, e2, e3, e4, e5, e6⟩ := C15_elimination_partial cpms ve hok
  have hmem : ∀ M, M ∈ cpms ↔ (∃ kn ∈ vs, compCpm U probs kn = M) ∨ M = sysCpm U vs sys C := by
    intro M
    rw [hp.mem_iff, List.mem_append, List.mem_map, List.mem_singleton]
  have hnames : (ve.map Variable.name).Perm (vs.map Prod.fst) := by
    have := hve.map Variable.name
    rwa [h.compNames] at this
  have hsysve : sys ∉ ve.map Variable.name := by rw [hnames.mem_iff]; exact h.sysNew
  have hin : ∀ k, k ∈ P.getNames ↔ k = sys := by
    intro k
    rw [e6]
    constructor
    · rintro ⟨⟨M, hM, hk⟩, hn⟩
      rcases (hmem M).1 hM with ⟨kn, hkn, rfl⟩ | rfl
      · have : k = kn.1 := by simpa [Cpm.getNames, compCpm, h.name kn hkn] using hk
        exact absurd (hnames.mem_iff.2 (this ▸ List.mem_map_of_mem hkn)) hn
      · unfold Cpm.getNames at hk
        rw [sysCpm_names h, List.mem_cons] at hk
        exact hk.resolve_right fun hk => hn (hnames.mem_iff.2 hk)
    · rintro rfl
      refine ⟨⟨_, (hmem _).2 (.inr rfl), ?_⟩, hsysve⟩
      unfold Cpm.getNames
      rw [sysCpm_names h]
      simp
  have hvars : P.vars = [U sys] := by
    have hn := e2.nodup
    cases hv : P.vars with
    | nil => exact absurd ((hin sys).2 rfl) (by simp [Cpm.getNames, hv])
    | cons a l =>
      have ha : a.name = sys := (hin _).1 (by simp [Cpm.getNames, hv])
      have hl : l = [] := by
        cases l with
        | nil => rfl
        | cons b l =>
          have hb : b.name = sys := (hin _).1 (by simp [Cpm.getNames, hv])
          rw [hv] at hn
          simp [ha, hb] at hn
      have := e2.env a (by simp [hv])
      rw [hl, ← this, ha]
  have hchild : P.noChild = 1 := by
    have hc : sys ∈ childNames P := by
      rw [e5.mem_iff, List.mem_filter]
      refine ⟨List.mem_flatMap.2 ⟨_, (hmem _).2 (.inr rfl), ?_⟩, by simpa using hsysve⟩
      simp [childNames, sysCpm, h.sysName]
    have h1 := e2.child
    rw [hvars, List.length_singleton] at h1
    have h2 : P.noChild ≠ 0 := by
      intro h0
      simp [childNames, h0] at hc
    omega
  refine ⟨P, e1, e2, hvars, ?_, fun x => ?_⟩
  · intro r hr vc hvc
    refine e3 r hr vc ?_
    rw [hchild, hvars]
    rw [hvars] at hvc
    exact hvc
  · rw [e4]
    have hsz : (ve.map fun v => (v.name, v.values.length)).Perm vs := by
      have h1 := hve.map fun v => (v.name, v.values.length)
      have h2 : (compVariables U vs).map (fun v => (v.name, v.values.length)) = vs := by
        unfold compVariables
        rw [List.map_map]
        conv_rhs => rw [← List.map_id vs]
        exact List.map_congr_left fun kn hkn => by
          simp [h.name kn hkn, h.size kn hkn]
      rwa [h2] at h1
    rw [sumOver_perm hsz (by rw [List.map_map]; exact hok.nodup)]
    unfold probOf
    have hcong : sumOver vs (jointDens cpms) x =
        sumOver vs (fun y => if SysState U vs C (x sys) y then weight vs probs y else 0) x := by
      refine sumOver_congr' vs h.varis.nodup x fun y hy hoff => ?_
      rw [jointDens_perm hp, jointDens_append]
      have hw : jointDens (vs.map (compCpm U probs)) y = weight vs probs y := by
        unfold jointDens weight
        rw [List.map_map]
        congr 1
        exact List.map_congr_left fun kn hkn => compCpm_dens h probs hkn (hy kn hkn)
      have hs : jointDens [sysCpm U vs sys C] y = if SysState U vs C (x sys) y then 1 else 0 := by
        unfold jointDens
        rw [List.map_singleton, List.prod_singleton, sysCpm_dens h hC hy, hoff sys h.sysNew]
      rw [hw, hs]
      split <;> simp
    rw [hcong]
    refine sumOver_base vs _ (fun k => k ∈ vs.map Prod.fst) ?_ _ _ (fun k hk hn => absurd hk hn)
    intro y y' hyy
    have hw : weight vs probs y = weight vs probs y' := by
      unfold weight
      congr 1
      exact List.map_congr_left fun kn hkn => by rw [hyy _ (List.mem_map_of_mem hkn)]
    have hm : ∀ cs, RowMatches (compVariables U vs) cs y ↔ RowMatches (compVariables U vs) cs y' := by
      intro cs
      unfold RowMatches
      refine forall₂_congr fun vc hvc => ?_
      obtain ⟨kn, hkn, he⟩ := mem_compVariables.1 (List.of_mem_zip hvc).1
      rw [← he, h.name kn hkn, hyy _ (List.mem_map_of_mem hkn)]
    have : SysState U vs C (x sys) y ↔ SysState U vs C (x sys) y' := by
      unfold SysState
      simp only [hm]
    rw [hw]
    exact if_congr this rfl rfl

/-- Asking the result for the probability of a system state. -/
theorem sysNet_getProb (h : SysVars U vs sys m) (probs : K → ℕ → ℚ) {P : Cpm K} (hw : WF U P)
    (hv : P.vars = [U sys]) (hb : AllBasic P)
    (hd : ∀ x, dens P x = probOf vs probs (SysState U vs C (x sys))) {j : ℕ} (hj : j < m) :
    P.getProb [U sys] [j] true = .ok (probOf vs probs (SysState U vs C j)) := by
  have hB : (U sys).B = some (genB (U sys).values.length) := by rw [h.sysSize]; exact h.sysTable
  have hst : j + 1 < 2 ^ (U sys).values.length := by rw [h.sysSize]; exact lt_two_pow_aux hj
  have hq : QueryOK U P.getNames [U sys] [j] := by
    refine ⟨⟨rfl, ?_, ?_⟩, by simp, ?_, by simp⟩
    · intro p hp _
      rw [show p = (U sys, j) by simpa using hp, h.sysName]
    · intro p hp _
      rw [show p = (U sys, j) by simpa using hp]
      exact hst
    · intro p hp
      rw [show p = (U sys, j) by simpa using hp]
      exact hst
  rw [C11_event_probability P hw hb _ _ hq (fun _ => 0), hv]
  congr 1
  simp only [List.map_singleton, sumOver, h.sysName, h.sysSize]
  have hc : ∀ i, Consistent P.getNames [U sys] [j] (Function.update (fun _ => 0) sys i) ↔ i = j := by
    intro i
    have hs : stateSet (U sys) j = {j} := stateSet_basic hB (by rw [h.sysSize]; exact hj)
    unfold Consistent
    simp [hs, h.sysName, Cpm.getNames, hv]
  simp only [hc, hd, Function.update_self]
  rw [Finset.sum_ite_eq' (Finset.range m) j, if_pos (Finset.mem_range.2 hj)]

end BNS
