import Verif.Proofs.SysNet
import Verif.Props.Msys

/-!
# The product of a system CPM with the CPMs of its components
-/

namespace BNS

set_option linter.unusedSectionVars false

variable {K : Type} [LinearOrder K] {U : K → Variable K} {vs : List (K × ℕ)} {sys : K} {m : ℕ}
  {C : List (List ℕ)}

theorem projRow_self {M : Cpm K} (h : WF U M) {r : List ℕ} (hr : r.length = M.vars.length) :
    projRow M M.vars r = r := by
  refine List.ext_getElem (by simp [projRow, hr]) fun i h1 h2 => ?_
  have e0 : (projRow M M.vars r)[i] = val M.getNames r (M.vars[i]'(by simpa [projRow] using h1)).name := by
    simp [projRow]
  rw [e0]
  unfold val Cpm.getNames
  have hi : i < M.vars.length := by simpa [projRow] using h1
  have e : (M.vars.map Variable.name).idxOf M.vars[i].name = i := by
    have := h.nodup.idxOf_getElem i (by simpa using hi)
    simpa using this
  rw [e, List.getD_eq_getElem?_getD, List.getElem?_eq_getElem h2, Option.getD_some]

/-- The probability of the box of a row. -/
theorem prob_row (h : SysVars U vs sys m) (probs : K → ℕ → ℚ) (cs : List ℕ)
    (hl : cs.length = vs.length)
    (he : ∀ vc ∈ (compVariables U vs).zip cs, vc.2 + 1 < 2 ^ vc.1.values.length) :
    probOf vs probs (RowMatches (compVariables U vs) cs) =
      (vs.map fun kn => ∑ i ∈ stateSet (U kn.1) (val (vs.map Prod.fst) cs kn.1), probs kn.1 i).prod := by
  have hn : ((compVariables U vs).map Variable.name).Nodup := by rw [h.compNames]; exact h.varis.nodup
  have hl' : cs.length = (compVariables U vs).length := by simp [compVariables, hl]
  unfold probOf
  have h1 : sumOver vs (fun x => if RowMatches (compVariables U vs) cs x then weight vs probs x else 0)
      (fun _ => 0) = sumOver vs (fun x => (vs.map fun kn =>
        (fun k i => if i ∈ stateSet (U k) (val (vs.map Prod.fst) cs k) then probs k i else 0)
          kn.1 (x kn.1)).prod) (fun _ => 0) := by
    refine sumOver_congr _ _ fun x => ?_
    have hm : RowMatches (compVariables U vs) cs x ↔
        ∀ kn ∈ vs, x kn.1 ∈ stateSet (U kn.1) (val (vs.map Prod.fst) cs kn.1) := by
      rw [rowMatches_iff hn hl', h.compNames]
      constructor
      · intro hx kn hkn
        have := hx _ (mem_compVariables.2 ⟨kn, hkn, rfl⟩)
        rwa [h.name kn hkn] at this
      · intro hx v hv
        obtain ⟨kn, hkn, rfl⟩ := mem_compVariables.1 hv
        rw [h.name kn hkn]
        exact hx kn hkn
    rw [if_congr hm rfl rfl]
    unfold weight
    split_ifs with hx
    · congr 1
      exact List.map_congr_left fun kn hkn => by simp only; rw [if_pos (hx kn hkn)]
    · push Not at hx
      obtain ⟨kn, hkn, hx⟩ := hx
      symm
      rw [List.prod_eq_zero_iff, List.mem_map]
      exact ⟨kn, hkn, by simp only; rw [if_neg hx]⟩
  have h2 := sumOver_prod vs h.varis.nodup
    (fun k i => if i ∈ stateSet (U k) (val (vs.map Prod.fst) cs k) then probs k i else 0) (fun _ => 0)
  refine h1.trans (h2.trans ?_)
  congr 1
  refine List.map_congr_left fun kn hkn => ?_
  rw [← Finset.sum_filter]
  refine Finset.sum_congr ?_ fun _ _ => rfl
  ext i
  rw [Finset.mem_filter, Finset.mem_range, and_iff_right_iff_imp]
  intro hi
  have hv : U kn.1 ∈ compVariables U vs := mem_compVariables.2 ⟨kn, hkn, rfl⟩
  have hlt := (zip_forall_iff hn hl' (fun v s => s + 1 < 2 ^ v.values.length)).1 he _ hv
  rw [h.compNames, h.name kn hkn] at hlt
  have hg := mem_genB_stateSet (v := U kn.1) (by rw [h.size kn hkn]; exact h.table kn hkn)
    (s := val (vs.map Prod.fst) cs kn.1) (by rw [length_genB]; omega)
  have := (mem_genB.1 hg).2 _ hi
  rwa [h.size kn hkn] at this

/-- What `prod_Msys_and_Mcomps` returns: the event matrix as it is, and as the probability of a row
that of its box. -/
theorem sysProd_ok (h : SysVars U vs sys m) (probs : K → ℕ → ℚ) (hC : EventsOK U vs m C)
    (hne : vs ≠ []) {comps : List (Cpm K)} (hp : comps.Perm (vs.map (compCpm U probs))) :
    prodMsysMcomps (sysCpm U vs sys C) comps =
      .ok { vars := U sys :: compVariables U vs, noChild := 1 + vs.length, C := C
            p := C.map fun r => probOf vs probs (RowMatches (compVariables U vs) r.tail) } := by
  have hmem : ∀ M, M ∈ comps ↔ ∃ kn ∈ vs, compCpm U probs kn = M := fun M => by
    rw [hp.mem_iff, List.mem_map]
  have hpair : ∀ kn ∈ vs, (kn.1, (U kn.1).values.length) = kn := fun kn hkn => by
    rw [h.size kn hkn]
  have hcn : ∀ kn ∈ vs, childNames (compCpm U probs kn) = [kn.1] := fun kn hk => by
    simp [childNames, compCpm, h.name kn hk]
  have hsn : childNames (sysCpm U vs sys C) = [sys] := by
    simp [childNames, sysCpm, h.sysName]
  have hS := sysCpm_WF h hC
  have hok : MsysOK U [] [] (sysCpm U vs sys C) comps
      (fun k => compCpm U probs (k, (U k).values.length)) := by
    refine ⟨hS, by simp [sysCpm], hC.ne, ⟨?_, ?_, ?_, ?_, ?_, ?_, ?_, by simp, ?_, by simp⟩, ?_, ?_,
      by simp⟩
    · rintro rfl
      have := hp.length_eq
      exact hne (List.length_eq_zero_iff.1 (by simpa using this.symm))
    · intro M hM
      obtain ⟨kn, hkn, rfl⟩ := (hmem M).1 hM
      exact compCpm_WF h probs hkn
    · intro M hM
      obtain ⟨kn, hkn, rfl⟩ := (hmem M).1 hM
      exact ⟨U kn.1, rfl⟩
    · intro M hM
      obtain ⟨kn, hkn, rfl⟩ := (hmem M).1 hM
      rfl
    · intro M hM
      obtain ⟨kn, hkn, rfl⟩ := (hmem M).1 hM
      have := h.varis.pos kn hkn
      intro h0
      have h1 := congrArg List.length h0
      simp [compCpm] at h1
      omega
    · intro M hM c hc
      obtain ⟨kn, hkn, rfl⟩ := (hmem M).1 hM
      obtain ⟨i, -, rfl⟩ := List.mem_map.1 hc
      rfl
    · intro M hM v hv
      obtain ⟨kn, hkn, rfl⟩ := (hmem M).1 hM
      have hv : v = U kn.1 := by simpa [compCpm] using hv
      subst hv
      have : (compCpm U probs kn).C.map (fun c => c.headD 0) = List.range kn.2 := by
        simp [compCpm, List.map_map, Function.comp_def]
      rw [this, h.size kn hkn]
    · have := (hp.map childNames).nodup_iff.2 (by
        rw [List.map_map]
        have e : vs.map (childNames ∘ compCpm U probs) = (vs.map Prod.fst).map fun k => [k] := by
          rw [List.map_map]
          exact List.map_congr_left fun kn hkn => hcn kn hkn
        rw [e]
        exact h.varis.nodup.map fun a b hab => by simpa using hab)
      exact this
    · intro M hM k hk
      obtain ⟨kn, hkn, rfl⟩ := (hmem M).1 hM
      rw [hcn kn hkn, List.mem_singleton] at hk
      subst hk
      rw [hpair kn hkn]
    · intro M hM k hk
      obtain ⟨kn, hkn, rfl⟩ := (hmem M).1 hM
      rw [hcn kn hkn, List.mem_singleton] at hk
      rw [hsn, List.mem_singleton]
      rintro rfl
      exact h.sysNew (hk ▸ List.mem_map_of_mem hkn)
  rw [prodMsys_ok hok (x := fun _ => 0) (by simp [RowMatches])]
  have hcp : compPars (sysCpm U vs sys C) comps = compVariables U vs := by
    unfold compPars
    have : (sysCpm U vs sys C).vars.drop (sysCpm U vs sys C).noChild = compVariables U vs := rfl
    rw [this, List.filter_eq_self]
    intro v hv
    obtain ⟨kn, hkn, rfl⟩ := mem_compVariables.1 hv
    rw [decide_eq_true_iff]
    exact ⟨_, (hmem _).2 ⟨kn, hkn, rfl⟩, by rw [hcn kn hkn, h.name kn hkn]; simp⟩
  have hop : otherPars (sysCpm U vs sys C) comps = [] := by
    unfold otherPars
    have : (sysCpm U vs sys C).vars.drop (sysCpm U vs sys C).noChild = compVariables U vs := rfl
    rw [this, List.filter_eq_nil_iff]
    intro v hv
    obtain ⟨kn, hkn, rfl⟩ := mem_compVariables.1 hv
    rw [decide_eq_true_iff]
    exact fun hc => hc _ ((hmem _).2 ⟨kn, hkn, rfl⟩) (by rw [hcn kn hkn, h.name kn hkn]; simp)
  have hcols : sysCols (sysCpm U vs sys C) comps = (sysCpm U vs sys C).vars := by
    unfold sysCols
    rw [hcp, hop]
    simp [sysCpm]
  have hex : extraVars (sysCpm U vs sys C) comps [] [] = [] := rfl
  congr 1
  unfold msysPure
  rw [hcols, hex]
  have hCC : ((sysCpm U vs sys C).C.map fun r => projRow (sysCpm U vs sys C)
      (sysCpm U vs sys C).vars r ++ (([] : List (Variable K × ℕ)).map Prod.snd)) = C := by
    conv_rhs => rw [← List.map_id C]
    refine List.map_congr_left fun r hr => ?_
    rw [projRow_self hS (hS.rowLen r hr)]
    simp
  rw [hCC, hcp]
  have hpp : ((sysCpm U vs sys C).C.zip (sysCpm U vs sys C).p).map (fun cp => cp.2 *
      compFactor (sysCpm U vs sys C) comps (fun k => compCpm U probs (k, (U k).values.length))
        (fun _ => 0) cp.1) =
      C.map fun r => probOf vs probs (RowMatches (compVariables U vs) r.tail) := by
    have hz : (sysCpm U vs sys C).C.zip (sysCpm U vs sys C).p = C.map fun r => (r, 1) := by
      unfold sysCpm
      simp only
      conv_lhs => arg 1; rw [← List.map_id C]
      rw [List.zip_map']
      rfl
    rw [hz, List.map_map]
    refine List.map_congr_left fun r hr => ?_
    obtain ⟨s, cs, rfl, h2, h3, h4⟩ := hC.rows r hr
    simp only [Function.comp_apply, one_mul]
    refine Eq.trans ?_ (prob_row h probs cs h3 h4).symm
    unfold compFactor
    rw [hcp]
    unfold compVariables
    rw [List.map_map]
    congr 1
    refine List.map_congr_left fun kn hkn => ?_
    simp only [Function.comp_apply, h.name kn hkn]
    have hval : val (sysCpm U vs sys C).getNames (s :: cs) kn.1 = val (vs.map Prod.fst) cs kn.1 := by
      unfold Cpm.getNames
      rw [sysCpm_names h]
      have : kn.1 ≠ sys := fun e => h.sysNew (e ▸ List.mem_map_of_mem hkn)
      unfold val
      rw [List.idxOf_cons_ne _ (Ne.symm this)]
      simp
    rw [hval, hpair kn hkn]
    refine Finset.sum_congr rfl fun i hi => ?_
    have hilt : i < kn.2 := by
      have hv : U kn.1 ∈ compVariables U vs := mem_compVariables.2 ⟨kn, hkn, rfl⟩
      have hlt := (zip_forall_iff (by rw [h.compNames]; exact h.varis.nodup)
        (by simp [compVariables, h3]) (fun v s => s + 1 < 2 ^ v.values.length)).1 h4 _ hv
      rw [h.compNames, h.name kn hkn] at hlt
      have hg := mem_genB_stateSet (v := U kn.1) (by rw [h.size kn hkn]; exact h.table kn hkn)
        (s := val (vs.map Prod.fst) cs kn.1) (by rw [length_genB]; omega)
      have := (mem_genB.1 hg).2 _ hi
      rwa [h.size kn hkn] at this
    rw [compCpm_dens h probs hkn (by rw [Function.update_self]; exact hilt), Function.update_self]
  rw [hpp]
  have hlen : ((sysCpm U vs sys C).vars.take (sysCpm U vs sys C).noChild ++ compVariables U vs).length
      = 1 + vs.length := by
    simp [sysCpm, compVariables, Nat.add_comm]
  rw [hlen]
  simp [sysCpm]

/-- The rows of an event matrix are disjoint: the probabilities of some of them add up to that of
their union. -/
theorem prob_rows (h : SysVars U vs sys m) (probs : K → ℕ → ℚ) (hC : EventsOK U vs m C)
    (R : List ℕ → Prop) [DecidablePred R] :
    (C.map fun r => if R r then
      probOf vs probs (RowMatches (compVariables U vs) r.tail) else 0).sum =
      probOf vs probs fun x => ∃ r ∈ C, R r ∧ RowMatches (compVariables U vs) r.tail x := by
  have h1 : (C.map fun r => if R r then
      probOf vs probs (RowMatches (compVariables U vs) r.tail) else 0) = C.map fun r =>
      sumOver vs (fun x => if R r ∧ RowMatches (compVariables U vs) r.tail x then
        weight vs probs x else 0) (fun _ => 0) := by
    refine List.map_congr_left fun r _ => ?_
    by_cases hr : R r
    · rw [if_pos hr]
      unfold probOf
      exact sumOver_congr _ _ fun x => if_congr (by simp only [hr, true_and]) rfl rfl
    · rw [if_neg hr]
      refine (sumOver_zero vs _).symm.trans (sumOver_congr _ _ fun x => ?_)
      rw [if_neg fun e => hr e.1]
  rw [h1, ← sumOver_list]
  unfold probOf
  refine sumOver_congr' vs h.varis.nodup _ fun x hx _ => ?_
  rw [sum_count]
  have hle : C.countP (fun r => decide (R r ∧
      RowMatches (compVariables U vs) r.tail x)) ≤ 1 := by
    refine le_trans (List.countP_mono_left fun r _ hr => ?_) (hC.once x hx)
    have := of_decide_eq_true hr
    exact decide_eq_true this.2
  by_cases hE : ∃ r ∈ C, R r ∧ RowMatches (compVariables U vs) r.tail x
  · rw [if_pos hE]
    obtain ⟨r, hr, e⟩ := hE
    have hpos : 0 < C.countP (fun r => decide (R r ∧
        RowMatches (compVariables U vs) r.tail x)) :=
      List.countP_pos_iff.2 ⟨r, hr, decide_eq_true e⟩
    have : C.countP (fun r => decide (R r ∧
        RowMatches (compVariables U vs) r.tail x)) = 1 := by omega
    rw [this]; simp
  · rw [if_neg hE]
    have : C.countP (fun r => decide (R r ∧
        RowMatches (compVariables U vs) r.tail x)) = 0 :=
      List.countP_eq_zero.2 fun r hr e => hE ⟨r, hr, of_decide_eq_true e⟩
    rw [this]; simp

/-- Asking the product for a system state together with component states: every row that has one
vector with these component states is counted as a whole. -/
theorem sysProd_query (h : SysVars U vs sys m) (probs : K → ℕ → ℚ) (hC : EventsOK U vs m C)
    {j : ℕ} (hj : j < m) (q : List ((K × ℕ) × ℕ)) (hq : ∀ a ∈ q, a.1 ∈ vs ∧ a.2 < a.1.2)
    (hqn : (q.map fun a => a.1.1).Nodup) (E : (K → ℕ) → Prop) [DecidablePred E]
    (hE : ∀ x, E x ↔ ∃ r ∈ C, (r.head? = some j ∧
        ∃ y, RowMatches (compVariables U vs) r.tail y ∧ ∀ a ∈ q, y a.1.1 = a.2) ∧
        RowMatches (compVariables U vs) r.tail x) :
    Cpm.getProb { vars := U sys :: compVariables U vs, noChild := 1 + vs.length, C := C
                  p := C.map fun r => probOf vs probs (RowMatches (compVariables U vs) r.tail) }
      (U sys :: q.map fun a => U a.1.1) (j :: q.map Prod.snd) true =
      .ok (probOf vs probs E) := by
  classical
  have hS := sysCpm_WF h hC
  have hW : WF U { vars := U sys :: compVariables U vs, noChild := 1 + vs.length, C := C
                   p := C.map fun r => probOf vs probs (RowMatches (compVariables U vs) r.tail) } :=
    ⟨hS.env, hS.table, hS.nodup, hS.rowLen, hS.entry, by simp, by simp [compVariables, Nat.add_comm],
      rfl, rfl, rfl, rfl⟩
  have hqv : ∀ a ∈ q, a.1 ∈ vs := fun a ha => (hq a ha).1
  have hsn : ∀ kn ∈ vs, kn.1 ≠ sys := fun kn hkn e => h.sysNew (e ▸ List.mem_map_of_mem hkn)
  have hB : ∀ a ∈ q, stateSet (U a.1.1) a.2 = {a.2} := fun a ha =>
    stateSet_basic (by rw [h.size _ (hqv a ha)]; exact h.table _ (hqv a ha))
      (by rw [h.size _ (hqv a ha)]; exact (hq a ha).2)
  have hBs : stateSet (U sys) j = {j} :=
    stateSet_basic (by rw [h.sysSize]; exact h.sysTable) (by rw [h.sysSize]; exact hj)
  have hzip : (U sys :: q.map fun a => U a.1.1).zip (j :: q.map Prod.snd) =
      (U sys, j) :: q.map fun a => (U a.1.1, a.2) := by
    rw [List.zip_cons_cons, List.zip_map']
  have hnm : (U sys :: q.map fun a => U a.1.1).map Variable.name = sys :: q.map fun a => a.1.1 := by
    rw [List.map_cons, h.sysName, List.map_map]
    congr 1
    exact List.map_congr_left fun a ha => h.name _ (hqv a ha)
  have hin : ∀ k, k ∈ (U sys :: compVariables U vs).map Variable.name ↔
      k = sys ∨ k ∈ vs.map Prod.fst := by
    intro k
    rw [List.map_cons, h.sysName, h.compNames, List.mem_cons]
  have hlt : ∀ p ∈ (U sys :: q.map fun a => U a.1.1).zip (j :: q.map Prod.snd),
      p.2 + 1 < 2 ^ p.1.values.length := by
    intro p hp
    rw [hzip, List.mem_cons, List.mem_map] at hp
    rcases hp with rfl | ⟨a, ha, rfl⟩
    · simp only
      rw [h.sysSize]; exact lt_two_pow_aux hj
    · simp only
      rw [h.size _ (hqv a ha)]; exact lt_two_pow_aux (hq a ha).2
  have hQ : QueryOK U ((U sys :: compVariables U vs).map Variable.name)
      (U sys :: q.map fun a => U a.1.1) (j :: q.map Prod.snd) := by
    refine ⟨⟨by simp, ?_, fun p hp _ => hlt p hp⟩, by simp, hlt, ?_⟩
    · intro p hp _
      rw [hzip, List.mem_cons, List.mem_map] at hp
      rcases hp with rfl | ⟨a, ha, rfl⟩
      · simp only; rw [h.sysName]
      · simp only; rw [h.name _ (hqv a ha)]
    · rw [hnm, List.nodup_cons]
      refine ⟨fun hc => ?_, hqn⟩
      obtain ⟨a, ha, e⟩ := List.mem_map.1 hc
      exact hsn _ (hqv a ha) e
  have hcons : ∀ y, Consistent ((U sys :: compVariables U vs).map Variable.name)
      (U sys :: q.map fun a => U a.1.1) (j :: q.map Prod.snd) y ↔
      y sys = j ∧ ∀ a ∈ q, y a.1.1 = a.2 := by
    intro y
    unfold Consistent
    rw [hzip, List.forall_mem_cons, List.forall_mem_map]
    simp only [h.sysName, hBs, Finset.mem_singleton]
    refine and_congr ⟨fun h1 => h1 ((hin _).2 (.inl rfl)), fun h1 _ => h1⟩
      (forall₂_congr fun a ha => ?_)
    rw [h.name _ (hqv a ha), hB a ha, Finset.mem_singleton]
    exact ⟨fun h1 => h1 ((hin _).2 (.inr (List.mem_map_of_mem (hqv a ha)))), fun h1 _ => h1⟩
  rw [C11_get_prob _ hW _ _ hQ]
  rw [probOf_congr h.varis probs _ _ fun x _ => hE x]
  refine congrArg _ (Eq.trans ?_ (prob_rows h probs hC fun r => r.head? = some j ∧
    ∃ y, RowMatches (compVariables U vs) r.tail y ∧ ∀ a ∈ q, y a.1.1 = a.2))
  have hz : C.zip (C.map fun r => probOf vs probs (RowMatches (compVariables U vs) r.tail)) =
      C.map fun r => (r, probOf vs probs (RowMatches (compVariables U vs) r.tail)) := by
    conv_lhs => arg 1; rw [← List.map_id C]
    rw [List.zip_map']
    rfl
  simp only
  rw [hz, List.map_map]
  congr 1
  refine List.map_congr_left fun r hr => ?_
  simp only [Function.comp_apply]
  refine if_congr ?_ rfl rfl
  obtain ⟨s, cs, rfl, h2, h3, h4⟩ := hC.rows r hr
  have hmt := sys_rowMatches (C := C) h h2 cs
  have hcn : (compVariables U vs).map Variable.name = vs.map Prod.fst := h.compNames
  rw [List.head?_cons, Option.some.injEq, List.tail_cons]
  unfold Compatible
  constructor
  · rintro ⟨x, hx1, hx2⟩
    obtain ⟨g1, g2⟩ := (hcons x).1 hx1
    obtain ⟨g3, g4⟩ := (hmt x).1 hx2
    exact ⟨g3.symm.trans g1, x, g4, g2⟩
  · rintro ⟨rfl, y, hy, hya⟩
    refine ⟨Function.update y sys s, (hcons _).2 ⟨Function.update_self .., fun a ha => ?_⟩,
      (hmt _).2 ⟨Function.update_self .., ?_⟩⟩
    · rw [Function.update_of_ne (hsn _ (hqv a ha))]
      exact hya a ha
    · have hl' : cs.length = (compVariables U vs).length := by simp [compVariables, h3]
      have hn : ((compVariables U vs).map Variable.name).Nodup := by rw [hcn]; exact h.varis.nodup
      rw [rowMatches_iff hn hl'] at hy ⊢
      intro v hv
      obtain ⟨kn, hkn, rfl⟩ := mem_compVariables.1 hv
      have := hy _ hv
      rw [h.name kn hkn] at this ⊢
      rw [Function.update_of_ne (hsn kn hkn)]
      exact this

end BNS
