import Verif.Proofs.ObserveSys
import Verif.Spec.CpmNames
import Verif.Props.SysNet

/-!
# Property C105: updating with observations
-/

namespace BNS

set_option linter.unusedSectionVars false

section
variable {K : Type} [LinearOrder K] {U : K → Variable K}

/-- `operation.condition` on the CPMs of a network, with the observed variables given by name or as
objects: it succeeds, the CPMs keep their variables, and their joint distribution is the one of the
network where the observed states hold and zero elsewhere. -/
theorem C105_condition (cpms : List (Cpm K)) (hw : ∀ M ∈ cpms, WF U M) (ns : List K) (ss : List ℕ)
    (h : Observed U cpms ns ss) :
    ∃ l, conditionAllQ cpms (.names ns) (ss.map .idx) = .ok l ∧
      conditionAllQ cpms (.vars (ns.map U)) (ss.map .idx) = .ok l ∧
      l.map Cpm.getNames = cpms.map Cpm.getNames ∧ l.map childNames = cpms.map childNames ∧
      (∀ M ∈ l, WF U M) ∧
      ∀ x, jointDens l x = if Agrees U ns ss x then jointDens cpms x else 0 := by
  refine ⟨condNet U cpms ns ss, ?_, conditionAllQ_vars h hw, ?_, ?_, ?_, condNet_joint h hw⟩
  · rw [conditionAllQ_names h hw]
    exact conditionAllQ_vars h hw
  · unfold condNet
    rw [List.map_map]
    rfl
  · unfold condNet
    rw [List.map_map]
    rfl
  · intro N hN
    obtain ⟨M, hM, rfl⟩ := List.mem_map.1 hN
    exact condPure_WF (hw M hM) (h.evidence hw _) (h.distinct hw)

/-- The observed states given by their labels: the joint distribution of what is returned is the one
of the network where every named variable is described by its label. -/
theorem C105_labels (cpms : List (Cpm K)) (hw : ∀ M ∈ cpms, WF U M) (ns : List K) (ls : List ℚ)
    (hlen : ls.length = ns.length) (hn : ns.Nodup)
    (hs : ∀ k ∈ ns, ∃ M ∈ cpms, k ∈ M.getNames) (hk : ∀ p ∈ ns.zip ls, p.2 ∈ (U p.1).values)
    (ho : ∀ k ∈ ns, (U k).values.Nodup) :
    ∃ l, conditionAllQ cpms (.names ns) (ls.map .label) = .ok l ∧
      ∀ x, jointDens l x = if LabelsHold U ns ls x then jointDens cpms x else 0 := by
  have hobs : Observed U cpms ns ((ns.zip ls).map fun p => (U p.1).values.idxOf p.2) := by
    refine ⟨by simp [hlen], hn, hs, ?_⟩
    intro p hp
    have h1 : ns = (ns.zip ls).map Prod.fst := (List.map_fst_zip (by rw [hlen])).symm
    have hp' : p ∈ (ns.zip ls).map fun q => (q.1, (U q.1).values.idxOf q.2) := by
      rw [← List.zip_map']
      rwa [← h1]
    obtain ⟨q, hq, rfl⟩ := List.mem_map.1 hp'
    exact lt_two_pow_aux (List.idxOf_lt_length_iff.2 (hk q hq))
  obtain ⟨l, e1, -, -, -, -, e6⟩ := C105_condition cpms hw ns _ hobs
  refine ⟨l, ?_, fun x => ?_⟩
  · rw [← e1]
    unfold conditionAllQ
    simp only [getVariablesAll_U hobs hw, ok_bind]
    by_cases hne : ls = []
    · subst hne
      simp
    · rw [condStates_labels hne, ok_bind, List.zip_map_left, List.map_map]
      · have : condStates (ns.map U) (((ns.zip ls).map fun p => (U p.1).values.idxOf p.2).map .idx) =
            .ok (((ns.zip ls).map fun p => (U p.1).values.idxOf p.2).map .idx) := by
          cases (ns.zip ls).map fun p => (U p.1).values.idxOf p.2 <;> rfl
        rw [this, ok_bind, List.map_map, List.map_map]
        rfl
      · intro p hp
        rw [List.zip_map_left] at hp
        obtain ⟨q, hq, rfl⟩ := List.mem_map.1 hp
        exact hk q hq
  · rw [e6]
    refine if_congr ?_ rfl rfl
    have h1 : ns = (ns.zip ls).map Prod.fst := (List.map_fst_zip (by rw [hlen])).symm
    have h2 : ns.zip ((ns.zip ls).map fun p => (U p.1).values.idxOf p.2) =
        (ns.zip ls).map fun q => (q.1, (U q.1).values.idxOf q.2) := by
      rw [← List.zip_map', ← h1]
    unfold Agrees LabelsHold
    rw [h2, List.forall_mem_map]
    refine forall₂_congr fun q hq => ?_
    have hv := hk q hq
    have hlt := List.idxOf_lt_length_iff.2 hv
    obtain ⟨M, hM, hkM⟩ := hs q.1 (List.of_mem_zip hq).1
    obtain ⟨v, hvM, he⟩ := List.mem_map.1 hkM
    have hU : U q.1 = v := by rw [← he]; exact (hw M hM).env v hvM
    have ht : (U q.1).B = some (genB (U q.1).values.length) := by rw [hU]; exact (hw M hM).table v hvM
    simp only
    rw [stateSet_basic ht hlt, Finset.mem_singleton]
    constructor
    · intro e
      rw [e, List.getElem?_eq_getElem hlt, List.getElem_idxOf]
    · intro e
      obtain ⟨hi, e⟩ := List.getElem?_eq_some_iff.1 e
      rw [← e, (ho q.1 (List.of_mem_zip hq).1).idxOf_getElem]

/-- What is refused: a name that is in no CPM is an `AssertionError` (whatever the states), and a label
that describes no state of its variable a `ValueError`. -/
theorem C105_rejected (cpms : List (Cpm K)) :
    (∀ ns qs, (∃ k ∈ ns, ∀ M ∈ cpms, k ∉ M.getNames) →
      conditionAllQ cpms (.names ns) qs = .error .assertion) ∧
    (∀ (vs : List (Variable K)) (ls : List ℚ), (∃ p ∈ vs.zip ls, p.2 ∉ p.1.values) →
      conditionAllQ cpms (.vars vs) (ls.map .label) = .error .value) := by
  refine ⟨fun ns qs h => ?_, fun vs ls h => ?_⟩
  · unfold conditionAllQ
    simp only [(C55_get_variables_cpms cpms ns).2 h, error_bind]
  · unfold conditionAllQ
    simp only [ok_bind]
    have : condStates vs (ls.map .label) = .error .value := by
      cases ls with
      | nil => simp at h
      | cons a t =>
        have hm : (vs.zip ((a :: t).map QState.label)).mapM
            (fun vq => pyIndex vq.1.values vq.2.value) = .error .value := by
          rw [List.zip_map_right, List.mapM_map]
          refine mapM_error ?_ ?_
          · obtain ⟨p, hp, hn⟩ := h
            refine ⟨p, hp, ?_⟩
            show pyIndex p.1.values p.2 = _
            rw [pyIndex_eq, if_neg hn]
          · intro p _ e' he
            have he : pyIndex p.1.values p.2 = .error e' := he
            rw [pyIndex_eq] at he
            split at he
            · cases he
            · injection he with he; exact he.symm
        show (((vs.zip ((a :: t).map QState.label)).mapM
            (fun vq => pyIndex vq.1.values vq.2.value)) >>= fun is => pure (is.map QState.idx)) = _
        rw [hm]
        rfl
    rw [this]
    rfl

/-- Eliminating variables after conditioning, if the observed states can occur together: it succeeds,
and the result is the sum over the eliminated variables of the joint probabilities of the network where
the observed states hold. -/
theorem C105_elimination (cpms : List (Cpm K)) (ve : List (Variable K)) (ho : ElimOK U cpms ve)
    (ns : List K) (ss : List ℕ) (h : Observed U cpms ns ss)
    (hx : ∃ x, Agrees U ns ss x ∧ ∀ M ∈ cpms, Covers M x) :
    ∃ l P, conditionAllQ cpms (.names ns) (ss.map .idx) = .ok l ∧ variableElim l ve = .ok P ∧
      WF U P ∧ (∀ k, k ∈ P.getNames ↔ (∃ M ∈ cpms, k ∈ M.getNames) ∧ k ∉ ve.map Variable.name) ∧
      ∀ x, dens P x = sumOver (ve.map fun v => (v.name, v.values.length))
        (fun y => if Agrees U ns ss y then jointDens cpms y else 0) x := by
  have hw := ho.net.wf
  obtain ⟨P, e1, e2, -, e4, -, e6⟩ := C15_elimination_partial _ ve (condNet_elimOK h ho hx)
  refine ⟨condNet U cpms ns ss, P, ?_, e1, e2, fun k => ?_, fun x => ?_⟩
  · rw [conditionAllQ_names h hw]
    exact conditionAllQ_vars h hw
  · rw [e6]
    refine and_congr_left fun _ => ?_
    constructor
    · rintro ⟨N, hN, hk⟩
      obtain ⟨M, hM, rfl⟩ := List.mem_map.1 hN
      exact ⟨M, hM, hk⟩
    · rintro ⟨M, hM, hk⟩
      exact ⟨_, List.mem_map_of_mem hM, hk⟩
  · rw [e4]
    exact sumOver_congr _ x (condNet_joint h hw)

/-- **Bayes' rule.**  In a network that defines all its variables `W`, after conditioning on the
observed states and eliminating all but some variables: the sum of the remaining probabilities is the
probability of the observed states, and `get_prob` gives for a state of remaining variables the
probability of this state together with the observed ones.  The quotient is the conditional
probability given the observations. -/
theorem C105_posterior (cpms : List (Cpm K)) (ve : List (Variable K)) (ho : ElimOK U cpms ve)
    (hcl : ∀ M ∈ cpms, ∀ k ∈ M.getNames, ∃ N ∈ cpms, k ∈ childNames N)
    (W : List K) (hW : W.Nodup) (hWm : ∀ k, k ∈ W ↔ ∃ M ∈ cpms, k ∈ M.getNames)
    (ns : List K) (ss : List ℕ) (h : Observed U cpms ns ss)
    (hx : ∃ x, Agrees U ns ss x ∧ ∀ M ∈ cpms, Covers M x) :
    ∃ l P, conditionAllQ cpms (.names ns) (ss.map .idx) = .ok l ∧ variableElim l ve = .ok P ∧
      (P.p.sum = sumOver (W.map fun k => (k, (U k).values.length))
        (fun y => if Agrees U ns ss y then jointDens cpms y else 0) (fun _ => 0)) ∧
      ∀ (qn : List K) (qs : List ℕ), qn ≠ [] → Observed U cpms qn qs →
        (∀ k ∈ qn, k ∉ ve.map Variable.name) →
        P.getProb (qn.map U) qs true = .ok (sumOver (W.map fun k => (k, (U k).values.length))
          (fun y => if Agrees U qn qs y ∧ Agrees U ns ss y then jointDens cpms y else 0)
          (fun _ => 0)) := by
  have hw := ho.net.wf
  obtain ⟨P, e1, e2, e3, e4, e5, e6⟩ := C15_elimination_partial _ ve (condNet_elimOK h ho hx)
  have hnm : ∀ k, k ∈ P.getNames ↔ (∃ M ∈ cpms, k ∈ M.getNames) ∧ k ∉ ve.map Variable.name := by
    intro k
    rw [e6]
    refine and_congr_left fun _ => ?_
    constructor
    · rintro ⟨N, hN, hk⟩
      obtain ⟨M, hM, rfl⟩ := List.mem_map.1 hN
      exact ⟨M, hM, hk⟩
    · rintro ⟨M, hM, hk⟩
      exact ⟨_, List.mem_map_of_mem hM, hk⟩
  have hd : ∀ x, dens P x = sumOver (ve.map fun v => (v.name, v.values.length))
      (fun y => if Agrees U ns ss y then jointDens cpms y else 0) x := fun x => by
    rw [e4]
    exact sumOver_congr _ x (condNet_joint h hw)
  -- every remaining variable is a child
  have hall : P.vars.take P.noChild = P.vars := by
    refine List.take_of_length_le ?_
    have hsub : P.getNames ⊆ childNames P := by
      intro k hk
      obtain ⟨⟨M, hM, hkM⟩, hkv⟩ := (hnm k).1 hk
      obtain ⟨N, hN, hkN⟩ := hcl M hM k hkM
      rw [e5.mem_iff, List.mem_filter]
      refine ⟨List.mem_flatMap.2 ⟨_, List.mem_map_of_mem hN, hkN⟩, by simpa using hkv⟩
    have hle := (List.subperm_of_subset e2.nodup hsub).length_le
    unfold Cpm.getNames childNames at hle
    rw [List.length_map, List.length_map, List.length_take] at hle
    omega
  have hb : AllBasic P := by
    intro r hr vc hvc
    refine e3 r hr vc ?_
    rwa [hall]
  have hfstP : (P.vars.map fun v => (v.name, v.values.length)).map Prod.fst = P.getNames := by
    rw [List.map_map]; rfl
  have hfstV : (ve.map fun v => (v.name, v.values.length)).map Prod.fst = ve.map Variable.name := by
    rw [List.map_map]; rfl
  have hnd : (((P.vars.map fun v => (v.name, v.values.length)) ++
      ve.map fun v => (v.name, v.values.length)).map Prod.fst).Nodup := by
    rw [List.map_append, hfstP, hfstV, List.nodup_append]
    refine ⟨e2.nodup, ho.nodup, ?_⟩
    rintro a ha b hb rfl
    exact ((hnm a).1 ha).2 hb
  have hperm : ((P.vars.map fun v => (v.name, v.values.length)) ++
      ve.map fun v => (v.name, v.values.length)).Perm (W.map fun k => (k, (U k).values.length)) := by
    have h1 : ((P.vars.map fun v => (v.name, v.values.length)) ++
        ve.map fun v => (v.name, v.values.length)) =
        (P.getNames ++ ve.map Variable.name).map fun k => (k, (U k).values.length) := by
      unfold Cpm.getNames
      rw [List.map_append, List.map_map, List.map_map]
      congr 1
      · exact List.map_congr_left fun v hv => by rw [Function.comp_apply, e2.env v hv]
      · exact List.map_congr_left fun v hv => by rw [Function.comp_apply, ho.env v hv]
    rw [h1]
    refine List.Perm.map _ ((List.perm_ext_iff_of_nodup ?_ hW).2 fun k => ?_)
    · rw [List.map_append, hfstP, hfstV] at hnd
      exact hnd
    · rw [List.mem_append, hnm, hWm]
      constructor
      · rintro (hk | hk)
        · exact hk.1
        · obtain ⟨v, hv, rfl⟩ := List.mem_map.1 hk
          obtain ⟨M, hM, hc⟩ := ho.defined v hv
          exact ⟨M, hM, List.map_subset _ (List.take_subset _ _) hc⟩
      · intro hk
        by_cases hkv : k ∈ ve.map Variable.name
        · exact .inr hkv
        · exact .inl ⟨hk, hkv⟩
  refine ⟨condNet U cpms ns ss, P, ?_, e1, ?_, fun qn qs hne hq hqv => ?_⟩
  · rw [conditionAllQ_names h hw]
    exact conditionAllQ_vars h hw
  · rw [sum_p_eq e2 hb (fun _ => 0), ← sumOver_perm hperm hnd, sumOver_append]
    exact sumOver_congr _ _ hd
  · have hqP : ∀ k ∈ qn, k ∈ P.getNames := fun k hk => (hnm k).2 ⟨hq.scope k hk, hqv k hk⟩
    have hquery : QueryOK U P.getNames (qn.map U) qs := by
      refine ⟨hq.evidence hw _, by simpa using hne, ?_, hq.distinct hw⟩
      intro p hp
      obtain ⟨q, hq', rfl, -⟩ := hq.pairs hw hp
      exact hq.state q hq'
    rw [C11_event_probability P e2 hb _ _ hquery (fun _ => 0), ← sumOver_perm hperm hnd,
      sumOver_append]
    congr 1
    refine sumOver_congr _ _ fun y => ?_
    have hag : Consistent P.getNames (qn.map U) qs y ↔ Agrees U qn qs y := by
      rw [consistent_iff hq hw]
      exact ⟨fun hc p hp => hc p hp (hqP _ (List.of_mem_zip hp).1), fun hc p hp _ => hc p hp⟩
    have hind : sumOver (ve.map fun v => (v.name, v.values.length))
        (fun z => if Agrees U qn qs z ∧ Agrees U ns ss z then jointDens cpms z else 0) y =
        sumOver (ve.map fun v => (v.name, v.values.length))
        (fun z => (if Agrees U qn qs z then 1 else 0) *
          if Agrees U ns ss z then jointDens cpms z else 0) y := by
      refine sumOver_congr _ _ fun z => ?_
      by_cases a : Agrees U qn qs z <;> by_cases b : Agrees U ns ss z <;> simp [a, b]
    rw [hind, hd, sumOver_mul_indep]
    · by_cases a : Agrees U qn qs y
      · rw [if_pos (hag.2 a), if_pos a, one_mul]
      · rw [if_neg fun hh => a (hag.1 hh), if_neg a, zero_mul]
    · intro z z' hzz
      rw [hfstV] at hzz
      refine if_congr ?_ rfl rfl
      unfold Agrees
      exact forall₂_congr fun p hp => by rw [hzz _ (hqv _ (List.of_mem_zip hp).1)]

/-- The branches of a run and observations of components.  With the CPMs of the components, of the
observations given the components, and of the system, conditioning on what was seen and eliminating the
observations and the components succeeds in every order, whatever was seen.  `get_prob` gives for a
system state the probability that the vector lies in a branch with this label and that the observations
are made; the probabilities that are left add up to the probability of the observations. -/
theorem C105_system {Φ : (K → ℕ) → Bool} {c : RunCfg K} (hc : CfgOK c Φ) (h0 : 0 < c.maxSf)
    {rules : Rules K} {brs0 : Option (List (Branch K))} (hs : StartOK c Φ rules brs0)
    {st : RunState K} (h : run c rules brs0 = .ok st) {sys : K}
    (hU : SysVars U c.vs sys 3) {varis : K → Option (Variable K)}
    (hv : ∀ kn ∈ c.vs, varis kn.1 = some (U kn.1)) {lbl : St → Option ℕ}
    (hf : lbl .f = some 0) (hsv : lbl .s = some 1) (hu : lbl .u = some 2)
    {obs : List (Obs K)} (ho : ObsVars U c.vs sys obs) (lik : K → ℕ → ℕ → ℚ) :
    ∃ bs C, st.brs = some bs ∧ getCsys (c.vs.map Prod.fst) bs varis lbl = .ok (C, varis) ∧
      (∀ o ∈ obs, Cpm.mk' (obsCpm U lik o) = .ok (obsCpm U lik o)) ∧
      ∀ (cpms : List (Cpm K)) (ve : List (Variable K)),
        cpms.Perm (c.vs.map (compCpm U c.probs) ++ obs.map (obsCpm U lik) ++ [sysCpm U c.vs sys C]) →
        ve.Perm ((obs.map fun o => U o.node) ++ compVariables U c.vs) →
        ∃ l P, conditionAllQ cpms (.names (obs.map Obs.node)) ((obs.map Obs.seen).map .idx) = .ok l ∧
          variableElim l ve = .ok P ∧ P.vars = [U sys] ∧
          P.getProb [U sys] [0] true = .ok (probWith c.vs c.probs lik obs fun x =>
            ∃ b ∈ bs, b.label = .f ∧ InBox c.vs b x) ∧
          P.getProb [U sys] [1] true = .ok (probWith c.vs c.probs lik obs fun x =>
            ∃ b ∈ bs, b.label = .s ∧ InBox c.vs b x) ∧
          P.getProb [U sys] [2] true = .ok (probWith c.vs c.probs lik obs fun x =>
            ∃ b ∈ bs, b.label = .u ∧ InBox c.vs b x) ∧
          P.p.sum = probWith c.vs c.probs lik obs fun _ => True := by
  obtain ⟨-, -, -, hrun⟩ := C27_bounds hc hs h
  obtain ⟨bs, row, hb, hpart, -⟩ := hrun h0
  obtain ⟨C, e1, e2, e3⟩ := csys_events hU hpart hv (lbl := lbl)
    fun b _ => by cases b.label <;> simp [hf, hsv, hu]
  refine ⟨bs, C, hb, e1, fun o hm => ?_, fun cpms ve hp hve => ?_⟩
  · have hw := obsCpm_WF hU ho lik hm
    exact mk'_ok hw.rowLen hw.entry hw.child (.inr hw.pLen) rfl
  obtain ⟨P, f1, f2, f3, f4, f5⟩ := obsNet_elim hU c.probs e2 ho lik hp hve
  obtain ⟨hok, -⟩ := obsNet_elimOK hU c.probs e2 ho lik hp hve
  have hev := obsEvidence ho (cpms := cpms) lik fun o hm => by
    rw [hp.mem_iff, List.mem_append, List.mem_append]
    exact .inl (.inr (List.mem_map_of_mem hm))
  have hcg : ∀ (E E' : (K → ℕ) → Prop) [DecidablePred E] [DecidablePred E'],
      (∀ x, E x ↔ E' x) → probWith c.vs c.probs lik obs E = probWith c.vs c.probs lik obs E' := by
    intro E E' _ _ hE
    exact sumOver_congr _ _ fun x => if_congr (hE x) rfl rfl
  have hlab : ∀ (s : St) (j : ℕ), lbl s = some j → ∀ x, SysState U c.vs C j x ↔
      ∃ b ∈ bs, b.label = s ∧ InBox c.vs b x := by
    intro s j hj x
    rw [e3]
    refine exists_congr fun b => and_congr_right fun _ => and_congr_left fun _ => ?_
    rw [← hj]
    constructor
    · intro e
      cases hb' : b.label <;> cases s <;> simp_all
    · rintro rfl; rfl
  refine ⟨_, P, ?_, f1, f3, ?_, ?_, ?_, ?_⟩
  · rw [conditionAllQ_names hev hok.net.wf]
    exact conditionAllQ_vars hev hok.net.wf
  · rw [(sysTable_getProb hU f2 f3 f4 (f := fun j => probWith c.vs c.probs lik obs (SysState U c.vs C j)) f5 (j := 0) (by omega)).1]
    congr 1
    exact hcg _ _ (hlab .f 0 hf)
  · rw [(sysTable_getProb hU f2 f3 f4 (f := fun j => probWith c.vs c.probs lik obs (SysState U c.vs C j)) f5 (j := 1) (by omega)).1]
    congr 1
    exact hcg _ _ (hlab .s 1 hsv)
  · rw [(sysTable_getProb hU f2 f3 f4 (f := fun j => probWith c.vs c.probs lik obs (SysState U c.vs C j)) f5 (j := 2) (by omega)).1]
    congr 1
    exact hcg _ _ (hlab .u 2 hu)
  · rw [(sysTable_getProb hU f2 f3 f4 (f := fun j => probWith c.vs c.probs lik obs (SysState U c.vs C j)) f5 (j := 0) (by omega)).2]
    simp only [Finset.sum_range_succ, Finset.sum_range_zero, zero_add]
    unfold probWith
    rw [← sumOver_add, ← sumOver_add]
    refine sumOver_congr' _ hU.varis.nodup _ fun x hx _ => ?_
    obtain ⟨b, hb', hin⟩ := hpart.exists hx
    have key : ∀ s j, lbl s = some j → (SysState U c.vs C j x ↔ b.label = s) := by
      intro s j hj
      rw [hlab s j hj]
      constructor
      · rintro ⟨b', hb'', e, hin'⟩
        rw [Partition.unique hpart hx hb' hb'' hin hin']
        exact e
      · exact fun e => ⟨b, hb', e, hin⟩
    rw [if_congr (key .f 0 hf) rfl rfl, if_congr (key .s 1 hsv) rfl rfl, if_congr (key .u 2 hu) rfl rfl]
    cases b.label <;> simp

/-- Bounds on the probability of failure given the observations: what `get_prob` answers for failure,
divided by the sum of the probabilities, is a lower bound, and one minus the quotient for survival an
upper bound; for every observation that has a positive probability, from the same run. -/
theorem C105_bounds {Φ : (K → ℕ) → Bool} {c : RunCfg K} (hc : CfgOK c Φ) (h0 : 0 < c.maxSf)
    {rules : Rules K} {brs0 : Option (List (Branch K))} (hs : StartOK c Φ rules brs0)
    {st : RunState K} (h : run c rules brs0 = .ok st) {sys : K}
    (hU : SysVars U c.vs sys 3) {varis : K → Option (Variable K)}
    (hv : ∀ kn ∈ c.vs, varis kn.1 = some (U kn.1)) {lbl : St → Option ℕ}
    (hf : lbl .f = some 0) (hsv : lbl .s = some 1) (hu : lbl .u = some 2)
    {obs : List (Obs K)} (ho : ObsVars U c.vs sys obs) (lik : K → ℕ → ℕ → ℚ)
    (hlik : ∀ o ∈ obs, ∀ i < (U o.comp).values.length, 0 ≤ lik o.node o.seen i)
    (hpos : 0 < probWith c.vs c.probs lik obs fun _ => True) :
    ∃ bs C, st.brs = some bs ∧ getCsys (c.vs.map Prod.fst) bs varis lbl = .ok (C, varis) ∧
      ∀ (cpms : List (Cpm K)) (ve : List (Variable K)),
        cpms.Perm (c.vs.map (compCpm U c.probs) ++ obs.map (obsCpm U lik) ++ [sysCpm U c.vs sys C]) →
        ve.Perm ((obs.map fun o => U o.node) ++ compVariables U c.vs) →
        ∃ l P pf ps, conditionAllQ cpms (.names (obs.map Obs.node)) ((obs.map Obs.seen).map .idx) = .ok l ∧
          variableElim l ve = .ok P ∧
          P.getProb [U sys] [0] true = .ok pf ∧ P.getProb [U sys] [1] true = .ok ps ∧
          pf / P.p.sum ≤ (probWith c.vs c.probs lik obs fun x => Φ x = false) /
            (probWith c.vs c.probs lik obs fun _ => True) ∧
          (probWith c.vs c.probs lik obs fun x => Φ x = false) /
            (probWith c.vs c.probs lik obs fun _ => True) ≤ 1 - ps / P.p.sum ∧
          ((∀ b ∈ bs, b.label ≠ .u) → pf / P.p.sum = (probWith c.vs c.probs lik obs fun x => Φ x = false) /
            (probWith c.vs c.probs lik obs fun _ => True)) := by
  obtain ⟨bs, C, e1, e2, -, e4⟩ := C105_system hc h0 hs h hU hv hf hsv hu ho lik
  obtain ⟨-, -, -, hrun⟩ := C27_bounds hc hs h
  obtain ⟨bs', row, hb, hpart, hlab, -⟩ := hrun h0
  rw [e1] at hb
  cases hb
  refine ⟨bs, C, e1, e2, fun cpms ve hp hve => ?_⟩
  obtain ⟨l, P, f1, f2, -, f4, f5, -, f7⟩ := e4 cpms ve hp hve
  have hnn : ∀ x, InSpace c.vs x → 0 ≤ weight c.vs c.probs x * likelihood lik obs x := by
    intro x hx
    refine mul_nonneg ?_ ?_
    · refine List.prod_nonneg fun q hq => ?_
      obtain ⟨kn, hk, rfl⟩ := List.mem_map.1 hq
      exact hc.probs.nonneg kn hk _ (hx kn hk)
    · refine List.prod_nonneg fun q hq => ?_
      obtain ⟨o, hm, rfl⟩ := List.mem_map.1 hq
      exact hlik o hm _ (hx _ (ho.compOK hU hm).2.2)
  have hmono : ∀ (E E' : (K → ℕ) → Prop) [DecidablePred E] [DecidablePred E'],
      (∀ x, InSpace c.vs x → E x → E' x) →
      probWith c.vs c.probs lik obs E ≤ probWith c.vs c.probs lik obs E' := by
    intro E E' _ _ hE
    refine sumOver_mono _ hU.varis.nodup _ fun x hx _ => ?_
    by_cases a : E x
    · rw [if_pos a, if_pos (hE x hx a)]
    · rw [if_neg a]
      split
      · exact hnn x hx
      · exact le_rfl
  have hadd : (probWith c.vs c.probs lik obs fun x => Φ x = false) +
      (probWith c.vs c.probs lik obs fun x => Φ x = true) =
      probWith c.vs c.probs lik obs fun _ => True := by
    unfold probWith
    rw [← sumOver_add]
    refine sumOver_congr _ _ fun x => ?_
    rcases hh : Φ x with _ | _ <;> simp [hh]
  have hF := hmono (fun x => ∃ b ∈ bs, b.label = .f ∧ InBox c.vs b x) (fun x => Φ x = false)
    fun x _ ⟨b, hb', e, hin⟩ => (label_sound hc.coh (hlab b hb').2 hin).1 e
  have hS := hmono (fun x => ∃ b ∈ bs, b.label = .s ∧ InBox c.vs b x) (fun x => Φ x = true)
    fun x _ ⟨b, hb', e, hin⟩ => (label_sound hc.coh (hlab b hb').2 hin).2 e
  refine ⟨l, P, _, _, f1, f2, f4, f5, ?_, ?_, fun hno => ?_⟩
  · rw [f7]
    exact (div_le_div_iff_of_pos_right hpos).2 hF
  · rw [f7, le_sub_iff_add_le, ← add_div, div_le_one hpos]
    linarith
  · rw [f7]
    congr 1
    refine le_antisymm hF (hmono _ _ fun x hx hΦ => ?_)
    obtain ⟨b, hb', hin⟩ := hpart.exists hx
    refine ⟨b, hb', ?_, hin⟩
    cases e : b.label with
    | f => rfl
    | s =>
      rw [(label_sound hc.coh (hlab b hb').2 hin).2 e] at hΦ
      cases hΦ
    | u => exact absurd e (hno b hb')

end

/-- P(0) without the rows of state 1, and P(1 | 0). -/
def Ex.sureA : Cpm ℕ := { vars := [Ex.U 0], noChild := 1, C := [[0]], p := [1] }

def Ex.givenB : Cpm ℕ :=
  { vars := [Ex.U 1, Ex.U 0], noChild := 1, C := [[0, 0], [1, 0], [0, 1], [1, 1]]
    p := [1 / 2, 1 / 2, 1 / 4, 3 / 4] }

/-- **Observing what no row allows.**  The observed state has probability zero, `condition` leaves an
empty table, and `variable_elim` raises `UnboundLocalError` instead of giving the probability zero; so
the last hypothesis of `C105_elimination` and `C105_posterior` is needed. -/
theorem C105_impossible : ElimOK Ex.U [Ex.sureA, Ex.givenB] [Ex.U 0] ∧
    Observed Ex.U [Ex.sureA, Ex.givenB] [0] [1] ∧
    ((conditionAllQ [Ex.sureA, Ex.givenB] (.names [0]) [.idx 1]).bind fun l =>
      variableElim l [Ex.U 0]) = .error .unbound := by
  refine ⟨⟨⟨by decide +kernel, by decide +kernel, by decide +kernel⟩, by simp, by decide +kernel,
    ⟨fun _ => 0, by decide +kernel⟩, by decide +kernel, by decide +kernel, by decide +kernel, ?_⟩,
    ⟨by decide, by decide, by decide +kernel, by decide +kernel⟩, by decide +kernel⟩
  intro v hv
  rw [List.mem_singleton.1 hv]
  exact ⟨1, by decide +kernel, .single ⟨Ex.givenB, by simp, by decide +kernel, by decide +kernel⟩⟩

/-- The hypotheses of `C105_posterior` are met by the network of `Verif.Examples.Cpm`: variable 1 is
observed in state 1, variables 1 and 2 are eliminated.  The probability of variable 0 being in state 0
given the observation is the quotient 41/600 : 277/300. -/
example : ElimOK Ex.U [Ex.A, Ex.B, Ex.D] [Ex.U 1, Ex.U 2] ∧
    Observed Ex.U [Ex.A, Ex.B, Ex.D] [1] [1] ∧
    (∃ x, Agrees Ex.U [1] [1] x ∧ ∀ M ∈ [Ex.A, Ex.B, Ex.D], Covers M x) ∧
    (∀ M ∈ [Ex.A, Ex.B, Ex.D], ∀ k ∈ M.getNames, ∃ N ∈ [Ex.A, Ex.B, Ex.D], k ∈ childNames N) ∧
    ((conditionAllQ [Ex.A, Ex.B, Ex.D] (.names [1]) [.idx 1]).bind fun l =>
      (variableElim l [Ex.U 1, Ex.U 2]).bind fun P =>
        (P.getProb [Ex.U 0] [0] true).map fun a => (a, P.p.sum)) = .ok (41 / 600, 277 / 300) := by
  refine ⟨⟨⟨by decide +kernel, by decide +kernel, by decide +kernel⟩, by simp, by decide +kernel,
    ⟨fun _ => 0, by decide +kernel⟩, by decide +kernel, by decide +kernel, by decide +kernel, ?_⟩,
    ⟨by decide, by decide, by decide +kernel, by decide +kernel⟩,
    ⟨fun k => if k = 1 then 1 else 0, by decide +kernel, by decide +kernel⟩, by decide +kernel,
    by decide +kernel⟩
  intro v hv
  have : v = Ex.U 1 ∨ v = Ex.U 2 := by simpa using hv
  rcases this with rfl | rfl
  · exact ⟨0, by decide +kernel, .single ⟨Ex.D, by simp, by decide +kernel, by decide +kernel⟩⟩
  · exact ⟨0, by decide +kernel, .single ⟨Ex.B, by simp, by decide +kernel, by decide +kernel⟩⟩

/-- Observations of the first two components of the example system. -/
def Ex.obs : List (Obs ℕ) := [⟨10, 0, 1⟩, ⟨12, 1, 0⟩]

def Ex.lik (k j i : ℕ) : ℚ :=
  if k = 10 then (if i = j then 9 / 10 else 1 / 10)
  else match j, i with
    | 0, 0 => 8 / 10
    | 0, 1 => 3 / 10
    | 0, _ => 1 / 10
    | 1, 0 => 2 / 10
    | 1, 1 => 7 / 10
    | _, _ => 9 / 10

/-- The hypotheses of `C105_system` and `C105_bounds` are met by the complete run of the example system
(see the example after `C33_exact_partial`) and two observations; the first component was seen working,
the second failed, and the computed probabilities are those of failure and survival together with the
observations. -/
example : CfgOK (Ex.cfg 20 100) Ex.Φ ∧ StartOK (Ex.cfg 20 100) Ex.Φ { s := [], f := [] } none ∧
    SysVars Ex.netU (Ex.cfg 20 100).vs 9 3 ∧ ObsVars Ex.netU (Ex.cfg 20 100).vs 9 Ex.obs ∧
    (∀ o ∈ Ex.obs, ∀ i < (Ex.netU o.comp).values.length, 0 ≤ Ex.lik o.node o.seen i) ∧
    0 < probWith Ex.vs Ex.probs Ex.lik Ex.obs (fun _ => True) ∧
    probWith Ex.vs Ex.probs Ex.lik Ex.obs (fun x => Ex.Φ x = false) = 1047 / 25000 ∧
    (((run (Ex.cfg 20 100) { s := [], f := [] } none).toOption.bind fun st => st.brs).bind fun bs =>
      (getCsys (Ex.vs.map Prod.fst) bs (some ∘ Ex.netU) Ex.lbl).toOption.bind fun C =>
        ((conditionAllQ (Ex.vs.map (compCpm Ex.netU Ex.probs) ++ Ex.obs.map (obsCpm Ex.netU Ex.lik) ++
          [sysCpm Ex.netU Ex.vs 9 C.1]) (.names [10, 12]) [.idx 1, .idx 0]).bind fun l =>
          variableElim l ([10, 12, 0, 1, 2].map Ex.netU)).toOption.map
            fun P : Cpm ℕ => (P.C, P.p)) =
      some ([[0], [1]], [1047 / 25000, 5103 / 25000]) :=
  ⟨Ex.cfg_ok 20 100, Ex.start_empty _, Ex.netU_ok,
    ⟨by decide, by decide +kernel, by decide +kernel, by decide +kernel, by decide +kernel,
      by decide +kernel⟩, by decide +kernel, by decide +kernel, by decide +kernel, by decide +kernel⟩

end BNS
