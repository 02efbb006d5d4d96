import Verif.Model.Observe
import Verif.Spec.Observe
import Verif.Proofs.CpmNames
import Verif.Proofs.ElimInv
import Verif.Proofs.PowerHouseSum
import Verif.Proofs.SysNet
import Verif.Props.Lookup

/-!
# Observations: conditioning and eliminating
-/

namespace BNS

set_option linter.unusedSectionVars false

variable {K : Type} [LinearOrder K] {U : K → Variable K} {cpms : List (Cpm K)} {ns : List K}
  {ss : List ℕ}

theorem Observed.name (h : Observed U cpms ns ss) (hw : ∀ M ∈ cpms, WF U M) {k : K} (hk : k ∈ ns) :
    (U k).name = k := by
  obtain ⟨M, hM, hkM⟩ := h.scope k hk
  obtain ⟨v, hv, rfl⟩ := List.mem_map.1 hkM
  rw [(hw M hM).env v hv]

theorem Observed.names (h : Observed U cpms ns ss) (hw : ∀ M ∈ cpms, WF U M) :
    (ns.map U).map Variable.name = ns := by
  rw [List.map_map]
  conv_rhs => rw [← List.map_id ns]
  exact List.map_congr_left fun k hk => h.name hw hk

theorem Observed.pairs (h : Observed U cpms ns ss) (hw : ∀ M ∈ cpms, WF U M)
    {p : Variable K × ℕ} (hp : p ∈ (ns.map U).zip ss) :
    ∃ q ∈ ns.zip ss, p = (U q.1, q.2) ∧ (U q.1).name = q.1 := by
  rw [List.zip_map_left] at hp
  obtain ⟨q, hq, rfl⟩ := List.mem_map.1 hp
  exact ⟨q, hq, rfl, h.name hw (List.of_mem_zip hq).1⟩

theorem Observed.evidence (h : Observed U cpms ns ss) (hw : ∀ M ∈ cpms, WF U M) (names : List K) :
    EvidenceOK U names (ns.map U) ss where
  len := by rw [h.len, List.length_map]
  env p hp _ := by
    obtain ⟨q, -, rfl, e⟩ := h.pairs hw hp
    simp only [e]
  state p hp _ := by
    obtain ⟨q, hq, rfl, -⟩ := h.pairs hw hp
    exact h.state q hq

theorem Observed.distinct (h : Observed U cpms ns ss) (hw : ∀ M ∈ cpms, WF U M) :
    ((ns.map U).map Variable.name).Nodup := by
  rw [h.names hw]
  exact h.nodup

/-- What is left of the network. -/
def condNet (U : K → Variable K) (cpms : List (Cpm K)) (ns : List K) (ss : List ℕ) : List (Cpm K) :=
  cpms.map fun M => condPure M (ns.map U) ss

theorem conditionQ_vars (h : Observed U cpms ns ss) (hw : ∀ M ∈ cpms, WF U M) :
    (cpms.mapM fun M => M.conditionQ (.vars (ns.map U)) (ss.map .idx)) = .ok (condNet U cpms ns ss) := by
  refine mapM_ok fun M hM => ?_
  unfold Cpm.conditionQ Cpm.resolve
  have : condStates (ns.map U) (ss.map .idx) = .ok (ss.map .idx) := by cases ss <;> rfl
  rw [ok_bind, this, ok_bind, conditionRest_idx]
  exact condition_ok (hw M hM) (h.evidence hw _) (h.distinct hw)

theorem conditionAllQ_vars (h : Observed U cpms ns ss) (hw : ∀ M ∈ cpms, WF U M) :
    conditionAllQ cpms (.vars (ns.map U)) (ss.map .idx) = .ok (condNet U cpms ns ss) := by
  have h1 : condStates (ns.map U) (ss.map .idx) = .ok (ss.map .idx) := by cases ss <;> rfl
  unfold conditionAllQ
  simp only [ok_bind]
  rw [h1, ok_bind]
  exact conditionQ_vars h hw

theorem getVariablesAll_U (h : Observed U cpms ns ss) (hw : ∀ M ∈ cpms, WF U M) :
    getVariablesAll cpms ns = .ok (ns.map U) := by
  obtain ⟨vs, e1, e2, e3⟩ := (C55_get_variables_cpms cpms ns).1 h.nodup h.scope
  rw [e1]
  congr 1
  rw [← e2, List.map_map]
  conv_lhs => rw [← List.map_id vs]
  refine List.map_congr_left fun v hv => ?_
  obtain ⟨M, hM, hvM⟩ := e3 v hv
  exact ((hw M hM).env v hvM).symm

theorem conditionAllQ_names (h : Observed U cpms ns ss) (hw : ∀ M ∈ cpms, WF U M) (qs : List QState) :
    conditionAllQ cpms (.names ns) qs = conditionAllQ cpms (.vars (ns.map U)) qs := by
  unfold conditionAllQ
  simp only [getVariablesAll_U h hw, ok_bind]

theorem consistent_iff (h : Observed U cpms ns ss) (hw : ∀ M ∈ cpms, WF U M) (names : List K)
    (x : K → ℕ) : Consistent names (ns.map U) ss x ↔
      ∀ p ∈ ns.zip ss, p.1 ∈ names → x p.1 ∈ stateSet (U p.1) p.2 := by
  unfold Consistent
  constructor
  · intro hc p hp hn
    have e := h.name hw (List.of_mem_zip hp).1
    have := hc (U p.1, p.2) (by rw [List.zip_map_left]; exact List.mem_map_of_mem hp)
    simp only [e] at this
    exact this hn
  · intro hc p hp hn
    obtain ⟨q, hq, rfl, e⟩ := h.pairs hw hp
    simp only [e] at hn ⊢
    exact hc q hq hn

theorem agrees_iff (h : Observed U cpms ns ss) (hw : ∀ M ∈ cpms, WF U M) (x : K → ℕ) :
    Agrees U ns ss x ↔ ∀ M ∈ cpms, Consistent M.getNames (ns.map U) ss x := by
  constructor
  · intro ha M _
    rw [consistent_iff h hw]
    exact fun p hp _ => ha p hp
  · intro hc p hp
    obtain ⟨M, hM, hk⟩ := h.scope p.1 (List.of_mem_zip hp).1
    exact (consistent_iff h hw _ x).1 (hc M hM) p hp hk

/-- The joint distribution of the conditioned CPMs: nothing where the observations do not hold. -/
theorem condNet_joint (h : Observed U cpms ns ss) (hw : ∀ M ∈ cpms, WF U M) (x : K → ℕ) :
    jointDens (condNet U cpms ns ss) x = if Agrees U ns ss x then jointDens cpms x else 0 := by
  unfold jointDens condNet
  rw [List.map_map]
  have hd : ∀ M ∈ cpms, dens (condPure M (ns.map U) ss) x =
      if Consistent M.getNames (ns.map U) ss x then dens M x else 0 :=
    fun M hM => dens_condPure (hw M hM) (h.evidence hw _) (h.distinct hw) x
  split
  · next ha =>
    congr 1
    refine List.map_congr_left fun M hM => ?_
    rw [Function.comp_apply, hd M hM, if_pos ((agrees_iff h hw x).1 ha M hM)]
  · next ha =>
    rw [agrees_iff h hw] at ha
    push Not at ha
    obtain ⟨M, hM, hn⟩ := ha
    refine List.prod_eq_zero (List.mem_map.2 ⟨M, hM, ?_⟩)
    rw [Function.comp_apply, hd M hM, if_neg hn]

theorem condNet_elimOK (h : Observed U cpms ns ss) {ve : List (Variable K)} (ho : ElimOK U cpms ve)
    (hx : ∃ x, Agrees U ns ss x ∧ ∀ M ∈ cpms, Covers M x) : ElimOK U (condNet U cpms ns ss) ve := by
  have hw := ho.net.wf
  have hshare : ∀ a b, Share cpms a b → Share (condNet U cpms ns ss) a b := by
    rintro a b ⟨M, hM, ha, hb⟩
    exact ⟨_, List.mem_map_of_mem hM, ha, hb⟩
  refine ⟨⟨?_, ?_, ?_⟩, ?_, ?_, ?_, ho.nodup, ho.env, ?_, ?_⟩
  · intro N hN
    obtain ⟨M, hM, rfl⟩ := List.mem_map.1 hN
    exact condPure_WF (hw M hM) (h.evidence hw _) (h.distinct hw)
  · intro N hN
    obtain ⟨M, hM, rfl⟩ := List.mem_map.1 hN
    exact condPure_childBasic (hw M hM) (h.evidence hw _) (h.distinct hw) (ho.net.basic M hM)
  · unfold ChildDisjoint condNet
    rw [List.pairwise_map]
    exact ho.net.disjoint
  · unfold condNet
    rw [ne_eq, List.map_eq_nil_iff]
    exact ho.ne
  · intro N hN
    obtain ⟨M, hM, rfl⟩ := List.mem_map.1 hN
    exact ho.scope M hM
  · obtain ⟨x, ha, hc⟩ := hx
    refine ⟨x, fun N hN => ?_⟩
    obtain ⟨M, hM, rfl⟩ := List.mem_map.1 hN
    exact (condPure_covers (hw M hM) (h.evidence hw _) (h.distinct hw) x).2
      ⟨(agrees_iff h hw x).1 ha M hM, hc M hM⟩
  · intro v hv
    obtain ⟨M, hM, hc⟩ := ho.defined v hv
    exact ⟨_, List.mem_map_of_mem hM, hc⟩
  · intro v hv
    obtain ⟨q, hq, hl⟩ := ho.linked v hv
    exact ⟨q, hq, Relation.ReflTransGen.mono hshare _ _ hl⟩

/-- The sum of the probabilities of a table with basic states. -/
theorem sum_p_eq {M : Cpm K} (h : WF U M) (hb : AllBasic M) (x : K → ℕ) :
    M.p.sum = sumOver (M.vars.map fun v => (v.name, v.values.length)) (dens M) x := by
  have h1 : sumOver (M.vars.map fun v => (v.name, v.values.length)) (dens M) x =
      ((M.C.zip M.p).map Prod.snd).sum := by
    have hd : ∀ y, dens M y = ((M.C.zip M.p).map fun cp =>
        if RowMatches M.vars cp.1 y then cp.2 else 0).sum := fun y => rfl
    rw [sumOver_congr _ x hd, sumOver_list_sum]
    congr 1
    refine List.map_congr_left fun cp hcp => ?_
    have hr := (List.of_mem_zip hcp).1
    have hbr := (zip_forall_iff h.nodup (h.rowLen _ hr) (fun v s => s < v.values.length)).1
      (hb _ hr)
    have hset : ∀ v ∈ M.vars, ∃ i < v.values.length,
        stateSet v (val (M.vars.map Variable.name) cp.1 v.name) = {i} :=
      fun v hv => ⟨_, hbr v hv, stateSet_basic (h.table v hv) (hbr v hv)⟩
    have hind := sumOver_indicator cp.2 M.vars []
      (fun v => stateSet v (val (M.vars.map Variable.name) cp.1 v.name)) hset
      (by simpa using h.nodup) x
    simp only [rowMatches_iff h.nodup (h.rowLen _ hr)]
    simp only [List.append_nil, List.not_mem_nil, false_imp_iff, implies_true, if_true] at hind
    exact hind
  rw [h1, List.map_snd_zip (by rw [h.pLen])]

end BNS
