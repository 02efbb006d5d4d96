import Verif.Proofs.ObserveSys
import Mathlib.Data.List.Perm.Basic

/-!
# Helper lemmas: columns of an event matrix that say "any state"
-/

namespace BNS

set_option linter.unusedSectionVars false

open List

/-- The last composite state contains all basic states. -/
theorem genB_last {n : ℕ} (h : 0 < n) : (genB n)[2 ^ n - 2]? = some (Finset.range n) := by
  obtain ⟨m, rfl⟩ : ∃ m, n = m + 1 := ⟨n - 1, by omega⟩
  have hlast : (genB (m + 1)).getLast? = some (Finset.range (m + 1)) := by
    unfold genB
    rw [List.range'_concat, List.flatMap_append, List.map_append]
    have hc : combos (List.range (m + 1)) (m + 1) = [List.range (m + 1)] := by
      have hnd := nodup_combos (List.range (m + 1)) (m + 1) List.nodup_range
      have hm : ∀ l, l ∈ combos (List.range (m + 1)) (m + 1) ↔ l = List.range (m + 1) := by
        intro l
        rw [mem_combos]
        constructor
        · rintro ⟨h1, h2⟩
          exact h1.eq_of_length (by simpa using h2)
        · rintro rfl
          simp
      refine List.perm_singleton.1 ((List.perm_ext_iff_of_nodup hnd (List.nodup_singleton _)).2 ?_)
      intro l
      rw [hm, List.mem_singleton]
    simp only [List.flatMap_cons, List.flatMap_nil, List.append_nil, Nat.one_mul,
      Nat.add_comm 1 m, hc, List.map_singleton, List.getLast?_append, List.getLast?_singleton,
      Option.some_or]
    congr 1
    ext i
    simp
  rw [List.getLast?_eq_getElem?, length_genB] at hlast
  rw [← hlast]
  congr 1

section
variable {K : Type}

theorem stateSet_any {v : Variable K} (hB : v.B = some (genB v.values.length))
    (h : 0 < v.values.length) : stateSet v (2 ^ v.values.length - 2) = Finset.range v.values.length := by
  unfold stateSet
  rw [hB]
  simp [genB_last h]

end

section
variable {K : Type} [LinearOrder K] {U : K → Variable K}

/-- `M'` says the same as `M` where the variables `us` are in one of their states. -/
structure Wide (U : K → Variable K) (us : List K) (M' M : Cpm K) : Prop where
  wf : WF U M'
  basic : ChildBasic M'
  child : childNames M' = childNames M
  sub : ∀ k ∈ M.getNames, k ∈ M'.getNames
  new : ∀ k ∈ M'.getNames, k ∈ M.getNames ∨ k ∈ us
  dens : ∀ x, (∀ k ∈ us, x k < (U k).values.length) → dens M' x = dens M x
  covers : ∀ x, (∀ k ∈ us, x k < (U k).values.length) → Covers M x → Covers M' x

theorem Wide.self {us : List K} {M : Cpm K} (hw : WF U M) (hb : ChildBasic M) : Wide U us M M :=
  ⟨hw, hb, rfl, fun _ h => h, fun _ h => .inl h, fun _ _ => rfl, fun _ _ h => h⟩

/-- Conditioning on states of `us` and eliminating gives the same distribution. -/
theorem wide_elim {cpms' cpms : List (Cpm K)} {us : List K} (hww : Forall₂ (Wide U us) cpms' cpms)
    {ve : List (Variable K)} (ho : ElimOK U cpms ve) {ns : List K} {ss : List ℕ}
    (h : Observed U cpms ns ss) (hx : ∃ x, Agrees U ns ss x ∧
      (∀ k ∈ us, x k < (U k).values.length) ∧ ∀ M ∈ cpms, Covers M x)
    (husve : ∀ k ∈ us, k ∈ ve.map Variable.name) {P : Cpm K}
    (hP : variableElim (condNet U cpms ns ss) ve = .ok P) :
    ElimOK U cpms' ve ∧ Observed U cpms' ns ss ∧
    ∃ P', variableElim (condNet U cpms' ns ss) ve = .ok P' ∧ WF U P' ∧ ChildBasic P' ∧
      (∀ x, dens P' x = dens P x) ∧ (childNames P').Perm (childNames P) ∧
      ∀ k, k ∈ P'.getNames ↔ k ∈ P.getNames := by
  have hmem' : ∀ M' ∈ cpms', ∃ M ∈ cpms, Wide U us M' M := fun M' hM' => by
    clear hP hx h ho
    induction hww with
    | nil => simp at hM'
    | cons h1 _ ih =>
      rcases List.mem_cons.1 hM' with rfl | hM'
      · exact ⟨_, by simp, h1⟩
      · obtain ⟨M, hM, hw⟩ := ih hM'
        exact ⟨M, by simp [hM], hw⟩
  have hmem : ∀ M ∈ cpms, ∃ M' ∈ cpms', Wide U us M' M := fun M hM => by
    clear hP hx h ho hmem'
    induction hww with
    | nil => simp at hM
    | cons h1 _ ih =>
      rcases List.mem_cons.1 hM with rfl | hM
      · exact ⟨_, by simp, h1⟩
      · obtain ⟨M', hM', hw⟩ := ih hM
        exact ⟨M', by simp [hM'], hw⟩
  have hchild : cpms'.map childNames = cpms.map childNames := by
    clear hP hx h ho hmem' hmem
    induction hww with
    | nil => rfl
    | cons h1 _ ih => rw [List.map_cons, List.map_cons, ih, h1.child]
  have hshare : ∀ a b, Share cpms a b → Share cpms' a b := by
    rintro a b ⟨M, hM, ha, hb⟩
    obtain ⟨M', hM', hw⟩ := hmem M hM
    exact ⟨M', hM', hw.sub a ha, hw.sub b hb⟩
  have hobs : Observed U cpms' ns ss := by
    refine ⟨h.len, h.nodup, fun k hk => ?_, h.state⟩
    obtain ⟨M, hM, hkM⟩ := h.scope k hk
    obtain ⟨M', hM', hw⟩ := hmem M hM
    exact ⟨M', hM', hw.sub k hkM⟩
  have hx' : ∃ x, Agrees U ns ss x ∧ ∀ M ∈ cpms', Covers M x := by
    obtain ⟨x, ha, hin, hc⟩ := hx
    refine ⟨x, ha, fun M' hM' => ?_⟩
    obtain ⟨M, hM, hw⟩ := hmem' M' hM'
    exact hw.covers x hin (hc M hM)
  have hok : ElimOK U cpms' ve := by
    refine ⟨⟨fun M' hM' => ?_, fun M' hM' => ?_, ?_⟩, ?_, fun M' hM' => ?_, ?_, ho.nodup, ho.env,
      fun v hv => ?_, fun v hv => ?_⟩
    · obtain ⟨M, -, hw⟩ := hmem' M' hM'
      exact hw.wf
    · obtain ⟨M, -, hw⟩ := hmem' M' hM'
      exact hw.basic
    · have hd := ho.net.disjoint
      unfold ChildDisjoint at hd ⊢
      have e : ∀ l : List (Cpm K), l.Pairwise (fun M N => ∀ k ∈ childNames M, k ∉ childNames N) ↔
          (l.map childNames).Pairwise (fun a b => ∀ k ∈ a, k ∉ b) := fun l => by
        rw [List.pairwise_map]
      exact (e _).2 (by rw [hchild]; exact (e _).1 hd)
    · rintro rfl
      cases hww
      exact ho.ne rfl
    · obtain ⟨M, hM, hw⟩ := hmem' M' hM'
      intro h0
      have hne := ho.scope M hM
      obtain ⟨v, hv⟩ := List.exists_mem_of_ne_nil _ hne
      have := hw.sub v.name (List.mem_map_of_mem hv)
      rw [Cpm.getNames, h0] at this
      cases this
    · obtain ⟨x, -, hc⟩ := hx'
      exact ⟨x, hc⟩
    · obtain ⟨M, hM, hd⟩ := ho.defined v hv
      obtain ⟨M', hM', hw⟩ := hmem M hM
      exact ⟨M', hM', by rw [hw.child]; exact hd⟩
    · obtain ⟨q, hq, hl⟩ := ho.linked v hv
      exact ⟨q, hq, Relation.ReflTransGen.mono hshare _ _ hl⟩
  refine ⟨hok, hobs, ?_⟩
  obtain ⟨P0, e1, e2, e3, e4, e5, e6⟩ := C15_elimination_partial _ ve
    (condNet_elimOK h ho (hx.imp fun _ hx => ⟨hx.1, hx.2.2⟩))
  rw [hP] at e1
  cases e1
  obtain ⟨P', f1, f2, f3, f4, f5, f6⟩ := C15_elimination_partial _ ve (condNet_elimOK hobs hok hx')
  refine ⟨P', f1, f2, f3, fun x => ?_, ?_, fun k => ?_⟩
  · rw [f4, e4]
    refine sumOver_congr' _ (by rw [List.map_map]; exact ho.nodup) x fun y hy _ => ?_
    rw [condNet_joint hobs hok.net.wf, condNet_joint h ho.net.wf]
    by_cases ha : Agrees U ns ss y
    · rw [if_pos ha, if_pos ha]
      have hr : ∀ k ∈ us, y k < (U k).values.length := by
        intro k hk
        obtain ⟨v, hv, rfl⟩ := List.mem_map.1 (husve k hk)
        have := hy _ (List.mem_map_of_mem (f := fun v : Variable K => (v.name, v.values.length)) hv)
        rw [ho.env v hv]
        exact this
      unfold jointDens
      clear hP e4 e5 e6 f1 f4 f5 f6 hok hobs hx' hshare hchild hmem hmem' hx h ho
      congr 1
      induction hww with
      | nil => rfl
      | cons h1 _ ih => rw [List.map_cons, List.map_cons, ih, h1.dens y hr]
    · rw [if_neg ha, if_neg ha]
  · have hc : (condNet U cpms' ns ss).flatMap childNames = (condNet U cpms ns ss).flatMap childNames := by
      have e : ∀ l : List (Cpm K), (condNet U l ns ss).flatMap childNames = (l.map childNames).flatten := by
        intro l
        unfold condNet
        rw [List.flatMap_map, List.flatMap_def]
        rfl
      rw [e, e, hchild]
    rw [hc] at f5
    exact f5.trans e5.symm
  · rw [e6, f6]
    have hn : ∀ l : List (Cpm K), (∃ M ∈ condNet U l ns ss, k ∈ M.getNames) ↔ ∃ M ∈ l, k ∈ M.getNames := by
      intro l
      constructor
      · rintro ⟨N, hN, hk⟩
        obtain ⟨M, hM, rfl⟩ := List.mem_map.1 hN
        exact ⟨M, hM, hk⟩
      · rintro ⟨M, hM, hk⟩
        exact ⟨_, List.mem_map_of_mem hM, hk⟩
    rw [hn, hn]
    refine and_congr_left fun hkv => ?_
    constructor
    · rintro ⟨M', hM', hk⟩
      obtain ⟨M, hM, hw⟩ := hmem' M' hM'
      rcases hw.new k hk with hk | hk
      · exact ⟨M, hM, hk⟩
      · exact absurd (husve k hk) hkv
    · rintro ⟨M, hM, hk⟩
      obtain ⟨M', hM', hw⟩ := hmem M hM
      exact ⟨M', hM', hw.sub k hk⟩

variable {vs : List (K × ℕ)} {sys : K} {m : ℕ} {C : List (List ℕ)} {obs : List (Obs K)}

theorem sysObsCpm_wide (h : SysVars U vs sys m) (hC : EventsOK U vs m C) (ho : ObsVars U vs sys obs) :
    Wide U (obs.map Obs.node) (sysObsCpm U vs sys obs C) (sysCpm U vs sys C) := by
  have hw := sysCpm_WF h hC
  have hnames : (sysObsCpm U vs sys obs C).vars.map Variable.name =
      (sysCpm U vs sys C).vars.map Variable.name ++ obs.map Obs.node := by
    unfold sysObsCpm sysCpm
    rw [List.map_append, List.map_map]
    congr 1
    exact List.map_congr_left fun o hm => ho.name o hm
  have hpos : ∀ o ∈ obs, 0 < (U o.node).values.length := fun o hm =>
    lt_of_le_of_lt (Nat.zero_le _) (ho.seen o hm)
  have hmatch : ∀ r ∈ C, ∀ x, RowMatches (sysObsCpm U vs sys obs C).vars
      (r ++ obs.map fun o => 2 ^ (U o.node).values.length - 2) x ↔
      RowMatches (sysCpm U vs sys C).vars r x ∧ ∀ k ∈ obs.map Obs.node, x k < (U k).values.length := by
    intro r hr x
    have hl : (U sys :: compVariables U vs).length = r.length := (hw.rowLen r hr).symm
    unfold RowMatches sysObsCpm sysCpm
    simp only
    rw [List.zip_append hl, List.forall_mem_append, List.zip_map', List.forall_mem_map,
      List.forall_mem_map]
    refine and_congr_right fun _ => forall₂_congr fun o hm => ?_
    rw [stateSet_any (ho.table o hm) (hpos o hm), Finset.mem_range, ho.name o hm]
  have hwf : WF U (sysObsCpm U vs sys obs C) := by
    refine ⟨?_, ?_, ?_, ?_, ?_, ?_, ?_, ⟨rfl, rfl, rfl, rfl⟩⟩
    · intro v hv
      rcases List.mem_append.1 hv with hv | hv
      · exact hw.env v hv
      · obtain ⟨o, hm, rfl⟩ := List.mem_map.1 hv
        rw [ho.name o hm]
    · intro v hv
      rcases List.mem_append.1 hv with hv | hv
      · exact hw.table v hv
      · obtain ⟨o, hm, rfl⟩ := List.mem_map.1 hv
        exact ho.table o hm
    · rw [hnames, List.nodup_append]
      refine ⟨hw.nodup, ho.nodup, ?_⟩
      rintro a ha b hb rfl
      obtain ⟨o, hm, rfl⟩ := List.mem_map.1 hb
      rw [sysCpm_names h, List.mem_cons] at ha
      rcases ha with ha | ha
      · exact (ho.new o hm).2 ha
      · exact (ho.new o hm).1 ha
    · intro r hr
      obtain ⟨r', hr', rfl⟩ := List.mem_map.1 hr
      have hl : r'.length = (U sys :: compVariables U vs).length := hw.rowLen r' hr'
      show (r' ++ _).length = (_ ++ _ : List _).length
      rw [List.length_append, List.length_append, hl, List.length_map, List.length_map]
    · intro r hr vc hvc
      obtain ⟨r', hr', rfl⟩ := List.mem_map.1 hr
      have hl : (U sys :: compVariables U vs).length = r'.length := (hw.rowLen r' hr').symm
      have hvc : vc ∈ ((U sys :: compVariables U vs) ++ obs.map fun o => U o.node).zip
        (r' ++ obs.map fun o => 2 ^ (U o.node).values.length - 2) := hvc
      rw [List.zip_append hl, List.zip_map', List.mem_append] at hvc
      rcases hvc with hvc | hvc
      · exact hw.entry r' hr' vc hvc
      · obtain ⟨o, hm, rfl⟩ := List.mem_map.1 hvc
        have : 2 ^ 1 ≤ 2 ^ (U o.node).values.length := Nat.pow_le_pow_right (by norm_num) (hpos o hm)
        simp only
        omega
    · unfold sysObsCpm
      simp
    · unfold sysObsCpm
      simp
  refine ⟨hwf, ?_, rfl, ?_, ?_, ?_, ?_⟩
  · intro r hr vc hvc
    obtain ⟨r', hr', rfl⟩ := List.mem_map.1 hr
    obtain ⟨s, cs, rfl, h2, -, -⟩ := hC.rows r' hr'
    have : vc = (U sys, s) := by simpa [sysObsCpm] using hvc
    rw [this]
    simp only
    rw [h.sysSize]
    exact h2
  · intro k hk
    show k ∈ (sysObsCpm U vs sys obs C).vars.map Variable.name
    rw [hnames]
    exact List.mem_append_left _ hk
  · intro k hk
    have hk : k ∈ (sysObsCpm U vs sys obs C).vars.map Variable.name := hk
    rw [hnames, List.mem_append] at hk
    exact hk
  · intro x hx
    unfold BNS.dens
    have e1 : (sysObsCpm U vs sys obs C).C.zip (sysObsCpm U vs sys obs C).p =
        C.map fun r => (r ++ obs.map fun o => 2 ^ (U o.node).values.length - 2, (1 : ℚ)) := by
      unfold sysObsCpm
      rw [List.zip_map']
    have e2 : (sysCpm U vs sys C).C.zip (sysCpm U vs sys C).p = C.map fun r => (r, (1 : ℚ)) := by
      unfold sysCpm
      simp only
      conv_lhs => rw [← List.map_id C, List.map_map, List.zip_map']
      rfl
    rw [e1, e2, List.map_map, List.map_map]
    congr 1
    refine List.map_congr_left fun r hr => ?_
    simp only [Function.comp_apply]
    exact if_congr ((hmatch r hr x).trans (and_iff_left hx)) rfl rfl
  · rintro x hx ⟨r, hr, hm⟩
    exact ⟨_, List.mem_map_of_mem hr, (hmatch r hr x).2 ⟨hm, hx⟩⟩

/-- A table over one variable, a child, whose states are basic. -/
theorem allBasic_one {P : Cpm K} {v : Variable K} (hv : P.vars = [v]) (hb : ChildBasic P)
    (hc : childNames P ≠ []) : AllBasic P := by
  have hc' : 1 ≤ P.noChild := by
    rcases Nat.eq_zero_or_pos P.noChild with h0 | h0
    · exact absurd (by simp [childNames, h0]) hc
    · exact h0
  intro r hr vc hvc
  refine hb r hr vc ?_
  rw [hv, List.take_of_length_le (by simpa using hc')]
  rw [hv] at hvc
  exact hvc

/-- The component of an observation. -/
def compAt (obs : List (Obs K)) (k : K) : K := ((obs.find? fun o => o.node = k).map Obs.comp).getD k

theorem compAt_eq (hn : (obs.map Obs.node).Nodup) {o : Obs K} (ho : o ∈ obs) :
    compAt obs o.node = o.comp := by
  induction obs with
  | nil => cases ho
  | cons a l ih =>
    rw [List.map_cons, List.nodup_cons] at hn
    unfold compAt
    rcases List.mem_cons.1 ho with rfl | hl
    · simp
    · have hne : a.node ≠ o.node := fun e => hn.1 (e ▸ List.mem_map_of_mem hl)
      rw [List.find?_cons_of_neg (by simpa using hne)]
      exact ih hn.2 hl

theorem ObsVars.sub {A : List (Obs K)} (ho : ObsVars U vs sys obs) (hn : (A.map Obs.node).Nodup)
    (hA : ∀ o ∈ A, o ∈ obs) : ObsVars U vs sys A :=
  ⟨hn, fun o hm => ho.new o (hA o hm), fun o hm => ho.name o (hA o hm),
    fun o hm => ho.table o (hA o hm), fun o hm => ho.comp o (hA o hm), fun o hm => ho.seen o (hA o hm)⟩

/-- Observations that were not made sum to one. -/
theorem obs_sumOne (h : SysVars U vs sys m) {B : List (Obs K)} (ho : ObsVars U vs sys B)
    (lik : K → ℕ → ℕ → ℚ) (hB : ∀ o ∈ B, ∀ i < (U o.comp).values.length,
      ∑ j ∈ Finset.range (U o.node).values.length, lik o.node j i = 1)
    {z : K → ℕ} (hz : InSpace vs z) :
    sumOver (obsSizes U B) (jointDens (B.map (obsCpm U lik))) z = 1 := by
  have hfst : (obsSizes U B).map Prod.fst = B.map Obs.node := by
    unfold obsSizes; rw [List.map_map]; rfl
  have hcz : ∀ o ∈ B, z o.comp < (U o.comp).values.length := fun o hm => hz _ (ho.compOK h hm).2.2
  have e : sumOver (obsSizes U B) (jointDens (B.map (obsCpm U lik))) z =
      sumOver (obsSizes U B) (fun w => ((obsSizes U B).map fun kn =>
        lik kn.1 (w kn.1) (z (compAt B kn.1))).prod) z := by
    refine sumOver_congr' _ (by rw [hfst]; exact ho.nodup) z fun w hw hoff => ?_
    unfold jointDens obsSizes
    rw [List.map_map, List.map_map]
    congr 1
    refine List.map_congr_left fun o hm => ?_
    have hwc : w o.comp = z o.comp := by
      refine hoff _ ?_
      rw [hfst]
      intro hk
      obtain ⟨o', hm', e⟩ := List.mem_map.1 hk
      exact (ho.new o' hm').1 (e ▸ ho.comp o hm)
    simp only [Function.comp_apply]
    rw [obsCpm_dens h ho lik hm (hw _ (List.mem_map_of_mem (f := fun o => (o.node, (U o.node).values.length)) hm))
      (by rw [hwc]; exact hcz o hm), compAt_eq ho.nodup hm, hwc]
  rw [e, sumOver_prod _ (by rw [hfst]; exact ho.nodup) fun k j => lik k j (z (compAt B k))]
  refine List.prod_eq_one fun q hq => ?_
  unfold obsSizes at hq
  rw [List.map_map] at hq
  obtain ⟨o, hm, rfl⟩ := List.mem_map.1 hq
  simp only [Function.comp_apply]
  rw [compAt_eq ho.nodup hm]
  exact hB o hm _ (hcz o hm)

/-- Conditioning on the observations that were made (`A`), the others (`B`) are eliminated unseen. -/
theorem obsPart_elim (h : SysVars U vs sys m) (probs : K → ℕ → ℚ) (hC : EventsOK U vs m C)
    (ho : ObsVars U vs sys obs) {A B : List (Obs K)} (hAB : obs.Perm (A ++ B)) (lik : K → ℕ → ℕ → ℚ)
    (hB : ∀ o ∈ B, ∀ i < (U o.comp).values.length,
      ∑ j ∈ Finset.range (U o.node).values.length, lik o.node j i = 1)
    {cpms : List (Cpm K)} (hp : cpms.Perm
      (vs.map (compCpm U probs) ++ obs.map (obsCpm U lik) ++ [sysCpm U vs sys C]))
    {ve : List (Variable K)} (hve : ve.Perm ((obs.map fun o => U o.node) ++ compVariables U vs)) :
    ElimOK U cpms ve ∧ Observed U cpms (A.map Obs.node) (A.map Obs.seen) ∧
    (∃ x, Agrees U (A.map Obs.node) (A.map Obs.seen) x ∧
      (∀ k ∈ obs.map Obs.node, x k < (U k).values.length) ∧ ∀ M ∈ cpms, Covers M x) ∧
    ∃ P, variableElim (condNet U cpms (A.map Obs.node) (A.map Obs.seen)) ve = .ok P ∧ WF U P ∧
      P.vars = [U sys] ∧ ChildBasic P ∧ childNames P ≠ [] ∧
      ∀ x, dens P x = probWith vs probs lik A (SysState U vs C (x sys)) := by
  obtain ⟨hok, xc, hxa, hxc⟩ := obsNet_elimOK h probs hC ho lik hp hve
  have hsubA : ∀ o ∈ A, o ∈ obs := fun o hm => hAB.mem_iff.2 (List.mem_append_left _ hm)
  have hsubB : ∀ o ∈ B, o ∈ obs := fun o hm => hAB.mem_iff.2 (List.mem_append_right _ hm)
  have hndAB : (A.map Obs.node ++ B.map Obs.node).Nodup := by
    rw [← List.map_append]
    exact (hAB.map Obs.node).nodup_iff.1 ho.nodup
  have hoA : ObsVars U vs sys A := ho.sub (List.nodup_append.1 hndAB).1 hsubA
  have hoB : ObsVars U vs sys B := ho.sub (List.nodup_append.1 hndAB).2.1 hsubB
  have hmemo : ∀ o ∈ obs, obsCpm U lik o ∈ cpms := fun o hm => by
    rw [hp.mem_iff, List.mem_append, List.mem_append]
    exact .inl (.inr (List.mem_map_of_mem hm))
  have hev := obsEvidence hoA (cpms := cpms) lik fun o hm => hmemo o (hsubA o hm)
  have hevF := obsEvidence ho (cpms := cpms) lik hmemo
  have hseen := (obsAgrees ho xc).1 hxa
  have hcov : ∃ x, Agrees U (A.map Obs.node) (A.map Obs.seen) x ∧
      (∀ k ∈ obs.map Obs.node, x k < (U k).values.length) ∧ ∀ M ∈ cpms, Covers M x := by
    refine ⟨xc, (obsAgrees hoA xc).2 fun o hm => hseen o (hsubA o hm), fun k hk => ?_, hxc⟩
    obtain ⟨o, hm, rfl⟩ := List.mem_map.1 hk
    rw [hseen o hm]
    exact ho.seen o hm
  refine ⟨hok, hev, hcov, ?_⟩
  obtain ⟨P, e1, e2, e3, e4, e5, e6⟩ := C15_elimination_partial _ ve
    (condNet_elimOK hev hok (hcov.imp fun _ hx => ⟨hx.1, hx.2.2⟩))
  -- the variables and children that are left do not depend on what was seen
  obtain ⟨F, f1, f2, f3, f4, -⟩ := obsNet_elim h probs hC ho lik hp hve
  obtain ⟨F', g1, -, -, -, g5, g6⟩ := C15_elimination_partial _ ve
    (condNet_elimOK hevF hok ⟨xc, hxa, hxc⟩)
  rw [f1] at g1
  cases g1
  have hn : ∀ (ns : List K) (ss : List ℕ) k,
      (∃ M ∈ condNet U cpms ns ss, k ∈ M.getNames) ↔ ∃ M ∈ cpms, k ∈ M.getNames := by
    intro ns ss k
    constructor
    · rintro ⟨N, hN, hk⟩
      obtain ⟨M, hM, rfl⟩ := List.mem_map.1 hN
      exact ⟨M, hM, hk⟩
    · rintro ⟨M, hM, hk⟩
      exact ⟨_, List.mem_map_of_mem hM, hk⟩
  have hc : ∀ (ns : List K) (ss : List ℕ),
      (condNet U cpms ns ss).flatMap childNames = cpms.flatMap childNames := by
    intro ns ss
    unfold condNet
    rw [List.flatMap_map]
    rfl
  have hvars := only_var (sys := sys) e2 fun k => by
    rw [e6, hn, ← hn (obs.map Obs.node) (obs.map Obs.seen), ← g6]
    unfold Cpm.getNames
    rw [f3]
    simp [h.sysName]
  have hsysve : sys ∉ ve.map Variable.name := by
    intro hs
    obtain ⟨v, hv, e⟩ := List.mem_map.1 hs
    rcases List.mem_append.1 (hve.mem_iff.1 hv) with hv | hv
    · obtain ⟨o, hm, rfl⟩ := List.mem_map.1 hv
      rw [ho.name o hm] at e
      exact (ho.new o hm).2 e
    · obtain ⟨kn, hk, rfl⟩ := mem_compVariables.1 hv
      rw [h.name kn hk] at e
      exact h.sysNew (e ▸ List.mem_map_of_mem hk)
  have hchild : childNames P ≠ [] := by
    have hsys : sys ∈ childNames P := by
      rw [e5.mem_iff, List.mem_filter, hc]
      refine ⟨List.mem_flatMap.2 ⟨sysCpm U vs sys C, hp.mem_iff.2
        (List.mem_append_right _ (List.mem_singleton_self _)), ?_⟩, by simpa using hsysve⟩
      simp [childNames, sysCpm, h.sysName]
    exact List.ne_nil_of_mem hsys
  refine ⟨P, e1, e2, hvars, e3, hchild, fun x => ?_⟩
  -- the same as the network without the observations that were not made
  have hevA := obsEvidence hoA (cpms := vs.map (compCpm U probs) ++ A.map (obsCpm U lik) ++
      [sysCpm U vs sys C]) lik fun o hm => by
    rw [List.mem_append, List.mem_append]
    exact .inl (.inr (List.mem_map_of_mem hm))
  obtain ⟨hokA, hcovA⟩ := obsNet_elimOK h probs hC hoA lik (List.Perm.refl _)
    (List.Perm.refl ((A.map fun o => U o.node) ++ compVariables U vs))
  obtain ⟨Q, q1, -, -, -, q5⟩ := obsNet_elim h probs hC hoA lik (List.Perm.refl _)
    (List.Perm.refl ((A.map fun o => U o.node) ++ compVariables U vs))
  obtain ⟨Q', r1, -, -, r4, -⟩ := C15_elimination_partial _ _ (condNet_elimOK hevA hokA hcovA)
  rw [q1] at r1
  cases r1
  rw [← q5, r4, e4]
  have hosz : ∀ D : List (Obs K), ObsVars U vs sys D →
      (D.map fun o => U o.node).map (fun v => (v.name, v.values.length)) = obsSizes U D := by
    intro D hD
    unfold obsSizes
    rw [List.map_map]
    exact List.map_congr_left fun o hm => by simp [hD.name o hm]
  have hcsz : (compVariables U vs).map (fun v => (v.name, v.values.length)) = vs := by
    unfold compVariables
    rw [List.map_map]
    conv_rhs => rw [← List.map_id vs]
    exact List.map_congr_left fun kn hkn => by simp [h.name kn hkn, h.size kn hkn]
  have hsz : (ve.map fun v => (v.name, v.values.length)).Perm
      ((obsSizes U A ++ vs) ++ obsSizes U B) := by
    have h1 := hve.map fun v => (v.name, v.values.length)
    rw [List.map_append, hosz obs ho, hcsz] at h1
    have h2 : (obsSizes U obs).Perm (obsSizes U A ++ obsSizes U B) := by
      unfold obsSizes
      rw [← List.map_append]
      exact hAB.map _
    refine h1.trans ((h2.append_right vs).trans ?_)
    rw [List.append_assoc, List.append_assoc]
    exact List.perm_append_comm.append_left _
  rw [sumOver_perm hsz (by rw [List.map_map]; exact hok.nodup), sumOver_append, List.map_append,
    hosz A hoA, hcsz]
  have hndA : ((obsSizes U A ++ vs).map Prod.fst).Nodup := by
    have := hokA.nodup
    have e : obsSizes U A ++ vs = ((A.map fun o => U o.node) ++ compVariables U vs).map
        (fun v => (v.name, v.values.length)) := by rw [List.map_append, hosz A hoA, hcsz]
    rw [e, List.map_map]
    exact this
  refine sumOver_congr' _ hndA x fun z hz _ => ?_
  have hzs : InSpace vs z := fun kn hk => hz kn (List.mem_append_right _ hk)
  have hjoint : ∀ w, jointDens (condNet U cpms (A.map Obs.node) (A.map Obs.seen)) w =
      jointDens (condNet U (vs.map (compCpm U probs) ++ A.map (obsCpm U lik) ++ [sysCpm U vs sys C])
        (A.map Obs.node) (A.map Obs.seen)) w * jointDens (B.map (obsCpm U lik)) w := by
    intro w
    rw [condNet_joint hev hok.net.wf, condNet_joint hevA hokA.net.wf, jointDens_perm hp]
    by_cases ha : Agrees U (A.map Obs.node) (A.map Obs.seen) w
    · rw [if_pos ha, if_pos ha]
      simp only [jointDens_append]
      rw [jointDens_perm (hAB.map (obsCpm U lik)), List.map_append, jointDens_append]
      ring
    · rw [if_neg ha, if_neg ha, zero_mul]
  rw [sumOver_congr _ z hjoint, sumOver_mul_indep, obs_sumOne h hoB lik hB hzs, mul_one]
  -- what is left does not look at the observations that were not made
  intro y y' hyy
  have hBfst : (obsSizes U B).map Prod.fst = B.map Obs.node := by
    unfold obsSizes; rw [List.map_map]; rfl
  rw [hBfst] at hyy
  unfold jointDens
  congr 1
  refine List.map_congr_left fun N hN => ?_
  refine dens_congr fun k hk => ?_
  refine hyy k fun hkB => ?_
  obtain ⟨M, hM, rfl⟩ := List.mem_map.1 hN
  have hk : k ∈ M.vars.map Variable.name := hk
  obtain ⟨o, hm, rfl⟩ := List.mem_map.1 hkB
  rcases List.mem_append.1 hM with hM | hM
  · rcases List.mem_append.1 hM with hM | hM
    · obtain ⟨kn, hkn, rfl⟩ := List.mem_map.1 hM
      have : o.node = kn.1 := by simpa [compCpm, h.name kn hkn] using hk
      exact (hoB.new o hm).1 (this ▸ List.mem_map_of_mem hkn)
    · obtain ⟨o', hm', rfl⟩ := List.mem_map.1 hM
      rw [obsCpm_names h hoA lik hm'] at hk
      have : o.node = o'.node ∨ o.node = o'.comp := by simpa using hk
      rcases this with e | e
      · exact (List.nodup_append.1 hndAB).2.2 _ (List.mem_map_of_mem hm') _ (List.mem_map_of_mem hm) e.symm
      · exact (hoB.new o hm).1 (e ▸ hoA.comp o' hm')
  · rw [List.mem_singleton.1 hM, sysCpm_names h, List.mem_cons] at hk
    rcases hk with e | e
    · exact (hoB.new o hm).2 e
    · exact (hoB.new o hm).1 e

/-- The same with the wide system CPM. -/
theorem obsWide_elim (h : SysVars U vs sys m) (probs : K → ℕ → ℚ) (hC : EventsOK U vs m C)
    (ho : ObsVars U vs sys obs) {A B : List (Obs K)} (hAB : obs.Perm (A ++ B)) (lik : K → ℕ → ℕ → ℚ)
    (hB : ∀ o ∈ B, ∀ i < (U o.comp).values.length,
      ∑ j ∈ Finset.range (U o.node).values.length, lik o.node j i = 1)
    {cpms' : List (Cpm K)} (hp : cpms'.Perm
      (vs.map (compCpm U probs) ++ obs.map (obsCpm U lik) ++ [sysObsCpm U vs sys obs C]))
    {ve : List (Variable K)} (hve : ve.Perm ((obs.map fun o => U o.node) ++ compVariables U vs)) :
    ElimOK U cpms' ve ∧ Observed U cpms' (A.map Obs.node) (A.map Obs.seen) ∧
    ∃ P, variableElim (condNet U cpms' (A.map Obs.node) (A.map Obs.seen)) ve = .ok P ∧ WF U P ∧
      P.vars = [U sys] ∧ AllBasic P ∧
      ∀ x, dens P x = probWith vs probs lik A (SysState U vs C (x sys)) := by
  have hrel : Forall₂ (Wide U (obs.map Obs.node))
      (vs.map (compCpm U probs) ++ obs.map (obsCpm U lik) ++ [sysObsCpm U vs sys obs C])
      (vs.map (compCpm U probs) ++ obs.map (obsCpm U lik) ++ [sysCpm U vs sys C]) := by
    refine List.rel_append (List.forall₂_same.2 fun M hM => ?_) (.cons (sysObsCpm_wide h hC ho) .nil)
    rcases List.mem_append.1 hM with hM | hM
    · obtain ⟨kn, hk, rfl⟩ := List.mem_map.1 hM
      exact Wide.self (compCpm_WF h probs hk) (compCpm_childBasic h probs hk)
    · obtain ⟨o, hm, rfl⟩ := List.mem_map.1 hM
      exact Wide.self (obsCpm_WF h ho lik hm) (obsCpm_childBasic lik o)
  obtain ⟨cpms, hww, hp'⟩ := List.perm_comp_forall₂ hp hrel
  obtain ⟨hok, hev, hcov, P, e1, e2, e3, e4, e5, e6⟩ := obsPart_elim h probs hC ho hAB lik hB hp' hve
  obtain ⟨g1, g2, P', f1, f2, f3, f4, f5, f6⟩ := wide_elim hww hok hev hcov (fun k hk => by
      obtain ⟨o, hm, rfl⟩ := List.mem_map.1 hk
      rw [← ho.name o hm]
      refine List.mem_map_of_mem (hve.mem_iff.2 (List.mem_append_left _ ?_))
      exact List.mem_map.2 ⟨o, hm, rfl⟩) e1
  have hvars := only_var (sys := sys) f2 fun k => by
    rw [f6]
    unfold Cpm.getNames
    rw [e3]
    simp [h.sysName]
  refine ⟨g1, g2, P', f1, f2, hvars, allBasic_one hvars f3 ?_, fun x => by rw [f4, e6]⟩
  intro h0
  rw [h0] at f5
  exact e5 (List.perm_nil.1 f5.symm)

end

end BNS
