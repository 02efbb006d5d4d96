import Verif.Spec.CondVE
import Verif.Proofs.CondVE
import Verif.Props.Order
import Verif.Examples.CondVEOK

/-!
# Property C70: the distribution of a system event by conditioning

`cal_Msys_by_cond_VE`.
-/

namespace BNS

set_option linter.unusedSectionVars false

section
variable {K : Type} [LinearOrder K] {U : K → Variable K}

set_option maxHeartbeats 1000000 in
/-- Whenever `cal_Msys_by_cond_VE` returns, and the network satisfies `CondVEOK`, the CPM returned is
the joint distribution of the system and of the parents of the system left out of `ve_order`: each
probability is the sum, over all states of the conditioning variables and of the relevant variables
in `ve_order`, of the product of the CPMs of the conditioning and the relevant variables.  Partial:
that it returns is proved for some networks only (`C70_returns_partial`) — it does not when two conditioning variables are parents of components
(`C70_not_two_conditions`) or components share an eliminated parent (`C70_not_shared_parent`) — and
hypotheses that the code does not check are needed (`C70_not_direct_parent`,
`C70_not_dependent_components`, `C70_not_joint_with_parent`, `C70_not_row_order`). -/
theorem C70_system_by_conditioning_partial {d : List (K × Cpm K)} {varis : List (K × Variable K)}
    {cond veOrd : List K} {sys : K} (h : CondVEOK U d varis cond veOrd sys) {R : Cpm K}
    (hR : calMsysByCondVE d varis cond veOrd sys = .ok R) :
    WF U R ∧ (∀ k, k ∈ R.vars.map Variable.name ↔ k = sys ∨ (ParentOf d sys k ∧ k ∉ veOrd)) ∧
    R.noChild = R.vars.length ∧
    ∀ (summed net : List K) (N : K → Cpm K), summed.Nodup → net.Nodup →
      (∀ k, k ∈ summed ↔ k ∈ cond ∨ (Relevant d [sys] k ∧ k ∈ veOrd ∧ k ≠ sys)) →
      (∀ k, k ∈ net ↔ k ∈ cond ∨ Relevant d [sys] k) →
      (∀ k ∈ net, d.lookup k = some (N k)) →
      ∀ x, dens R x = sumOver (summed.map fun k => (k, (U k).values.length))
        (jointDens (net.map N)) x := by
  unfold calMsysByCondVE at hR
  obtain ⟨inf, hinf, hR1⟩ := bind_ok.1 hR
  obtain ⟨S, hS, hR2⟩ := bind_ok.1 hR1
  obtain ⟨veVars, hve, hR3⟩ := bind_ok.1 hR2
  obtain ⟨l, hl, hR4⟩ := bind_ok.1 hR3
  obtain ⟨cl, hcl, hR5⟩ := bind_ok.1 hR4
  obtain ⟨Mc, hMc, hR6⟩ := bind_ok.1 hR5
  clear hR hR1 hR2 hR3 hR4 hR5
  -- every relevant name has a CPM
  have hdef : ∀ k, Relevant d [sys] k → ∃ M, d.lookup k = some M := by
    by_contra hn
    push Not at hn
    obtain ⟨k, hk, hk2⟩ := hn
    have hnone : d.lookup k = none := by
      cases e : d.lookup k with
      | none => rfl
      | some M => exact absurd e (hk2 M)
    have herr := (C42_relevant d [sys]).2 ⟨k, hk, hnone⟩
    unfold getInfVars at herr hinf
    obtain ⟨r, hr, -⟩ := bind_ok.1 hinf
    rw [hr] at herr
    cases herr
  obtain ⟨inf', hinf', hmem, hnod, -⟩ := C42_ordered d [sys] veOrd hdef
  rw [hinf] at hinf'
  cases hinf'
  have hinfn := hnod (by simp)
  have hSl := assocGet_lookup hS
  set N : K → Cpm K := fun k => (d.lookup k).getD S with hN
  have hNk : ∀ {k : K} {M : Cpm K}, d.lookup k = some M → N k = M := by
    intro k M hk; simp [hN, hk]
  obtain ⟨rfl, hlk⟩ := mapM_assocGet hl S
  obtain ⟨rfl, hclk⟩ := mapM_assocGet hcl S
  clear hl hcl
  set cN := (S.vars.drop S.noChild).map Variable.name with hcN
  have hpar : ∀ {k : K} {M : Cpm K}, d.lookup k = some M → ∀ j, ParentOf d k j ↔ j ∈ parentNames M := by
    intro k M hk j
    unfold ParentOf parentNames
    rw [hk]
    simp
  have hcNp : ∀ j, j ∈ cN ↔ ParentOf d sys j := fun j => (hpar hSl j).symm
  have hcNn : cN.Nodup := (h.wf _ _ hSl).nodup.sublist ((List.drop_sublist _ _).map _)
  have hrel : ∀ {k j : K}, Relevant d [sys] k → ParentOf d k j → Relevant d [sys] j := by
    rintro k j ⟨v, hv, hk⟩ hj
    exact ⟨v, hv, hk.tail hj⟩
  have hrels : Relevant d [sys] sys := ⟨sys, by simp, .refl⟩
  have hsysc : sys ∉ cN := fun hc => h.leaf sys hrels ((hcNp sys).1 hc)
  set ve := veNames inf cond veOrd cN with hveN
  have hvem : ∀ k, k ∈ ve ↔ Relevant d [sys] k ∧ k ∈ veOrd ∧ k ∉ cond ∧ k ∉ cN := by
    intro k
    simp only [hveN, veNames, List.mem_filter, hmem, decide_eq_true_eq]
  set W := ve.filter fun v => v ≠ sys with hW
  have hWm : ∀ k, k ∈ W ↔ Relevant d [sys] k ∧ k ∈ veOrd ∧ k ∉ cond ∧ k ∉ cN ∧ k ≠ sys := by
    intro k
    simp only [hW, List.mem_filter, hvem, decide_eq_true_eq]
    tauto
  have hWn : W.Nodup := (hinfn.filter _).filter _
  set J := jntNames veOrd cN with hJ
  have hJm : ∀ k, k ∈ J ↔ k ∈ cN ∧ k ∉ veOrd := by
    intro k; simp only [hJ, jntNames, List.mem_filter, decide_eq_true_eq]
  have hJn : J.Nodup := hcNn.filter _
  set E := elmNames veOrd cN with hE
  have hEm : ∀ k, k ∈ E ↔ k ∈ cN ∧ k ∈ veOrd := by
    intro k
    simp only [hE, elmNames, List.mem_filter, decide_eq_true_eq, ← hJ, hJm]
    tauto
  have hEn : E.Nodup := hcNn.filter _
  set keys := firstOccOn id (ve ++ cN ++ J ++ [sys]) with hkeys
  have hkeysn : keys.Nodup := by
    have := firstOccOn_nodup id (ve ++ cN ++ J ++ [sys])
    rwa [List.map_id] at this
  have hkeysm : ∀ k, k ∈ keys ↔ k = sys ∨ k ∈ J ∨ k ∈ E ∨ k ∈ W := by
    intro k
    have := mem_firstOccOn_key id (ve ++ cN ++ J ++ [sys]) k
    rw [List.map_id, List.map_id] at this
    rw [hkeys, this]
    simp only [List.mem_append, List.mem_singleton, hvem, hJm, hEm, hWm]
    tauto
  have hkr : ∀ k ∈ keys, Relevant d [sys] k := by
    intro k hk
    rcases (hkeysm k).1 hk with rfl | hk | hk | hk
    · exact hrels
    · exact hrel hrels ((hcNp k).1 ((hJm k).1 hk).1)
    · exact hrel hrels ((hcNp k).1 ((hEm k).1 hk).1)
    · exact ((hWm k).1 hk).1
  rw [zip_map_pair N keys] at hR6
  have hname : ∀ k ∈ keys, (U k).name = k := by
    intro k hk
    have hc := h.child k _ (hlk k hk)
    have : k ∈ childNames (N k) := by rw [hc]; simp
    obtain ⟨w, hw, hwk⟩ := List.mem_map.1 this
    have := (h.wf k _ (hlk k hk)).env w (List.mem_of_mem_take hw)
    rw [hwk] at this
    rw [this, hwk]
  have hveW : veVars.map Variable.name = W := by
    refine mapM_varis hve fun k hk v hv => ?_
    rw [h.varis k v hv]
    exact hname k ((hkeysm k).2 (.inr (.inr (.inr hk))))
  -- the conditioning CPM
  have hcN' : ∀ k ∈ cond, childNames (N k) = [k] := fun k hk => h.child k _ (hclk k hk)
  have hMs : ProdSpec U (cond.map N) Mc := by
    refine productList_ok ?_ (childDisjoint_keys h.condNodup hcN') hMc
    intro M hM
    obtain ⟨k, hk, rfl⟩ := List.mem_map.1 hM
    exact h.wf k _ (hclk k hk)
  have hMchild : (childNames Mc).Perm cond := by
    have := hMs.child
    rwa [flatMap_childNames hcN'] at this
  have hMnames : ∀ k, k ∈ Mc.getNames ↔ k ∈ cond := by
    intro k
    constructor
    · intro hk
      obtain ⟨M, hM, hkM⟩ := (hMs.names k).1 hk
      obtain ⟨j, hj, rfl⟩ := List.mem_map.1 hM
      rw [getNames_eq, hcN' j hj, List.mem_append, List.mem_singleton] at hkM
      rcases hkM with rfl | hkM
      · exact hj
      · exact h.condClosed j hj k ((hpar (hclk j hj) k).2 hkM)
    · intro hk
      rw [getNames_eq]
      exact List.mem_append_left _ (hMchild.mem_iff.2 hk)
  have hNsys : N sys = S := hNk hSl
  have hnet : RowNet U N keys sys W E J Mc := by
    have hdisj : ∀ k ∈ keys, k ∉ cond := by
      intro k hk
      rcases (hkeysm k).1 hk with rfl | hk | hk | hk
      · exact h.condSys
      · exact h.direct k ((hcNp k).1 ((hJm k).1 hk).1)
      · exact h.direct k ((hcNp k).1 ((hEm k).1 hk).1)
      · exact ((hWm k).1 hk).2.2.1
    refine
      { split := ?_, nodup := hkeysn, wf := fun k hk => h.wf k _ (hlk k hk),
        basic := fun k hk => h.basic k _ (hlk k hk), rows := fun k hk => h.rows k _ (hlk k hk),
        child := fun k hk => h.child k _ (hlk k hk), full := fun k hk => h.full k _ (hlk k hk),
        pos := fun k hk => h.pos k _ (hlk k hk), mc := hMs.wf, mcChild := fun k hk => ?_,
        mcBasic := ?_, mcRows := ?_, disj := fun k hk => ?_, pSys := fun k => ?_, pJ := ?_,
        pEW := ?_ }
    · refine (List.perm_ext_iff_of_nodup hkeysn ?_).2 fun k => ?_
      · rw [List.nodup_cons, List.nodup_append, List.nodup_append]
        refine ⟨?_, hJn, ⟨hEn, hWn, ?_⟩, ?_⟩
        · rw [List.mem_append, List.mem_append, hJm, hEm, hWm]
          rintro (hc | hc | hc)
          · exact hsysc hc.1
          · exact hsysc hc.1
          · exact hc.2.2.2.2 rfl
        · rintro a ha b hb rfl
          exact ((hWm a).1 hb).2.2.2.1 ((hEm a).1 ha).1
        · rintro a ha b hb rfl
          rcases List.mem_append.1 hb with hb | hb
          · exact ((hJm a).1 ha).2 ((hEm a).1 hb).2
          · exact ((hWm a).1 hb).2.2.2.1 ((hJm a).1 ha).1
      · rw [hkeysm, List.mem_cons, List.mem_append, List.mem_append]
    · exact hMchild.mem_iff.2 ((hMnames k).1 hk)
    · refine hMs.basic fun M hM => ?_
      obtain ⟨k, hk, rfl⟩ := List.mem_map.1 hM
      exact h.basic k _ (hclk k hk)
    · refine hMs.disjoint fun M hM => ?_
      obtain ⟨k, hk, rfl⟩ := List.mem_map.1 hM
      exact h.rows k _ (hclk k hk)
    · rw [hMnames]; exact hdisj k hk
    · rw [hNsys, hEm, hJm]
      change k ∈ cN ↔ _
      tauto
    · intro j hj k hk
      rw [hMnames]
      have hjk : j ∈ keys := (hkeysm j).2 (.inr (.inl hj))
      exact h.joint j ((hcNp j).1 ((hJm j).1 hj).1) ((hJm j).1 hj).2 k
        ((hpar (hlk j hjk) k).2 hk)
    · intro j hj k hk
      rw [hMnames]
      have hjk : j ∈ keys := (hkeysm j).2 (by
        rcases List.mem_append.1 hj with hj | hj
        · exact .inr (.inr (.inl hj))
        · exact .inr (.inr (.inr hj)))
      have hjs : j ≠ sys := by
        rcases List.mem_append.1 hj with hj' | hj'
        · rintro rfl; exact hsysc ((hEm _).1 hj').1
        · exact ((hWm _).1 hj').2.2.2.2
      have hp := (hpar (hlk j hjk) k).2 hk
      have hkR := hrel (hkr j hjk) hp
      have hkc : k ∉ cN := fun hc => h.comps k j ((hcNp k).1 hc) (hkr j hjk) hjs hp
      have hks : k ≠ sys := by
        rintro rfl
        exact h.leaf j (hkr j hjk) hp
      rcases h.complete k hkR with h1 | h1 | h1 | h1
      · exact absurd h1 hks
      · exact .inr h1
      · by_cases hc : k ∈ cond
        · exact .inr hc
        · exact .inl ((hWm k).2 ⟨hkR, h1, hc, hkc, hks⟩)
      · exact absurd ((hcNp k).2 h1) hkc
  obtain ⟨r1, r2, r3, r4⟩ := condVELoop_spec hnet hveW (condNames := cond)
    (fun k => (hMnames k).symm) hR6
  refine ⟨r1, fun k => ?_, r3, fun summed net N2 hsn hnn hsm hnm hN2 x => ?_⟩
  · have := r2 k
    rw [hJm, hcNp] at this
    exact this
  · rw [r4]
    have hp1 : (Mc.getNames ++ (E ++ W)).Perm summed := by
      refine (List.perm_ext_iff_of_nodup ?_ hsn).2 fun k => ?_
      · rw [List.nodup_append, List.nodup_append]
        refine ⟨hMs.wf.nodup, ⟨hEn, hWn, ?_⟩, ?_⟩
        · rintro a ha b hb rfl
          exact ((hWm a).1 hb).2.2.2.1 ((hEm a).1 ha).1
        · rintro a ha b hb rfl
          rw [hMnames] at ha
          rcases List.mem_append.1 hb with hb | hb
          · exact h.direct a ((hcNp a).1 ((hEm a).1 hb).1) ha
          · exact ((hWm a).1 hb).2.2.1 ha
      · rw [hsm, List.mem_append, List.mem_append, hMnames, hEm, hWm]
        constructor
        · rintro (hk | ⟨hk1, hk2⟩ | hk)
          · exact .inl hk
          · exact .inr ⟨hrel hrels ((hcNp k).1 hk1), hk2, fun e => hsysc (e ▸ hk1)⟩
          · exact .inr ⟨hk.1, hk.2.1, hk.2.2.2.2⟩
        · rintro (hk | ⟨hk1, hk2, hk3⟩)
          · exact .inl hk
          · by_cases hc : k ∈ cond
            · exact .inl hc
            · by_cases hcn : k ∈ cN
              · exact .inr (.inl ⟨hcn, hk2⟩)
              · exact .inr (.inr ⟨hk1, hk2, hc, hcn, hk3⟩)
    have hp2 : (keys ++ cond).Perm net := by
      refine (List.perm_ext_iff_of_nodup ?_ hnn).2 fun k => ?_
      · rw [List.nodup_append]
        refine ⟨hkeysn, h.condNodup, ?_⟩
        rintro a ha b hb rfl
        exact hnet.disj a ha ((hMnames a).2 hb)
      · rw [hnm, List.mem_append]
        constructor
        · rintro (hk | hk)
          · exact .inr (hkr k hk)
          · exact .inl hk
        · rintro (hk | hk)
          · exact .inr hk
          · by_cases hc : k ∈ cond
            · exact .inr hc
            · refine .inl ((hkeysm k).2 ?_)
              rw [hJm, hEm, hWm]
              by_cases hcn : k ∈ cN
              · by_cases hv : k ∈ veOrd
                · exact .inr (.inr (.inl ⟨hcn, hv⟩))
                · exact .inr (.inl ⟨hcn, hv⟩)
              · rcases h.complete k hk with h1 | h1 | h1 | h1
                · exact .inl h1
                · exact absurd h1 hc
                · by_cases hs : k = sys
                  · exact .inl hs
                  · exact .inr (.inr (.inr ⟨hk, h1, hc, hcn, hs⟩))
                · exact absurd ((hcNp k).2 h1) hcn
    have hp3 := hp1.map fun k => (k, (U k).values.length)
    have hfst : ((sizes U (Mc.getNames ++ (E ++ W))).map Prod.fst).Nodup := by
      rw [sizes_fst]; exact hp1.nodup_iff.2 hsn
    rw [sumOver_perm (vs := sizes U (Mc.getNames ++ (E ++ W))) (ws := summed.map fun k => (k, (U k).values.length)) hp3 hfst]
    refine sumOver_congr _ _ fun y => ?_
    have e1 : net.map N2 = net.map N := by
      refine List.map_congr_left fun k hk => ?_
      exact (hNk (hN2 k hk)).symm
    rw [e1, ← jointDens_perm (hp2.map N), List.map_append, jointDens_append, hMs.dens]
    rfl

end
/-- The hypotheses hold of the network of the repository's test, with both components summed out and
with one component kept, and the function returns. -/
example : CondVEOK Ex.U Ex.hD Ex.hV [0] [0, 1, 3] 4 ∧ CondVEOK Ex.U Ex.hD Ex.hV [0] [0, 3] 4 ∧
    calMsysByCondVE Ex.hD Ex.hV [0] [0, 1, 3] 4 =
      .ok { vars := [Ex.U 4], noChild := 1, C := [[0], [1]], p := [9/200, 117/200] } ∧
    calMsysByCondVE Ex.hD Ex.hV [0] [0, 3] 4 =
      .ok { vars := [Ex.U 1, Ex.U 4], noChild := 2, C := [[0, 0], [1, 1]], p := [9/200, 117/200] } :=
  ⟨Ex.hD_ok, Ex.hD_joint_ok, by decide +kernel, by decide +kernel⟩

/-- Two conditioning variables that are both parents of the components: `ValueError`, although the
hypotheses hold and plain variable elimination gives the distribution. -/
theorem C70_not_two_conditions :
    CondVEOK Ex.U Ex.hD6 Ex.hV [0, 5] [0, 5, 1, 3] 4 ∧
    calMsysByCondVE Ex.hD6 Ex.hV [0, 5] [0, 5, 1, 3] 4 = .error .value ∧
    variableElim (Ex.hD6.map Prod.snd) [Ex.U 0, Ex.U 5, Ex.U 1, Ex.U 3] =
      .ok { vars := [Ex.U 4], noChild := 1, C := [[0], [1]], p := [19/1000, 759/1000] } :=
  ⟨Ex.hD6_ok, by decide +kernel, by decide +kernel⟩

/-- Two components with a common parent that is summed out: `AssertionError`, although the hypotheses
hold and plain variable elimination gives the distribution. -/
theorem C70_not_shared_parent :
    CondVEOK Ex.U Ex.hD5 Ex.hV [0] [0, 5, 1, 3] 4 ∧
    calMsysByCondVE Ex.hD5 Ex.hV [0] [0, 5, 1, 3] 4 = .error .assertion ∧
    ∃ Q, variableElim (Ex.hD5.map Prod.snd) [Ex.U 0, Ex.U 5, Ex.U 1, Ex.U 3] = .ok Q ∧
      Q.vars = [Ex.U 4] ∧ Q.p = [147/2000, 999/2000] := by
  refine ⟨Ex.hD5_ok, by decide +kernel,
    { vars := [Ex.U 4], noChild := 1, C := [[0], [1]], p := [147/2000, 999/2000] },
    by decide +kernel, rfl, rfl⟩

/-- A conditioning variable that is a parent of the system too and is listed in `ve_order` is counted
twice, silently: the two probabilities returned are not the sums of the joint probabilities and do
not add up to one.  Not listed in `ve_order`, it raises `AssertionError`. -/
theorem C70_not_direct_parent :
    (∃ R, calMsysByCondVE Ex.hD2 Ex.hV [0] [0, 1] 4 = .ok R ∧ R.vars = [Ex.U 4] ∧
      R.C = [[0], [1]] ∧ R.p = [139/1000, 441/1000]) ∧
    (∀ s : Fin 2, sumOver [(0, 2), (1, 2)] (jointDens (Ex.hD2.map Prod.snd))
      (fun k => if k = 4 then s.1 else 0) = if s = 0 then 37/100 else 63/100) ∧
    calMsysByCondVE Ex.hD2 Ex.hV [0] [1] 4 = .error .assertion := by
  refine ⟨⟨{ vars := [Ex.U 4], noChild := 1, C := [[0], [1]], p := [139/1000, 441/1000] },
    by decide +kernel, rfl, rfl, rfl⟩, by decide +kernel, by decide +kernel⟩

/-- A component that is a parent of another component: nothing is raised and the probabilities
returned are wrong. -/
theorem C70_not_dependent_components :
    (∃ R, calMsysByCondVE Ex.hD4 Ex.hV [0] [0, 1, 3] 4 = .ok R ∧ R.vars = [Ex.U 4] ∧
      R.C = [[0], [1]] ∧ R.p = [51/100, 49/100]) ∧
    ∀ s : Fin 2, sumOver [(0, 2), (1, 2), (3, 2)] (jointDens (Ex.hD4.map Prod.snd))
      (fun k => if k = 4 then s.1 else 0) = if s = 0 then 29/50 else 21/50 := by
  refine ⟨⟨{ vars := [Ex.U 4], noChild := 1, C := [[0], [1]], p := [51/100, 49/100] },
    by decide +kernel, rfl, rfl, rfl⟩, by decide +kernel⟩

/-- A parent of the system that is kept and depends on a variable of `ve_order`: the variable 5,
which was to be summed out, is in the result; adding up over it does not give the distribution
either. -/
theorem C70_not_joint_with_parent :
    (∃ R, calMsysByCondVE Ex.hD5 Ex.hV [0] [0, 5, 3] 4 = .ok R ∧
      R.vars = [Ex.U 1, Ex.U 4, Ex.U 5] ∧ R.C = [[0, 0, 0], [1, 1, 0], [0, 0, 1], [1, 1, 1]] ∧
      R.p = [387/10000, 5517/10000, 387/5000, 613/1250]) ∧
    ∀ s : Fin 2, sumOver [(0, 2), (5, 2), (3, 2)] (jointDens (Ex.hD5.map Prod.snd))
      (fun k => if k = 4 ∨ k = 1 then s.1 else 0) = if s = 0 then 147/2000 else 999/2000 := by
  refine ⟨⟨
    { vars := [Ex.U 1, Ex.U 4, Ex.U 5], noChild := 2
      C := [[0, 0, 0], [1, 1, 0], [0, 0, 1], [1, 1, 1]]
      p := [387/10000, 5517/10000, 387/5000, 613/1250] }, by decide +kernel, rfl, rfl, rfl⟩,
    by decide +kernel⟩

/-- When a kept component has no row for a state that is impossible under one hazard, the outcome
depends on the order of the hazards: a state impossible under the second hazard is no problem, the
mirrored network raises `ValueError`.  An empty list of conditioning variables raises
`AssertionError`, and keeping all components `IndexError`. -/
theorem C70_not_row_order :
    (∃ R, calMsysByCondVE [(0, Ex.hHaz), (1, Ex.hX0s), (3, Ex.hX1), (4, Ex.hSys)] Ex.hV [0] [0, 3] 4 =
      .ok R ∧ R.C = [[0, 0], [1, 1]] ∧ R.p = [21/1000, 621/1000]) ∧
    calMsysByCondVE [(0, Ex.hHaz), (1, Ex.hX0t), (3, Ex.hX1), (4, Ex.hSys)] Ex.hV [0] [0, 3] 4 =
      .error .value ∧
    calMsysByCondVE Ex.hD Ex.hV [] [0, 1, 3] 4 = .error .assertion ∧
    calMsysByCondVE Ex.hD Ex.hV [0] [] 4 = .error .index := by
  refine ⟨⟨
    { vars := [Ex.U 1, Ex.U 4], noChild := 2, C := [[0, 0], [1, 1]], p := [21/1000, 621/1000] }, by decide +kernel, rfl, rfl⟩, by decide +kernel, by decide +kernel,
    by decide +kernel⟩

end BNS
