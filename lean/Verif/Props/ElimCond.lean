import Verif.Proofs.ElimCond
import Verif.Props.Elim
import Verif.Examples.Cpm

/-!
# Property C57: conditional variable elimination equals variable elimination

And what any successful `variable_elim` returns (C15).
-/

namespace BNS

set_option linter.unusedSectionVars false

variable {K : Type} [LinearOrder K] {U : K → Variable K}

/-- Whenever `variable_elim` returns, on any network, covered or not, connected or not, its result is
the brute-force marginal. -/
theorem C15_whenever_it_returns (cpms : List (Cpm K)) (ve : List (Variable K)) (P : Cpm K)
    (hnet : NetOK U cpms) (hn : (ve.map Variable.name).Nodup) (henv : ∀ v ∈ ve, U v.name = v)
    (hdef : ∀ v ∈ ve, ∃ M ∈ cpms, v.name ∈ childNames M) (h : variableElim cpms ve = .ok P) :
    WF U P ∧ ChildBasic P ∧
      (∀ x, dens P x = sumOver (ve.map fun v => (v.name, v.values.length)) (jointDens cpms) x) ∧
      (childNames P).Perm ((cpms.flatMap childNames).filter (· ∉ ve.map Variable.name)) ∧
      (∀ k, k ∈ P.getNames ↔ (∃ M ∈ cpms, k ∈ M.getNames) ∧ k ∉ ve.map Variable.name) := by
  obtain ⟨h1, h2, h3, h4, h5⟩ := variableElim_of_ok hnet hn hdef h
  refine ⟨h1, h2, fun x => ?_, h4, h5⟩
  rw [h3]
  congr 1
  exact List.map_congr_left fun v hv => by rw [henv v hv]

/-- Non-vacuity. -/
example : NetOK Ex.U [Ex.A, Ex.B] ∧ ∃ P, variableElim [Ex.A, Ex.B] [Ex.U 0] = .ok P :=
  ⟨⟨by decide +kernel, by decide +kernel, by decide +kernel⟩, _, rfl⟩

/-- A network with a set of conditioning CPMs: the two sets together are a network; the conditioning
CPMs have disjoint rows and their variables are all defined by them; the variables to eliminate are
defined by the other CPMs. -/
structure CondOK (U : K → Variable K) (cpms : List (Cpm K)) (varis : List (Variable K))
    (cond : List (Cpm K)) : Prop where
  net : NetOK U (cpms ++ cond)
  rows : ∀ M ∈ cond, RowsDisjoint M
  closed : ∀ M ∈ cond, ∀ k ∈ M.getNames, ∃ N ∈ cond, k ∈ childNames N
  nodup : (varis.map Variable.name).Nodup
  env : ∀ v ∈ varis, U v.name = v
  defined : ∀ v ∈ varis, ∃ M ∈ cpms, v.name ∈ childNames M

theorem CondOK.condNet {cpms : List (Cpm K)} {varis : List (Variable K)} {cond : List (Cpm K)}
    (h : CondOK U cpms varis cond) {P : Cpm K} (hP : productList cond = .ok P) :
    CondNet U cpms varis P ∧ ProdSpec U cond P := by
  have hd := List.pairwise_append.1 h.net.disjoint
  have hs := productList_ok (fun M hM => h.net.wf M (by simp [hM])) hd.2.1 hP
  refine ⟨⟨⟨fun M hM => h.net.wf M (by simp [hM]), fun M hM => h.net.basic M (by simp [hM]), hd.1⟩,
    hs.wf, ?_, hs.basic fun M hM => h.net.basic M (by simp [hM]), hs.disjoint h.rows, ?_, h.nodup,
    h.defined⟩, hs⟩
  · intro k hk
    obtain ⟨M, hM, hkM⟩ := (hs.names k).1 hk
    obtain ⟨N, hN, hkN⟩ := h.closed M hM k hkM
    rw [hs.child.mem_iff]
    exact List.mem_flatMap.2 ⟨N, hN, hkN⟩
  · intro M hM k hk hkP
    rw [hs.child.mem_iff] at hkP
    obtain ⟨N, hN, hkN⟩ := List.mem_flatMap.1 hkP
    exact hd.2.2 M hM N hN k hk hkN

/-- Whenever `variable_elim_cond` returns a CPM, it is the brute-force marginal of the whole network:
at every assignment, the sum over the states of the conditioning variables and of the eliminated
variables of the product of all the CPMs, exactly what eliminating all of them at once gives.  Its
variables are the others, its children those of the network that are left.  It returns nothing only
when no variable is left (or the conditioning CPMs cover no assignment).  Missing for the full claim:
that it always returns (`C57_not_row_order`; `C57_returns_iff` in `Props/ElimTotal` says when it does). -/
theorem C57_conditioning_partial (cpms : List (Cpm K)) (varis : List (Variable K))
    (cond : List (Cpm K)) (h : CondOK U cpms varis cond) (cvars : List (Variable K))
    (hcn : (cvars.map Variable.name).Nodup) (hce : ∀ v ∈ cvars, U v.name = v)
    (hcm : ∀ k, k ∈ cvars.map Variable.name ↔ ∃ M ∈ cond, k ∈ M.getNames)
    (res : Option (Cpm K)) (hres : variableElimCond cpms varis cond = .ok res) :
    (res = none → (∃ x, ∀ M ∈ cond, Covers M x) →
      ∀ M ∈ cpms ++ cond, ∀ k ∈ M.getNames, k ∈ (cvars ++ varis).map Variable.name) ∧
    ∀ R, res = some R → WF U R ∧ R.vars ≠ [] ∧
      (∀ x, dens R x = sumOver ((cvars ++ varis).map fun v => (v.name, v.values.length))
        (jointDens (cpms ++ cond)) x) ∧
      (childNames R).Perm (((cpms ++ cond).flatMap childNames).filter
        (· ∉ (cvars ++ varis).map Variable.name)) ∧
      (∀ k, k ∈ R.getNames ↔ (∃ M ∈ cpms ++ cond, k ∈ M.getNames) ∧
        k ∉ (cvars ++ varis).map Variable.name) := by
  unfold variableElimCond at hres
  simp only [bind_ok] at hres
  obtain ⟨P, hP, hres⟩ := hres
  obtain ⟨hc, hs⟩ := h.condNet hP
  have hPm : ∀ k, k ∈ P.getNames ↔ k ∈ cvars.map Variable.name := fun k => by rw [hs.names, hcm]
  have hcN : ∀ k, k ∈ firstOccOn id (cond.flatMap fun M => M.getNames) ↔ k ∈ P.getNames := by
    intro k
    rw [hs.names]
    have hmem : ∀ l : List K, ∀ k, k ∈ firstOccOn id l ↔ k ∈ l := by
      intro l
      induction l with
      | nil => simp [firstOccOn]
      | cons a l ih =>
        intro k
        simp only [firstOccOn, List.mem_cons, List.mem_filter, ih]
        by_cases hka : k = a
        · simp [hka]
        · simp [hka]
    rw [hmem, List.mem_flatMap]
  have hcperm : P.getNames.Perm (cvars.map Variable.name) :=
    (List.perm_ext_iff_of_nodup hc.wf.nodup hcn).2 hPm
  have hvn := hc.varis_not
  rcases loop_none hc hcN (fun cx hcx => hcx) hres with ⟨rfl, hall⟩ | ⟨R, rfl, r1, r2, r3, r4, r5⟩
  · refine ⟨fun _ hcov M hM k hk => ?_, fun R hR => by cases hR⟩
    have hne : P.C ≠ [] := by
      obtain ⟨x, hx⟩ := hcov
      obtain ⟨r, hr, -⟩ := (hs.covers x).2 hx
      exact List.ne_nil_of_mem hr
    rw [List.map_append, List.mem_append]
    rcases List.mem_append.1 hM with hM | hM
    · rcases hall hne k ⟨M, hM, hk⟩ with h1 | h1
      · exact .inr h1
      · exact .inl ((hPm k).1 h1)
    · exact .inl ((hcm k).2 ⟨M, hM, hk⟩)
  · refine ⟨fun h0 => (by cases h0), fun R' hR' => ?_⟩
    cases hR'
    refine ⟨r1, r2, fun x => ?_, ?_, fun k => ?_⟩
    · rw [r5, sum_rowPart hc]
      have hsz : ((cvars ++ varis).map fun v => (v.name, v.values.length)) =
          sizes U ((cvars ++ varis).map Variable.name) := by
        unfold sizes
        rw [List.map_map]
        refine List.map_congr_left fun v hv => ?_
        have : U v.name = v := by
          rcases List.mem_append.1 hv with hv | hv
          · exact hce v hv
          · exact h.env v hv
        simp only [Function.comp, this]
      rw [hsz, List.map_append]
      have hperm : (sizes U (P.getNames ++ varis.map Variable.name)).Perm
          (sizes U (cvars.map Variable.name ++ varis.map Variable.name)) :=
        (hcperm.append_right _).map _
      rw [sumOver_perm hperm]
      · refine sumOver_congr _ _ fun y => ?_
        rw [jointDens_append, hs.dens]
        rfl
      · rw [sizes_fst, List.nodup_append]
        exact ⟨hc.wf.nodup, h.nodup, fun a ha b hb e => hvn b hb (e ▸ ha)⟩
    · rw [List.flatMap_append, List.filter_append]
      have e1 : (cond.flatMap childNames).filter
          (fun k => decide (k ∉ (cvars ++ varis).map Variable.name)) = [] := by
        rw [List.filter_eq_nil_iff]
        intro k hk
        obtain ⟨N, hN, hkN⟩ := List.mem_flatMap.1 hk
        have : k ∈ cvars.map Variable.name := (hcm k).2 ⟨N, hN, by
          rw [getNames_eq]; exact List.mem_append.2 (.inl hkN)⟩
        rw [List.map_append, decide_eq_true_eq, not_not]
        exact List.mem_append.2 (.inl this)
      rw [e1, List.append_nil]
      refine r3.trans (List.Perm.of_eq (List.filter_congr fun k hk => ?_))
      obtain ⟨N, hN, hkN⟩ := List.mem_flatMap.1 hk
      have : k ∉ cvars.map Variable.name := fun hc' =>
        hc.disj N hN k hkN (hc.child k ((hPm k).2 hc'))
      rw [List.map_append]
      simp only [List.mem_append, this, false_or]
    · rw [r4, hPm, List.map_append]
      simp only [List.mem_append, not_or]
      constructor
      · rintro ⟨⟨N, hN, hk⟩, h1, h2⟩
        exact ⟨⟨N, .inl hN, hk⟩, h2, h1⟩
      · rintro ⟨⟨N, hN | hN, hk⟩, h2, h1⟩
        · exact ⟨⟨N, hN, hk⟩, h1, h2⟩
        · exact absurd ((hcm k).2 ⟨N, hN, hk⟩) h2

/-- So it agrees with `variable_elim` on the whole network, whenever both return. -/
theorem C57_same_as_elimination (cpms : List (Cpm K)) (varis : List (Variable K))
    (cond : List (Cpm K)) (h : CondOK U cpms varis cond) (cvars : List (Variable K))
    (hcn : (cvars.map Variable.name).Nodup) (hce : ∀ v ∈ cvars, U v.name = v)
    (hcm : ∀ k, k ∈ cvars.map Variable.name ↔ ∃ M ∈ cond, k ∈ M.getNames)
    (R Q : Cpm K) (hR : variableElimCond cpms varis cond = .ok (some R))
    (hQ : variableElim (cpms ++ cond) (cvars ++ varis) = .ok Q) :
    (∀ x, dens R x = dens Q x) ∧ (childNames R).Perm (childNames Q) ∧
      ∀ k, k ∈ R.getNames ↔ k ∈ Q.getNames := by
  obtain ⟨-, -, r1, r2, r3⟩ := (C57_conditioning_partial cpms varis cond h cvars hcn hce hcm _ hR).2
    R rfl
  have hdef : ∀ v ∈ cvars ++ varis, ∃ M ∈ cpms ++ cond, v.name ∈ childNames M := by
    intro v hv
    rcases List.mem_append.1 hv with hv | hv
    · obtain ⟨M, hM, hk⟩ := (hcm v.name).1 (List.mem_map_of_mem hv)
      obtain ⟨N, hN, hk⟩ := h.closed M hM _ hk
      exact ⟨N, by simp [hN], hk⟩
    · obtain ⟨M, hM, hk⟩ := h.defined v hv
      exact ⟨M, by simp [hM], hk⟩
  have hnd : ((cvars ++ varis).map Variable.name).Nodup := by
    rw [List.map_append, List.nodup_append]
    refine ⟨hcn, h.nodup, fun a ha b hb e => ?_⟩
    obtain ⟨v, hv, rfl⟩ := List.mem_map.1 hb
    obtain ⟨M, hM, hk⟩ := h.defined v hv
    obtain ⟨M', hM', hk'⟩ := (hcm a).1 ha
    obtain ⟨N, hN, hkN⟩ := h.closed M' hM' _ hk'
    rw [e] at hkN
    exact (List.pairwise_append.1 h.net.disjoint).2.2 M hM N hN _ hk hkN
  have henv : ∀ v ∈ cvars ++ varis, U v.name = v := by
    intro v hv
    rcases List.mem_append.1 hv with hv | hv
    · exact hce v hv
    · exact h.env v hv
  obtain ⟨-, -, q1, q2, q3⟩ := C15_whenever_it_returns _ _ Q h.net hnd henv hdef hQ
  exact ⟨fun x => by rw [r1, q1], r2.trans q2.symm, fun k => by rw [r3, q3]⟩

namespace Ex

/-- A series system 1 of the components 0 and 3: it works when both work. -/
def seriesCpm : Cpm ℕ :=
  { vars := [Ex.U 1, Ex.U 0, Ex.U 3], noChild := 1, C := [[0, 0, 2], [0, 1, 0], [1, 1, 1]], p := [1, 1, 1] }
def comp3 : Cpm ℕ := { vars := [Ex.U 3], noChild := 1, C := [[0], [1]], p := [1/5, 4/5] }
/-- The CPM `A` of component 0 with its rows the other way round. -/
def A' : Cpm ℕ := { vars := [Ex.U 0], noChild := 1, C := [[1], [0]], p := [9/10, 1/10] }

theorem seriesCpm_ok (M : Cpm ℕ) (hM : M = A ∨ M = A') : CondOK Ex.U [comp3, seriesCpm] [Ex.U 3] [M] where
  net := by
    rcases hM with rfl | rfl
    · exact ⟨by decide +kernel, by decide +kernel, by decide +kernel⟩
    · exact ⟨by decide +kernel, by decide +kernel, by decide +kernel⟩
  rows := by
    have key : ∀ (a b : ℕ), a ≠ b → a < 2 → b < 2 → ∀ x : ℕ → ℕ,
        ¬ (RowMatches [Ex.U 0] [a] x ∧ RowMatches [Ex.U 0] [b] x) := by
      intro a b hab ha hb x hx
      have h0 : (Ex.U 0).B = some (genB (Ex.U 0).values.length) := by decide +kernel
      have hl : (Ex.U 0).values.length = 2 := by decide +kernel
      have h1 := hx.1 (Ex.U 0, a) (by simp)
      have h2 := hx.2 (Ex.U 0, b) (by simp)
      simp only at h1 h2
      rw [stateSet_basic h0 (by omega), Finset.mem_singleton] at h1
      rw [stateSet_basic h0 (by omega), Finset.mem_singleton] at h2
      omega
    intro N hN
    rw [List.mem_singleton] at hN
    subst hN
    rcases hM with rfl | rfl
    · unfold RowsDisjoint
      simp only [A, List.pairwise_cons, List.mem_singleton, forall_eq, List.not_mem_nil,
        false_imp_iff, implies_true, List.Pairwise.nil, and_true]
      exact key 0 1 (by omega) (by omega) (by omega)
    · unfold RowsDisjoint
      simp only [A', List.pairwise_cons, List.mem_singleton, forall_eq, List.not_mem_nil,
        false_imp_iff, implies_true, List.Pairwise.nil, and_true]
      exact key 1 0 (by omega) (by omega) (by omega)
  closed := by
    rcases hM with rfl | rfl
    · decide +kernel
    · decide +kernel
  nodup := by decide +kernel
  env := by decide +kernel
  defined := by decide +kernel

end Ex

/-- It may raise on an ordinary network, depending on the order of the rows.  Two components in
series, conditioning on one of them: with the row of the working state first the survival
probability 18/25 comes out; with the row of the failed state first, the same network raises
`ValueError`, because only the working state makes the row "system works" appear and `merge` refuses
rows that the first CPM does not have. -/
theorem C57_not_row_order :
    (∀ x, dens Ex.A x = dens Ex.A' x) ∧
    CondOK Ex.U [Ex.comp3, Ex.seriesCpm] [Ex.U 3] [Ex.A] ∧
    CondOK Ex.U [Ex.comp3, Ex.seriesCpm] [Ex.U 3] [Ex.A'] ∧
    (∃ R, variableElimCond [Ex.comp3, Ex.seriesCpm] [Ex.U 3] [Ex.A'] = .ok (some R) ∧
      R.vars = [Ex.U 1] ∧ R.C = [[0], [1]] ∧ R.p = [7/25, 18/25]) ∧
    variableElimCond [Ex.comp3, Ex.seriesCpm] [Ex.U 3] [Ex.A] = .error .value ∧
    ∃ Q, variableElim ([Ex.comp3, Ex.seriesCpm] ++ [Ex.A]) ([Ex.U 0] ++ [Ex.U 3]) = .ok Q ∧
      Q.C = [[0], [1]] ∧ Q.p = [7/25, 18/25] := by
  refine ⟨fun x => ?_, Ex.seriesCpm_ok _ (.inl rfl), Ex.seriesCpm_ok _ (.inr rfl), ?_, by decide +kernel, ?_⟩
  · simp only [dens, Ex.A, Ex.A', List.zip_cons_cons, List.zip_nil_right, List.map_cons,
      List.map_nil, List.sum_cons, List.sum_nil, add_zero]
    rw [add_comm]
    rfl
  · refine ⟨{ vars := [Ex.U 1], noChild := 1, C := [[0], [1]], p := [7/25, 18/25] },
      by decide +kernel, rfl, rfl, rfl⟩
  · refine ⟨{ vars := [Ex.U 1], noChild := 1, C := [[0], [1]], p := [7/25, 18/25] },
      by decide +kernel, rfl, rfl⟩

end BNS
