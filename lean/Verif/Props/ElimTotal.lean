import Verif.Proofs.ElimTotal
import Verif.Props.ElimCond

/-!
# Property C57: exactly when conditional variable elimination returns
-/

namespace BNS

set_option linter.unusedSectionVars false

variable {K : Type} [LinearOrder K] {U : K → Variable K}

/-- What `variable_elim_cond` needs to get through every conditioning row: no CPM without variables,
every variable defined by one of the CPMs, the variables to eliminate connected to one that stays, and
every row of the product `P` of the conditioning CPMs possible in the network. -/
structure CondTotOK (U : K → Variable K) (cpms : List (Cpm K)) (varis : List (Variable K))
    (cond : List (Cpm K)) (P : Cpm K) : Prop where
  ok : CondOK U cpms varis cond
  prod : productList cond = .ok P
  ne : cpms ≠ []
  scope : ∀ M ∈ cpms ++ cond, M.vars ≠ []
  closed : ∀ M ∈ cpms, ∀ k ∈ M.vars.map Variable.name, ∃ N ∈ cpms ++ cond, k ∈ childNames N
  linked : ∀ v ∈ varis, Linked cpms (fun k => k ∉ varis.map Variable.name) v.name
  covered : ∀ cx ∈ P.C, ∃ z, RowMatches P.vars cx z ∧ ∀ M ∈ cpms, Covers M z

/-- The first conditioning row dominates the others: whatever the network covers together with some
conditioning row it covers, with the same states of the variables left, together with the first. -/
def FirstRowDominates (cpms : List (Cpm K)) (varis : List (Variable K)) (P : Cpm K) : Prop :=
  ∀ cx0 ∈ P.C.head?, ∀ cx ∈ P.C, ∀ z, RowMatches P.vars cx z → (∀ M ∈ cpms, Covers M z) →
    ∃ z', (∀ k, k ∉ varis.map Variable.name → k ∉ P.vars.map Variable.name → z' k = z k) ∧
      RowMatches P.vars cx0 z' ∧ ∀ M ∈ cpms, Covers M z'

theorem CondTotOK.condTot {cpms : List (Cpm K)} {varis : List (Variable K)} {cond : List (Cpm K)}
    {P : Cpm K} (h : CondTotOK U cpms varis cond P) : CondTot U cpms varis P := by
  obtain ⟨hc, hs⟩ := h.ok.condNet h.prod
  refine ⟨hc, h.ne, fun M hM => h.scope M (by simp [hM]), ?_, h.ok.env, h.linked, h.covered, ?_⟩
  · intro e
    have hne : cond ≠ [] := by
      rintro rfl
      have := h.prod
      cases this
    obtain ⟨N, hN⟩ := List.exists_mem_of_ne_nil _ hne
    obtain ⟨w, hw⟩ := List.exists_mem_of_ne_nil _ (h.scope N (by simp [hN]))
    have := (hs.names w.name).2 ⟨N, hN, List.mem_map_of_mem hw⟩
    simp [Cpm.getNames, e] at this
  · intro M hM k hk
    obtain ⟨N, hN, hkN⟩ := h.closed M hM k hk
    rcases List.mem_append.1 hN with hN | hN
    · exact .inl ⟨N, hN, hkN⟩
    · refine .inr ((hs.names k).2 ⟨N, hN, ?_⟩)
      rw [getNames_eq]; exact List.mem_append.2 (.inl hkN)

/-- `variable_elim_cond` returns exactly when the first conditioning row dominates the others;
otherwise it raises `ValueError`. -/
theorem C57_returns_iff (cpms : List (Cpm K)) (varis : List (Variable K)) (cond : List (Cpm K))
    (P : Cpm K) (h : CondTotOK U cpms varis cond P) :
    (FirstRowDominates cpms varis P → ∃ res, variableElimCond cpms varis cond = .ok res) ∧
    (¬ FirstRowDominates cpms varis P → variableElimCond cpms varis cond = .error .value) := by
  have ht := h.condTot
  obtain ⟨hc, hs⟩ := h.ok.condNet h.prod
  set cNames := firstOccOn id (cond.flatMap fun M => M.getNames) with hcNames
  have hn : cNames.Nodup := by
    have := firstOccOn_nodup (id : K → K) (cond.flatMap fun M => M.getNames)
    rwa [List.map_id] at this
  have hcN : ∀ k, k ∈ cNames ↔ k ∈ P.getNames := by
    intro k
    have := mem_firstOccOn_key (id : K → K) (cond.flatMap fun M => M.getNames) k
    rw [List.map_id, List.map_id] at this
    rw [hs.names, this, List.mem_flatMap]
  have hrun : variableElimCond cpms varis cond = elimCondLoop cpms varis cNames P P.C none none := by
    unfold variableElimCond
    rw [h.prod, ok_bind]
  rw [hrun]
  have hF : ∀ cx, ∃ M, cx ∈ P.C → RowRes U cpms varis P cx M := by
    intro cx
    by_cases hcx : cx ∈ P.C
    · obtain ⟨M, hM⟩ := exists_row ht hcx
      exact ⟨M, fun _ => hM⟩
    · exact ⟨P, fun h => absurd h hcx⟩
  choose F hF using hF
  unfold FirstRowDominates
  cases hP : P.C with
  | nil =>
    refine ⟨fun _ => ⟨none, rfl⟩, fun hno => absurd ?_ hno⟩
    intro cx0 hcx0
    simp at hcx0
  | cons cx0 rest =>
    have hmem : ∀ cx ∈ cx0 :: rest, cx ∈ P.C := fun cx hcx => hP ▸ hcx
    have h0 := hF cx0 (hmem cx0 (by simp))
    have hsame : ∀ cx ∈ cx0 :: rest, keepIdx (F cx) cNames = keepIdx (F cx0) cNames ∧
        keepVars (F cx) cNames = keepVars (F cx0) cNames := fun cx hcx =>
      keep_same (row_same ht (hmem cx hcx) (hmem cx0 (by simp)) (hF cx (hmem cx hcx)) h0) cNames
    -- the rows of one part against those of the first, in terms of the network
    have hdom : ∀ cx ∈ cx0 :: rest, (∀ r ∈ (dropCols (F cx) cNames).C,
        r ∈ (dropCols (F cx0) cNames).C) ↔ ∀ z, RowMatches P.vars cx z → (∀ M ∈ cpms, Covers M z) →
        ∃ z', (∀ k, k ∉ varis.map Variable.name → k ∉ P.vars.map Variable.name → z' k = z k) ∧
          RowMatches P.vars cx0 z' ∧ ∀ M ∈ cpms, Covers M z' := by
      intro cx hcx
      have h1 := hF cx (hmem cx hcx)
      have hkv : ∀ {x x' : K → ℕ}, ((keepVars (F cx) cNames).map fun v => x v.name) =
          ((keepVars (F cx0) cNames).map fun v => x' v.name) ↔
          ∀ N ∈ cpms, ∀ k ∈ N.getNames, k ∉ varis.map Variable.name → k ∉ P.getNames → x k = x' k := by
        intro x x'
        rw [(hsame cx hcx).2, List.map_inj_left]
        have hk : ∀ k, k ∈ (keepVars (F cx0) cNames).map Variable.name ↔
            (∃ N ∈ cpms, k ∈ N.getNames) ∧ k ∉ varis.map Variable.name ∧ k ∉ P.getNames := by
          intro k
          rw [mem_keepVars, hcN, h0.spec.names]
          generalize (∃ N ∈ cpms, k ∈ N.getNames) = a
          by_cases hb : k ∈ P.getNames <;> simp [hb]
        constructor
        · intro hx N hN k hkN k1 k2
          obtain ⟨v, hv, rfl⟩ := List.mem_map.1 ((hk k).2 ⟨⟨N, hN, hkN⟩, k1, k2⟩)
          exact hx v hv
        · intro hx v hv
          obtain ⟨⟨N, hN, k0⟩, k1, k2⟩ := (hk v.name).1 (List.mem_map_of_mem hv)
          exact hx N hN _ k0 k1 k2
      constructor
      · intro hsub z hz hzc
        have hcovz : Covers (F cx) z := (h1.covers z).2 ⟨hz, z, hzc, fun k _ => rfl⟩
        obtain ⟨x', hx', he⟩ := (drop_rows ht h0 _).1
          (hsub _ ((drop_rows ht h1 _).2 ⟨z, hcovz, rfl⟩))
        obtain ⟨hm, y, hy, hyx⟩ := (h0.covers x').1 hx'
        have hzx := hkv.1 he
        refine ⟨fun k => if k ∈ varis.map Variable.name ∨ k ∈ P.getNames then y k else z k,
          fun k k1 k2 => ?_, ?_, fun M hM => ?_⟩
        · have : ¬ (k ∈ varis.map Variable.name ∨ k ∈ P.getNames) := by
            rw [not_or]; exact ⟨k1, k2⟩
          simp only [this, if_false]
        · refine (rowMatches_congr fun k hk => ?_).1 hm
          have hkP : k ∈ P.getNames := hk
          simp only [hkP, or_true, if_true]
          exact (hyx k fun hv => hc.varis_not k hv hkP).symm
        · refine (covers_congr fun k hk => ?_).1 (hy M hM)
          by_cases hcase : k ∈ varis.map Variable.name ∨ k ∈ P.getNames
          · simp only [hcase, if_true]
          · simp only [hcase, if_false]
            rw [not_or] at hcase
            rw [hyx k hcase.1, hzx M hM k hk hcase.1 hcase.2]
      · intro hz r hr
        obtain ⟨x, hx, rfl⟩ := (drop_rows ht h1 r).1 hr
        obtain ⟨hm, y, hy, hyx⟩ := (h1.covers x).1 hx
        have hmy : RowMatches P.vars cx y := (rowMatches_congr fun k hk =>
          hyx k fun hv => hc.varis_not k hv hk).2 hm
        obtain ⟨z', z1, z2, z3⟩ := hz y hmy hy
        refine (drop_rows ht h0 _).2 ⟨z', (h0.covers z').2 ⟨z2, z', z3, fun k _ => rfl⟩, ?_⟩
        refine hkv.2 fun N _ k _ k1 k2 => ?_
        rw [z1 k k1 k2, hyx k k1]
    by_cases hk : keepIdx (F cx0) cNames = []
    · -- no column is left
      have hno : ∀ rows : List (List ℕ), (∀ cx ∈ rows, cx ∈ cx0 :: rest) →
          elimCondLoop cpms varis cNames P rows none none = .ok none := by
        intro rows
        induction rows with
        | nil => intro _; rfl
        | cons cx rows ih =>
          intro hr
          have := row_eval ht hn hcN (hmem cx (hr cx (by simp))) (hF cx (hmem cx (hr cx (by simp))))
            (idv := none) (.inl rfl)
          rw [(hsame cx (hr cx (by simp))).1, if_pos hk] at this
          rw [elimCondLoop, this, ok_bind]
          exact ih fun c hc => hr c (by simp [hc])
      have hV : keepVars (F cx0) cNames = [] := by
        have hk0 := keep_take h0.spec.wf (cNames := cNames) fun k hk => by
          rw [h0.spec.names]; exact .inr ((hcN k).1 hk)
        rw [hk] at hk0
        have h00 : takeRows (F cx0).vars [] = .ok [] := rfl
        rw [h00] at hk0
        exact (Except.ok.inj hk0).symm
      refine ⟨fun _ => ⟨none, hno _ fun cx hcx => hcx⟩, fun hbad => absurd ?_ hbad⟩
      intro cx0' hcx0' cx hcx
      rw [List.head?_cons, Option.mem_some_iff] at hcx0'
      subst hcx0'
      refine (hdom cx hcx).1 fun r hr => ?_
      obtain ⟨x, -, rfl⟩ := (drop_rows ht (hF cx (hmem cx hcx)) r).1 hr
      obtain ⟨z, hz, hzc⟩ := ht.covered _ (hmem _ (by simp : cx0 ∈ cx0 :: rest))
      refine (drop_rows ht h0 _).2 ⟨z, (h0.covers z).2 ⟨hz, z, hzc, fun k _ => rfl⟩, ?_⟩
      rw [(hsame cx hcx).2, hV]
      rfl
    · have hrow := row_eval ht hn hcN (hmem cx0 (by simp)) h0 (idv := none) (.inl rfl)
      rw [if_neg hk] at hrow
      have hstep : elimCondLoop cpms varis cNames P (cx0 :: rest) none none =
          elimCondLoop cpms varis cNames P rest (some (keepIdx (F cx0) cNames))
            (some (dropCols (F cx0) cNames)) := by
        rw [elimCondLoop, hrow, ok_bind]
      rw [hstep]
      obtain ⟨l1, l2⟩ := loop_total ht hn hcN hk (V := keepVars (F cx0) cNames) (F := F) rest
        (fun cx hcx => ⟨hmem cx (by simp [hcx]), hF cx (hmem cx (by simp [hcx])),
          (hsame cx (by simp [hcx])).1, (hsame cx (by simp [hcx])).2⟩)
        (drop_spec ht hn hcN h0).wf rfl
      constructor
      · intro hall
        obtain ⟨R, hR⟩ := l1 fun cx hcx => (hdom cx (by simp [hcx])).2
          (hall cx0 (by simp) cx (by simp [hcx]))
        exact ⟨_, hR⟩
      · intro hbad
        refine l2 ?_
        by_contra hcon
        push Not at hcon
        refine hbad fun cx0' hcx0' cx hcx => ?_
        rw [List.head?_cons, Option.mem_some_iff] at hcx0'
        subst hcx0'
        refine (hdom cx hcx).1 ?_
        rcases List.mem_cons.1 hcx with rfl | hcx
        · exact fun r hr => hr
        · exact hcon cx hcx

/-- With tables that list every combination of states (rows of probability zero included) it always
returns, in any order of the conditioning rows. -/
theorem C57_complete_tables (cpms : List (Cpm K)) (varis : List (Variable K)) (cond : List (Cpm K))
    (P : Cpm K) (h : CondOK U cpms varis cond) (hP : productList cond = .ok P) (hne : cpms ≠ [])
    (hscope : ∀ M ∈ cpms ++ cond, M.vars ≠ [])
    (hclosed : ∀ M ∈ cpms, ∀ k ∈ M.vars.map Variable.name, ∃ N ∈ cpms ++ cond, k ∈ childNames N)
    (hlinked : ∀ v ∈ varis, Linked cpms (fun k => k ∉ varis.map Variable.name) v.name)
    (hvals : ∀ M ∈ cpms, ∀ v ∈ M.vars, v.values ≠ [])
    (hfull : ∀ M ∈ cpms, ∀ x : K → ℕ, (∀ v ∈ M.vars, x v.name < v.values.length) → Covers M x) :
    ∃ res, variableElimCond cpms varis cond = .ok res := by
  obtain ⟨hc, hs⟩ := h.condNet hP
  have hbasic : ∀ cx ∈ P.C, ∀ v ∈ P.vars, val P.getNames cx v.name < v.values.length := by
    intro cx hcx v hv
    have hv' : v ∈ P.vars.take P.noChild := by
      obtain ⟨w, hw, hwe⟩ := List.mem_map.1 (hc.child _ (List.mem_map_of_mem hv))
      have : w = v := by
        rw [← hc.wf.env w (List.mem_of_mem_take hw), ← hc.wf.env v hv, hwe]
      rw [← this]; exact hw
    exact (childBasic_iff hc.wf).1 hc.basic cx hcx v hv'
  have hmatch : ∀ cx ∈ P.C, ∀ x : K → ℕ, RowMatches P.vars cx x ↔
      ∀ v ∈ P.vars, x v.name = val P.getNames cx v.name := by
    intro cx hcx x
    rw [rowMatches_iff hc.wf.nodup (hc.wf.rowLen cx hcx)]
    refine forall₂_congr fun v hv => ?_
    rw [show P.vars.map Variable.name = P.getNames from rfl,
      stateSet_basic (hc.wf.table v hv) (hbasic cx hcx v hv), Finset.mem_singleton]
  -- put a conditioning row into an assignment the network covers
  have hput : ∀ cx ∈ P.C, ∀ z : K → ℕ, (∀ M ∈ cpms, ∀ v ∈ M.vars, z v.name < v.values.length) →
      RowMatches P.vars cx (fun k => if k ∈ P.getNames then val P.getNames cx k else z k) ∧
      ∀ M ∈ cpms, Covers M (fun k => if k ∈ P.getNames then val P.getNames cx k else z k) := by
    intro cx hcx z hz
    refine ⟨(hmatch cx hcx _).2 fun v hv => ?_, fun M hM => hfull M hM _ fun v hv => ?_⟩
    · have : v.name ∈ P.getNames := List.mem_map_of_mem hv
      simp only [this, if_true]
    · by_cases hk : v.name ∈ P.getNames
      · simp only [hk, if_true]
        obtain ⟨w, hw, hwe⟩ := List.mem_map.1 hk
        have : w = v := by
          rw [← hc.wf.env w hw, ← (hc.net.wf M hM).env v hv, hwe]
        exact hbasic cx hcx v (this ▸ hw)
      · simp only [hk, if_false]
        exact hz M hM v hv
  refine (C57_returns_iff cpms varis cond P ⟨h, hP, hne, hscope, hclosed, hlinked, fun cx hcx => ?_⟩).1
    fun cx0 hcx0 cx hcx z _ hzc => ?_
  · exact ⟨_, hput cx hcx (fun _ => 0) fun M hM v hv =>
      List.length_pos_iff.2 (hvals M hM v hv)⟩
  · refine ⟨_, fun k _ hk => ?_, hput cx0 (List.mem_of_mem_head? hcx0) z fun M hM v hv => ?_⟩
    · have : k ∉ P.getNames := hk
      simp only [this, if_false]
    · obtain ⟨r, hr, hm⟩ := hzc M hM
      have hW := hc.net.wf M hM
      have := (rowMatches_iff hW.nodup (hW.rowLen r hr) z).1 hm v hv
      exact (mem_genB.1 (mem_genB_stateSet (hW.table v hv) (hW.entry_lt hr hv))).2 _ this

namespace Ex

theorem series_tot (M : Cpm ℕ) (hM : M = A ∨ M = A') :
    CondTotOK Ex.U [comp3, seriesCpm] [Ex.U 3] [M] M where
  ok := seriesCpm_ok M hM
  prod := rfl
  ne := by simp
  scope := by rcases hM with rfl | rfl <;> decide +kernel
  closed := by rcases hM with rfl | rfl <;> decide +kernel
  linked := by
    intro v hv
    refine ⟨1, by decide +kernel, .single ⟨seriesCpm, by simp, ?_, by decide +kernel⟩⟩
    revert v
    decide +kernel
  covered := by
    have h0 : RowMatches [Ex.U 0] [0] (fun _ => 0) ∧
        ∀ M ∈ [comp3, seriesCpm], Covers M (fun _ => 0) := by decide +kernel
    have h1 : RowMatches [Ex.U 0] [1] (fun _ => 1) ∧
        ∀ M ∈ [comp3, seriesCpm], Covers M (fun _ => 1) := by decide +kernel
    rcases hM with rfl | rfl <;> intro cx hcx <;>
      simp only [A, A', List.mem_cons, List.not_mem_nil, or_false] at hcx <;>
      rcases hcx with rfl | rfl <;> first | exact ⟨_, h0⟩ | exact ⟨_, h1⟩

/-- The series system with a row for every combination. -/
def seriesFull : Cpm ℕ :=
  { vars := [Ex.U 1, Ex.U 0, Ex.U 3], noChild := 1
    C := [[0, 0, 2], [0, 1, 0], [1, 1, 1], [1, 0, 2], [1, 1, 0], [0, 1, 1]], p := [1, 1, 1, 0, 0, 0] }

end Ex

/-- Both cases occur.  The series system of `C57_not_row_order`: the row of the working state
dominates, that of the failed state does not. -/
example : CondTotOK Ex.U [Ex.comp3, Ex.seriesCpm] [Ex.U 3] [Ex.A'] Ex.A' ∧
    FirstRowDominates [Ex.comp3, Ex.seriesCpm] [Ex.U 3] Ex.A' ∧
    CondTotOK Ex.U [Ex.comp3, Ex.seriesCpm] [Ex.U 3] [Ex.A] Ex.A ∧
    ¬ FirstRowDominates [Ex.comp3, Ex.seriesCpm] [Ex.U 3] Ex.A := by
  have h1 : variableElimCond [Ex.comp3, Ex.seriesCpm] [Ex.U 3] [Ex.A] = .error .value := by
    decide +kernel
  have h2 : variableElimCond [Ex.comp3, Ex.seriesCpm] [Ex.U 3] [Ex.A'] ≠ .error .value := by
    decide +kernel
  have t1 := Ex.series_tot Ex.A (.inl rfl)
  have t2 := Ex.series_tot Ex.A' (.inr rfl)
  refine ⟨t2, ?_, t1, fun hd => ?_⟩
  · by_contra hd
    exact h2 ((C57_returns_iff _ _ _ _ t2).2 hd)
  · obtain ⟨res, hres⟩ := (C57_returns_iff _ _ _ _ t1).1 hd
    rw [hres] at h1
    cases h1

/-- With the complete table the order of the rows does not matter. -/
example : ∀ M ∈ [Ex.A, Ex.A'], ∃ res,
    variableElimCond [Ex.comp3, Ex.seriesFull] [Ex.U 3] [M] = .ok res := by
  intro M hM
  have hM' : M = Ex.A ∨ M = Ex.A' := by simpa using hM
  have hok := Ex.seriesCpm_ok M hM'
  refine C57_complete_tables (U := Ex.U) _ _ _ M ⟨?_, hok.rows, hok.closed, hok.nodup, hok.env, ?_⟩ rfl
    (by simp) ?_ ?_ ?_ ?_ ?_
  · rcases hM' with rfl | rfl <;>
      exact ⟨by decide +kernel, by decide +kernel, by decide +kernel⟩
  · decide +kernel
  · rcases hM' with rfl | rfl <;> decide +kernel
  · rcases hM' with rfl | rfl <;> decide +kernel
  · intro v hv
    refine ⟨1, by decide +kernel, .single ⟨Ex.seriesFull, by simp, ?_, by decide +kernel⟩⟩
    revert v
    decide +kernel
  · decide +kernel
  · have key : ∀ a < 2, ∀ b < 2, ∀ c < 2, Covers Ex.comp3 (fun k => if k = 0 then a else
        if k = 1 then b else c) ∧ Covers Ex.seriesFull (fun k => if k = 0 then a else
        if k = 1 then b else c) := by decide +kernel
    have hl : ∀ k < 4, (Ex.U k).values.length = 2 ∨ k = 2 := by decide +kernel
    intro N hN x hx
    rw [List.mem_cons, List.mem_singleton] at hN
    rcases hN with rfl | rfl
    · have h3 := hx (Ex.U 3) (by decide +kernel)
      have e3 := (hl 3 (by omega)).resolve_right (by omega)
      rw [e3] at h3
      refine (covers_congr fun k hk => ?_).1 (key 0 (by omega) 0 (by omega) (x 3) h3).1
      have : k = 3 := by
        revert k; decide +kernel
      subst this
      rfl
    · have h0 := hx (Ex.U 0) (by decide +kernel)
      have h1 := hx (Ex.U 1) (by decide +kernel)
      have h3 := hx (Ex.U 3) (by decide +kernel)
      rw [(hl 0 (by omega)).resolve_right (by omega)] at h0
      rw [(hl 1 (by omega)).resolve_right (by omega)] at h1
      rw [(hl 3 (by omega)).resolve_right (by omega)] at h3
      refine (covers_congr fun k hk => ?_).1 (key (x 0) h0 (x 1) h1 (x 3) h3).2
      have : k = 1 ∨ k = 0 ∨ k = 3 := by
        revert k; decide +kernel
      rcases this with rfl | rfl | rfl <;> rfl

end BNS
