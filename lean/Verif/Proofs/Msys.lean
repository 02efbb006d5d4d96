import Verif.Spec.Msys
import Verif.Model.Operation
import Verif.Proofs.Sampling
import Verif.Proofs.CpmMarg
import Verif.Proofs.SumOver
import Verif.Proofs.Elim
import Verif.Proofs.CpmProb
import Mathlib.Algebra.BigOperators.Group.List.Lemmas

/-! # The product of a system CPM and its component CPMs -/

namespace BNS

set_option linter.unusedSectionVars false

variable {K : Type} [DecidableEq K] {U : K → Variable K} {cv : List (Variable K)} {cs : List ℕ}
  {S : Cpm K} {comps : List (Cpm K)} {D : K → Cpm K}

/-! ### one component -/

/-- A component CPM: child `v`, conditioned on `cs`. -/
structure CompOK (U : K → Variable K) (v : Variable K) (cv : List (Variable K)) (cs : List ℕ)
    (m : Cpm K) : Prop where
  wf : WF U m
  vars : m.vars = v :: cv
  noChild : m.noChild = 1
  rows : ∀ c ∈ m.C, c.drop 1 = cs
  perm : (m.C.map fun c => c.headD 0).Perm (List.range v.values.length)

theorem CompsOK.comp (h : CompsOK U cv cs comps) {m : Cpm K} (hm : m ∈ comps) :
    ∃ v, CompOK U v cv cs m := by
  obtain ⟨v, hv⟩ := h.vars m hm
  exact ⟨v, h.wf m hm, hv, h.noChild m hm, h.rows m hm, h.basic m hm v (by simp [hv])⟩

theorem CompOK.childNames {v : Variable K} {m : Cpm K} (h : CompOK U v cv cs m) :
    childNames m = [v.name] := by
  unfold BNS.childNames; rw [h.noChild, h.vars]; simp

theorem CompOK.row {v : Variable K} {m : Cpm K} (h : CompOK U v cv cs m) {c : List ℕ}
    (hc : c ∈ m.C) : ∃ k, c = k :: cs ∧ k < v.values.length := by
  have h1 := h.wf.rowLen c hc
  have h2 := h.rows c hc
  rw [h.vars] at h1
  cases c with
  | nil => simp at h1
  | cons k c =>
    refine ⟨k, by rw [← h2]; rfl, ?_⟩
    have := h.perm.mem_iff.1 (List.mem_map_of_mem (f := fun c : List ℕ => c.headD 0) hc)
    simpa using this

theorem CompOK.table {v : Variable K} {m : Cpm K} (h : CompOK U v cv cs m) :
    v.B = some (genB v.values.length) := h.wf.table v (by simp [h.vars])

/-- The density of a component at its basic state `k`, under its condition. -/
theorem CompOK.dens {v : Variable K} {m : Cpm K} (h : CompOK U v cv cs m) {y : K → ℕ}
    (hy : RowMatches cv cs y) (hk : y v.name < v.values.length) :
    y v.name ∈ m.C.map (fun c => c.headD 0) ∧
    ∃ hlt : (m.C.map fun c => c.headD 0).idxOf (y v.name) < m.p.length,
      dens m y = m.p[(m.C.map fun c => c.headD 0).idxOf (y v.name)] := by
  have hmem : y v.name ∈ m.C.map (fun c => c.headD 0) := h.perm.mem_iff.2 (by simpa using hk)
  have hlt := List.idxOf_lt_length_iff.2 hmem
  have hlt' : (m.C.map fun c => c.headD 0).idxOf (y v.name) < m.C.length := by simpa using hlt
  have hltp : (m.C.map fun c => c.headD 0).idxOf (y v.name) < m.p.length := by
    rw [h.wf.pLen]; exact hlt'
  refine ⟨hmem, hltp, ?_⟩
  have hval : (m.C[(m.C.map fun c => c.headD 0).idxOf (y v.name)]).headD 0 = y v.name := by
    have := List.getElem_idxOf hlt
    rw [List.getElem_map] at this
    exact this
  generalize hi : (m.C.map fun c => c.headD 0).idxOf (y v.name) = i at *
  have hd : RowsDisjoint m := by
    unfold RowsDisjoint
    have hn : (m.C.map fun c => c.headD 0).Nodup := h.perm.nodup_iff.2 List.nodup_range
    refine (List.pairwise_map.1 hn).imp_of_mem ?_
    intro a b ha hb hab x ⟨hx1, hx2⟩
    obtain ⟨ka, rfl, hka⟩ := h.row ha
    obtain ⟨kb, rfl, hkb⟩ := h.row hb
    unfold RowMatches at hx1 hx2
    rw [h.vars] at hx1 hx2
    have h1 := hx1 (v, ka) (by simp)
    have h2 := hx2 (v, kb) (by simp)
    simp only [stateSet_basic h.table hka, stateSet_basic h.table hkb,
      Finset.mem_singleton] at h1 h2
    exact hab (by simp [← h1, ← h2])
  refine dens_of_row hd (r := m.C[i]) ?_ ?_
  · rw [List.mem_iff_getElem]
    exact ⟨i, by simp [hlt', hltp], by simp⟩
  · obtain ⟨k, hk', hkn⟩ := h.row (List.getElem_mem hlt')
    rw [hk'] at hval ⊢
    unfold RowMatches
    rw [h.vars]
    intro vs hvs
    rw [List.zip_cons_cons, List.mem_cons] at hvs
    rcases hvs with rfl | hvs
    · simp only [stateSet_basic h.table hkn, Finset.mem_singleton]
      simpa using hval.symm
    · exact hy vs hvs

theorem compProb_eq {v : Variable K} {m : Cpm K} (h : CompOK U v cv cs m) {x : K → ℕ}
    (hx : RowMatches cv cs x) (l : List ℕ) (hl : ∀ k ∈ l, k < v.values.length) :
    compProb m (m.C.map fun c => c.headD 0) l =
      .ok ((l.map fun k => dens m (Function.update x v.name k)).sum) := by
  have hnv : ∀ w ∈ cv, w.name ≠ v.name := by
    have := h.wf.nodup
    rw [h.vars, List.map_cons, List.nodup_cons] at this
    rintro w hw e
    exact this.1 (e ▸ List.mem_map_of_mem hw)
  induction l with
  | nil => rfl
  | cons k l ih =>
    have hy : RowMatches cv cs (Function.update x v.name k) := by
      intro vs hvs
      rw [Function.update_of_ne (hnv _ (List.of_mem_zip hvs).1)]
      exact hx vs hvs
    obtain ⟨h1, h2, h3⟩ := h.dens hy (by rw [Function.update_self]; exact hl k (by simp))
    rw [Function.update_self] at h1 h2
    simp only [Function.update_self] at h3
    unfold compProb
    rw [pyIndex_eq, if_pos h1, ok_bind, pyGet_lt h2 0, ok_bind,
      ih fun k hk => hl k (by simp [hk]), ok_bind, List.map_cons, List.sum_cons, h3,
      List.getD_eq_getElem _ _ h2]
    rfl

/-! ### the scope -/

theorem condScope_eq (h : CompsOK U cv cs comps) :
    condScope comps = .ok (cv.zip cs) := by
  cases hc : comps with
  | nil => exact absurd hc h.ne
  | cons m0 rest =>
    have hm0 : m0 ∈ comps := by simp [hc]
    obtain ⟨v, hv⟩ := h.comp hm0
    unfold condScope
    simp only [hv.noChild, hv.vars, List.length_cons, List.drop_succ_cons, List.drop_zero]
    cases hcv : cv with
    | nil => simp
    | cons w cv' =>
      have hcv' : cv' = [] := by
        have := h.cond
        rw [hcv] at this
        simpa using this
      subst hcv'
      rw [if_pos (by simp)]
      have hC0 := h.some_row m0 hm0
      obtain ⟨r0, C', hC⟩ := List.exists_cons_of_ne_nil hC0
      have hr0 : m0.C[0]? = some r0 := by rw [hC]; rfl
      have hd : r0.drop 1 = cs := hv.rows r0 (by simp [hC])
      have hl : cs.length = 1 := by
        rw [← hd, List.length_drop, hv.wf.rowLen r0 (by simp [hC]), hv.vars, hcv]
        simp
      rw [pyAssert_true, ok_bind]
      · unfold pyGet
        simp only [hr0, ok_bind, hd]
        rw [if_neg (by omega), pyAssert_true, ok_bind]
        · rfl
        · intro m hm c hc'
          exact h.rows m (hc ▸ hm) c hc'
      · intro m hm
        obtain ⟨u, hu⟩ := h.vars m (hc ▸ hm)
        rw [hu, hcv]; rfl

theorem heads_eq (h : CompsOK U cv cs comps) :
    ∃ ns : List K, comps.mapM (fun m => (do let v ← pyGet m.vars 0; return v.name : Except Err K)) = .ok ns ∧
      ns.map (fun k => [k]) = comps.map childNames := by
  refine ⟨comps.map fun m => (childNames m).headD (((comps.head h.ne).vars.head (by
    obtain ⟨v, hv⟩ := h.vars _ (List.head_mem h.ne); rw [hv]; simp)).name), ?_, ?_⟩
  · apply mapM_ok
    intro m hm
    obtain ⟨v, hv⟩ := h.comp hm
    rw [hv.childNames, hv.vars]
    rfl
  · rw [List.map_map]
    refine List.map_congr_left fun m hm => ?_
    obtain ⟨v, hv⟩ := h.comp hm
    simp [hv.childNames]

theorem mem_heads (h : CompsOK U cv cs comps) {ns : List K}
    (hns : ns.map (fun k => [k]) = comps.map childNames) (k : K) :
    k ∈ ns ↔ ∃ m ∈ comps, k ∈ childNames m := by
  have h1 : k ∈ ns ↔ [k] ∈ ns.map (fun k => [k]) := by simp
  rw [h1, hns, List.mem_map]
  constructor
  · rintro ⟨m, hm, e⟩
    exact ⟨m, hm, by simp [e]⟩
  · rintro ⟨m, hm, e⟩
    obtain ⟨v, hv⟩ := h.comp hm
    rw [hv.childNames, List.mem_singleton] at e
    exact ⟨m, hm, by rw [hv.childNames, e]⟩

theorem splitParents_eq (h : CompsOK U cv cs comps) {ns : List K}
    (hns : ns.map (fun k => [k]) = comps.map childNames) (S : Cpm K) :
    splitParents ns (S.vars.drop S.noChild) =
      ((compPars S comps).map fun v => (v, ns.idxOf v.name), otherPars S comps) := by
  unfold splitParents compPars otherPars
  generalize S.vars.drop S.noChild = l
  refine Prod.ext ?_ ?_
  · simp only
    induction l with
    | nil => rfl
    | cons v l ih =>
      rw [List.filterMap_cons, List.filter_cons, idxOf?_eq]
      by_cases hv : v.name ∈ ns
      · rw [if_pos hv, if_pos (by rw [decide_eq_true_iff]; exact (mem_heads h hns _).1 hv), ih]
        rfl
      · rw [if_neg hv, if_neg (by
          rw [decide_eq_true_iff]; exact fun hc => hv ((mem_heads h hns _).2 hc)), ih]
        rfl
  · refine List.filter_congr fun v _ => ?_
    rw [idxOf?_eq]
    by_cases hv : v.name ∈ ns
    · rw [if_pos hv]
      obtain ⟨m, hm, hc⟩ := (mem_heads h hns _).1 hv
      symm
      rw [Option.isNone_some, decide_eq_false_iff_not]
      exact fun hh => hh m hm hc
    · rw [if_neg hv]
      symm
      rw [Option.isNone_none, decide_eq_true_iff]
      exact fun m hm hc => hv ((mem_heads h hns _).2 ⟨m, hm, hc⟩)

theorem comp_at (h : MsysOK U cv cs S comps D) {ns : List K}
    (hns : ns.map (fun k => [k]) = comps.map childNames) {k : K} (hk : k ∈ ns) :
    pyGet comps (ns.idxOf k) = .ok (D k) ∧ D k ∈ comps ∧ childNames (D k) = [k] := by
  have hlt := List.idxOf_lt_length_iff.2 hk
  have hlen : ns.length = comps.length := by simpa using congrArg List.length hns
  have hlt' : ns.idxOf k < comps.length := hlen ▸ hlt
  have h1 : childNames comps[ns.idxOf k] = [k] := by
    have h2 : (ns.map fun k => [k])[ns.idxOf k]? = (comps.map childNames)[ns.idxOf k]? := by rw [hns]
    rw [List.getElem?_map, List.getElem?_map, List.getElem?_eq_getElem hlt,
      List.getElem?_eq_getElem hlt'] at h2
    simp only [Option.map_some, Option.some.injEq, List.getElem_idxOf] at h2
    exact h2.symm
  have h2 := h.map _ (List.getElem_mem hlt') k (by rw [h1]; simp)
  refine ⟨?_, h2 ▸ List.getElem_mem hlt', by rw [h2, h1]⟩
  unfold pyGet
  rw [List.getElem?_eq_getElem hlt', h2]

/-- The product over the components of a row. -/
def compFactor (S : Cpm K) (comps : List (Cpm K)) (D : K → Cpm K) (x : K → ℕ) (r : List ℕ) : ℚ :=
  ((compPars S comps).map fun v => ∑ k ∈ stateSet v (val S.getNames r v.name),
    dens (D v.name) (Function.update x v.name k)).prod

/-- The conditioning variables that are added to the scope. -/
def extraVars (S : Cpm K) (comps : List (Cpm K)) (cv : List (Variable K)) (cs : List ℕ) :
    List (Variable K × ℕ) :=
  (cv.zip cs).filter fun vs => vs.1.name ∉ (otherPars S comps).map Variable.name

/-- The columns of the system in their new order. -/
def sysCols (S : Cpm K) (comps : List (Cpm K)) : List (Variable K) :=
  S.vars.take S.noChild ++ compPars S comps ++ otherPars S comps

/-- What the function returns. -/
def msysPure (S : Cpm K) (comps : List (Cpm K)) (D : K → Cpm K) (cv : List (Variable K))
    (cs : List ℕ) (x : K → ℕ) : Cpm K where
  vars := sysCols S comps ++ (extraVars S comps cv cs).map Prod.fst
  noChild := (S.vars.take S.noChild ++ compPars S comps).length
  C := S.C.map fun r => projRow S (sysCols S comps) r ++ (extraVars S comps cv cs).map Prod.snd
  p := (S.C.zip S.p).map fun cp => cp.2 * compFactor S comps D x cp.1

theorem perm_sysCols (S : Cpm K) (comps : List (Cpm K)) : (sysCols S comps).Perm S.vars := by
  unfold sysCols compPars otherPars
  conv_rhs => rw [← List.take_append_drop S.noChild S.vars]
  rw [List.append_assoc]
  refine List.Perm.append_left _ ?_
  have h1 := List.filter_append_perm (fun v : Variable K => decide (∃ m ∈ comps, v.name ∈ childNames m))
    (S.vars.drop S.noChild)
  refine List.Perm.trans (List.Perm.of_eq ?_) h1
  congr 1
  refine List.filter_congr fun v _ => ?_
  rw [← decide_not]
  congr 1
  simp

theorem exists_matches {M : Cpm K} (h : WF U M) {r : List ℕ} (hr : r ∈ M.C) :
    ∃ x, RowMatches M.vars r x := by
  refine ⟨fun k => if hk : (stateSet (U k) (val M.getNames r k)).Nonempty then hk.choose else 0, ?_⟩
  rw [rowMatches_iff h.nodup (h.rowLen r hr)]
  intro v hv
  have h1 := entryOf_lt h hr hv
  have h2 : (stateSet (U v.name) (val M.getNames r v.name)).Nonempty := by rw [h.env v hv]; exact h1
  rw [dif_pos h2]
  have h3 : stateSet (U v.name) (val M.getNames r v.name) =
      stateSet v (val M.getNames r v.name) := by rw [h.env v hv]
  exact h3 ▸ h2.choose_spec

theorem CompsOK.exists_cond (h : CompsOK U cv cs comps) : ∃ x, RowMatches cv cs x := by
  obtain ⟨v, hv⟩ := h.comp (List.head_mem h.ne)
  obtain ⟨c, hc⟩ := List.exists_mem_of_ne_nil _ (h.some_row _ (List.head_mem h.ne))
  obtain ⟨x, hx⟩ := exists_matches hv.wf hc
  obtain ⟨k, rfl, -⟩ := hv.row hc
  refine ⟨x, fun vs hvs => ?_⟩
  unfold RowMatches at hx
  rw [hv.vars] at hx
  exact hx vs (by rw [List.zip_cons_cons]; exact List.mem_cons_of_mem _ hvs)

theorem CompsOK.cond_facts (h : CompsOK U cv cs comps) :
    (∀ w ∈ cv, U w.name = w ∧ w.B = some (genB w.values.length)) ∧ cs.length = cv.length ∧
    (cv.map Variable.name).Nodup ∧ ∀ vs ∈ cv.zip cs, vs.2 + 1 < 2 ^ vs.1.values.length := by
  obtain ⟨v, hv⟩ := h.comp (List.head_mem h.ne)
  obtain ⟨c, hc⟩ := List.exists_mem_of_ne_nil _ (h.some_row _ (List.head_mem h.ne))
  have hl := hv.wf.rowLen c hc
  have he := hv.wf.entry c hc
  obtain ⟨k, rfl, -⟩ := hv.row hc
  have hn := hv.wf.nodup
  rw [hv.vars] at hl he hn
  refine ⟨fun w hw => ⟨hv.wf.env w (by simp [hv.vars, hw]), hv.wf.table w (by simp [hv.vars, hw])⟩,
    by simpa using hl, (List.nodup_cons.1 hn).2, fun vs hvs => he vs (by
      rw [List.zip_cons_cons]; exact List.mem_cons_of_mem _ hvs)⟩

theorem msysPure_WF (h : MsysOK U cv cs S comps D) (x : K → ℕ) :
    WF U (msysPure S comps D cv cs x) := by
  have hperm := perm_sysCols S comps
  obtain ⟨hc1, hc2, hc3, hc4⟩ := h.compsOK.cond_facts
  have hnS : ((sysCols S comps).map Variable.name).Nodup :=
    (hperm.map _).nodup_iff.2 h.sys.nodup
  have hex : ∀ w ∈ (extraVars S comps cv cs).map Prod.fst, w ∈ cv := by
    intro w hw
    obtain ⟨vs, hvs, rfl⟩ := List.mem_map.1 hw
    exact (List.of_mem_zip (List.mem_filter.1 hvs).1).1
  have hlen : ∀ r : List ℕ, (projRow S (sysCols S comps) r).length = (sysCols S comps).length :=
    fun r => by simp [projRow]
  refine ⟨?_, ?_, ?_, ?_, ?_, ?_, ?_, ⟨rfl, rfl, rfl, rfl⟩⟩
  · intro v hv
    rcases List.mem_append.1 hv with hv | hv
    · exact h.sys.env v (hperm.mem_iff.1 hv)
    · exact (hc1 v (hex v hv)).1
  · intro v hv
    rcases List.mem_append.1 hv with hv | hv
    · exact h.sys.table v (hperm.mem_iff.1 hv)
    · exact (hc1 v (hex v hv)).2
  · unfold msysPure
    simp only [List.map_append]
    rw [List.nodup_append]
    refine ⟨hnS, ?_, ?_⟩
    · refine List.Nodup.sublist ?_ hc3
      have h1 : (cv.zip cs).map Prod.fst = cv := List.map_fst_zip (by omega)
      conv_rhs => rw [← h1]
      exact (List.Sublist.map _ List.filter_sublist).map _
    · intro a ha b hb e
      subst e
      obtain ⟨w, hw, rfl⟩ := List.mem_map.1 hb
      have hwcv := hex w hw
      have hwo : w.name ∉ (otherPars S comps).map Variable.name := by
        obtain ⟨vs, hvs, rfl⟩ := List.mem_map.1 hw
        simpa using (List.mem_filter.1 hvs).2
      unfold sysCols at ha
      rw [List.map_append, List.map_append, List.mem_append, List.mem_append] at ha
      rcases ha with (ha | ha) | ha
      · exact h.condNotChild w hwcv ha
      · obtain ⟨v, hv, e⟩ := List.mem_map.1 ha
        obtain ⟨m, hm, hc⟩ := of_decide_eq_true (List.mem_filter.1 hv).2
        exact h.compsOK.indep m hm w hwcv (e ▸ hc)
      · exact hwo ha
  · intro r' hr'
    obtain ⟨r, hr, rfl⟩ := List.mem_map.1 hr'
    simp [hlen, msysPure]
  · intro r' hr' vs hvs
    obtain ⟨r, hr, rfl⟩ := List.mem_map.1 hr'
    unfold msysPure at hvs
    simp only at hvs
    rw [List.zip_append (hlen r).symm, List.mem_append] at hvs
    rcases hvs with hvs | hvs
    · refine (zip_forall_iff hnS (hlen r) (fun v s => s + 1 < 2 ^ v.values.length)).2 ?_ vs hvs
      intro v hv
      rw [projRow_val r hv]
      have := h.sys.entry_lt hr (hperm.mem_iff.1 hv)
      rw [length_genB] at this
      omega
    · rw [List.zip_map', List.mem_map] at hvs
      obtain ⟨ws, hws, rfl⟩ := hvs
      exact hc4 ws (List.mem_filter.1 hws).1
  · simp [msysPure, h.sys.pLen]
  · simp [msysPure, sysCols]

theorem getD_projRow (vs : List (Variable K)) (r t : List ℕ) {j : ℕ} {v : Variable K}
    (hj : vs[j]? = some v) : pyGet (projRow S vs r ++ t) j = .ok (val S.getNames r v.name) := by
  have hlt : j < vs.length := (List.getElem?_eq_some_iff.1 hj).1
  unfold pyGet
  rw [List.getElem?_append_left (by simpa [projRow] using hlt)]
  simp [projRow, hj]

theorem foldl_mul (l : List ℚ) (a : ℚ) : l.foldl (· * ·) a = a * l.prod := by
  induction l generalizing a with
  | nil => simp
  | cons b l ih => rw [List.foldl_cons, ih, List.prod_cons, mul_assoc]

theorem prodMsys_ok (h : MsysOK U cv cs S comps D) {x : K → ℕ} (hx : RowMatches cv cs x) :
    prodMsysMcomps S comps = .ok (msysPure S comps D cv cs x) := by
  have hwf := msysPure_WF h x
  have hperm := perm_sysCols S comps
  obtain ⟨ns, hns1, hns2⟩ := heads_eq h.compsOK
  unfold prodMsysMcomps
  rw [pyAssert_true h.compsOK.noChild, ok_bind, hns1, ok_bind, splitParents_eq h.compsOK hns2,
    condScope_eq h.compsOK]
  simp only [ok_bind, List.map_map]
  have hfst : (compPars S comps).map (Prod.fst ∘ fun v => (v, ns.idxOf v.name)) =
      compPars S comps := by
    conv_rhs => rw [← List.map_id (compPars S comps)]
    rfl
  rw [if_neg (fun hc => h.some_row ((flatten_ne_nil h.sys h.scope).1 hc)), hfst]
  have hcols : (S.vars.take S.noChild ++ compPars S comps ++ otherPars S comps).mapM
      (fun v => pyIndex S.getNames v.name) = .ok (colIdx S (sysCols S comps)) := by
    refine mapM_ok fun v hv => ?_
    rw [pyIndex_eq, if_pos (show v.name ∈ S.getNames from
      List.mem_map_of_mem (hperm.mem_iff.1 hv))]
  rw [hcols, ok_bind]
  have hC : takeCols S.C (colIdx S (sysCols S comps)) =
      .ok (S.C.map (projRow S (sysCols S comps))) := by
    rw [takeCols_ok]
    · congr 1
      refine List.map_congr_left fun r _ => ?_
      unfold colIdx projRow
      rw [List.map_map]
      rfl
    · intro r hr i hi
      obtain ⟨v, hv, rfl⟩ := List.mem_map.1 hi
      rw [h.sys.rowLen r hr]
      exact (getElem_idxOf_name (List.mem_map_of_mem (f := Variable.name) (hperm.mem_iff.1 hv))).1
  rw [hC, ok_bind, List.map_map]
  have hp : ((S.C.map ((fun r => r ++ (extraVars S comps cv cs).map Prod.snd) ∘
      projRow S (sysCols S comps))).zip S.p).mapM (fun rp => (do
        let fs ← ((compPars S comps).map fun v => (v, ns.idxOf v.name)).zipIdx.mapM fun vij => do
          let m ← pyGet comps vij.1.2
          let c1 ← m.C.mapM fun c => pyGet c 0
          let st ← pyGet rp.1 (S.noChild + vij.2)
          let v ← pyGet m.vars 0
          match v.B with
          | none => .error .type
          | some B => do
            let T ← pyGet B st
            compProb m c1 (T.sort (· ≤ ·))
        return fs.foldl (· * ·) rp.2 : Except Err ℚ)) =
      .ok (msysPure S comps D cv cs x).p := by
    rw [List.zip_map_left, List.mapM_map]
    refine mapM_ok fun cp hcp => ?_
    have hr := (List.of_mem_zip hcp).1
    have hfs : ((compPars S comps).map fun v => (v, ns.idxOf v.name)).zipIdx.mapM (fun vij => (do
          let m ← pyGet comps vij.1.2
          let c1 ← m.C.mapM fun c => pyGet c 0
          let st ← pyGet (projRow S (sysCols S comps) cp.1 ++
            (extraVars S comps cv cs).map Prod.snd) (S.noChild + vij.2)
          let v ← pyGet m.vars 0
          match v.B with
          | none => .error .type
          | some B => do
            let T ← pyGet B st
            compProb m c1 (T.sort (· ≤ ·)) : Except Err ℚ)) =
        .ok (((compPars S comps).map fun v => (v, ns.idxOf v.name)).zipIdx.map fun vij =>
          ∑ k ∈ stateSet vij.1.1 (val S.getNames cp.1 vij.1.1.name),
            dens (D vij.1.1.name) (Function.update x vij.1.1.name k)) := by
      refine mapM_ok ?_
      rintro ⟨⟨v, i⟩, j⟩ hvij
      have hj := List.mem_zipIdx_iff_getElem?.1 hvij
      simp only [List.getElem?_map, Option.map_eq_some_iff, Prod.mk.injEq] at hj
      obtain ⟨v', hj, rfl, rfl⟩ := hj
      have hv := List.mem_of_getElem? hj
      have hvS : v' ∈ S.vars := List.mem_of_mem_drop (List.mem_filter.1 hv).1
      have hvns : v'.name ∈ ns :=
        (mem_heads h.compsOK hns2 _).2 (of_decide_eq_true (List.mem_filter.1 hv).2)
      obtain ⟨g1, g2, g3⟩ := comp_at h hns2 hvns
      obtain ⟨u, hu⟩ := h.compsOK.comp g2
      have hun : u.name = v'.name := by
        have := hu.childNames
        rw [g3] at this
        simpa using this.symm
      have huv : u = v' := by
        have h1 := hu.wf.env u (by simp [hu.vars])
        rw [hun, h.sys.env v' hvS] at h1
        exact h1.symm
      subst huv
      have hpos : (sysCols S comps)[S.noChild + j]? = some u := by
        unfold sysCols
        have hlt := (List.getElem?_eq_some_iff.1 hj).1
        have hl : (S.vars.take S.noChild).length = S.noChild := by simp [h.sys.child]
        rw [List.append_assoc, List.getElem?_append_right (by omega), hl, Nat.add_sub_cancel_left,
          List.getElem?_append_left hlt, hj]
      have hc1 : (D u.name).C.mapM (fun c => pyGet c 0) = .ok ((D u.name).C.map fun c => c.headD 0) := by
        refine mapM_ok fun c hc => ?_
        obtain ⟨k, rfl, -⟩ := hu.row hc
        rfl
      have hst := h.sys.entry_lt hr hvS
      simp only
      rw [g1, ok_bind, hc1, ok_bind, getD_projRow _ _ _ hpos, ok_bind, hu.vars]
      simp only [pyGet, List.getElem?_cons_zero, ok_bind, hu.table]
      rw [List.getElem?_eq_getElem hst]
      simp only [ok_bind]
      have hset : stateSet u (val S.getNames cp.1 u.name) =
          (genB u.values.length)[val S.getNames cp.1 u.name] := by
        simp [stateSet, hu.table, hst]
      rw [← hset, compProb_eq hu hx]
      · congr 1
        rw [← List.sum_toFinset _ (Finset.sort_nodup _ _), Finset.sort_toFinset]
      · intro k hk
        rw [Finset.mem_sort, hset] at hk
        exact (mem_genB.1 (List.getElem_mem hst)).2 k hk
    simp only [Function.comp_apply, Prod.map]
    rw [hfs, ok_bind]
    congr 1
    rw [foldl_mul]
    unfold compFactor
    congr 2
    have hz := List.zipIdx_map_fst 0 ((compPars S comps).map fun v => (v, ns.idxOf v.name))
    have h1 := congrArg (List.map fun vi : Variable K × ℕ =>
      ∑ k ∈ stateSet vi.1 (val S.getNames cp.1 vi.1.name),
        dens (D vi.1.name) (Function.update x vi.1.name k)) hz
    rw [List.map_map, List.map_map] at h1
    exact h1
  have hmk : Cpm.mk' (msysPure S comps D cv cs x) = .ok (msysPure S comps D cv cs x) :=
    mk'_ok hwf.rowLen hwf.entry hwf.child (.inr hwf.pLen) hwf.noCs.1
  unfold extraVars at hp
  erw [hp]
  rw [ok_bind, ← hmk]
  rfl

theorem comp_of_par (h : MsysOK U cv cs S comps D) {v : Variable K}
    (hv : v ∈ compPars S comps) : v ∈ S.vars ∧ D v.name ∈ comps ∧ CompOK U v cv cs (D v.name) := by
  have hvS : v ∈ S.vars := List.mem_of_mem_drop (List.mem_filter.1 hv).1
  obtain ⟨m, hm, hc⟩ := of_decide_eq_true (List.mem_filter.1 hv).2
  have hD := h.map m hm v.name hc
  obtain ⟨u, hu⟩ := h.compsOK.comp hm
  rw [hu.childNames, List.mem_singleton] at hc
  have huv : u = v := by
    have h1 := hu.wf.env u (by simp [hu.vars])
    rw [← hc, h.sys.env v hvS] at h1
    exact h1.symm
  rw [hD]
  exact ⟨hvS, hm, huv ▸ hu⟩

theorem val_msysRow (h : MsysOK U cv cs S comps D) (x : K → ℕ) (r : List ℕ) {v : Variable K}
    (hv : v ∈ S.vars) :
    val (msysPure S comps D cv cs x).getNames
      (projRow S (sysCols S comps) r ++ (extraVars S comps cv cs).map Prod.snd) v.name =
      val S.getNames r v.name := by
  have hv' := (perm_sysCols S comps).mem_iff.2 hv
  unfold Cpm.getNames msysPure
  simp only [List.map_append]
  rw [val_append _ _ _ _ (by simp [projRow]), if_pos (List.mem_map_of_mem hv')]
  exact projRow_val r hv'

theorem val_extra (h : MsysOK U cv cs S comps D) (x : K → ℕ) (r : List ℕ) {wc : Variable K × ℕ}
    (hw : wc ∈ extraVars S comps cv cs) :
    val (msysPure S comps D cv cs x).getNames
      (projRow S (sysCols S comps) r ++ (extraVars S comps cv cs).map Prod.snd) wc.1.name = wc.2 := by
  have hn := (msysPure_WF h x).nodup
  have hnot : wc.1.name ∉ (sysCols S comps).map Variable.name := by
    intro hc
    unfold msysPure at hn
    simp only [List.map_append, List.nodup_append] at hn
    exact hn.2.2 _ hc _ (List.mem_map_of_mem (List.mem_map_of_mem hw)) rfl
  have hn2 : (((extraVars S comps cv cs).map Prod.fst).map Variable.name).Nodup := by
    unfold msysPure at hn
    simp only [List.map_append, List.nodup_append] at hn
    exact hn.2.1
  unfold Cpm.getNames msysPure
  simp only [List.map_append]
  rw [val_append _ _ _ _ (by simp [projRow]), if_neg hnot]
  have h1 := (zip_forall_iff hn2 (row := (extraVars S comps cv cs).map Prod.snd) (by simp)
    (fun v s => (v, s) ∈ extraVars S comps cv cs)).1 (by
      intro p hp
      rw [List.zip_map', List.mem_map] at hp
      obtain ⟨q, hq, rfl⟩ := hp
      exact hq) wc.1 (List.mem_map_of_mem hw)
  -- names are distinct, so the two pairs agree
  have hinj := List.inj_on_of_nodup_map (l := extraVars S comps cv cs)
    (f := fun q => q.1.name) (by rwa [List.map_map] at hn2)
  have h2 := hinj h1 hw rfl
  exact congrArg Prod.snd h2

/-- The sum over the component columns is the marginal of the system over its components. -/
theorem msys_marginal (h : MsysOK U cv cs S comps D) {x : K → ℕ} (hx : RowMatches cv cs x) :
    ((S.C.zip S.p).map fun cp => if ∀ v ∈ S.vars, v ∉ compPars S comps →
        x v.name ∈ stateSet v (val S.getNames cp.1 v.name)
      then cp.2 * compFactor S comps D x cp.1 else 0).sum =
    sumOver ((compPars S comps).map fun v => (v.name, v.values.length))
      (fun y => dens S y * ((compPars S comps).map fun v => dens (D v.name) y).prod) x := by
  have hcn : (((compPars S comps).map fun v => (v.name, v.values.length)).map Prod.fst).Nodup := by
    rw [List.map_map]
    exact h.sys.nodup.sublist ((List.filter_sublist.trans (List.drop_sublist _ _)).map _)
  have hR : ∀ y, dens S y * ((compPars S comps).map fun v => dens (D v.name) y).prod =
      ((S.C.zip S.p).map fun cp => if RowMatches S.vars cp.1 y
        then cp.2 * ((compPars S comps).map fun v => dens (D v.name) y).prod else 0).sum := by
    intro y
    unfold dens
    rw [← List.sum_map_mul_right]
    congr 1
    refine List.map_congr_left fun cp _ => ?_
    split <;> simp
  rw [sumOver_congr _ x hR, sumOver_list_sum]
  congr 1
  refine List.map_congr_left fun cp hcp => ?_
  have hr := (List.of_mem_zip hcp).1
  generalize hc : (if ∀ v ∈ S.vars, v ∉ compPars S comps →
        x v.name ∈ stateSet v (val S.getNames cp.1 v.name) then cp.2 else 0) = c
  have hL : (if ∀ v ∈ S.vars, v ∉ compPars S comps →
        x v.name ∈ stateSet v (val S.getNames cp.1 v.name)
      then cp.2 * compFactor S comps D x cp.1 else 0) = c * compFactor S comps D x cp.1 := by
    rw [← hc]; split <;> simp
  rw [hL, sumOver_congr' _ hcn x (g := fun y => c *
    (((compPars S comps).map fun v => (v.name, v.values.length)).map fun kn =>
      if y kn.1 ∈ stateSet (U kn.1) (val S.getNames cp.1 kn.1)
        then dens (D kn.1) (Function.update x kn.1 (y kn.1)) else 0).prod)]
  · rw [sumOver_mul_left, sumOver_prod _ hcn (fun k i =>
      if i ∈ stateSet (U k) (val S.getNames cp.1 k)
        then dens (D k) (Function.update x k i) else 0)]
    congr 1
    unfold compFactor
    rw [List.map_map]
    congr 1
    refine List.map_congr_left fun v hv => ?_
    obtain ⟨hvS, -, hcomp⟩ := comp_of_par h hv
    simp only [Function.comp_apply]
    rw [h.sys.env v hvS, ← Finset.sum_filter]
    refine Finset.sum_congr ?_ fun _ _ => rfl
    ext k
    rw [Finset.mem_filter, Finset.mem_range]
    refine ⟨fun hk => ⟨?_, hk⟩, fun hk => hk.2⟩
    have := mem_genB_stateSet (h.sys.table v hvS) (h.sys.entry_lt hr hvS)
    exact (mem_genB.1 this).2 k hk
  · intro y hy1 hy2
    have hdens : ∀ v ∈ compPars S comps,
        dens (D v.name) y = dens (D v.name) (Function.update x v.name (y v.name)) := by
      intro v hv
      obtain ⟨hvS, hmem, hcomp⟩ := comp_of_par h hv
      refine dens_congr fun k hk => ?_
      unfold Cpm.getNames at hk
      rw [hcomp.vars, List.map_cons, List.mem_cons] at hk
      by_cases hkv : k = v.name
      · rw [hkv, Function.update_self]
      · rw [Function.update_of_ne hkv]
        obtain ⟨w, hw, rfl⟩ := List.mem_map.1 (hk.resolve_left hkv)
        refine hy2 _ fun hc' => ?_
        rw [List.map_map] at hc'
        obtain ⟨u, hu, hue⟩ := List.mem_map.1 hc'
        obtain ⟨-, hum, huc⟩ := comp_of_par h hu
        refine h.compsOK.indep _ hum w hw ?_
        rw [huc.childNames]
        simpa using hue.symm
    rw [List.map_map]
    have hmatch : RowMatches S.vars cp.1 y ↔
        (∀ v ∈ S.vars, v ∉ compPars S comps →
          x v.name ∈ stateSet v (val S.getNames cp.1 v.name)) ∧
        ∀ v ∈ compPars S comps, y v.name ∈ stateSet v (val S.getNames cp.1 v.name) := by
      rw [rowMatches_iff h.sys.nodup (h.sys.rowLen _ hr)]
      constructor
      · intro hm
        refine ⟨fun v hv hnv => ?_, fun v hv => hm v (comp_of_par h hv).1⟩
        rw [← hy2 v.name]
        · exact hm v hv
        · intro hc'
          rw [List.map_map] at hc'
          obtain ⟨u, hu, hue⟩ := List.mem_map.1 hc'
          have h1 := h.sys.env u (comp_of_par h hu).1
          have hue' : u.name = v.name := hue
          rw [hue', h.sys.env v hv] at h1
          exact hnv (h1 ▸ hu)
      · rintro ⟨h1, h2⟩ v hv
        by_cases hvc : v ∈ compPars S comps
        · exact h2 v hvc
        · have h3 := h1 v hv hvc
          rw [← hy2 v.name] at h3
          · exact h3
          · intro hc'
            rw [List.map_map] at hc'
            obtain ⟨u, hu, hue⟩ := List.mem_map.1 hc'
            have h4 := h.sys.env u (comp_of_par h hu).1
            have hue' : u.name = v.name := hue
            rw [hue', h.sys.env v hv] at h4
            exact hvc (h4 ▸ hu)
    rw [← hc]
    by_cases h2 : ∀ v ∈ compPars S comps, y v.name ∈ stateSet v (val S.getNames cp.1 v.name)
    · have hprod : ((compPars S comps).map ((fun kn : K × ℕ =>
          if y kn.1 ∈ stateSet (U kn.1) (val S.getNames cp.1 kn.1)
          then dens (D kn.1) (Function.update x kn.1 (y kn.1)) else 0) ∘
          fun v => (v.name, v.values.length))) =
          (compPars S comps).map fun v => dens (D v.name) y := by
        refine List.map_congr_left fun v hv => ?_
        simp only [Function.comp_apply]
        rw [h.sys.env v (comp_of_par h hv).1, if_pos (h2 v hv), hdens v hv]
      rw [hprod]
      by_cases h1 : ∀ v ∈ S.vars, v ∉ compPars S comps →
          x v.name ∈ stateSet v (val S.getNames cp.1 v.name)
      · rw [if_pos (hmatch.2 ⟨h1, h2⟩), if_pos h1]
      · rw [if_neg (fun hm => h1 (hmatch.1 hm).1), if_neg h1, zero_mul]
    · rw [if_neg (fun hm => h2 (hmatch.1 hm).2)]
      push Not at h2
      obtain ⟨v, hv, hvn⟩ := h2
      symm
      apply mul_eq_zero_of_right
      apply List.prod_eq_zero
      refine List.mem_map.2 ⟨v, hv, ?_⟩
      simp only [Function.comp_apply]
      rw [h.sys.env v (comp_of_par h hv).1, if_neg hvn]

theorem compFactor_indep (h : MsysOK U cv cs S comps D) {x x' : K → ℕ} (hx : RowMatches cv cs x)
    (hx' : RowMatches cv cs x') {i : ℕ} {cp : List ℕ × ℚ} (hi : (S.C.zip S.p)[i]? = some cp) :
    cp.2 * compFactor S comps D x cp.1 = cp.2 * compFactor S comps D x' cp.1 := by
  have h1 := prodMsys_ok h hx
  rw [prodMsys_ok h hx'] at h1
  have h2 := congrArg (fun P : Cpm K => P.p[i]?) (Except.ok.inj h1)
  simp only [msysPure, List.getElem?_map, hi, Option.map_some, Option.some.injEq] at h2
  exact h2.symm

end BNS
