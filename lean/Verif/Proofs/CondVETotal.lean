import Verif.Spec.CondVE
import Verif.Proofs.CondVE
import Verif.Proofs.ElimTotal
import Verif.Props.Msys
import Verif.Props.Order

/-!
# `cal_Msys_by_cond_VE` returns

For networks in which every component depends on the same conditioning variable, or on none, and all
components are summed out.
-/

namespace BNS

set_option linter.unusedSectionVars false

section
variable {K : Type} [LinearOrder K] {U : K → Variable K}
  {N : K → Cpm K} {keys : List K} {sys : K} {E : List K} {Mc : Cpm K}

/-- A CPM without the conditioning variables stays as it is. -/
theorem condPure_disjoint_names {M : Cpm K} {cv : List (Variable K)} {cs : List ℕ}
    (h : ∀ v ∈ cv, v.name ∉ M.getNames) : (condPure M cv cs).C = M.C := by
  have hL : checkList M.getNames cv cs = [] := by
    unfold checkList
    rw [List.filterMap_eq_nil_iff]
    intro vs hvs
    have : vs.1.name ∉ M.getNames := h _ (List.of_mem_zip hvs).1
    rw [List.idxOf?_eq_none_iff.2 this]
    rfl
  unfold condPure
  simp only [hL]
  have : condRow ([] : List ((Variable K × ℕ) × ℕ)) = id := rfl
  simp [this]

/-- The components of one row, when nothing else is summed out first. -/
theorem RowNet.compsOK (h : RowNet U N keys sys [] E [] Mc) (hE : E ≠ []) {cv : List (Variable K)}
    (hcv1 : cv.length ≤ 1) (hcv : ∀ k ∈ E, (N k).vars.drop 1 = cv) {cx : List ℕ} (hcx : cx ∈ Mc.C)
    {l2 : List (Cpm K)} (hl2 : l2.Perm (E.map fun k => condPure (N k) Mc.vars cx)) :
    CompsOK U cv (cv.map fun w => val Mc.getNames cx w.name) l2 := by
  have hl2' : l2.Perm ((E ++ []).map fun k => condPure (N k) Mc.vars cx) := by simpa using hl2
  obtain ⟨c1, c2, -, c4, c5, c6⟩ := h.comps hcx (veVars := []) rfl hl2' rfl
  have hEk : ∀ k ∈ E, k ∈ keys := fun k hk => h.split.mem_iff.2 (by simp [hk])
  have hmem : ∀ m ∈ l2, ∃ k ∈ E, condPure (N k) Mc.vars cx = m := fun m hm =>
    List.mem_map.1 (hl2.mem_iff.1 hm)
  have hchild : ∀ k ∈ E, childNames (condPure (N k) Mc.vars cx) = [k] := fun k hk => h.child k (hEk k hk)
  have hno : ∀ m ∈ l2, m.noChild = 1 := by
    intro m hm
    obtain ⟨k, hk, rfl⟩ := hmem m hm
    have h1 := hchild k hk
    have h2 := (h.cond hcx (hEk k hk)).1.child
    unfold childNames at h1
    have h3 := congrArg List.length h1
    rw [List.length_map, List.length_take] at h3
    simp only [List.length_singleton] at h3
    omega
  have hdrop : ∀ m ∈ l2, m.vars.drop 1 = cv := by
    intro m hm
    obtain ⟨k, hk, rfl⟩ := hmem m hm
    exact hcv k hk
  have hcomp : ∀ m ∈ l2, ∃ v, CompOK U v cv (cv.map fun w => val Mc.getNames cx w.name) m := by
    intro m hm
    obtain ⟨v, cv', hv⟩ := c4 m hm (hno m hm)
    have : cv' = cv := by
      have := hdrop m hm
      rw [hv.vars] at this
      exact this
    exact ⟨v, this ▸ hv⟩
  refine ⟨?_, c1.wf, ?_, hno, c6, ?_, ?_, hcv1, ?_, ?_⟩
  · rintro rfl
    have := hl2.length_eq
    rw [List.length_map] at this
    exact hE (List.length_eq_zero_iff.1 this.symm)
  · intro m hm
    obtain ⟨v, hv⟩ := hcomp m hm
    exact ⟨v, hv.vars⟩
  · intro m hm
    obtain ⟨v, hv⟩ := hcomp m hm
    exact hv.rows
  · intro m hm w hw
    obtain ⟨v, hv⟩ := hcomp m hm
    rw [hv.vars] at hw
    simp only [List.take_succ_cons, List.take_zero, List.mem_singleton] at hw
    rw [hw]
    exact hv.perm
  · unfold List.Nodup
    rw [List.pairwise_map]
    refine List.Pairwise.imp_of_mem ?_ c1.disjoint
    intro a b ha hb hab e
    obtain ⟨v, hv⟩ := hcomp a ha
    exact hab v.name (by rw [hv.childNames]; simp) (by rw [← e, hv.childNames]; simp)
  · intro m hm w hw hk
    obtain ⟨v, hv⟩ := hcomp m hm
    have hp : w.name ∈ parentNames m := by
      unfold parentNames
      rw [hv.noChild, hv.vars]
      exact List.mem_map_of_mem hw
    exact nodup_names hv.wf hk hp

/-- The system CPM with the components, for one row of the conditioning CPM. -/
theorem RowNet.msysOK (h : RowNet U N keys sys [] E [] Mc) (hE : E ≠ []) {cv : List (Variable K)}
    (hcv1 : cv.length ≤ 1) (hcv : ∀ k ∈ E, (N k).vars.drop 1 = cv) (hSC : (N sys).C ≠ [])
    {cx : List ℕ} (hcx : cx ∈ Mc.C)
    {l2 : List (Cpm K)} (hl2 : l2.Perm (E.map fun k => condPure (N k) Mc.vars cx)) :
    ∃ D, MsysOK U cv (cv.map fun w => val Mc.getNames cx w.name) (condPure (N sys) Mc.vars cx) l2 D := by
  classical
  have hc := h.compsOK hE hcv1 hcv hcx hl2
  have hEk : ∀ k ∈ E, k ∈ keys := fun k hk => h.split.mem_iff.2 (by simp [hk])
  have hsysk : sys ∈ keys := h.split.mem_iff.2 (by simp)
  have hmem : ∀ m ∈ l2, ∃ k ∈ E, condPure (N k) Mc.vars cx = m := fun m hm =>
    List.mem_map.1 (hl2.mem_iff.1 hm)
  have hchild : ∀ k ∈ keys, childNames (condPure (N k) Mc.vars cx) = [k] := fun k hk => h.child k hk
  have hnd := (h.split.nodup_iff).1 h.nodup
  rw [List.nodup_cons] at hnd
  have hsE : sys ∉ E := fun hs => hnd.1 (by simp [hs])
  have hSn : ∀ v ∈ Mc.vars, v.name ∉ (N sys).getNames := by
    intro v hv hk
    rw [getNames_eq, h.child sys hsysk, List.mem_append, List.mem_singleton] at hk
    have hvM : v.name ∈ Mc.getNames := List.mem_map_of_mem hv
    rcases hk with e | hk
    · exact h.disj sys hsysk (e ▸ hvM)
    · have := (h.pSys v.name).1 hk
      simp only [List.not_mem_nil, or_false] at this
      exact h.disj _ (hEk _ this) hvM
  have hcvM : ∀ w ∈ cv, w.name ∈ Mc.getNames := by
    intro w hw
    obtain ⟨k, hk⟩ := List.exists_mem_of_ne_nil _ hE
    have hp : w.name ∈ parentNames (N k) := by
      have h1 := h.child k (hEk k hk)
      have h2 := (h.wf k (hEk k hk)).child
      have h3 := congrArg List.length h1
      unfold childNames at h3
      rw [List.length_map, List.length_take] at h3
      simp only [List.length_singleton] at h3
      have : (N k).noChild = 1 := by omega
      unfold parentNames
      rw [this, hcv k hk]
      exact List.mem_map_of_mem hw
    have := h.pEW k (by simp [hk]) _ hp
    simpa using this
  refine ⟨fun k => condPure (N k) Mc.vars cx, (h.cond hcx hsysk).1, ?_, ?_, hc, ?_, ?_, ?_⟩
  · have := h.child sys hsysk
    intro e
    change (N sys).vars = [] at e
    unfold childNames at this
    rw [e] at this
    simp at this
  · rw [condPure_disjoint_names hSn]; exact hSC
  · intro m hm k hk
    obtain ⟨j, hj, rfl⟩ := hmem m hm
    rw [hchild j (hEk j hj), List.mem_singleton] at hk
    rw [hk]
  · intro m hm k hk
    obtain ⟨j, hj, rfl⟩ := hmem m hm
    rw [hchild j (hEk j hj), List.mem_singleton] at hk
    rw [hchild sys hsysk, List.mem_singleton]
    rintro rfl
    exact hsE (hk ▸ hj)
  · intro w hw hk
    rw [hchild sys hsysk, List.mem_singleton] at hk
    exact h.disj sys hsysk (hk ▸ hcvM w hw)

/-- A basic column of a row that an assignment matches. -/
theorem val_of_matches {M : Cpm K} (hM : WF U M) (hb : ChildBasic M) {r : List ℕ} (hr : r ∈ M.C) {x : K → ℕ}
    (hx : RowMatches M.vars r x) {k : K} (hk : k ∈ childNames M) : val M.getNames r k = x k := by
  obtain ⟨v, hv, rfl⟩ := List.mem_map.1 hk
  have h1 := (childBasic_iff hM).1 hb r hr v hv
  have hvm := List.mem_of_mem_take hv
  have h2 := (rowMatches_iff hM.nodup (hM.rowLen r hr) x).1 hx v hvm
  rw [show M.vars.map Variable.name = M.getNames from rfl, stateSet_basic (hM.table v hvm) h1,
    Finset.mem_singleton] at h2
  exact h2.symm

set_option maxHeartbeats 1000000 in
/-- One row of the conditioning CPM: the function returns, and the rows are the states of the system
that its CPM lists. -/
theorem condVERow_total (h : RowNet U N keys sys [] E [] Mc) (hE : E ≠ []) {cv : List (Variable K)}
    (hcv1 : cv.length ≤ 1) (hcv : ∀ k ∈ E, (N k).vars.drop 1 = cv) (hSC : (N sys).C ≠ [])
    (hMc : Mc.vars ≠ []) {cx : List ℕ} (hcx : cx ∈ Mc.C) {condNames : List K}
    (hcn : ∀ k, k ∈ condNames ↔ k ∈ Mc.getNames) :
    ∃ R, condVERow (keys.map fun k => (k, N k)) sys E [] condNames [] Mc cx = .ok R ∧
      ∀ r, r ∈ R.C ↔ ∃ s ∈ (N sys).C, r = [val (N sys).getNames s sys] := by
  classical
  obtain ⟨s1, s2, s3, s4⟩ := h.self hcx
  have hEk : ∀ k ∈ E, k ∈ keys := fun k hk => h.split.mem_iff.2 (by simp [hk])
  have hsysk : sys ∈ keys := h.split.mem_iff.2 (by simp)
  have hnd := (h.split.nodup_iff).1 h.nodup
  rw [List.nodup_cons] at hnd
  have hsE : sys ∉ E := fun hs => hnd.1 (by simp [hs])
  have hsM : sys ∉ Mc.getNames := h.disj sys hsysk
  have hev := fun names => evidence_row (U := U) h.mc hcx names
  -- the CPM of the row itself
  have hm1 : ∀ x, Covers (condPure Mc Mc.vars cx) x ↔ RowMatches Mc.vars cx x := by
    intro x
    rw [condPure_covers h.mc (hev _) h.mc.nodup, consistent_all]
    exact ⟨fun h => h.1, fun h => ⟨h, cx, hcx, h⟩⟩
  have hmx : RowMatches Mc.vars cx (fun k => val Mc.getNames cx k) :=
    (h.matches hcx _).2 fun k _ => rfl
  obtain ⟨r1, hr1, -⟩ := (hm1 _).2 hmx
  have hr1' : r1 = cx := s3 r1 hr1
  have hget : pyGet (condPure Mc Mc.vars cx).C 0 = .ok cx := by
    cases e : (condPure Mc Mc.vars cx).C with
    | nil => rw [e] at hr1; simp at hr1
    | cons a l =>
      have : a = cx := s3 a (by rw [e]; simp)
      rw [this]; rfl
  -- the lists
  set l2 := (keys.filter fun k => k ≠ sys).map fun k => condPure (N k) Mc.vars cx with hl2
  have hperm : (keys.filter fun k => k ≠ sys).Perm E := by
    have hEn : E.Nodup := by
      have := hnd.2
      simpa using this
    refine (List.perm_ext_iff_of_nodup (h.nodup.filter _) hEn).2 fun k => ?_
    rw [List.mem_filter, h.split.mem_iff]
    simp only [List.nil_append, List.append_nil, List.mem_cons, decide_eq_true_eq]
    constructor
    · rintro ⟨rfl | h1, h2⟩
      · exact absurd rfl h2
      · exact h1
    · intro hk
      exact ⟨.inr hk, fun e => hsE (e ▸ hk)⟩
  have hl2p : l2.Perm (E.map fun k => condPure (N k) Mc.vars cx) := hperm.map _
  set S := condPure (N sys) Mc.vars cx with hS
  have hSn : ∀ v ∈ Mc.vars, v.name ∉ (N sys).getNames := by
    intro v hv hk
    rw [getNames_eq, h.child sys hsysk, List.mem_append, List.mem_singleton] at hk
    have hvM : v.name ∈ Mc.getNames := List.mem_map_of_mem hv
    rcases hk with e | hk
    · exact hsM (e ▸ hvM)
    · have := (h.pSys v.name).1 hk
      simp only [List.not_mem_nil, or_false] at this
      exact h.disj _ (hEk _ this) hvM
  have hSCe : S.C = (N sys).C := condPure_disjoint_names hSn
  obtain ⟨D, hD⟩ := h.msysOK hE hcv1 hcv hSC hcx hl2p
  rw [← hS] at hD
  obtain ⟨P, new, hP, pW, pV, pN, pC, pL, pR⟩ := C46_rows_partial hD
  have hSW := (h.cond hcx hsysk).1
  have hSb := (h.cond hcx hsysk).2.1
  have hSchild : childNames S = [sys] := h.child sys hsysk
  have hmE : ∀ k, (∃ m ∈ l2, k ∈ childNames m) ↔ k ∈ E := by
    intro k
    constructor
    · rintro ⟨m, hm, hk⟩
      obtain ⟨j, hj, rfl⟩ := List.mem_map.1 (hl2p.mem_iff.1 hm)
      rw [show childNames (condPure (N j) Mc.vars cx) = [j] from h.child j (hEk j hj),
        List.mem_singleton] at hk
      rw [hk]; exact hj
    · intro hk
      refine ⟨_, hl2p.mem_iff.2 (List.mem_map_of_mem hk), ?_⟩
      rw [show childNames (condPure (N k) Mc.vars cx) = [k] from h.child k (hEk k hk)]
      simp
  have hcp : ∀ k, k ∈ (compPars S l2).map Variable.name ↔ k ∈ E := by
    intro k
    constructor
    · intro hk
      obtain ⟨v, hv, rfl⟩ := List.mem_map.1 hk
      exact (hmE _).1 (of_decide_eq_true (List.mem_filter.1 hv).2)
    · intro hk
      have : k ∈ parentNames S := (h.pSys k).2 (.inl hk)
      obtain ⟨v, hv, rfl⟩ := List.mem_map.1 this
      refine List.mem_map_of_mem (List.mem_filter.2 ⟨hv, ?_⟩)
      rw [decide_eq_true_iff]
      exact (hmE _).2 hk
  have hop : otherPars S l2 = [] := by
    unfold otherPars
    rw [List.filter_eq_nil_iff]
    intro v hv
    rw [decide_eq_true_iff]
    intro hn
    have := (h.pSys v.name).1 (List.mem_map_of_mem hv)
    simp only [List.not_mem_nil, or_false] at this
    obtain ⟨m, hm, hk⟩ := (hmE _).2 this
    exact hn m hm hk
  -- the components, read from the result
  have hEP : ∀ k ∈ E, k ∈ P.getNames := by
    intro k hk
    obtain ⟨v, hv, rfl⟩ := List.mem_map.1 ((hcp k).2 hk)
    refine List.mem_map_of_mem ?_
    rw [pV]
    exact List.mem_append_left _ (List.mem_append_left _ (List.mem_append_right _ hv))
  obtain ⟨ev, hev1, hev2, hev3⟩ := (C55_get_variables P E).1 hEP
  have hPtake : P.vars.take P.noChild = S.vars.take S.noChild ++ compPars S l2 := by
    rw [pV, pC, List.append_assoc]
    have : S.noChild + (compPars S l2).length = (S.vars.take S.noChild ++ compPars S l2).length := by
      rw [List.length_append, List.length_take, Nat.min_eq_left hSW.child]
    rw [this, List.take_left]
  have hPdrop : P.vars.drop P.noChild = new := by
    rw [pV, pC, List.append_assoc, hop, List.nil_append]
    have : S.noChild + (compPars S l2).length = (S.vars.take S.noChild ++ compPars S l2).length := by
      rw [List.length_append, List.length_take, Nat.min_eq_left hSW.child]
    rw [this, List.drop_left]
  obtain ⟨w0, hw0, hw0n⟩ : ∃ w ∈ S.vars.take S.noChild, w.name = sys := by
    have : sys ∈ childNames S := by rw [hSchild]; simp
    obtain ⟨w, hw, e⟩ := List.mem_map.1 this
    exact ⟨w, hw, e⟩
  have hneP : (P.vars.take P.noChild).filter (fun v => v.name ∉ ev.map Variable.name) ++
      P.vars.drop P.noChild ≠ [] := by
    refine List.ne_nil_of_mem (a := w0) (List.mem_append_left _ (List.mem_filter.2 ⟨?_, ?_⟩))
    · rw [hPtake]; exact List.mem_append_left _ hw0
    · rw [decide_eq_true_iff, hev3, hw0n]; exact hsE
  obtain ⟨Q, q1, q2, q3, q4, q5, q6, -⟩ := sumAny_ok pW ev hneP
  obtain ⟨a1, a2, a3, -⟩ := h.system hcx (veVars := []) rfl
    (by simpa using hl2p) (comps := l2) rfl (S := S) rfl hP hev3 q1
  have hQs : sys ∈ childNames Q := a2.mem_iff.2 (by simp)
  have hQsub : ∀ w ∈ Q.vars, w ∈ P.vars := by
    intro w hw
    rw [q2] at hw
    rcases List.mem_append.1 hw with hw | hw
    · exact List.mem_of_mem_take (List.mem_filter.1 hw).1
    · exact List.mem_of_mem_drop hw
  have hQpar : ∀ k ∈ parentNames Q, ∃ w ∈ cv, w ∈ new ∧ w.name = k := by
    intro k hk
    have hd : Q.vars.drop Q.noChild = new := by
      rw [q2, q3, List.drop_left, hPdrop]
    unfold parentNames at hk
    rw [hd] at hk
    obtain ⟨w, hw, rfl⟩ := List.mem_map.1 hk
    refine ⟨w, ?_, hw, rfl⟩
    rw [pN] at hw
    exact (List.mem_filter.1 hw).1
  have hproj : ∀ r' : List ℕ, ∀ k ∈ Q.getNames, val Q.getNames (projRow P Q.vars r') k =
      val P.getNames r' k := by
    intro r' k hk
    have := val_map Q.getNames (fun k => val P.getNames r' k) hk
    rw [← this]
    unfold projRow Cpm.getNames
    rw [List.map_map]
    rfl
  have hQn : sys ∈ Q.getNames := by rw [getNames_eq]; exact List.mem_append_left _ hQs
  -- the rows of `Q` come from the rows of the system
  have hQrow : ∀ q ∈ Q.C, (∃ s ∈ S.C, val Q.getNames q sys = val S.getNames s sys) ∧
      ∀ k ∈ Q.getNames, k ≠ sys → k ∈ Mc.getNames ∧ val Q.getNames q k = val Mc.getNames cx k := by
    intro q hq
    obtain ⟨r', hr', rfl⟩ := List.mem_map.1 ((q6 q).1 hq)
    obtain ⟨i, hi, hir⟩ := List.mem_iff_getElem.1 hr'
    have hi1 : i < S.C.length := by rw [← pL]; exact hi
    have hi2 : i < S.p.length := by rw [hSW.pLen]; exact hi1
    obtain ⟨r'', q', e1, -, e3, e4, -⟩ := pR i S.C[i] S.p[i] (List.getElem?_eq_getElem hi1)
      (List.getElem?_eq_getElem hi2)
    rw [List.getElem?_eq_getElem hi, hir] at e1
    cases e1
    refine ⟨⟨S.C[i], List.getElem_mem hi1, ?_⟩, fun k hk hks => ?_⟩
    · rw [hproj _ _ hQn, ← hw0n]
      exact e3 w0 (List.mem_of_mem_take hw0)
    · rw [getNames_eq, List.mem_append] at hk
      rcases hk with hk | hk
      · exact absurd (by simpa using a2.mem_iff.1 hk) hks
      · refine ⟨a3 k hk, ?_⟩
        obtain ⟨w, hw, hwn, rfl⟩ := hQpar k hk
        rw [hproj _ _ (by rw [getNames_eq]; exact List.mem_append_right _ hk)]
        refine e4 (w, val Mc.getNames cx w.name) ?_ hwn
        rw [List.zip_map_right, List.mem_map]
        refine ⟨(w, w), ?_, rfl⟩
        rw [List.mem_iff_getElem] at hw ⊢
        obtain ⟨j, hj, e⟩ := hw
        exact ⟨j, by simpa using hj, by simp [e]⟩
  have hQrow' : ∀ s ∈ S.C, ∃ q ∈ Q.C, val Q.getNames q sys = val S.getNames s sys := by
    intro s hs
    obtain ⟨i, hi1, hir⟩ := List.mem_iff_getElem.1 hs
    have hi2 : i < S.p.length := by rw [hSW.pLen]; exact hi1
    obtain ⟨r', q', e1, -, e3, -, -⟩ := pR i S.C[i] S.p[i] (List.getElem?_eq_getElem hi1)
      (List.getElem?_eq_getElem hi2)
    refine ⟨projRow P Q.vars r', (q6 _).2 (List.mem_map_of_mem (List.mem_of_getElem? e1)), ?_⟩
    rw [hproj _ _ hQn, ← hir, ← hw0n]
    exact e3 w0 (List.mem_of_mem_take hw0)
  have hSval : ∀ s ∈ S.C, val S.getNames s sys < w0.values.length := by
    intro s hs
    rw [← hw0n]
    exact (childBasic_iff hSW).1 hSb s hs w0 hw0
  have hQw0 : ∀ v ∈ Q.vars, v.name = sys → v = w0 := by
    intro v hv e
    rw [← pW.env v (hQsub v hv), ← hSW.env w0 (List.mem_of_mem_take hw0), e, hw0n]
  have hQb : ChildBasic Q := by
    rw [childBasic_iff q4]
    intro q hq v hv
    have hvs : v.name = sys := by
      have := a2.mem_iff.1 (List.mem_map_of_mem hv)
      simpa using this
    obtain ⟨⟨s, hs, e⟩, -⟩ := hQrow q hq
    rw [hvs, e, hQw0 v (List.mem_of_mem_take hv) hvs]
    exact hSval s hs
  -- assignments that a row of `Q` matches
  have hQmat : ∀ q ∈ Q.C, RowMatches Q.vars q
      (fun k => if k ∈ Mc.getNames then val Mc.getNames cx k else val Q.getNames q k) := by
    intro q hq
    rw [rowMatches_iff q4.nodup (q4.rowLen q hq)]
    intro v hv
    rw [show Q.vars.map Variable.name = Q.getNames from rfl]
    by_cases hvs : v.name = sys
    · have hb := (childBasic_iff q4).1 hQb q hq v (by
        obtain ⟨u, hu, hue⟩ := List.mem_map.1 hQs
        have : u = v := by rw [← q4.env u (List.mem_of_mem_take hu), ← q4.env v hv, hue, hvs]
        rw [← this]; exact hu)
      rw [stateSet_basic (q4.table v hv) hb, Finset.mem_singleton, if_neg (by rw [hvs]; exact hsM)]
    · obtain ⟨hkM, e⟩ := (hQrow q hq).2 v.name (List.mem_map_of_mem hv) hvs
      obtain ⟨u, hu, hue⟩ := List.mem_map.1 hkM
      have huv : u = v := by rw [← h.mc.env u hu, ← q4.env v hv, hue]
      rw [if_pos hkM, e, stateSet_basic (q4.table v hv) (by rw [← huv]; exact h.mcCol hcx hu),
        Finset.mem_singleton]
  obtain ⟨s0, hs0⟩ := List.exists_mem_of_ne_nil _ hSC
  obtain ⟨q0, hq0, -⟩ := hQrow' s0 (by rw [hSCe]; exact hs0)
  -- the product with the row of the conditioning CPM
  have hdisj : ∀ k ∈ childNames Q, k ∉ childNames (condPure Mc Mc.vars cx) := by
    intro k hk hk'
    have : k = sys := by simpa using a2.mem_iff.1 hk
    refine hsM (this ▸ ?_)
    have : k ∈ Mc.getNames := by rw [getNames_eq]; exact List.mem_append_left _ hk'
    exact this
  obtain ⟨T, hT, hTs⟩ : ∃ T, Q.product (condPure Mc Mc.vars cx) = .ok T ∧
      ProdSpec U [Q, condPure Mc Mc.vars cx] T := by
    rcases product_spec q4 s1 hdisj with ⟨-, h1⟩ | h1
    · exfalso
      split at h1
      · exact flatten_ne_of_covers s1 hMc ((hm1 _).2 hmx) h1
      · exact flatten_ne_of_covers q4 (List.ne_nil_of_mem (List.mem_map.1 hQn).choose_spec.1)
          ⟨q0, hq0, hQmat q0 hq0⟩ h1
    · exact h1
  have hTc : ∀ x, Covers T x ↔ Covers Q x ∧ RowMatches Mc.vars cx x := by
    intro x
    rw [hTs.covers, ← hm1]
    simp
  have hTchild : sys ∈ childNames T := by
    rw [hTs.child.mem_iff]
    simp [hQs]
  have hTM : ∀ k ∈ condNames, k ∈ T.getNames := by
    intro k hk
    exact (hTs.names k).2 ⟨condPure Mc Mc.vars cx, by simp, (hcn k).1 hk⟩
  obtain ⟨cv', hcv1', hcv2', hcv3'⟩ := (C55_get_variables T condNames).1 hTM
  have hneT : (T.vars.take T.noChild).filter (fun v => v.name ∉ cv'.map Variable.name) ++
      T.vars.drop T.noChild ≠ [] := by
    obtain ⟨w, hw, e⟩ := List.mem_map.1 hTchild
    refine List.ne_nil_of_mem (a := w) (List.mem_append_left _ (List.mem_filter.2 ⟨hw, ?_⟩))
    rw [decide_eq_true_iff, hcv3', hcn, e]
    exact hsM
  obtain ⟨R, t1, t2, t3, t4, t5, t6, -⟩ := sumAny_ok hTs.wf cv' hneT
  have hR : condVERow (keys.map fun k => (k, N k)) sys E [] condNames [] Mc cx = .ok R := by
    unfold condVERow
    have hmapN : (keys.map fun k => (k, N k)).map Prod.snd = keys.map N := by
      rw [List.map_map]; rfl
    have hmapK : (keys.map fun k => (k, N k)).map Prod.fst = keys := by
      rw [List.map_map]; exact List.map_id' keys
    have hd1 : keys.zip ((keys.map N).map fun M => condPure M Mc.vars cx) =
        keys.map fun k => (k, condPure (N k) Mc.vars cx) := by
      rw [List.map_map]
      exact zip_map_pair _ keys
    have hget1 : assocGet (keys.map fun k => (k, condPure (N k) Mc.vars cx)) sys = .ok S := by
      unfold assocGet
      rw [lookup_map_pair, if_pos hsysk]
    have hfil : ((keys.map fun k => (k, condPure (N k) Mc.vars cx)).filter
        fun km => km.1 ≠ sys).map Prod.snd = l2 := by
      rw [List.filter_map, List.map_map]; rfl
    rw [condition_ok h.mc (hev _) h.mc.nodup, ok_bind, hget, ok_bind, hmapN, hmapK,
      show (condPure Mc Mc.vars cx).vars = Mc.vars from rfl,
      conditionAll_ok (fun M hM => by
        obtain ⟨k, hk, rfl⟩ := List.mem_map.1 hM
        exact h.wf k hk) h.mc hcx, ok_bind]
    simp only [hd1, hget1, ok_bind, joinComps, hfil, variableElimList, List.foldlM_nil, pure_ok, hP, hev1, q1, hT, hcv1', t1]
  refine ⟨R, hR, fun r => ?_⟩
  obtain ⟨-, b2, -, -⟩ := condVERow_spec h hcx (veVars := []) rfl hcn hR
  have hRv : R.getNames = [sys] := by
    have h1 : ∀ k ∈ R.getNames, k = sys := fun k hk => by simpa using (b2 k).1 hk
    have h2 : sys ∈ R.getNames := (b2 sys).2 (.inl rfl)
    have h3 := t4.nodup
    change R.getNames.Nodup at h3
    cases e : R.getNames with
    | nil => rw [e] at h2; simp at h2
    | cons a l =>
      rw [e] at h1 h3
      have ha := h1 a (by simp)
      cases l with
      | nil => rw [ha]
      | cons b l =>
        have hb := h1 b (by simp)
        rw [ha, hb] at h3
        simp at h3
  have hprojR : ∀ t, projRow T R.vars t = [val T.getNames t sys] := by
    intro t
    have : projRow T R.vars t = R.getNames.map fun k => val T.getNames t k := by
      unfold projRow Cpm.getNames
      rw [List.map_map]
      rfl
    rw [this, hRv]
    rfl
  have hTb : ChildBasic T := by
    refine hTs.basic fun M hM => ?_
    simp only [List.mem_cons, List.not_mem_nil, or_false] at hM
    rcases hM with rfl | rfl
    · exact hQb
    · exact condPure_childBasic h.mc (hev _) h.mc.nodup h.mcBasic
  rw [t6, List.mem_map, ← hSCe]
  constructor
  · rintro ⟨t, ht, rfl⟩
    rw [hprojR]
    obtain ⟨x, hx⟩ := exists_matches hTs.wf ht
    obtain ⟨q, hq, hqx⟩ := ((hTc x).1 ⟨t, ht, hx⟩).1
    obtain ⟨⟨s, hs, e⟩, -⟩ := hQrow q hq
    refine ⟨s, hs, ?_⟩
    rw [val_of_matches hTs.wf hTb ht hx hTchild, ← val_of_matches q4 hQb hq hqx hQs, e]
    rfl
  · rintro ⟨s, hs, rfl⟩
    obtain ⟨q, hq, e⟩ := hQrow' s hs
    have hqm := hQmat q hq
    obtain ⟨t, ht, htx⟩ := (hTc _).2 ⟨⟨q, hq, hqm⟩, (h.matches hcx _).2 fun k hk => by
      simp only [if_pos hk]⟩
    refine ⟨t, ht, ?_⟩
    rw [hprojR, val_of_matches hTs.wf hTb ht htx hTchild]
    simp only [if_neg hsM]
    rw [e]
    rfl

/-- The rows together. -/
theorem condVELoop_total (h : RowNet U N keys sys [] E [] Mc) (hE : E ≠ []) {cv : List (Variable K)}
    (hcv1 : cv.length ≤ 1) (hcv : ∀ k ∈ E, (N k).vars.drop 1 = cv) (hSC : (N sys).C ≠ [])
    (hMc : Mc.vars ≠ []) {condNames : List K} (hcn : ∀ k, k ∈ condNames ↔ k ∈ Mc.getNames) :
    ∀ rows : List (List ℕ), (∀ cx ∈ rows, cx ∈ Mc.C) → ∀ acc : Option (Cpm K),
    (acc = none → rows ≠ []) → (∀ A, acc = some A → WF U A ∧ A.getNames = [sys] ∧
      ∀ r, r ∈ A.C ↔ ∃ s ∈ (N sys).C, r = [val (N sys).getNames s sys]) →
    ∃ R, condVELoop (fun cx => condVERow (keys.map fun k => (k, N k)) sys E [] condNames [] Mc cx)
      rows acc = .ok R ∧ ∀ r, r ∈ R.C ↔ ∃ s ∈ (N sys).C, r = [val (N sys).getNames s sys] := by
  intro rows
  induction rows with
  | nil =>
    intro _ acc h1 h2
    cases acc with
    | none => exact absurd rfl (h1 rfl)
    | some A => exact ⟨A, rfl, (h2 A rfl).2.2⟩
  | cons cx rows ih =>
    intro hrows acc h1 h2
    obtain ⟨M, hM, hMr⟩ := condVERow_total h hE hcv1 hcv hSC hMc (hrows cx (by simp)) hcn
    obtain ⟨b1, b2, -, -⟩ := condVERow_spec h (hrows cx (by simp)) (veVars := []) rfl hcn hM
    have hMv : M.getNames = [sys] := by
      have h1 : ∀ k ∈ M.getNames, k = sys := fun k hk => by simpa using (b2 k).1 hk
      have h2 : sys ∈ M.getNames := (b2 sys).2 (.inl rfl)
      have h3 := b1.nodup
      change M.getNames.Nodup at h3
      cases e : M.getNames with
      | nil => rw [e] at h2; simp at h2
      | cons a l =>
        rw [e] at h1 h3
        have ha := h1 a (by simp)
        cases l with
        | nil => rw [ha]
        | cons b l =>
          have hb := h1 b (by simp)
          rw [ha, hb] at h3
          simp at h3
    have hrest : ∀ cx ∈ rows, cx ∈ Mc.C := fun c hc => hrows c (by simp [hc])
    rw [condVELoop, hM, ok_bind]
    cases acc with
    | none =>
      exact ih hrest (some M) (by simp) (by rintro A ⟨⟩; exact ⟨b1, hMv, hMr⟩)
    | some A =>
      obtain ⟨a1, a2, a3⟩ := h2 A rfl
      have hvars : A.vars = M.vars := by
        have e1 : A.vars = A.getNames.map U := by
          unfold Cpm.getNames
          rw [List.map_map]
          conv_lhs => rw [← List.map_id A.vars]
          exact List.map_congr_left fun v hv => (a1.env v hv).symm
        have e2 : M.vars = M.getNames.map U := by
          unfold Cpm.getNames
          rw [List.map_map]
          conv_lhs => rw [← List.map_id M.vars]
          exact List.map_congr_left fun v hv => (b1.env v hv).symm
        rw [e1, e2, a2, hMv]
      obtain ⟨A', R, m1, m2, m3, -, m5, -⟩ := C14_merge_partial A M a1 b1 hvars
        (fun r hr => (a3 r).2 ((hMr r).1 hr))
      simp only [m1, ok_bind]
      refine ih hrest (some R) (by simp) ?_
      rintro A2 ⟨⟩
      refine ⟨m2, ?_, by rw [m5]; exact a3⟩
      unfold Cpm.getNames
      rw [m3]
      exact a2

/-- The network as the rows of the conditioning CPM meet it. -/
theorem condVE_rowNet {d : List (K × Cpm K)} {varis : List (K × Variable K)} {cond veOrd : List K}
    (h : CondVEOK U d varis cond veOrd sys) {inf : List K}
    (hmem : ∀ k, k ∈ inf ↔ Relevant d [sys] k) (hinfn : inf.Nodup) {S : Cpm K}
    (hSl : d.lookup sys = some S)
    (hlk : ∀ k ∈ firstOccOn id (veNames inf cond veOrd ((S.vars.drop S.noChild).map Variable.name) ++
      (S.vars.drop S.noChild).map Variable.name ++
      jntNames veOrd ((S.vars.drop S.noChild).map Variable.name) ++ [sys]), d.lookup k = some (N k))
    (hclk : ∀ k ∈ cond, d.lookup k = some (N k)) (hNsys : N sys = S)
    (hMc : productList (cond.map N) = .ok Mc) :
    RowNet U N (firstOccOn id (veNames inf cond veOrd ((S.vars.drop S.noChild).map Variable.name) ++
      (S.vars.drop S.noChild).map Variable.name ++
      jntNames veOrd ((S.vars.drop S.noChild).map Variable.name) ++ [sys])) sys
      ((veNames inf cond veOrd ((S.vars.drop S.noChild).map Variable.name)).filter fun v => v ≠ sys)
      (elmNames veOrd ((S.vars.drop S.noChild).map Variable.name))
      (jntNames veOrd ((S.vars.drop S.noChild).map Variable.name)) Mc ∧
      ∀ k, k ∈ Mc.getNames ↔ k ∈ cond := by
  set cN := (S.vars.drop S.noChild).map Variable.name with hcN
  have hpar : ∀ {k : K} {M : Cpm K}, d.lookup k = some M → ∀ j, ParentOf d k j ↔ j ∈ parentNames M := by
    intro k M hk j
    unfold ParentOf parentNames
    rw [hk]
    simp
  have hcNp : ∀ j, j ∈ cN ↔ ParentOf d sys j := fun j => (hpar hSl j).symm
  have hcNn : cN.Nodup := (h.wf _ _ hSl).nodup.sublist ((List.drop_sublist _ _).map _)
  have hrel : ∀ {k j : K}, Relevant d [sys] k → ParentOf d k j → Relevant d [sys] j := by
    rintro k j ⟨v, hv, hk⟩ hj
    exact ⟨v, hv, hk.tail hj⟩
  have hrels : Relevant d [sys] sys := ⟨sys, by simp, .refl⟩
  have hsysc : sys ∉ cN := fun hc => h.leaf sys hrels ((hcNp sys).1 hc)
  set ve := veNames inf cond veOrd cN with hveN
  have hvem : ∀ k, k ∈ ve ↔ Relevant d [sys] k ∧ k ∈ veOrd ∧ k ∉ cond ∧ k ∉ cN := by
    intro k
    simp only [hveN, veNames, List.mem_filter, hmem, decide_eq_true_eq]
  set W := ve.filter fun v => v ≠ sys with hW
  have hWm : ∀ k, k ∈ W ↔ Relevant d [sys] k ∧ k ∈ veOrd ∧ k ∉ cond ∧ k ∉ cN ∧ k ≠ sys := by
    intro k
    simp only [hW, List.mem_filter, hvem, decide_eq_true_eq]
    tauto
  have hWn : W.Nodup := (hinfn.filter _).filter _
  set J := jntNames veOrd cN with hJ
  have hJm : ∀ k, k ∈ J ↔ k ∈ cN ∧ k ∉ veOrd := by
    intro k; simp only [hJ, jntNames, List.mem_filter, decide_eq_true_eq]
  have hJn : J.Nodup := hcNn.filter _
  set E := elmNames veOrd cN with hE
  have hEm : ∀ k, k ∈ E ↔ k ∈ cN ∧ k ∈ veOrd := by
    intro k
    simp only [hE, elmNames, List.mem_filter, decide_eq_true_eq, ← hJ, hJm]
    tauto
  have hEn : E.Nodup := hcNn.filter _
  set keys := firstOccOn id (ve ++ cN ++ J ++ [sys]) with hkeys
  have hkeysn : keys.Nodup := by
    have := firstOccOn_nodup id (ve ++ cN ++ J ++ [sys])
    rwa [List.map_id] at this
  have hkeysm : ∀ k, k ∈ keys ↔ k = sys ∨ k ∈ J ∨ k ∈ E ∨ k ∈ W := by
    intro k
    have := mem_firstOccOn_key id (ve ++ cN ++ J ++ [sys]) k
    rw [List.map_id, List.map_id] at this
    rw [hkeys, this]
    simp only [List.mem_append, List.mem_singleton, hvem, hJm, hEm, hWm]
    tauto
  have hkr : ∀ k ∈ keys, Relevant d [sys] k := by
    intro k hk
    rcases (hkeysm k).1 hk with rfl | hk | hk | hk
    · exact hrels
    · exact hrel hrels ((hcNp k).1 ((hJm k).1 hk).1)
    · exact hrel hrels ((hcNp k).1 ((hEm k).1 hk).1)
    · exact ((hWm k).1 hk).1
  -- the conditioning CPM
  have hcN' : ∀ k ∈ cond, childNames (N k) = [k] := fun k hk => h.child k _ (hclk k hk)
  have hMs : ProdSpec U (cond.map N) Mc := by
    refine productList_ok ?_ (childDisjoint_keys h.condNodup hcN') hMc
    intro M hM
    obtain ⟨k, hk, rfl⟩ := List.mem_map.1 hM
    exact h.wf k _ (hclk k hk)
  have hMchild : (childNames Mc).Perm cond := by
    have := hMs.child
    rwa [flatMap_childNames hcN'] at this
  have hMnames : ∀ k, k ∈ Mc.getNames ↔ k ∈ cond := by
    intro k
    constructor
    · intro hk
      obtain ⟨M, hM, hkM⟩ := (hMs.names k).1 hk
      obtain ⟨j, hj, rfl⟩ := List.mem_map.1 hM
      rw [getNames_eq, hcN' j hj, List.mem_append, List.mem_singleton] at hkM
      rcases hkM with rfl | hkM
      · exact hj
      · exact h.condClosed j hj k ((hpar (hclk j hj) k).2 hkM)
    · intro hk
      rw [getNames_eq]
      exact List.mem_append_left _ (hMchild.mem_iff.2 hk)
  have hnet : RowNet U N keys sys W E J Mc := by
    have hdisj : ∀ k ∈ keys, k ∉ cond := by
      intro k hk
      rcases (hkeysm k).1 hk with rfl | hk | hk | hk
      · exact h.condSys
      · exact h.direct k ((hcNp k).1 ((hJm k).1 hk).1)
      · exact h.direct k ((hcNp k).1 ((hEm k).1 hk).1)
      · exact ((hWm k).1 hk).2.2.1
    refine
      { split := ?_, nodup := hkeysn, wf := fun k hk => h.wf k _ (hlk k hk),
        basic := fun k hk => h.basic k _ (hlk k hk), rows := fun k hk => h.rows k _ (hlk k hk),
        child := fun k hk => h.child k _ (hlk k hk), full := fun k hk => h.full k _ (hlk k hk),
        pos := fun k hk => h.pos k _ (hlk k hk), mc := hMs.wf, mcChild := fun k hk => ?_,
        mcBasic := ?_, mcRows := ?_, disj := fun k hk => ?_, pSys := fun k => ?_, pJ := ?_,
        pEW := ?_ }
    · refine (List.perm_ext_iff_of_nodup hkeysn ?_).2 fun k => ?_
      · rw [List.nodup_cons, List.nodup_append, List.nodup_append]
        refine ⟨?_, hJn, ⟨hEn, hWn, ?_⟩, ?_⟩
        · rw [List.mem_append, List.mem_append, hJm, hEm, hWm]
          rintro (hc | hc | hc)
          · exact hsysc hc.1
          · exact hsysc hc.1
          · exact hc.2.2.2.2 rfl
        · rintro a ha b hb rfl
          exact ((hWm a).1 hb).2.2.2.1 ((hEm a).1 ha).1
        · rintro a ha b hb rfl
          rcases List.mem_append.1 hb with hb | hb
          · exact ((hJm a).1 ha).2 ((hEm a).1 hb).2
          · exact ((hWm a).1 hb).2.2.2.1 ((hJm a).1 ha).1
      · rw [hkeysm, List.mem_cons, List.mem_append, List.mem_append]
    · exact hMchild.mem_iff.2 ((hMnames k).1 hk)
    · refine hMs.basic fun M hM => ?_
      obtain ⟨k, hk, rfl⟩ := List.mem_map.1 hM
      exact h.basic k _ (hclk k hk)
    · refine hMs.disjoint fun M hM => ?_
      obtain ⟨k, hk, rfl⟩ := List.mem_map.1 hM
      exact h.rows k _ (hclk k hk)
    · rw [hMnames]; exact hdisj k hk
    · rw [hNsys, hEm, hJm]
      change k ∈ cN ↔ _
      tauto
    · intro j hj k hk
      rw [hMnames]
      have hjk : j ∈ keys := (hkeysm j).2 (.inr (.inl hj))
      exact h.joint j ((hcNp j).1 ((hJm j).1 hj).1) ((hJm j).1 hj).2 k
        ((hpar (hlk j hjk) k).2 hk)
    · intro j hj k hk
      rw [hMnames]
      have hjk : j ∈ keys := (hkeysm j).2 (by
        rcases List.mem_append.1 hj with hj | hj
        · exact .inr (.inr (.inl hj))
        · exact .inr (.inr (.inr hj)))
      have hjs : j ≠ sys := by
        rcases List.mem_append.1 hj with hj' | hj'
        · rintro rfl; exact hsysc ((hEm _).1 hj').1
        · exact ((hWm _).1 hj').2.2.2.2
      have hp := (hpar (hlk j hjk) k).2 hk
      have hkR := hrel (hkr j hjk) hp
      have hkc : k ∉ cN := fun hc => h.comps k j ((hcNp k).1 hc) (hkr j hjk) hjs hp
      have hks : k ≠ sys := by
        rintro rfl
        exact h.leaf j (hkr j hjk) hp
      rcases h.complete k hkR with h1 | h1 | h1 | h1
      · exact absurd h1 hks
      · exact .inr h1
      · by_cases hc : k ∈ cond
        · exact .inr hc
        · exact .inl ((hWm k).2 ⟨hkR, h1, hc, hkc, hks⟩)
      · exact absurd ((hcNp k).2 h1) hkc
  exact ⟨hnet, hMnames⟩

end
end BNS
