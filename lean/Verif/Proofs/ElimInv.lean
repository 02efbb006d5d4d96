import Verif.Proofs.MsysGen
import Verif.Model.CondVE

/-! What variable elimination keeps of the rows of a network conditioned on one row. -/

namespace BNS

set_option linter.unusedSectionVars false

section
variable {K : Type} [LinearOrder K] {U : K → Variable K}

/-- No row twice, the parents satisfy `A`, and the variables of `cn` have the value given by `c`. -/
structure ElimInv (A : K → Prop) (cn : List K) (c : K → ℕ) (M : Cpm K) : Prop where
  nodup : M.C.Nodup
  par : ∀ k ∈ parentNames M, A k
  col : ∀ x, Covers M x → ∀ k ∈ cn, k ∈ M.getNames → x k = c k

variable {A : K → Prop} {cn : List K} {c : K → ℕ}

theorem rowsDisjoint_nodup {M : Cpm K} (h : WF U M) (hd : RowsDisjoint M) : M.C.Nodup := by
  refine List.Pairwise.imp_of_mem ?_ hd
  intro r r' hr _ hdis e
  obtain ⟨x, hx⟩ := exists_matches h hr
  exact hdis x ⟨hx, e ▸ hx⟩

theorem condPure_disjoint {M : Cpm K} {cv : List (Variable K)} {cs : List ℕ} (h : WF U M)
    (he : EvidenceOK U M.getNames cv cs) (hn : (cv.map Variable.name).Nodup)
    (hd : RowsDisjoint M) : RowsDisjoint (condPure M cv cs) := by
  unfold RowsDisjoint at hd ⊢
  have hC : (condPure M cv cs).C = (M.C.filter fun r => (checkList M.getNames cv cs).all fun t =>
    rowTest t r).map (condRow (checkList M.getNames cv cs)) := rfl
  rw [hC, List.pairwise_map]
  refine List.Pairwise.imp_of_mem ?_ (hd.sublist List.filter_sublist)
  intro r r' hr hr' hdis x hx
  rw [List.mem_filter, List.all_eq_true] at hr hr'
  exact hdis x ⟨((condRow_matches h he hn x r hr.1).1 ⟨hr.2, hx.1⟩).2,
    ((condRow_matches h he hn x r' hr'.1).1 ⟨hr'.2, hx.2⟩).2⟩

theorem condPure_covers {M : Cpm K} {cv : List (Variable K)} {cs : List ℕ} (h : WF U M)
    (he : EvidenceOK U M.getNames cv cs) (hn : (cv.map Variable.name).Nodup) (x : K → ℕ) :
    Covers (condPure M cv cs) x ↔ Consistent M.getNames cv cs x ∧ Covers M x := by
  constructor
  · rintro ⟨r', hr', hm⟩
    obtain ⟨r, hr, hc, rfl⟩ := condPure_mem hr'
    obtain ⟨h1, h2⟩ := (condRow_matches h he hn x r hr).1 ⟨hc, hm⟩
    exact ⟨h1, r, hr, h2⟩
  · rintro ⟨h1, r, hr, h2⟩
    obtain ⟨h3, h4⟩ := (condRow_matches h he hn x r hr).2 ⟨h1, h2⟩
    refine ⟨_, List.mem_map.2 ⟨r, List.mem_filter.2 ⟨hr, ?_⟩, rfl⟩, h4⟩
    rw [List.all_eq_true]
    exact h3

/-- `sum` succeeded: some column was left. -/
theorem sum_ok_left {M Q : Cpm K} {v : Variable K} (h : WF U M) (hQ : M.sum [v] true = .ok Q) :
    (M.vars.take M.noChild).filter (fun w => w.name ∉ [v].map Variable.name) ++
      M.vars.drop M.noChild ≠ [] := by
  obtain ⟨q1, q2⟩ := sum_vars_eq hQ
  rw [q1, sumRemain_true h] at q2
  exact q2

/-- Covered after the sum: covered before, up to the variables summed. -/
theorem covers_proj {M Q : Cpm K} (h : WF U M) (hQ : WF U Q)
    (hsub : ∀ v ∈ Q.vars, v ∈ M.vars)
    (hC : ∀ r, r ∈ Q.C ↔ r ∈ M.C.map (projRow M Q.vars)) {x : K → ℕ} (hx : Covers Q x) :
    ∃ y, Covers M y ∧ ∀ k ∈ Q.getNames, y k = x k := by
  obtain ⟨r', hr', hm⟩ := hx
  obtain ⟨r, hr, rfl⟩ := List.mem_map.1 ((hC r').1 hr')
  obtain ⟨z, hz⟩ := exists_matches h hr
  refine ⟨fun k => if k ∈ Q.getNames then x k else z k, ⟨r, hr, ?_⟩, fun k hk => by simp [hk]⟩
  rw [rowMatches_iff h.nodup (h.rowLen r hr)] at hz ⊢
  rw [rowMatches_iff hQ.nodup (hQ.rowLen _ hr')] at hm
  intro v hv
  by_cases hk : v.name ∈ Q.getNames
  · rw [if_pos hk]
    obtain ⟨w, hw, hwe⟩ := List.mem_map.1 hk
    have hwv : w = v := by rw [← h.env v hv, ← hQ.env w hw, hwe]
    have := hm w hw
    rw [projRow_val r hw, hwv] at this
    exact this
  · rw [if_neg hk]
    exact hz v hv

theorem sum_one_inv {M Q : Cpm K} {v : Variable K} (h : WF U M) (hQ : M.sum [v] true = .ok Q)
    (hp : ∀ k ∈ parentNames M, A k) (hc : ∀ x, Covers M x → ∀ k ∈ cn, k ∈ M.getNames → x k = c k) :
    ElimInv A cn c Q := by
  obtain ⟨Q', q1, q2, q3, q4, q5, q6, -⟩ := sumAny_ok h [v] (sum_ok_left h hQ)
  rw [hQ] at q1
  cases q1
  have hsub : ∀ w ∈ Q.vars, w ∈ M.vars := by
    intro w hw
    rw [q2] at hw
    rcases List.mem_append.1 hw with hw | hw
    · exact List.mem_of_mem_take (List.mem_filter.1 hw).1
    · exact List.mem_of_mem_drop hw
  refine ⟨q5, fun k hk => hp k ?_, fun x hx k hk hkQ => ?_⟩
  · unfold parentNames at hk ⊢
    rw [q2, q3, List.drop_left' rfl] at hk
    exact hk
  · obtain ⟨y, hy, hyx⟩ := covers_proj h q4 hsub q6 hx
    rw [← hyx k hkQ]
    refine hc y hy k hk ?_
    obtain ⟨w, hw, rfl⟩ := List.mem_map.1 hkQ
    exact List.mem_map_of_mem (hsub w hw)

theorem prod_par {l : List (Cpm K)} {P : Cpm K} (hs : ProdSpec U l P)
    (hp : ∀ M ∈ l, ∀ k ∈ parentNames M, A k) : ∀ k ∈ parentNames P, A k := by
  intro k hk
  have hkn : k ∈ P.getNames := by rw [getNames_eq]; exact List.mem_append_right _ hk
  obtain ⟨M, hM, hkM⟩ := (hs.names k).1 hkn
  rw [getNames_eq, List.mem_append] at hkM
  rcases hkM with hkM | hkM
  · exfalso
    have hkc : k ∈ childNames P := hs.child.mem_iff.2 (List.mem_flatMap.2 ⟨M, hM, hkM⟩)
    have hd := hs.wf.nodup
    rw [show P.vars.map Variable.name = childNames P ++ parentNames P from getNames_eq P,
      List.nodup_append] at hd
    exact hd.2.2 k hkc k hk rfl
  · exact hp M hM k hkM

theorem prod_col {l : List (Cpm K)} {P : Cpm K} (hs : ProdSpec U l P)
    (hc : ∀ M ∈ l, ∀ x, Covers M x → ∀ k ∈ cn, k ∈ M.getNames → x k = c k) :
    ∀ x, Covers P x → ∀ k ∈ cn, k ∈ P.getNames → x k = c k := by
  intro x hx k hk hkP
  obtain ⟨M, hM, hkM⟩ := (hs.names k).1 hkP
  exact hc M hM x ((hs.covers x).1 hx M hM) k hk hkM

theorem elimStep_inv {l l' : List (Cpm K)} (hl : NetOK U l) {v : Variable K}
    (hv : ∃ M ∈ l, v.name ∈ childNames M) (h : elimStep l v = .ok l')
    (hi : ∀ M ∈ l, ElimInv A cn c M) :
    (∀ M ∈ l', ElimInv A cn c M) ∧ ∀ x, (∀ M ∈ l, Covers M x) → ∀ M ∈ l', Covers M x := by
  have h0 := h
  unfold elimStep at h
  simp only [isInScope_one] at h
  rw [maskRows_self] at h
  obtain ⟨P, hP, h1⟩ := bind_ok.1 h
  obtain ⟨Q, hQ, h2⟩ := bind_ok.1 h1
  rw [List.map_map, maskRows_self] at h2
  cases h2
  have hselm : ∀ M, M ∈ l.filter (inScope v) ↔ M ∈ l ∧ v.name ∈ M.getNames := by
    intro M; rw [List.mem_filter, inScope_iff]
  have hdsel : ChildDisjoint (l.filter (inScope v)) :=
    (List.pairwise_append.1 (childDisjoint_perm (scope_split v l).symm hl.disjoint)).1
  have hPs := productList_ok (fun M hM => hl.wf M ((hselm M).1 hM).1) hdsel hP
  refine ⟨fun M hM => ?_, ?_⟩
  · rcases List.mem_cons.1 hM with rfl | hM
    · exact sum_one_inv hPs.wf hQ (prod_par hPs fun M hM => (hi M ((hselm M).1 hM).1).par)
        (prod_col hPs fun M hM => (hi M ((hselm M).1 hM).1).col)
    · exact hi M (List.mem_filter.1 hM).1
  · have hvP : v.name ∈ childNames P := by
      obtain ⟨M0, hM0, hvM0⟩ := hv
      rw [hPs.child.mem_iff]
      refine List.mem_flatMap.2 ⟨M0, (hselm _).2 ⟨hM0, ?_⟩, hvM0⟩
      rw [getNames_eq]; exact List.mem_append.2 (.inl hvM0)
    have hother : ∃ k ∈ P.getNames, k ≠ v.name := by
      obtain ⟨w, hw⟩ := List.exists_mem_of_ne_nil _ (sum_ok_left hPs.wf hQ)
      rcases List.mem_append.1 hw with hw | hw
      · obtain ⟨h1, h2⟩ := List.mem_filter.1 hw
        exact ⟨w.name, List.mem_map_of_mem (List.mem_of_mem_take h1), by simpa using h2⟩
      · refine ⟨w.name, List.mem_map_of_mem (List.mem_of_mem_drop hw), fun e => ?_⟩
        have hd := hPs.wf.nodup
        rw [show P.vars.map Variable.name = childNames P ++ parentNames P from getNames_eq P,
          List.nodup_append] at hd
        exact hd.2.2 _ hvP _ (List.mem_map_of_mem hw) e.symm
    obtain ⟨l2, e1, -, e3, -⟩ := elimStep_core hl hv hP hother
    rw [h0] at e1
    cases e1
    exact e3

theorem elimList_inv (ve : List (Variable K)) : ∀ {l l' : List (Cpm K)}, NetOK U l →
    (ve.map Variable.name).Nodup → (∀ v ∈ ve, ∃ M ∈ l, v.name ∈ childNames M) →
    variableElimList l ve = .ok l' → (∀ M ∈ l, ElimInv A cn c M) →
    (∀ M ∈ l', ElimInv A cn c M) ∧ ∀ x, (∀ M ∈ l, Covers M x) → ∀ M ∈ l', Covers M x := by
  induction ve with
  | nil => intro l l' _ _ _ h hi; cases h; exact ⟨hi, fun x hx => hx⟩
  | cons v ve ih =>
    intro l l' hl hn hve h hi
    rw [List.map_cons, List.nodup_cons] at hn
    unfold variableElimList at h
    rw [List.foldlM_cons] at h
    obtain ⟨l1, h1, h2⟩ := bind_ok.1 h
    obtain ⟨e2, -, e5, -⟩ := elimStep_of_ok hl (hve v (by simp)) h1
    obtain ⟨i1, i2⟩ := elimStep_inv hl (hve v (by simp)) h1 hi
    have hchild1 : ∀ k, (∃ M ∈ l1, k ∈ childNames M) ↔ (∃ M ∈ l, k ∈ childNames M) ∧ k ≠ v.name := by
      intro k
      have := e5.mem_iff (a := k)
      rw [List.mem_flatMap, List.mem_filter, List.mem_flatMap] at this
      simpa using this
    obtain ⟨j1, j2⟩ := ih e2 hn.2 (fun w hw => (hchild1 _).2 ⟨hve w (by simp [hw]),
      fun e => hn.1 (e ▸ List.mem_map_of_mem hw)⟩) h2 i1
    exact ⟨j1, fun x hx => j2 x (i2 x hx)⟩

/-- A column whose covered assignments all have the same value holds that value. -/
theorem col_val {M : Cpm K} (h : WF U M) {w : Variable K} (hw : w ∈ M.vars)
    (hb : c w.name < w.values.length)
    (hc : ∀ x, Covers M x → x w.name = c w.name) {r : List ℕ} (hr : r ∈ M.C) :
    val M.getNames r w.name = c w.name := by
  refine basic_of_subset (h.table w hw) (h.entry_lt hr hw) hb fun i hi => ?_
  obtain ⟨x, hx, hxi⟩ := exists_rowMatches h hr hw hi
  rw [← hxi]
  exact hc x ⟨r, hr, hx⟩

/-- Rows with the same entries are equal. -/
theorem row_ext {ns : List K} (hn : ns.Nodup) {r r' : List ℕ} (hr : r.length = ns.length)
    (hr' : r'.length = ns.length) (h : ∀ k ∈ ns, val ns r k = val ns r' k) : r = r' := by
  refine List.ext_getElem (by omega) fun i h1 h2 => ?_
  have := h ns[i] (List.getElem_mem (by omega))
  rw [getD_eq_val hn _ (by omega), getD_eq_val hn _ (by omega)] at this
  simpa [h1, h2] using this

/-- One component left by the elimination is what `prod_Msys_and_Mcomps` asks for. -/
theorem compOK_of_inv {m : Cpm K} (h : WF U m) (hb : ChildBasic m) (hi : ElimInv A cn c m)
    (h1 : m.noChild = 1) (hpar : ∀ k ∈ parentNames m, k ∈ cn)
    (hc : ∀ k ∈ cn, c k < (U k).values.length) {v : Variable K} {cv : List (Variable K)}
    (hv : m.vars = v :: cv)
    (hcov : ∀ i < v.values.length, ∃ x, Covers m x ∧ x v.name = i) :
    CompOK U v cv (cv.map fun w => c w.name) m := by
  have hnd := h.nodup
  rw [hv, List.map_cons, List.nodup_cons] at hnd
  have hnames : m.getNames = v.name :: cv.map Variable.name := by
    unfold Cpm.getNames; rw [hv]; rfl
  have hcvp : ∀ w ∈ cv, w.name ∈ cn := by
    intro w hw
    refine hpar _ ?_
    unfold parentNames
    rw [h1, hv]
    exact List.mem_map_of_mem hw
  have hcol : ∀ r ∈ m.C, ∀ w ∈ cv, val m.getNames r w.name = c w.name := by
    intro r hr w hw
    have hwm : w ∈ m.vars := by rw [hv]; simp [hw]
    refine col_val h hwm ?_ (fun x hx => hi.col x hx _ (hcvp w hw) (List.mem_map_of_mem hwm)) hr
    have := hc _ (hcvp w hw)
    rwa [h.env w hwm] at this
  have hrow : ∀ r ∈ m.C, ∃ a, r = a :: cv.map (fun w => c w.name) := by
    intro r hr
    have hl := h.rowLen r hr
    rw [hv] at hl
    cases r with
    | nil => simp at hl
    | cons a t =>
      refine ⟨a, ?_⟩
      congr 1
      refine row_ext (ns := cv.map Variable.name) hnd.2 (by simpa using hl) (by simp) fun k hk => ?_
      obtain ⟨w, hw, rfl⟩ := List.mem_map.1 hk
      have e1 := hcol _ hr w hw
      rw [hnames, val_cons, if_neg (fun e : v.name = w.name => hnd.1 (by rw [e]; exact hk))] at e1
      rw [e1, show (cv.map fun w => c w.name) = (cv.map Variable.name).map c by simp,
        val_map _ _ hk]
  have hhead : ∀ r ∈ m.C, r.headD 0 < v.values.length := by
    intro r hr
    have := (childBasic_iff h).1 hb r hr v (by rw [h1, hv]; simp)
    obtain ⟨a, rfl⟩ := hrow r hr
    rw [hnames, val_cons, if_pos rfl] at this
    exact this
  refine ⟨h, hv, h1, fun r hr => ?_, ?_⟩
  · obtain ⟨a, rfl⟩ := hrow r hr
    rfl
  · rw [List.perm_ext_iff_of_nodup _ List.nodup_range]
    · intro i
      rw [List.mem_range, List.mem_map]
      constructor
      · rintro ⟨r, hr, rfl⟩
        exact hhead r hr
      · intro hi'
        obtain ⟨x, ⟨r, hr, hm⟩, hx⟩ := hcov i hi'
        refine ⟨r, hr, ?_⟩
        have h3 := (rowMatches_iff h.nodup (h.rowLen r hr) x).1 hm v (by rw [hv]; simp)
        have hlt := hhead r hr
        obtain ⟨a, rfl⟩ := hrow r hr
        rw [List.headD_cons] at hlt
        rw [show m.vars.map Variable.name = v.name :: cv.map Variable.name from hnames, val_cons,
          if_pos rfl, stateSet_basic (h.table v (by rw [hv]; simp)) hlt, Finset.mem_singleton] at h3
        rw [← hx, h3]
        rfl
    · refine List.Nodup.map_on ?_ hi.nodup
      intro r hr r' hr' e
      obtain ⟨a, rfl⟩ := hrow r hr
      obtain ⟨b, rfl⟩ := hrow r' hr'
      simp at e
      rw [e]

end
end BNS
