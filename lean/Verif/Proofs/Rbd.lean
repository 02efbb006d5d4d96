import Verif.Model.Rbd
import Verif.Proofs.Columns
import Verif.Props.SysKeep
import Verif.Props.Trans

/-! Helper lemmas: the quotient of the reliability block diagram demo. -/

namespace BNS

set_option linter.unusedSectionVars false

section
variable {K : Type} [LinearOrder K] {U : K → Variable K}

/-- The sum of the probabilities of the rows `[i, j]`. -/
def cell (P : Cpm K) (i j : ℕ) : ℚ := (maskRows (P.C.map fun r => decide (r = [i, j])) P.p).sum

theorem maskRows_cons_sum {α : Type} (f : α → Bool) (a : α) (C : List α) (x : ℚ) (p : List ℚ) :
    (maskRows ((a :: C).map f) (x :: p)).sum = (if f a then x else 0) + (maskRows (C.map f) p).sum := by
  unfold maskRows
  rw [List.map_cons, List.zip_cons_cons, List.filterMap_cons]
  cases h : f a <;> simp

theorem maskRows_add {α : Type} (f g h : α → Bool) : ∀ (C : List α) (p : List ℚ),
    (∀ a ∈ C, (f a = true ↔ g a = true ∨ h a = true) ∧ ¬ (g a = true ∧ h a = true)) →
    (maskRows (C.map f) p).sum = (maskRows (C.map g) p).sum + (maskRows (C.map h) p).sum
  | [], p, _ => by simp [maskRows]
  | a :: C, [], _ => by simp [maskRows]
  | a :: C, x :: p, H => by
    rw [maskRows_cons_sum, maskRows_cons_sum, maskRows_cons_sum,
      maskRows_add f g h C p fun b hb => H b (List.mem_cons_of_mem _ hb)]
    obtain ⟨h1, h2⟩ := H a (List.mem_cons_self ..)
    cases hf : f a <;> cases hg : g a <;> cases hh : h a <;> simp_all <;> ring

theorem maskRows_congr {α : Type} {f g : α → Bool} {C : List α} (p : List ℚ)
    (h : ∀ a ∈ C, f a = g a) : maskRows (C.map f) p = maskRows (C.map g) p := by
  rw [List.map_congr_left h]

/-- The rows of a CPM over two binary variables. -/
theorem two_rows {P : Cpm K} (hw : WF U P) (hb : AllBasic P) {a b : Variable K}
    (hv : P.vars = [a, b]) (ha : a.values.length = 2) (hB : b.values.length = 2) :
    ∀ r ∈ P.C, ∃ i j, r = [i, j] ∧ i < 2 ∧ j < 2 := by
  intro r hr
  have h1 := hw.rowLen r hr
  have h2 := hb r hr
  rw [hv] at h1 h2
  match r, h1 with
  | [i, j], _ =>
    refine ⟨i, j, rfl, ?_, ?_⟩
    · have := h2 (a, i) (by simp); rwa [ha] at this
    · have := h2 (b, j) (by simp); rwa [hB] at this

theorem rbdRatio_eq {P : Cpm K} (hr : ∀ r ∈ P.C, ∃ i j, r = [i, j] ∧ i < 2 ∧ j < 2) :
    rbdRatio P = .ok (if cell P 1 0 + cell P 1 1 = 0 then none else
      some (cell P 1 1 / (cell P 1 0 + cell P 1 1))) := by
  unfold rbdRatio
  rw [if_neg]
  · have : (maskRows (P.C.map fun r => decide (r[0]? = some 1)) P.p).sum =
        cell P 1 0 + cell P 1 1 := by
      refine maskRows_add _ _ _ _ _ fun r h => ?_
      obtain ⟨i, j, rfl, hi, hj⟩ := hr r h
      simp only [List.getElem?_cons_zero, decide_eq_true_eq, Option.some.injEq, List.cons.injEq,
        and_true]
      omega
    simp only [this]
    rfl
  · rintro ⟨r, h, hl⟩
    obtain ⟨i, j, rfl, -⟩ := hr r h
    exact hl rfl

/-- Asking for both variables adds up the rows with these two states. -/
theorem two_query {P : Cpm K} (hw : WF U P) (hb : AllBasic P) {a b : Variable K}
    (hv : P.vars = [a, b]) (ha : a.values.length = 2) (hB : b.values.length = 2) {i j : ℕ}
    (hi : i < 2) (hj : j < 2) :
    P.getProb [a, b] [i, j] true = .ok (cell P i j) ∧ P.getProb [b, a] [j, i] true = .ok (cell P i j) := by
  have hnd : a.name ≠ b.name := by
    have := hw.nodup; rw [hv] at this; simpa using this
  have ea := hw.env a (by simp [hv])
  have eb := hw.env b (by simp [hv])
  have sa : ∀ i < 2, stateSet a i = {i} := fun i h =>
    stateSet_basic (hw.table a (by simp [hv])) (by omega)
  have sb : ∀ i < 2, stateSet b i = {i} := fun i h =>
    stateSet_basic (hw.table b (by simp [hv])) (by omega)
  have hin : a.name ∈ P.getNames ∧ b.name ∈ P.getNames := by
    unfold Cpm.getNames; simp [hv]
  have key : ∀ (c d : Variable K) (s t : ℕ), (c = a ∧ d = b ∧ s = i ∧ t = j ∨
      c = b ∧ d = a ∧ s = j ∧ t = i) → P.getProb [c, d] [s, t] true = .ok (cell P i j) := by
    intro c d s t hcd
    have hQ : QueryOK U P.getNames [c, d] [s, t] := by
      rcases hcd with ⟨rfl, rfl, rfl, rfl⟩ | ⟨rfl, rfl, rfl, rfl⟩
      · refine ⟨⟨rfl, ?_, ?_⟩, by simp, ?_, by simpa using hnd⟩
        · simp [ea, eb]
        · simp only [List.zip_cons_cons, List.zip_nil_right, List.forall_mem_cons, ha, hB]
          refine ⟨fun _ => by omega, fun _ => by omega, by simp⟩
        · simp only [List.zip_cons_cons, List.zip_nil_right, List.forall_mem_cons, ha, hB]
          refine ⟨by omega, by omega, by simp⟩
      · refine ⟨⟨rfl, ?_, ?_⟩, by simp, ?_, by simpa using hnd.symm⟩
        · simp [ea, eb]
        · simp only [List.zip_cons_cons, List.zip_nil_right, List.forall_mem_cons, ha, hB]
          refine ⟨fun _ => by omega, fun _ => by omega, by simp⟩
        · simp only [List.zip_cons_cons, List.zip_nil_right, List.forall_mem_cons, ha, hB]
          refine ⟨by omega, by omega, by simp⟩
    rw [getProb_ok hw hQ]
    unfold cell
    congr 2
    refine maskRows_congr _ fun r hr => ?_
    obtain ⟨i', j', rfl, hi', hj'⟩ := two_rows hw hb hv ha hB r hr
    simp only [if_true]
    rw [Bool.eq_iff_iff, compatRow_iff hw hQ.ev hQ.nodup hr, decide_eq_true_eq, hv]
    unfold Consistent RowMatches
    rcases hcd with ⟨rfl, rfl, rfl, rfl⟩ | ⟨rfl, rfl, rfl, rfl⟩
    all_goals
      simp only [List.zip_cons_cons, List.zip_nil_right, List.forall_mem_cons, sa _ hi, sb _ hj,
        sa _ hi', sb _ hj', Finset.mem_singleton, hin, List.not_mem_nil, false_imp_iff, implies_true,
        and_true, true_imp_iff, List.cons.injEq]
    · constructor
      · rintro ⟨x, ⟨h1, h2⟩, h3, h4⟩
        exact ⟨h3.symm.trans h1, h4.symm.trans h2⟩
      · rintro ⟨rfl, rfl⟩
        exact ⟨fun k => if k = c.name then i' else j', ⟨by simp, by simp [hnd.symm]⟩, by simp,
          by simp [hnd.symm]⟩
    · constructor
      · rintro ⟨x, ⟨h1, h2⟩, h3, h4⟩
        exact ⟨h3.symm.trans h2, h4.symm.trans h1⟩
      · rintro ⟨rfl, rfl⟩
        exact ⟨fun k => if k = d.name then i' else j', ⟨by simp [hnd.symm], by simp⟩, by simp,
          by simp [hnd.symm]⟩
  exact ⟨key a b i j (.inl ⟨rfl, rfl, rfl, rfl⟩), key b a j i (.inr ⟨rfl, rfl, rfl, rfl⟩)⟩

/-- The probabilities of the CPMs of the demo. -/
def rbdProbs (_ : K) (i : ℕ) : ℚ := if i = 0 then 1 / 10 else 9 / 10

/-- The components with the numbers of their states. -/
def binary (names : List K) : List (K × ℕ) := names.map fun k => (k, 2)

theorem binary_fst (names : List K) : (binary names).map Prod.fst = names := by
  unfold binary; rw [List.map_map]; exact List.map_id _

theorem mem_binary {names : List K} {kn : K × ℕ} : kn ∈ binary names ↔ kn.1 ∈ names ∧ kn.2 = 2 := by
  unfold binary
  rw [List.mem_map]
  constructor
  · rintro ⟨k, hk, rfl⟩; exact ⟨hk, rfl⟩
  · rintro ⟨h1, h2⟩; exact ⟨kn.1, h1, Prod.ext rfl h2.symm⟩

theorem rbd_sysVars {names : List K} {sys : K} (hn : names.Nodup) (hs : sys ∉ names) :
    SysVars rbdVariable (binary names) sys 2 where
  varis := ⟨by rwa [binary_fst], fun kn h => by rw [(mem_binary.1 h).2]; norm_num⟩
  name _ _ := rfl
  size kn h := (mem_binary.1 h).2.symm
  table kn h := by rw [(mem_binary.1 h).2]; rfl
  sysNew := by rwa [binary_fst]
  sysName := rfl
  sysSize := rfl
  sysTable := rfl

theorem rbdProbs_ok (names : List K) : ProbOK (binary names) rbdProbs where
  nonneg kn _ i _ := by unfold rbdProbs; split <;> norm_num
  total kn h := by
    rw [(mem_binary.1 h).2]
    simp [Finset.sum_range_succ, rbdProbs]
    norm_num

/-- The quotient, `none` for `0/0`. -/
def quot (b a : ℚ) : Option ℚ := if a = 0 then none else some (b / a)

/-- The inference returns the quotient of the probability that the system and the component are in
state 1 by the probability of that state of the one whose name comes first. -/
theorem rbdInfer_eq {names : List K} {sys x1 : K} (hn : names.Nodup) (hs : sys ∉ names)
    (hx : x1 ∈ names) {C : List (List ℕ)} (hC : EventsOK rbdVariable (binary names) 2 C) :
    rbdInfer sys x1 names (sysCpm rbdVariable (binary names) sys C) =
      .ok (quot (probOf (binary names) rbdProbs fun x => SysState rbdVariable (binary names) C 1 x ∧ x x1 = 1)
        (probOf (binary names) rbdProbs (fun x =>
            SysState rbdVariable (binary names) C (if sys < x1 then 1 else 0) x ∧
              x x1 = if sys < x1 then 0 else 1) +
          probOf (binary names) rbdProbs fun x =>
            SysState rbdVariable (binary names) C 1 x ∧ x x1 = 1)) := by
  have hU := rbd_sysVars hn hs
  have hne : sys ≠ x1 := fun e => hs (e ▸ hx)
  have hcp : (names ++ [sys]).map (fun k => if k = sys then sysCpm rbdVariable (binary names) sys C else
      rbdComp k) = (binary names).map (compCpm rbdVariable rbdProbs) ++
        [sysCpm rbdVariable (binary names) sys C] := by
    rw [List.map_append]
    congr 1
    · unfold binary
      rw [List.map_map]
      refine List.map_congr_left fun k hk => ?_
      have hks : k ≠ sys := fun e => hs (e ▸ hk)
      rw [if_neg hks]
      rfl
    · simp
  have hgk : (binary names).Perm (binary (names.erase x1) ++ [(x1, 2)]) := by
    have h1 := (List.perm_cons_erase hx).map fun k => (k, 2)
    exact h1.trans (List.perm_append_singleton _ _).symm
  have hve : ((names.erase x1).map rbdVariable).Perm
      (compVariables rbdVariable (binary (names.erase x1))) := by
    unfold compVariables binary
    rw [List.map_map]
    exact List.Perm.refl _
  obtain ⟨P, e1, e2, e3, e4, e5⟩ := sysNet_keep hU rbdProbs hC hgk (List.Perm.of_eq hcp) hve
  have hq : ∀ i < 2, ∀ j < 2, P.getProb [rbdVariable sys, rbdVariable x1] [i, j] true =
      .ok (probOf (binary names) rbdProbs fun x => SysState rbdVariable (binary names) C i x ∧
        x x1 = j) := by
    intro i hi j hj
    have := sysNet_query hU rbdProbs hC hgk (List.Perm.of_eq hcp) e2 e3 e4 e5 hi [((x1, 2), j)]
      (by simpa using hj) (by simp)
    simpa using this
  -- the columns
  have hok : ElimOK rbdVariable ((names ++ [sys]).map fun k =>
      if k = sys then sysCpm rbdVariable (binary names) sys C else rbdComp k)
      ((names.erase x1).map rbdVariable) := by
    refine (sysNet_elimOK hU rbdProbs hC (List.Perm.of_eq hcp) (List.Perm.refl _)).mono ?_ ?_
    · rw [List.map_map]
      refine List.Nodup.map (fun a b h => h) (hn.erase x1)
    · intro v hv
      obtain ⟨k, hk, rfl⟩ := List.mem_map.1 hv
      exact mem_compVariables.2 ⟨(k, 2), mem_binary.2 ⟨List.mem_of_mem_erase hk, rfl⟩, rfl⟩
  have hsort := variableElim_sorted hok.net hok.nodup hok.defined (by
    intro M hM
    obtain ⟨k, -, rfl⟩ := List.mem_map.1 hM
    unfold SortedChild childNames
    split <;> simp [sysCpm, rbdComp]) e1
  obtain ⟨P', f1, -, -, -, f5, -⟩ := C15_elimination_partial _ _ hok
  rw [e1] at f1
  cases f1
  have hve' : ∀ k, k ∈ ((names.erase x1).map rbdVariable).map Variable.name ↔ k ∈ names ∧ k ≠ x1 := by
    intro k
    rw [List.map_map, show (Variable.name ∘ rbdVariable : K → K) = id from rfl, List.map_id,
      hn.mem_erase_iff, and_comm]
  have hchild : ∀ k, k = sys ∨ k = x1 → k ∈ childNames P := by
    intro k hk
    rw [f5.mem_iff, List.mem_filter, List.mem_flatMap]
    have hmem : k ∈ names ++ [sys] := by
      rcases hk with rfl | rfl
      · simp
      · simp [hx]
    refine ⟨⟨_, List.mem_map_of_mem hmem, ?_⟩, ?_⟩
    · split
      · rename_i h
        subst h
        simp [childNames, sysCpm, rbdVariable, Variable.mk']
      · simp [childNames, rbdComp, rbdVariable, Variable.mk']
    · rw [decide_eq_true_eq, hve']
      rintro ⟨h1, h2⟩
      rcases hk with rfl | rfl
      · exact hs h1
      · exact h2 rfl
  have hlen : P.vars.length = 2 := by
    have := e4.length_eq
    simpa using this
  have hnames : P.getNames = childNames P := by
    have h2 : [sys, x1].Subperm (childNames P) :=
      List.subperm_of_subset (by simpa using hne) fun k hk => hchild k (by simpa using hk)
    have h3 := h2.length_le
    unfold childNames at h3 ⊢
    rw [List.length_map, List.length_take] at h3
    unfold Cpm.getNames
    rw [List.take_of_length_le]
    simp at h3; omega
  have hperm : P.getNames.Perm [sys, x1] := by
    have := e4.map Prod.fst
    rw [List.map_map] at this
    exact this
  have hsorted : P.getNames.Pairwise (· ≤ ·) := hnames ▸ hsort
  have hvars : ∀ a b : K, P.getNames = [a, b] → P.vars = [rbdVariable a, rbdVariable b] := by
    intro a b h
    unfold Cpm.getNames at h
    match hV : P.vars, hlen with
    | [v, w], _ =>
      rw [hV] at h
      simp only [List.map_cons, List.map_nil, List.cons.injEq, and_true] at h
      have h1 := e2.env v (by simp [hV])
      have h2 := e2.env w (by simp [hV])
      rw [← h1, ← h2, h.1, h.2]
  unfold rbdInfer removeName
  rw [if_pos hx, ok_bind, e1, ok_bind]
  by_cases hlt : sys < x1
  · have hg : P.getNames = [sys, x1] := by
      refine hperm.eq_of_pairwise' (r := (· ≤ ·)) hsorted (by simpa using hlt.le)
    have hv := hvars _ _ hg
    rw [rbdRatio_eq (two_rows e2 e3 hv rfl rfl)]
    have hcell : ∀ i < 2, ∀ j < 2, cell P i j = probOf (binary names) rbdProbs fun x =>
        SysState rbdVariable (binary names) C i x ∧ x x1 = j := by
      intro i hi j hj
      have h1 := (two_query e2 e3 hv rfl rfl hi hj).1
      rw [hq i hi j hj, Except.ok.injEq] at h1
      exact h1.symm
    simp only [if_pos hlt, hcell 1 (by omega) 0 (by omega), hcell 1 (by omega) 1 (by omega), quot]
  · have hlt' : x1 < sys := lt_of_le_of_ne (not_lt.1 hlt) hne.symm
    have hg : P.getNames = [x1, sys] := by
      refine (hperm.trans (List.Perm.swap _ _ _)).eq_of_pairwise' (r := (· ≤ ·)) hsorted (by simpa using hlt'.le)
    have hv := hvars _ _ hg
    rw [rbdRatio_eq (two_rows e2 e3 hv rfl rfl)]
    have hcell : ∀ i < 2, ∀ j < 2, cell P j i = probOf (binary names) rbdProbs fun x =>
        SysState rbdVariable (binary names) C i x ∧ x x1 = j := by
      intro i hi j hj
      have h1 := (two_query e2 e3 hv rfl rfl hj hi).2
      rw [hq i hi j hj, Except.ok.injEq] at h1
      exact h1.symm
    simp only [if_neg hlt, hcell 0 (by omega) 1 (by omega), hcell 1 (by omega) 1 (by omega), quot]

end

end BNS
