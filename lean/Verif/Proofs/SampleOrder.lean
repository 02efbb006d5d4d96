import Verif.Spec.Order
import Verif.Model.Operation
import Verif.Proofs.Monad
import Mathlib.Data.List.Nodup
import Mathlib.Data.List.Dedup
import Mathlib.Order.WellFounded
import Mathlib.Data.Fintype.EquivFin

/-! Helper lemmas for `get_sample_order`. -/

namespace BNS

set_option linter.unusedSectionVars false

variable {K : Type} [DecidableEq K]

theorem childrenAt_eq {cpms : List (Cpm K)} {i : ℕ} {M : Cpm K} (h : cpms[i]? = some M) :
    childrenAt cpms i = M.vars.take M.noChild := by simp [childrenAt, h]

theorem parentsAt_eq {cpms : List (Cpm K)} {i : ℕ} {M : Cpm K} (h : cpms[i]? = some M) :
    parentsAt cpms i = (M.vars.drop M.noChild).map Variable.name := by simp [parentsAt, h]

/-- Among the positions of a non-empty set some CPM depends on none of the others. -/
theorem exists_ready {cpms : List (Cpm K)} (hac : Acyclic cpms)
    (hdef : ∀ M ∈ cpms, ∀ v ∈ (M.vars.drop M.noChild).map Variable.name,
      ∃ N ∈ cpms, v ∈ (N.vars.take N.noChild).map Variable.name) (S : ℕ → Prop)
    (hS : ∃ i < cpms.length, S i) :
    ∃ i < cpms.length, S i ∧ ∀ v ∈ parentsAt cpms i, ∃ j < cpms.length, ¬ S j ∧
      v ∈ (childrenAt cpms j).map Variable.name := by
  obtain ⟨i0, hi0, hs0⟩ := hS
  let r : Fin cpms.length → Fin cpms.length → Prop := fun a b =>
    Relation.TransGen (fun a b : Fin cpms.length => DependsOn cpms[a] cpms[b]) b a
  have : IsTrans _ r := ⟨fun a b c h1 h2 => h2.trans h1⟩
  have : Std.Irrefl r := ⟨fun a ha => hac a ha⟩
  have wf : WellFounded r := Finite.wellFounded_of_trans_of_irrefl r
  obtain ⟨i, hi, hmin⟩ := wf.has_min {a : Fin cpms.length | S a} ⟨⟨i0, hi0⟩, hs0⟩
  refine ⟨i, i.2, hi, fun v hv => ?_⟩
  have hM : cpms[(i : ℕ)]? = some cpms[(i : ℕ)] := List.getElem?_eq_getElem i.2
  rw [parentsAt_eq hM] at hv
  obtain ⟨N, hN, hvN⟩ := hdef _ (List.getElem_mem _) v hv
  obtain ⟨j, hj, rfl⟩ := List.getElem_of_mem hN
  refine ⟨j, hj, fun hc => hmin ⟨j, hj⟩ hc (.single ⟨v, hv, hvN⟩), ?_⟩
  rw [childrenAt_eq (List.getElem?_eq_getElem hj)]
  exact hvN

/-- The state after `i` iterations. -/
structure OrdInv (cpms : List (Cpm K)) (i : ℕ) (st : List (Cpm K × ℕ) × SampleOrder K) : Prop where
  item : ∀ p ∈ st.1, cpms[p.2]? = some p.1
  perm : (st.2.order ++ st.1.map Prod.snd).Perm (List.range cpms.length)
  len : st.2.order.length = i
  vars : st.2.vars = st.2.order.flatMap (childrenAt cpms)
  add : st.2.addOrder = st.2.order.zipIdx.flatMap fun p => (childrenAt cpms p.1).map fun _ => p.2
  before : ∀ l1 a l2, st.2.order = l1 ++ a :: l2 → ∀ v ∈ parentsAt cpms a,
    ∃ j ∈ l1, v ∈ (childrenAt cpms j).map Variable.name

theorem perm_eraseIdx {α : Type} {l : List α} {j : ℕ} {a : α} (h : l[j]? = some a) :
    l.Perm (a :: l.eraseIdx j) := by
  induction l generalizing j with
  | nil => simp at h
  | cons b l ih =>
    cases j with
    | zero => simp at h; subst h; simp
    | succ j =>
      rw [List.getElem?_cons_succ] at h
      rw [List.eraseIdx_cons_succ]
      exact ((ih h).cons b).trans (List.Perm.swap _ _ _)

theorem zipIdx_flatMap_length {α β : Type} (f : α → List β) (l : List α) (n : ℕ) :
    ((l.zipIdx n).flatMap fun p => (f p.1).map fun _ => p.2).length = (l.flatMap f).length := by
  induction l generalizing n with
  | nil => rfl
  | cons a l ih =>
    rw [List.zipIdx_cons, List.flatMap_cons, List.flatMap_cons, List.length_append, List.length_append,
      ih, List.length_map]

/-- One iteration: the invariant is kept, or the CPM chosen has a child that is sampled already. -/
theorem sampleStep_or {cpms : List (Cpm K)} (hac : Acyclic cpms)
    (hdef : ∀ M ∈ cpms, ∀ v ∈ (M.vars.drop M.noChild).map Variable.name,
      ∃ N ∈ cpms, v ∈ (N.vars.take N.noChild).map Variable.name) {i : ℕ} (hi : i < cpms.length)
    {st : List (Cpm K × ℕ) × SampleOrder K} (hst : OrdInv cpms i st) :
    (OrdInv cpms (i + 1) (sampleStep i st.1 st.2) ∧
      ∃ b, (sampleStep i st.1 st.2).2.order = st.2.order ++ [b] ∧
        ∀ a ∈ st.2.order, ∀ v ∈ (childrenAt cpms a).map Variable.name,
          v ∉ (childrenAt cpms b).map Variable.name) ∨
    (sampleStep i st.1 st.2).2.vars.length < (sampleStep i st.1 st.2).2.addOrder.length ∧
      ∃ a < cpms.length, ∃ b < cpms.length, a ≠ b ∧ ∃ v ∈ (childrenAt cpms a).map Variable.name,
        v ∈ (childrenAt cpms b).map Variable.name := by
  obtain ⟨todo, so⟩ := st
  obtain ⟨item, perm, len, vars, add, before⟩ := hst
  simp only at item perm len vars add before
  have hnd : (so.order ++ todo.map Prod.snd).Nodup := perm.nodup_iff.2 List.nodup_range
  have hmem : ∀ j, j ∈ so.order ∨ j ∈ todo.map Prod.snd ↔ j < cpms.length := by
    intro j
    rw [← List.mem_append, perm.mem_iff, List.mem_range]
  -- some CPM is ready
  have hlen : 0 < todo.length := by
    have := perm.length_eq
    rw [List.length_append, List.length_map, List.length_range, len] at this
    omega
  obtain ⟨a, ha, haT, hpar⟩ := exists_ready hac hdef (fun j => j ∈ todo.map Prod.snd) (by
    obtain ⟨x, hx⟩ := List.exists_mem_of_length_pos hlen
    exact ⟨x.2, (hmem _).1 (.inr (List.mem_map_of_mem hx)), List.mem_map_of_mem hx⟩)
  have hready : ∃ M ∈ todo.map Prod.fst, ((M.vars.drop M.noChild).all fun v =>
      decide (v.name ∈ so.vars.map Variable.name)) = true := by
    obtain ⟨x, hx, rfl⟩ := List.mem_map.1 haT
    refine ⟨x.1, List.mem_map_of_mem hx, ?_⟩
    rw [List.all_eq_true]
    intro v hv
    rw [parentsAt_eq (item x hx)] at hpar
    obtain ⟨j, hj, hjT, hvj⟩ := hpar v.name (List.mem_map_of_mem hv)
    have hjo : j ∈ so.order := ((hmem j).2 hj).resolve_right hjT
    rw [decide_eq_true_iff, vars, List.map_flatMap]
    exact List.mem_flatMap.2 ⟨j, hjo, hvj⟩
  cases hf : getProdIdx (todo.map Prod.fst) so.vars with
  | none =>
    exfalso
    unfold getProdIdx at hf
    rw [List.findIdx?_eq_none_iff] at hf
    obtain ⟨M, hM, hr⟩ := hready
    have := hf M hM
    rw [hr] at this
    cases this
  | some j =>
    have hf' := hf
    unfold getProdIdx at hf
    rw [List.findIdx?_eq_some_iff_getElem] at hf
    obtain ⟨hj, hjr, -⟩ := hf
    rw [List.length_map] at hj
    rw [List.getElem_map] at hjr
    have htj : todo[j]? = some todo[j] := List.getElem?_eq_getElem hj
    have hx := item _ (List.getElem_mem hj)
    by_cases hno : (so.vars.any fun v => decide (v.name ∈
        (todo[j].1.vars.take todo[j].1.noChild).map Variable.name)) = true
    · right
      have hstep : sampleStep i todo so = (todo.eraseIdx j,
          { order := so.order ++ [todo[j].2]
            vars := so.vars
            addOrder := so.addOrder ++
              (todo[j].1.vars.take todo[j].1.noChild).map fun _ => i }) := by
        unfold sampleStep
        rw [hf']
        simp only [htj]
        rw [if_pos hno]
      rw [List.any_eq_true] at hno
      obtain ⟨v, hv, hv2⟩ := hno
      rw [decide_eq_true_iff] at hv2
      have hlen2 : so.vars.length = so.addOrder.length := by
        rw [vars, add, zipIdx_flatMap_length]
      refine ⟨?_, ?_⟩
      · rw [hstep]
        simp only [List.length_append, List.length_map, ← hlen2]
        have := List.length_pos_of_mem hv2
        simp only [List.length_map] at this
        omega
      · rw [vars] at hv
        obtain ⟨b, hb, hvb⟩ := List.mem_flatMap.1 hv
        have hne : b ≠ todo[j].2 := by
          intro hc
          exact (List.nodup_append.1 hnd).2.2 b hb _ (List.mem_map_of_mem (List.getElem_mem hj)) hc
        exact ⟨b, (hmem b).1 (.inl hb), todo[j].2, (List.getElem?_eq_some_iff.1 hx).1, hne, v.name,
          List.mem_map_of_mem hvb, by rw [childrenAt_eq hx]; exact hv2⟩
    left
    have hstep : sampleStep i todo so = (todo.eraseIdx j,
        { order := so.order ++ [todo[j].2]
          vars := so.vars ++ todo[j].1.vars.take todo[j].1.noChild
          addOrder := so.addOrder ++ (todo[j].1.vars.take todo[j].1.noChild).map fun _ => i }) := by
      unfold sampleStep
      rw [hf']
      simp only [htj]
      rw [if_neg hno]
    rw [hstep]
    refine ⟨?_, todo[j].2, rfl, fun a ha v hv hv2 => hno ?_⟩
    swap
    · obtain ⟨w, hw, rfl⟩ := List.mem_map.1 hv
      rw [childrenAt_eq hx] at hv2
      rw [List.any_eq_true]
      exact ⟨w, by rw [vars]; exact List.mem_flatMap.2 ⟨a, ha, hw⟩, by simpa using hv2⟩
    refine ⟨?_, ?_, ?_, ?_, ?_, ?_⟩
    · intro p hp
      exact item p (List.mem_of_mem_eraseIdx hp)
    · refine List.Perm.trans ?_ perm
      simp only [List.append_assoc, List.singleton_append]
      refine List.Perm.append_left _ ?_
      exact ((perm_eraseIdx htj).map Prod.snd).symm
    · simp [len]
    · simp only [List.flatMap_append, List.flatMap_cons, List.flatMap_nil, List.append_nil, vars,
        childrenAt_eq hx]
    · simp only [List.zipIdx_append, List.flatMap_append, add, List.zipIdx_cons, List.zipIdx_nil,
        List.flatMap_cons, List.flatMap_nil, List.append_nil, childrenAt_eq hx, len, Nat.zero_add]
    · intro l1 b l2 hsplit v hv
      simp only at hsplit
      rcases List.eq_nil_or_concat l2 with rfl | ⟨l2', c, rfl⟩
      · have := List.append_inj' hsplit rfl
        obtain ⟨rfl, hb⟩ := this
        simp only [List.cons.injEq, and_true] at hb
        subst hb
        rw [parentsAt_eq hx] at hv
        obtain ⟨w, hw, rfl⟩ := List.mem_map.1 hv
        have := List.all_eq_true.1 hjr w hw
        rw [decide_eq_true_iff, vars, List.map_flatMap] at this
        obtain ⟨b, hb, hvb⟩ := List.mem_flatMap.1 this
        exact ⟨b, hb, hvb⟩
      · rw [List.concat_eq_append, ← List.cons_append, ← List.append_assoc] at hsplit
        have := List.append_inj' hsplit rfl
        exact before l1 b l2' this.1 v hv

theorem sampleStep_inv {cpms : List (Cpm K)} (h : OrderOK cpms) {i : ℕ} (hi : i < cpms.length)
    {st : List (Cpm K × ℕ) × SampleOrder K} (hst : OrdInv cpms i st) :
    OrdInv cpms (i + 1) (sampleStep i st.1 st.2) := by
  rcases sampleStep_or h.acyclic h.defined hi hst with h1 | ⟨-, a, ha, b, hb, hne, v, hv, hv2⟩
  · exact h1.1
  · exfalso
    rw [childrenAt_eq (List.getElem?_eq_getElem ha)] at hv
    rw [childrenAt_eq (List.getElem?_eq_getElem hb)] at hv2
    have hdis := h.disjoint
    rw [List.pairwise_iff_getElem] at hdis
    rcases Nat.lt_or_gt_of_ne hne with hlt | hlt
    · exact hdis _ _ ha hb hlt v hv hv2
    · exact hdis _ _ hb ha hlt v hv2 hv

theorem sampleStep_longer (i : ℕ) (todo : List (Cpm K × ℕ)) (so : SampleOrder K)
    (h : so.vars.length < so.addOrder.length) :
    (sampleStep i todo so).2.vars.length < (sampleStep i todo so).2.addOrder.length := by
  unfold sampleStep
  split
  · exact h
  · split
    · exact h
    · simp only
      split <;> simp only [List.length_append, List.length_map] <;> omega

theorem ordInv_start (cpms : List (Cpm K)) : OrdInv cpms 0
    (cpms.zip (List.range cpms.length), { order := [], vars := [], addOrder := [] }) := by
  refine ⟨?_, ?_, rfl, rfl, rfl, ?_⟩
  · intro p hp
    obtain ⟨i, hi, rfl⟩ := List.getElem_of_mem hp
    rw [List.length_zip, List.length_range, Nat.min_self] at hi
    rw [List.getElem_zip]
    simp [hi]
  · simp only [List.nil_append]
    rw [List.map_snd_zip (by simp)]
  · intro l1 a l2 hc
    simp at hc

/-- With a variable that is a child of two CPMs, more places than variables are counted. -/
theorem getSampleOrder_longer {cpms : List (Cpm K)} (hac : Acyclic cpms)
    (hdef : ∀ M ∈ cpms, ∀ v ∈ (M.vars.drop M.noChild).map Variable.name,
      ∃ N ∈ cpms, v ∈ (N.vars.take N.noChild).map Variable.name)
    (hdis : ¬ cpms.Pairwise fun M N => ∀ v ∈ (M.vars.take M.noChild).map Variable.name,
      v ∉ (N.vars.take N.noChild).map Variable.name) :
    (getSampleOrder cpms).vars.length < (getSampleOrder cpms).addOrder.length := by
  let R : ℕ → ℕ → Prop := fun a b => ∀ v ∈ (childrenAt cpms a).map Variable.name,
    v ∉ (childrenAt cpms b).map Variable.name
  have key : ∀ n, n ≤ cpms.length →
      (∃ st, st = (List.range n).foldl (fun st i => sampleStep i st.1 st.2)
        (cpms.zip (List.range cpms.length), { order := [], vars := [], addOrder := [] }) ∧
        (OrdInv cpms n st ∧ st.2.order.Pairwise R ∨ st.2.vars.length < st.2.addOrder.length)) := by
    intro n
    induction n with
    | zero => intro _; exact ⟨_, rfl, .inl ⟨ordInv_start cpms, List.Pairwise.nil⟩⟩
    | succ n ih =>
      intro hn
      obtain ⟨st, hst, h⟩ := ih (by omega)
      refine ⟨sampleStep n st.1 st.2, ?_, ?_⟩
      · rw [List.range_succ, List.foldl_append, ← hst]; rfl
      · rcases h with ⟨h1, h2⟩ | h1
        · rcases sampleStep_or hac hdef (by omega) h1 with ⟨h3, b, hb, h4⟩ | ⟨h3, -⟩
          · refine .inl ⟨h3, ?_⟩
            rw [hb, List.pairwise_append]
            refine ⟨h2, List.pairwise_singleton _ _, fun a ha c hc => ?_⟩
            rw [List.mem_singleton.1 hc]
            exact h4 a ha
          · exact .inr h3
        · exact .inr (sampleStep_longer _ _ _ h1)
  obtain ⟨st, hst, h⟩ := key _ le_rfl
  have hgo : getSampleOrder cpms = st.2 := by rw [hst]; rfl
  rw [hgo]
  refine h.resolve_left fun ⟨h1, h2⟩ => hdis ?_
  have hlen := h1.perm.length_eq
  simp only [List.length_append, List.length_range, h1.len] at hlen
  have hnil : st.1.map Prod.snd = [] := List.eq_nil_of_length_eq_zero (by omega)
  have hperm := h1.perm
  rw [hnil, List.append_nil] at hperm
  have hR : ∀ {a b}, R a b → R b a := fun h v hv hv2 => h v hv2 hv
  have hpw := (hperm.pairwise_iff hR).1 h2
  rw [List.pairwise_iff_getElem] at hpw ⊢
  intro i j hi hj hij
  have := hpw i j (by simpa using hi) (by simpa using hj) hij
  simp only [List.getElem_range] at this
  have e1 := childrenAt_eq (List.getElem?_eq_getElem hi)
  have e2 := childrenAt_eq (List.getElem?_eq_getElem hj)
  simpa only [R, e1, e2] using this

theorem getSampleOrder_inv {cpms : List (Cpm K)} (h : OrderOK cpms) :
    ∃ st, OrdInv cpms cpms.length st ∧ getSampleOrder cpms = st.2 := by
  have h0 := ordInv_start cpms
  have : ∀ n, n ≤ cpms.length → OrdInv cpms n
      ((List.range n).foldl (fun st i => sampleStep i st.1 st.2)
        (cpms.zip (List.range cpms.length), { order := [], vars := [], addOrder := [] })) := by
    intro n
    induction n with
    | zero => intro _; exact h0
    | succ n ih =>
      intro hn
      rw [List.range_succ, List.foldl_append]
      exact sampleStep_inv h (by omega) (ih (by omega))
  exact ⟨_, this _ le_rfl, rfl⟩

end BNS
