import Verif.Proofs.CpmCond
import Verif.Proofs.CpmSort

/-! `Cpm.product` on well-formed input. -/

namespace BNS

open List

set_option linter.unusedSectionVars false
set_option linter.unnecessarySimpa false

section Lists
variable {α κ : Type} [DecidableEq κ]

theorem firstOccOn_sublist (key : α → κ) (l : List α) : firstOccOn key l <+ l := by
  induction l with
  | nil => exact .slnil
  | cons a l ih => exact (List.filter_sublist.trans ih).cons_cons a

theorem firstOccOn_nodup (key : α → κ) (l : List α) : ((firstOccOn key l).map key).Nodup := by
  induction l with
  | nil => simp [firstOccOn]
  | cons a l ih =>
    simp only [firstOccOn, List.map_cons, List.nodup_cons]
    refine ⟨?_, ?_⟩
    · intro h
      obtain ⟨b, hb, hbe⟩ := List.mem_map.1 h
      have := (List.mem_filter.1 hb).2
      simp [hbe] at this
    · exact ih.sublist (List.filter_sublist.map key)

theorem mem_firstOccOn_key (key : α → κ) (l : List α) (k : κ) :
    k ∈ (firstOccOn key l).map key ↔ k ∈ l.map key := by
  induction l with
  | nil => simp [firstOccOn]
  | cons a l ih =>
    simp only [firstOccOn, List.map_cons, List.mem_cons]
    by_cases hk : k = key a
    · simp [hk]
    · simp only [hk, false_or]
      rw [← ih]
      simp only [List.mem_map, List.mem_filter]
      constructor
      · rintro ⟨b, ⟨h1, _⟩, h3⟩; exact ⟨b, h1, h3⟩
      · rintro ⟨b, h1, h3⟩
        refine ⟨b, ⟨h1, ?_⟩, h3⟩
        simp [h3, hk]

theorem firstOccOn_of_nodup (key : α → κ) (l : List α) (h : (l.map key).Nodup) :
    firstOccOn key l = l := by
  induction l with
  | nil => rfl
  | cons a l ih =>
    rw [List.map_cons, List.nodup_cons] at h
    simp only [firstOccOn]
    rw [ih h.2]
    congr 1
    rw [List.filter_eq_self]
    intro b hb
    simp only [ne_eq, decide_eq_true_eq]
    intro e
    exact h.1 (e ▸ List.mem_map_of_mem hb)

theorem setdiffOn_fst_sublist (key : α → κ) (a b : List α) : (setdiffOn key a b).1 <+ a :=
  List.filter_sublist.trans (firstOccOn_sublist key a)

theorem setdiffOn_fst_nodup (key : α → κ) (a b : List α) :
    ((setdiffOn key a b).1.map key).Nodup :=
  (firstOccOn_nodup key a).sublist (List.filter_sublist.map key)

theorem mem_setdiffOn_key (key : α → κ) (a b : List α) (k : κ) :
    k ∈ (setdiffOn key a b).1.map key ↔ k ∈ a.map key ∧ k ∉ b.map key := by
  rw [← mem_firstOccOn_key key a k]
  simp only [setdiffOn, List.mem_map, List.mem_filter, decide_eq_true_eq]
  constructor
  · rintro ⟨c, ⟨h1, h2⟩, rfl⟩
    exact ⟨⟨c, h1, rfl⟩, h2⟩
  · rintro ⟨⟨c, h1, rfl⟩, h2⟩
    exact ⟨c, ⟨h1, h2⟩, rfl⟩

end Lists

section
variable {K : Type} [DecidableEq K]

theorem val_map (ns : List K) (f : K → ℕ) {k : K} (hk : k ∈ ns) : val ns (ns.map f) k = f k := by
  unfold val
  have h1 := List.idxOf_lt_length_iff.2 hk
  simp [List.getD_eq_getElem?_getD, h1]

theorem val_filter (vs : List (Variable K)) (hn : (vs.map Variable.name).Nodup) (r : List ℕ)
    (hl : r.length = vs.length) (f : Variable K → Bool) {v : Variable K} (hv : v ∈ vs)
    (hf : f v = true) :
    val ((vs.filter f).map Variable.name) (((vs.zip r).filter fun p => f p.1).map Prod.snd) v.name
      = val (vs.map Variable.name) r v.name := by
  induction vs generalizing r with
  | nil => simp at hv
  | cons w vs ih =>
    cases r with
    | nil => simp at hl
    | cons c r =>
      rw [List.map_cons, List.nodup_cons] at hn
      rw [List.map_cons, val_cons]
      have ih' := ih hn.2 r (by simpa using hl)
      by_cases hw : w.name = v.name
      · have hwv : w = v := by
          rcases List.mem_cons.1 hv with h | h
          · exact h.symm
          · exact absurd (hw ▸ List.mem_map_of_mem h) hn.1
        subst hwv
        simp [hf, val_cons]
      · have hv' : v ∈ vs := by
          rcases List.mem_cons.1 hv with h | h
          · exact absurd (h ▸ rfl) hw
          · exact h
        rw [if_neg hw, ← ih' hv']
        by_cases hfw : f w = true
        · simp [hfw, val_cons, hw]
        · simp [hfw]

theorem zipIdx_positions {α : Type} (l : List α) (f : α → Bool) (r : List ℕ)
    (hl : r.length = l.length) :
    (∀ j ∈ l.zipIdx.filterMap (fun x => if f x.1 then some x.2 else none), j < r.length) ∧
    (l.zipIdx.filterMap fun x => if f x.1 then some x.2 else none).map (fun j => r.getD j 0) =
      ((l.zip r).filter fun p => f p.1).map Prod.snd := by
  suffices H : ∀ (pre : List ℕ), 
      (∀ j ∈ (l.zipIdx pre.length).filterMap (fun x => if f x.1 then some x.2 else none),
        j < (pre ++ r).length) ∧
      ((l.zipIdx pre.length).filterMap fun x => if f x.1 then some x.2 else none).map
        (fun j => (pre ++ r).getD j 0) = ((l.zip r).filter fun p => f p.1).map Prod.snd by
    exact H []
  induction l generalizing r with
  | nil => simp
  | cons a l ih =>
    cases r with
    | nil => simp at hl
    | cons c r =>
      intro pre
      have := ih r (by simpa using hl) (pre ++ [c])
      simp only [List.length_append, List.length_singleton, List.append_assoc,
        List.singleton_append] at this
      obtain ⟨h1, h2⟩ := this
      simp only [List.zipIdx_cons, List.filterMap_cons, List.zip_cons_cons, List.filter_cons]
      by_cases hf : f a
      · simp only [hf, if_true, List.map_cons, List.forall_mem_cons]
        refine ⟨⟨by simp, fun j hj => ?_⟩, ?_⟩
        · have := h1 j hj; simpa using this
        · rw [h2]; simp
      · simp only [hf, List.length_append]
        refine ⟨fun j hj => ?_, h2⟩
        have := h1 j hj; simpa using this

theorem basic_of_subset {v : Variable K} (hB : v.B = some (genB v.values.length)) {s b : ℕ}
    (hs : s < (genB v.values.length).length) (hb : b < v.values.length)
    (h : ∀ i ∈ stateSet v s, i = b) : s = b := by
  have hm := mem_genB_stateSet hB hs
  obtain ⟨i, hi⟩ := (mem_genB.1 hm).1
  have he : stateSet v s = {b} := by
    ext j
    rw [Finset.mem_singleton]
    exact ⟨h j, fun e => by rw [e, ← h i hi]; exact hi⟩
  have h1 : (genB v.values.length)[s]? = some {b} := by
    rw [← he]; simp [stateSet, hB, hs]
  have h2 := genB_getElem_lt _ _ hb
  have := (pyIndex_of_getElem? (nodup_genB _) h1).symm.trans
    (pyIndex_of_getElem? (nodup_genB _) h2)
  injection this

theorem stateSet_basic {v : Variable K} (hB : v.B = some (genB v.values.length)) {b : ℕ}
    (hb : b < v.values.length) : stateSet v b = {b} := by
  have h := genB_getElem_lt _ _ hb
  simp [stateSet, hB, h]

theorem child_forall_iff {U : K → Variable K} {M : Cpm K} (h : WF U M)
    (Q : Variable K → ℕ → Prop) :
    (∀ r ∈ M.C, ∀ vs ∈ (M.vars.take M.noChild).zip r, Q vs.1 vs.2) ↔
      ∀ r ∈ M.C, ∀ v ∈ M.vars.take M.noChild, Q v (val M.getNames r v.name) := by
  refine forall₂_congr fun r hr => ?_
  have hsub : (M.vars.take M.noChild).map Variable.name <+ M.vars.map Variable.name :=
    (List.take_sublist _ _).map _
  have hlen : (r.take M.noChild).length = (M.vars.take M.noChild).length := by
    rw [List.length_take, List.length_take, h.rowLen r hr]
  have hz : (M.vars.take M.noChild).zip r = (M.vars.take M.noChild).zip (r.take M.noChild) := by
    generalize M.noChild = n
    generalize M.vars = l
    clear * -
    induction n generalizing l r with
    | zero => simp
    | succ n ih =>
      cases l with
      | nil => simp
      | cons a l =>
        cases r with
        | nil => simp
        | cons c r =>
          rw [List.take_succ_cons, List.take_succ_cons, List.zip_cons_cons, List.zip_cons_cons, ih]
  rw [hz, zip_forall_iff (h.nodup.sublist hsub) hlen Q]
  refine forall₂_congr fun v hv => ?_
  have h3 := val_append ((M.vars.take M.noChild).map Variable.name)
    ((M.vars.drop M.noChild).map Variable.name) (r.take M.noChild) (r.drop M.noChild)
    (by simpa using hlen) v.name
  rw [← List.map_append, List.take_append_drop, List.take_append_drop,
    if_pos (List.mem_map_of_mem hv)] at h3
  unfold Cpm.getNames
  rw [h3]

theorem childBasic_iff {U : K → Variable K} {M : Cpm K} (h : WF U M) :
    ChildBasic M ↔ ∀ r ∈ M.C, ∀ v ∈ M.vars.take M.noChild,
      val M.getNames r v.name < v.values.length :=
  child_forall_iff h fun v s => s < v.values.length

end

section Prod
variable {K : Type} [LinearOrder K] {U : K → Variable K} {S M : Cpm K}

theorem sortVars_perm (vs : List (Variable K)) : (sortVars vs).Perm vs :=
  List.perm_insertionSort _ _

/-- common variables of `S` with `M` -/
def comV (S M : Cpm K) : List (Variable K) :=
  S.vars.filter fun v => decide (v.name ∈ M.getNames)
def notComV (S M : Cpm K) : List (Variable K) :=
  S.vars.filter fun v => !decide (v.name ∈ M.getNames)
def comS (S M : Cpm K) (r : List ℕ) : List ℕ :=
  ((S.vars.zip r).filter fun p => decide (p.1.name ∈ M.getNames)).map Prod.snd
def notComS (S M : Cpm K) (r : List ℕ) : List ℕ :=
  ((S.vars.zip r).filter fun p => !decide (p.1.name ∈ M.getNames)).map Prod.snd
def prodV (S M : Cpm K) : List (Variable K) := M.vars ++ notComV S M
def newChildV (S M : Cpm K) : List (Variable K) :=
  sortVars (S.vars.take S.noChild ++ M.vars.take M.noChild)
def newParentV (S M : Cpm K) : List (Variable K) :=
  (setdiffOn Variable.name (S.vars.drop S.noChild ++ M.vars.drop M.noChild) (newChildV S M)).1
def newV (S M : Cpm K) : List (Variable K) := newChildV S M ++ newParentV S M
def prodNames (S M : Cpm K) : List K := (prodV S M).map Variable.name
def newNames (S M : Cpm K) : List K := (newV S M).map Variable.name

/-- reorder a row over `prodV` to `newV` -/
def reorder (S M : Cpm K) (row : List ℕ) : List ℕ :=
  (newNames S M).map fun k => val (prodNames S M) row k

/-- the block of joined rows produced by one row of `S` -/
def block (S M : Cpm K) (r : List ℕ) (p : ℚ) : List (List ℕ × ℚ) :=
  ((condPure M (comV S M) (comS S M r)).C.zip (condPure M (comV S M) (comS S M r)).p).map
    fun cp => (reorder S M (cp.1 ++ notComS S M r), cp.2 * p)

/-- product before sorting -/
def prodPure (S M : Cpm K) : Cpm K :=
  { vars := newV S M
    noChild := (newChildV S M).length
    C := ((S.C.zip S.p).flatMap fun rp => block S M rp.1 rp.2).map Prod.fst
    p := ((S.C.zip S.p).flatMap fun rp => block S M rp.1 rp.2).map Prod.snd }

theorem zip_com (r : List ℕ) (hl : r.length = S.vars.length) :
    (comV S M).zip (comS S M r) = (S.vars.zip r).filter fun p => decide (p.1.name ∈ M.getNames) := by
  unfold comV comS
  generalize S.vars = vs at *
  induction vs generalizing r with
  | nil => simp
  | cons v vs ih =>
    cases r with
    | nil => simp at hl
    | cons c r =>
      have := ih r (by simpa using hl)
      simp only [List.zip_cons_cons, List.filter_cons]
      by_cases h : v.name ∈ M.getNames
      · simp only [h, decide_true, if_true, List.map_cons, List.zip_cons_cons, this]
      · simp only [h, decide_false]
        exact this

theorem zip_notCom (r : List ℕ) (hl : r.length = S.vars.length) :
    (notComV S M).zip (notComS S M r) =
      (S.vars.zip r).filter fun p => !decide (p.1.name ∈ M.getNames) := by
  unfold notComV notComS
  generalize S.vars = vs at *
  induction vs generalizing r with
  | nil => simp
  | cons v vs ih =>
    cases r with
    | nil => simp at hl
    | cons c r =>
      have := ih r (by simpa using hl)
      simp only [List.zip_cons_cons, List.filter_cons]
      by_cases h : v.name ∈ M.getNames
      · simp only [h, decide_true]
        exact this
      · simp only [h, decide_false, Bool.not_false, if_true, List.map_cons, List.zip_cons_cons, this]

theorem length_notComS (r : List ℕ) (hl : r.length = S.vars.length) :
    (notComS S M r).length = (notComV S M).length := by
  unfold notComV notComS
  generalize S.vars = vs at *
  rw [List.length_map]
  induction vs generalizing r with
  | nil => simp
  | cons v vs ih =>
    cases r with
    | nil => simp at hl
    | cons c r =>
      have := ih r (by simpa using hl)
      simp only [List.zip_cons_cons, List.filter_cons]
      by_cases h : v.name ∈ M.getNames <;> simp [h] at this ⊢ <;> exact this

theorem length_comS (r : List ℕ) (hl : r.length = S.vars.length) :
    (comS S M r).length = (comV S M).length := by
  unfold comV comS
  generalize S.vars = vs at *
  rw [List.length_map]
  induction vs generalizing r with
  | nil => simp
  | cons v vs ih =>
    cases r with
    | nil => simp at hl
    | cons c r =>
      have := ih r (by simpa using hl)
      simp only [List.zip_cons_cons, List.filter_cons]
      by_cases h : v.name ∈ M.getNames <;> simp [h] at this ⊢ <;> exact this

theorem comV_nodup (hS : WF U S) : ((comV S M).map Variable.name).Nodup :=
  hS.nodup.sublist (List.filter_sublist.map _)

theorem com_evidence (hS : WF U S) {r : List ℕ} (hr : r ∈ S.C) :
    EvidenceOK U M.getNames (comV S M) (comS S M r) := by
  refine ⟨length_comS r (hS.rowLen r hr), ?_, ?_⟩
  · intro p hp _
    rw [zip_com r (hS.rowLen r hr)] at hp
    exact hS.env _ (List.of_mem_zip (List.mem_filter.1 hp).1).1
  · intro p hp _
    rw [zip_com r (hS.rowLen r hr)] at hp
    exact hS.entry r hr p (List.mem_filter.1 hp).1

theorem prodNames_nodup (hS : WF U S) (hM : WF U M) : (prodNames S M).Nodup := by
  unfold prodNames prodV
  rw [List.map_append, List.nodup_append]
  refine ⟨hM.nodup, hS.nodup.sublist (List.filter_sublist.map _), ?_⟩
  intro a ha b hb e
  subst e
  obtain ⟨v, hv, rfl⟩ := List.mem_map.1 hb
  have := (List.mem_filter.1 hv).2
  simp at this
  exact this ha

theorem mem_prodNames (k : K) : k ∈ prodNames S M ↔ k ∈ S.getNames ∨ k ∈ M.getNames := by
  unfold prodNames prodV
  rw [List.map_append, List.mem_append]
  constructor
  · rintro (h | h)
    · exact .inr h
    · obtain ⟨v, hv, rfl⟩ := List.mem_map.1 h
      exact .inl (List.mem_map_of_mem (List.mem_filter.1 hv).1)
  · rintro (h | h)
    · by_cases hk : k ∈ M.getNames
      · exact .inl hk
      · obtain ⟨v, hv, rfl⟩ := List.mem_map.1 h
        exact .inr (List.mem_map_of_mem (List.mem_filter.2 ⟨hv, by simp [hk]⟩))
    · exact .inl h

theorem mem_newChild (v : Variable K) :
    v ∈ newChildV S M ↔ v ∈ S.vars.take S.noChild ∨ v ∈ M.vars.take M.noChild := by
  unfold newChildV
  rw [(sortVars_perm _).mem_iff, List.mem_append]

theorem newV_sub (v : Variable K) (hv : v ∈ newV S M) : v ∈ S.vars ∨ v ∈ M.vars := by
  rcases List.mem_append.1 hv with h | h
  · rcases (mem_newChild v).1 h with h | h
    · exact .inl (List.mem_of_mem_take h)
    · exact .inr (List.mem_of_mem_take h)
  · rcases List.mem_append.1 ((setdiffOn_fst_sublist _ _ _).subset h) with h | h
    · exact .inl (List.mem_of_mem_drop h)
    · exact .inr (List.mem_of_mem_drop h)

theorem mem_newNames (k : K) : k ∈ newNames S M ↔ k ∈ S.getNames ∨ k ∈ M.getNames := by
  constructor
  · intro h
    obtain ⟨v, hv, rfl⟩ := List.mem_map.1 h
    rcases newV_sub v hv with h | h
    · exact .inl (List.mem_map_of_mem h)
    · exact .inr (List.mem_map_of_mem h)
  · intro h
    unfold newNames newV
    rw [List.map_append, List.mem_append]
    by_cases hc : k ∈ (newChildV S M).map Variable.name
    · exact .inl hc
    · right
      unfold newParentV
      rw [mem_setdiffOn_key]
      refine ⟨?_, hc⟩
      rw [List.map_append, List.mem_append]
      have split : ∀ N : Cpm K, k ∈ N.getNames →
          k ∈ (N.vars.take N.noChild).map Variable.name ∨
          k ∈ (N.vars.drop N.noChild).map Variable.name := by
        intro N hk
        unfold Cpm.getNames at hk
        rw [← List.take_append_drop N.noChild N.vars, List.map_append, List.mem_append] at hk
        exact hk
      rcases h with h | h
      · rcases split S h with h | h
        · obtain ⟨v, hv, rfl⟩ := List.mem_map.1 h
          exact absurd (List.mem_map_of_mem ((mem_newChild v).2 (.inl hv))) hc
        · exact .inl h
      · rcases split M h with h | h
        · obtain ⟨v, hv, rfl⟩ := List.mem_map.1 h
          exact absurd (List.mem_map_of_mem ((mem_newChild v).2 (.inr hv))) hc
        · exact .inr h

theorem newNames_nodup (hS : WF U S) (hM : WF U M)
    (hd : ∀ k ∈ childNames S, k ∉ childNames M) : (newNames S M).Nodup := by
  unfold newNames newV
  rw [List.map_append, List.nodup_append]
  refine ⟨?_, setdiffOn_fst_nodup _ _ _, ?_⟩
  · unfold newChildV
    rw [((sortVars_perm _).map _).nodup_iff, List.map_append, List.nodup_append]
    refine ⟨hS.nodup.sublist ((List.take_sublist _ _).map _),
      hM.nodup.sublist ((List.take_sublist _ _).map _), ?_⟩
    intro a ha b hb e
    subst e
    exact hd a ha hb
  · intro a ha b hb e
    subst e
    unfold newParentV at hb
    rw [mem_setdiffOn_key] at hb
    exact hb.2 ha

theorem length_reorder (row : List ℕ) : (reorder S M row).length = (newV S M).length := by
  simp [reorder, newNames]

theorem val_reorder (row : List ℕ) {k : K} (hk : k ∈ newNames S M) :
    val (newNames S M) (reorder S M row) k = val (prodNames S M) row k := val_map _ _ hk

theorem val_join {r r' : List ℕ} (hl : r'.length = M.vars.length) (k : K) :
    val (prodNames S M) (r' ++ notComS S M r) k =
      if k ∈ M.getNames then val M.getNames r' k
      else val ((notComV S M).map Variable.name) (notComS S M r) k := by
  unfold prodNames prodV
  rw [List.map_append, val_append _ _ _ _ (by simpa using hl)]
  rfl

theorem val_notCom (hS : WF U S) {r : List ℕ} (hr : r ∈ S.C) {v : Variable K} (hv : v ∈ S.vars)
    (hk : v.name ∉ M.getNames) :
    val ((notComV S M).map Variable.name) (notComS S M r) v.name = val S.getNames r v.name := by
  unfold notComV notComS
  exact val_filter S.vars hS.nodup r (hS.rowLen r hr) _ hv (by simp [hk])

/-- A joined row covers `x` iff the conditioned row of `M` and the other columns of `S` do. -/
theorem reorder_matches (hS : WF U S) (hM : WF U M) (hd : ∀ k ∈ childNames S, k ∉ childNames M)
    {r : List ℕ} (hr : r ∈ S.C) {r' : List ℕ} (hl : r'.length = M.vars.length) (x : K → ℕ) :
    RowMatches (newV S M) (reorder S M (r' ++ notComS S M r)) x ↔
      RowMatches M.vars r' x ∧
      ∀ v ∈ S.vars, v.name ∉ M.getNames → x v.name ∈ stateSet v (val S.getNames r v.name) := by
  rw [rowMatches_iff (newNames_nodup hS hM hd) (length_reorder _), rowMatches_iff hM.nodup hl]
  constructor
  · intro h
    constructor
    · intro v hv
      have hk : v.name ∈ newNames S M := (mem_newNames _).2 (.inr (List.mem_map_of_mem hv))
      obtain ⟨w, hw, hwe⟩ := List.mem_map.1 hk
      have hwv : w = v := by
        rw [← hM.env v hv, ← hwe]
        rcases newV_sub w hw with h | h
        · exact (hS.env w h).symm
        · exact (hM.env w h).symm
      have := h w hw
      rw [hwv] at this
      rw [show (newV S M).map Variable.name = newNames S M from rfl, val_reorder _ hk,
        val_join hl, if_pos (show v.name ∈ M.getNames from List.mem_map_of_mem hv)] at this
      exact this
    · intro v hv hnm
      have hk : v.name ∈ newNames S M := (mem_newNames _).2 (.inl (List.mem_map_of_mem hv))
      obtain ⟨w, hw, hwe⟩ := List.mem_map.1 hk
      have hwv : w = v := by
        rw [← hS.env v hv, ← hwe]
        rcases newV_sub w hw with h | h
        · exact (hS.env w h).symm
        · exact (hM.env w h).symm
      have := h w hw
      rw [hwv] at this
      rw [show (newV S M).map Variable.name = newNames S M from rfl, val_reorder _ hk,
        val_join hl, if_neg hnm, val_notCom hS hr hv hnm] at this
      exact this
  · rintro ⟨h1, h2⟩ v hv
    have hk : v.name ∈ newNames S M := List.mem_map_of_mem hv
    rw [show (newV S M).map Variable.name = newNames S M from rfl, val_reorder _ hk, val_join hl]
    split
    · rename_i hm
      obtain ⟨w, hw, hwe⟩ := List.mem_map.1 hm
      have hwv : w = v := by
        rcases newV_sub v hv with h | h
        · rw [← hM.env w hw, hwe, hS.env v h]
        · rw [← hM.env w hw, hwe, hM.env v h]
      exact h1 v (hwv ▸ hw)
    · rename_i hm
      have hvS : v ∈ S.vars := by
        rcases newV_sub v hv with h | h
        · exact h
        · exact absurd (List.mem_map_of_mem h) hm
      rw [val_notCom hS hr hvS hm]
      exact h2 v hvS hm

/-- Consistency with a row of `S` on the common variables. -/
theorem consistent_com (hS : WF U S) {r : List ℕ} (hr : r ∈ S.C) (x : K → ℕ) :
    Consistent M.getNames (comV S M) (comS S M r) x ↔
      ∀ v ∈ S.vars, v.name ∈ M.getNames → x v.name ∈ stateSet v (val S.getNames r v.name) := by
  unfold Consistent
  rw [zip_com r (hS.rowLen r hr)]
  have := zip_forall_iff hS.nodup (hS.rowLen r hr)
    (fun v s => v.name ∈ M.getNames → x v.name ∈ stateSet v s)
  rw [show (∀ p ∈ (S.vars.zip r).filter fun p => decide (p.1.name ∈ M.getNames),
      p.1.name ∈ M.getNames → x p.1.name ∈ stateSet p.1 p.2) ↔
      (∀ p ∈ S.vars.zip r, p.1.name ∈ M.getNames → x p.1.name ∈ stateSet p.1 p.2) from ?_, this]
  · rfl
  · constructor
    · intro h p hp hpn
      exact h p (List.mem_filter.2 ⟨hp, by simpa using hpn⟩) hpn
    · intro h p hp hpn
      exact h p (List.mem_filter.1 hp).1 hpn

theorem matches_split (hS : WF U S) {r : List ℕ} (hr : r ∈ S.C) (x : K → ℕ) :
    RowMatches S.vars r x ↔ Consistent M.getNames (comV S M) (comS S M r) x ∧
      ∀ v ∈ S.vars, v.name ∉ M.getNames → x v.name ∈ stateSet v (val S.getNames r v.name) := by
  rw [consistent_com hS hr, rowMatches_iff hS.nodup (hS.rowLen r hr)]
  constructor
  · intro h; exact ⟨fun v hv _ => h v hv, fun v hv _ => h v hv⟩
  · rintro ⟨h1, h2⟩ v hv
    by_cases hm : v.name ∈ M.getNames
    · exact h1 v hv hm
    · exact h2 v hv hm

/-- Mass of the rows of one block covering `x`. -/
theorem block_sum (hS : WF U S) (hM : WF U M) (hd : ∀ k ∈ childNames S, k ∉ childNames M)
    {r : List ℕ} (hr : r ∈ S.C) (p : ℚ) (x : K → ℕ) :
    ((block S M r p).map fun cp => if RowMatches (newV S M) cp.1 x then cp.2 else 0).sum =
      (if RowMatches S.vars r x then p else 0) * dens M x := by
  have he := com_evidence (M := M) hS hr
  have hwf := condPure_WF hM he (comV_nodup hS)
  have hdc := dens_condPure hM he (comV_nodup hS) x
  unfold block
  rw [List.map_map]
  have hmap : (((condPure M (comV S M) (comS S M r)).C.zip
      (condPure M (comV S M) (comS S M r)).p).map
      ((fun cp : List ℕ × ℚ => if RowMatches (newV S M) cp.1 x then cp.2 else 0) ∘
        fun cp => (reorder S M (cp.1 ++ notComS S M r), cp.2 * p))) =
      ((condPure M (comV S M) (comS S M r)).C.zip
      (condPure M (comV S M) (comS S M r)).p).map fun cp =>
        (if RowMatches (condPure M (comV S M) (comS S M r)).vars cp.1 x then cp.2 else 0) *
        (if (∀ v ∈ S.vars, v.name ∉ M.getNames →
          x v.name ∈ stateSet v (val S.getNames r v.name)) then p else 0) := by
    refine List.map_congr_left fun cp hcp => ?_
    simp only [Function.comp]
    have hl := hwf.rowLen cp.1 (List.of_mem_zip hcp).1
    have hm := reorder_matches hS hM hd hr hl x
    rw [show (condPure M (comV S M) (comS S M r)).vars = M.vars from rfl]
    simp only [hm]
    by_cases h1 : RowMatches M.vars cp.1 x <;>
    by_cases h2 : (∀ v ∈ S.vars, v.name ∉ M.getNames →
          x v.name ∈ stateSet v (val S.getNames r v.name)) <;> simp only [h1, h2] <;> simp
  rw [hmap, List.sum_map_mul_right]
  have : (List.map (fun cp : List ℕ × ℚ =>
      if RowMatches (condPure M (comV S M) (comS S M r)).vars cp.1 x then cp.2 else 0)
      ((condPure M (comV S M) (comS S M r)).C.zip (condPure M (comV S M) (comS S M r)).p)).sum
      = dens (condPure M (comV S M) (comS S M r)) x := rfl
  rw [this, hdc]
  have hsp := matches_split (M := M) hS hr x
  simp only [hsp]
  by_cases h1 : Consistent M.getNames (comV S M) (comS S M r) x <;>
  by_cases h2 : (∀ v ∈ S.vars, v.name ∉ M.getNames →
          x v.name ∈ stateSet v (val S.getNames r v.name)) <;> simp only [h1, h2] <;> simp [mul_comm]

theorem prodPure_zip : (prodPure S M).C.zip (prodPure S M).p =
    (S.C.zip S.p).flatMap fun rp => block S M rp.1 rp.2 := by
  simp only [prodPure]
  rw [List.zip_map']
  simp

theorem dens_prodPure (hS : WF U S) (hM : WF U M) (hd : ∀ k ∈ childNames S, k ∉ childNames M)
    (x : K → ℕ) : dens (prodPure S M) x = dens S x * dens M x := by
  have h1 : dens (prodPure S M) x = (((S.C.zip S.p).flatMap fun rp => block S M rp.1 rp.2).map
      fun cp => if RowMatches (newV S M) cp.1 x then cp.2 else 0).sum := by
    unfold dens; rw [prodPure_zip]; rfl
  rw [h1, List.map_flatMap, List.flatMap_def, List.sum_flatten, List.map_map]
  have h2 : (S.C.zip S.p).map (fun rp => ((block S M rp.1 rp.2).map
      fun cp => if RowMatches (newV S M) cp.1 x then cp.2 else 0).sum) =
      (S.C.zip S.p).map fun rp => (if RowMatches S.vars rp.1 x then rp.2 else 0) * dens M x :=
    List.map_congr_left fun rp hrp => block_sum hS hM hd (List.of_mem_zip hrp).1 rp.2 x
  refine (congrArg List.sum h2).trans ?_
  rw [List.sum_map_mul_right]
  rfl

theorem mem_block {r row : List ℕ} {p q : ℚ} (h : (row, q) ∈ block S M r p) :
    ∃ r' ∈ (condPure M (comV S M) (comS S M r)).C, row = reorder S M (r' ++ notComS S M r) := by
  unfold block at h
  obtain ⟨cp, hcp, he⟩ := List.mem_map.1 h
  injection he with h1 h2
  exact ⟨cp.1, (List.of_mem_zip hcp).1, h1.symm⟩

theorem exists_snd {α β : Type} {X : List α} {Y : List β} (hl : Y.length = X.length) {a : α}
    (ha : a ∈ X) : ∃ b, (a, b) ∈ X.zip Y := by
  obtain ⟨i, hi, rfl⟩ := List.getElem_of_mem ha
  refine ⟨Y[i], ?_⟩
  have : (X.zip Y)[i]'(by simp; omega) = (X[i], Y[i]) := by simp
  rw [← this]; exact List.getElem_mem _

theorem mem_prodPure (hS : WF U S) (hM : WF U M) {row : List ℕ} :
    row ∈ (prodPure S M).C ↔ ∃ r ∈ S.C, ∃ r' ∈ (condPure M (comV S M) (comS S M r)).C,
      row = reorder S M (r' ++ notComS S M r) := by
  constructor
  · intro h
    obtain ⟨cp, hcp, rfl⟩ := List.mem_map.1 h
    obtain ⟨rp, hrp, hb⟩ := List.mem_flatMap.1 hcp
    obtain ⟨r', hr', he⟩ := mem_block (row := cp.1) (q := cp.2) hb
    exact ⟨rp.1, (List.of_mem_zip hrp).1, r', hr', he⟩
  · rintro ⟨r, hr, r', hr', rfl⟩
    obtain ⟨p, hp⟩ := exists_snd hS.pLen hr
    have hwf := condPure_WF hM (com_evidence (M := M) hS hr) (comV_nodup hS)
    obtain ⟨q, hq⟩ := exists_snd hwf.pLen hr'
    refine List.mem_map.2 ⟨(reorder S M (r' ++ notComS S M r), q * p), ?_, rfl⟩
    exact List.mem_flatMap.2 ⟨(r, p), hp, List.mem_map.2 ⟨(r', q), hq, rfl⟩⟩

theorem prodPure_covers (hS : WF U S) (hM : WF U M) (hd : ∀ k ∈ childNames S, k ∉ childNames M)
    (x : K → ℕ) : Covers (prodPure S M) x ↔ Covers S x ∧ Covers M x := by
  constructor
  · rintro ⟨row, hrow, hm⟩
    obtain ⟨r, hr, r', hr', rfl⟩ := (mem_prodPure hS hM).1 hrow
    have he := com_evidence (M := M) hS hr
    have hwf := condPure_WF hM he (comV_nodup hS)
    obtain ⟨h1, h2⟩ := (reorder_matches hS hM hd hr (hwf.rowLen r' hr') x).1 hm
    obtain ⟨r0, hr0, hc, rfl⟩ := condPure_mem hr'
    obtain ⟨h3, h4⟩ := (condRow_matches hM he (comV_nodup hS) x r0 hr0).1 ⟨hc, h1⟩
    exact ⟨⟨r, hr, (matches_split hS hr x).2 ⟨h3, h2⟩⟩, ⟨r0, hr0, h4⟩⟩
  · rintro ⟨⟨r, hr, h1⟩, ⟨r0, hr0, h2⟩⟩
    have he := com_evidence (M := M) hS hr
    have hwf := condPure_WF hM he (comV_nodup hS)
    obtain ⟨h3, h4⟩ := (matches_split (M := M) hS hr x).1 h1
    obtain ⟨h5, h6⟩ := (condRow_matches hM he (comV_nodup hS) x r0 hr0).2 ⟨h3, h2⟩
    have hr' : condRow (checkList M.getNames (comV S M) (comS S M r)) r0 ∈
        (condPure M (comV S M) (comS S M r)).C :=
      List.mem_map.2 ⟨r0, List.mem_filter.2 ⟨hr0, List.all_eq_true.2 h5⟩, rfl⟩
    exact ⟨_, (mem_prodPure hS hM).2 ⟨r, hr, _, hr', rfl⟩,
      (reorder_matches hS hM hd hr (hwf.rowLen _ hr') x).2 ⟨h6, h4⟩⟩

/-- The value of a variable in a joined row. -/
theorem val_joined (hS : WF U S) (hM : WF U M) {r r' : List ℕ} (hr : r ∈ S.C)
    (hl : r'.length = M.vars.length) {v : Variable K} (hv : v ∈ newV S M) :
    (v ∈ M.vars ∧ val (newNames S M) (reorder S M (r' ++ notComS S M r)) v.name =
      val M.getNames r' v.name) ∨
    (v ∈ S.vars ∧ v.name ∉ M.getNames ∧
      val (newNames S M) (reorder S M (r' ++ notComS S M r)) v.name = val S.getNames r v.name) := by
  have hk : v.name ∈ newNames S M := List.mem_map_of_mem hv
  rw [val_reorder _ hk, val_join hl]
  by_cases hm : v.name ∈ M.getNames
  · left
    rw [if_pos hm]
    obtain ⟨w, hw, hwe⟩ := List.mem_map.1 hm
    have hwv : w = v := by
      rcases newV_sub v hv with h | h
      · rw [← hM.env w hw, hwe, hS.env v h]
      · rw [← hM.env w hw, hwe, hM.env v h]
    exact ⟨hwv ▸ hw, rfl⟩
  · right
    have hvS : v ∈ S.vars := by
      rcases newV_sub v hv with h | h
      · exact h
      · exact absurd (List.mem_map_of_mem h) hm
    rw [if_neg hm, val_notCom hS hr hvS hm]
    exact ⟨hvS, hm, rfl⟩

theorem prodPure_WF (hS : WF U S) (hM : WF U M) (hd : ∀ k ∈ childNames S, k ∉ childNames M) :
    WF U (prodPure S M) := by
  have hlen : ∀ row ∈ (prodPure S M).C, row.length = (newV S M).length := by
    intro row hrow
    obtain ⟨r, hr, r', hr', rfl⟩ := (mem_prodPure hS hM).1 hrow
    exact length_reorder _
  refine ⟨?_, ?_, newNames_nodup hS hM hd, hlen, ?_, by simp [prodPure], ?_, by simp [prodPure]⟩
  · intro v hv
    rcases newV_sub v hv with h | h
    · exact hS.env v h
    · exact hM.env v h
  · intro v hv
    rcases newV_sub v hv with h | h
    · exact hS.table v h
    · exact hM.table v h
  · intro row hrow
    refine (zip_forall_iff (newNames_nodup hS hM hd) (hlen row hrow)
      (fun v s => s + 1 < 2 ^ v.values.length)).2 ?_
    intro v hv
    obtain ⟨r, hr, r', hr', rfl⟩ := (mem_prodPure hS hM).1 hrow
    have hwf := condPure_WF hM (com_evidence (M := M) hS hr) (comV_nodup hS)
    rcases val_joined hS hM hr (hwf.rowLen r' hr') hv with ⟨h1, h2⟩ | ⟨h1, _, h2⟩
    · have := hwf.entry_lt hr' h1
      rw [length_genB] at this
      rw [show (newV S M).map Variable.name = newNames S M from rfl, h2]
      change val M.getNames r' v.name < _ at this
      omega
    · have := hS.entry_lt hr h1
      rw [length_genB] at this
      rw [show (newV S M).map Variable.name = newNames S M from rfl, h2]
      omega
  · simp [prodPure, newV]

theorem prodPure_childBasic (hS : WF U S) (hM : WF U M)
    (hd : ∀ k ∈ childNames S, k ∉ childNames M) (cS : ChildBasic S) (cM : ChildBasic M) :
    ChildBasic (prodPure S M) := by
  rw [childBasic_iff (prodPure_WF hS hM hd)]
  rw [childBasic_iff hS] at cS
  rw [childBasic_iff hM] at cM
  intro row hrow v hv
  obtain ⟨r, hr, r', hr', rfl⟩ := (mem_prodPure hS hM).1 hrow
  have he := com_evidence (M := M) hS hr
  have hwf := condPure_WF hM he (comV_nodup hS)
  have hch : v ∈ newChildV S M := by
    have : (prodPure S M).vars.take (prodPure S M).noChild = newChildV S M := by
      simp [prodPure, newV]
    rwa [this] at hv
  have hvn : v ∈ newV S M := List.mem_append_left _ hch
  rw [show (prodPure S M).getNames = newNames S M from rfl]
  rcases val_joined hS hM hr (hwf.rowLen r' hr') hvn with ⟨h1, h2⟩ | ⟨h1, h3, h2⟩
  · rw [h2]
    obtain ⟨r0, hr0, hc, rfl⟩ := condPure_mem hr'
    obtain ⟨e1, e2⟩ := condRow_stateSet hM he (comV_nodup hS) hr0 hc h1
    -- a basic state bounding the new entry
    obtain ⟨b, hb, hsub⟩ : ∃ b < v.values.length, ∀ i ∈ stateSet v (val M.getNames
        (condRow (checkList M.getNames (comV S M) (comS S M r)) r0) v.name), i = b := by
      rcases (mem_newChild v).1 hch with h | h
      · have hb := cS r hr v h
        refine ⟨_, hb, fun i hi => ?_⟩
        have hvS := List.mem_of_mem_take h
        have hmem : (v, val S.getNames r v.name) ∈ (comV S M).zip (comS S M r) := by
          rw [zip_com r (hS.rowLen r hr)]
          refine List.mem_filter.2 ⟨?_, decide_eq_true (List.mem_map_of_mem h1)⟩
          obtain ⟨s, hs⟩ := exists_snd (hS.rowLen r hr) hvS
          have := (zip_forall_iff hS.nodup (hS.rowLen r hr)
            (fun v s => (v, s) ∈ S.vars.zip r)).1 (fun p hp => hp) v hvS
          exact this
        have := ((e2 i).1 hi).2 ((v, val S.getNames r v.name), M.getNames.idxOf v.name)
          (mem_checkList.2 ⟨hmem, List.mem_map_of_mem h1, rfl⟩) rfl
        rw [stateSet_basic (hM.table v h1) hb, Finset.mem_singleton] at this
        exact this
      · have hb := cM r0 hr0 v h
        refine ⟨_, hb, fun i hi => ?_⟩
        have := ((e2 i).1 hi).1
        rw [stateSet_basic (hM.table v h1) hb, Finset.mem_singleton] at this
        exact this
    rw [basic_of_subset (hM.table v h1) e1 hb hsub]
    exact hb
  · rw [h2]
    rcases (mem_newChild v).1 hch with h | h
    · exact cS r hr v h
    · exact absurd (List.mem_map_of_mem (List.mem_of_mem_take h)) h3

theorem productRows_ok (hS : WF U S) (hM : WF U M) (hne : S.C.flatten ≠ []) :
    productRows S M (ismemberOn Variable.name S.vars M.vars) (comV S M)
      ((flip (ismemberOn Variable.name S.vars M.vars)).zipIdx.filterMap
        fun x => if x.1.isSome then some x.2 else none)
      ((ismemberOn Variable.name (newV S M) (prodV S M)).map fun o => o.getD 0) =
    .ok ((prodPure S M).C, (prodPure S M).p) := by
  unfold productRows
  rw [if_neg hne]
  have hSC : S.C ≠ [] := by rintro h; simp [h] at hne
  have hSp : S.p ≠ [] := by
    intro h
    have := hS.pLen
    rw [h] at this
    exact hSC (List.length_eq_zero_iff.1 this.symm)
  -- positions of the columns that are not common
  have hpos : ∀ r ∈ S.C, ((flip (ismemberOn Variable.name S.vars M.vars)).zipIdx.filterMap
        fun x => if x.1.isSome then some x.2 else none).mapM (fun j => pyGet r j) =
        .ok (notComS S M r) := by
    intro r hr
    have h1 : (flip (ismemberOn Variable.name S.vars M.vars)).zipIdx.filterMap
        (fun x => if x.1.isSome then some x.2 else none) =
        S.vars.zipIdx.filterMap fun x =>
          if (!decide (x.1.name ∈ M.getNames)) = true then some x.2 else none := by
      simp only [flip, ismemberOn, List.map_map]
      rw [List.zipIdx_map, List.filterMap_map]
      refine List.filterMap_congr fun x _ => ?_
      have := idxOf?_eq M.getNames x.1.name
      unfold Cpm.getNames at this ⊢
      by_cases hm : x.1.name ∈ M.vars.map Variable.name
      · rw [if_pos hm] at this
        simp [this, hm]
      · rw [if_neg hm] at this
        simp [this, hm]
    obtain ⟨h2, h3⟩ := zipIdx_positions S.vars (fun v => !decide (v.name ∈ M.getNames)) r
      (hS.rowLen r hr)
    rw [h1, mapM_ok (fun j hj => pyGet_lt (h2 j hj) 0), h3]
    rfl
  have hblk : (List.range S.C.length).mapM (fun i => do
      let r ← pyGet S.C i
      let c1 ← getValueGivenCondn r (ismemberOn Variable.name S.vars M.vars)
      let c1n ← ((flip (ismemberOn Variable.name S.vars M.vars)).zipIdx.filterMap
        fun x : Option Unit × ℕ => if x.1.isSome then some x.2 else none).mapM fun j => pyGet r j
      let Mc ← M.condition (comV S M) c1
      let pi ← takeRowsOpt S.p [i]
      return (Mc.C.map (· ++ c1n), pi.map fun y => Mc.p.map (· * y))) =
      .ok ((S.C.zip S.p).map fun rp : List ℕ × ℚ =>
        ((condPure M (comV S M) (comS S M rp.1)).C.map (· ++ notComS S M rp.1),
          [(condPure M (comV S M) (comS S M rp.1)).p.map (· * rp.2)])) := by
    rw [← range_map_getD₂ S.C S.p [] 0 hS.pLen (fun r p =>
      ((condPure M (comV S M) (comS S M r)).C.map (· ++ notComS S M r),
          [(condPure M (comV S M) (comS S M r)).p.map (· * p)]))]
    apply mapM_ok
    intro i hi
    have hi1 : i < S.C.length := by simpa using hi
    have hr : S.C.getD i [] ∈ S.C := by simp [hi1]
    rw [pyGet_lt hi1 [], ok_bind]
    have hc1 : getValueGivenCondn (S.C.getD i []) (ismemberOn Variable.name S.vars M.vars) =
        .ok (comS S M (S.C.getD i [])) := by
      unfold ismemberOn
      rw [condn_other _ _ _ (hS.rowLen _ hr)]
      unfold comS
      congr 3
      funext p
      have := idxOf?_eq M.getNames p.1.name
      unfold Cpm.getNames at this ⊢
      by_cases hm : p.1.name ∈ M.vars.map Variable.name
      · rw [if_pos hm] at this
        simp [this, hm]
      · rw [if_neg hm] at this
        simp [this, hm]
    have htr : takeRowsOpt S.p [i] = .ok [S.p.getD i 0] := by
      unfold takeRowsOpt
      split
      · exact absurd (by assumption) hSp
      · rw [takeRows_ok 0 (by simpa [hS.pLen] using hi1)]; rfl
    rw [hc1, ok_bind, hpos _ hr, ok_bind,
      condition_ok hM (com_evidence hS hr) (comV_nodup hS), ok_bind, htr, ok_bind]
    rfl
  rw [hblk, ok_bind]
  have hidx : ((ismemberOn Variable.name (newV S M) (prodV S M)).map fun o => o.getD 0) =
      (newNames S M).map fun k => (prodNames S M).idxOf k := by
    unfold ismemberOn newNames
    rw [List.map_map, List.map_map]
    refine List.map_congr_left fun v hv => ?_
    have hk : v.name ∈ prodNames S M :=
      (mem_prodNames _).2 ((mem_newNames _).1 (List.mem_map_of_mem hv))
    have := idxOf?_eq (prodNames S M) v.name
    rw [if_pos hk] at this
    simp only [Function.comp]
    unfold prodNames at this ⊢
    rw [this]; rfl
  have hcols : takeCols (((S.C.zip S.p).map fun rp =>
        ((condPure M (comV S M) (comS S M rp.1)).C.map (· ++ notComS S M rp.1),
          [(condPure M (comV S M) (comS S M rp.1)).p.map (· * rp.2)])).flatMap fun b => b.1)
      ((ismemberOn Variable.name (newV S M) (prodV S M)).map fun o => o.getD 0) =
      .ok (prodPure S M).C := by
    rw [takeCols_ok, hidx]
    · congr 1
      simp only [prodPure]
      rw [List.flatMap_map, List.map_flatMap, List.map_flatMap]
      simp only [List.flatMap_def]
      congr 1
      refine List.map_congr_left fun rp hrp => ?_
      have hr := (List.of_mem_zip hrp).1
      have hwf := condPure_WF hM (com_evidence (M := M) hS hr) (comV_nodup hS)
      unfold block
      rw [List.map_map, List.map_map]
      have hz : (condPure M (comV S M) (comS S M rp.1)).C =
          ((condPure M (comV S M) (comS S M rp.1)).C.zip
            (condPure M (comV S M) (comS S M rp.1)).p).map Prod.fst := by
        rw [List.map_fst_zip]; rw [hwf.pLen]
      conv_lhs => rw [hz]
      rw [List.map_map]
      refine List.map_congr_left fun cp _ => ?_
      simp only [Function.comp, reorder, List.map_map]
      rfl
    · intro row hrow i hi
      obtain ⟨b, hb, hrow⟩ := List.mem_flatMap.1 hrow
      obtain ⟨rp, hrp, rfl⟩ := List.mem_map.1 hb
      obtain ⟨r', hr', rfl⟩ := List.mem_map.1 hrow
      have hr := (List.of_mem_zip hrp).1
      have hwf := condPure_WF hM (com_evidence (M := M) hS hr) (comV_nodup hS)
      rw [hidx] at hi
      obtain ⟨k, hk, rfl⟩ := List.mem_map.1 hi
      have h1 := List.idxOf_lt_length_iff.2 ((mem_prodNames _).2 ((mem_newNames _).1 hk))
      rw [List.length_append, hwf.rowLen r' hr', length_notComS _ (hS.rowLen _ hr)]
      simpa [prodNames, prodV, condPure] using h1
  rw [hcols, ok_bind]
  have hpp : (((S.C.zip S.p).map fun rp =>
        ((condPure M (comV S M) (comS S M rp.1)).C.map (· ++ notComS S M rp.1),
          [(condPure M (comV S M) (comS S M rp.1)).p.map (· * rp.2)])).flatMap fun b => b.2) =
      (S.C.zip S.p).map fun rp => (condPure M (comV S M) (comS S M rp.1)).p.map (· * rp.2) := by
    rw [List.flatMap_map]
    simp only
    generalize S.C.zip S.p = l
    induction l with
    | nil => rfl
    | cons a l ih => rw [List.flatMap_cons, ih]; rfl
  simp only [hpp]
  rw [if_neg]
  · congr 2
    simp only [prodPure]
    rw [← List.flatMap_def, List.map_flatMap]
    simp only [List.flatMap_def]
    congr 1
    refine List.map_congr_left fun rp hrp => ?_
    have hr := (List.of_mem_zip hrp).1
    have hwf := condPure_WF hM (com_evidence (M := M) hS hr) (comV_nodup hS)
    unfold block
    rw [List.map_map]
    have hz : (condPure M (comV S M) (comS S M rp.1)).p =
        ((condPure M (comV S M) (comS S M rp.1)).C.zip
          (condPure M (comV S M) (comS S M rp.1)).p).map Prod.snd := by
      rw [List.map_snd_zip]; rw [hwf.pLen]
    conv_lhs => rw [hz]
    rw [List.map_map]
    rfl
  · intro h
    rw [List.map_eq_nil_iff] at h
    have h2 : (S.C.zip S.p).length = 0 := by rw [h]; rfl
    rw [List.length_zip, hS.pLen, Nat.min_self] at h2
    exact hSC (List.length_eq_zero_iff.1 h2)

theorem productCore_ok (hS : WF U S) (hM : WF U M) (hd : ∀ k ∈ childNames S, k ∉ childNames M)
    (hne : S.C.flatten ≠ []) : productCore S M = .ok (sortPure (prodPure S M)) := by
  have hSC : S.C ≠ [] := by rintro h; simp [h] at hne
  have hSp : S.p ≠ [] := by
    intro h
    have := hS.pLen
    rw [h] at this
    exact hSC (List.length_eq_zero_iff.1 this.symm)
  have hwf := prodPure_WF hS hM hd
  unfold productCore
  rw [pyAssert_true, ok_bind]
  swap
  · intro v hv w hw e
    exact hd v.name (List.mem_map_of_mem hv) (e ▸ List.mem_map_of_mem hw)
  have h1 : (if S.p ≠ [] ∧ M.p = [] then M.C.map (fun _ => (1 : ℚ)) else M.p) = M.p := by
    split
    · rename_i h
      have := hM.pLen
      rw [h.2] at this
      rw [h.2, List.length_eq_zero_iff.1 this.symm]; rfl
    · rfl
  have h2 : (if S.p = [] ∧ M.p ≠ [] then S.C.map (fun _ => (1 : ℚ)) else S.p) = S.p := by
    rw [if_neg (fun h => hSp h.1)]
  simp only [h1, h2]
  rw [if_neg (fun h => hne h.1)]
  have h3 : getValueGivenCondn S.vars (ismemberOn Variable.name S.vars M.vars) =
      .ok (comV S M) := by
    unfold ismemberOn
    rw [condn_self]
    unfold comV
    congr 2
    funext v
    have := idxOf?_eq M.getNames v.name
    unfold Cpm.getNames at this ⊢
    by_cases hm : v.name ∈ M.vars.map Variable.name
    · rw [if_pos hm] at this
      simp [this, hm]
    · rw [if_neg hm] at this
      simp [this, hm]
  have h4 : getValueGivenCondn S.vars (flip (ismemberOn Variable.name S.vars M.vars)) =
      .ok (notComV S M) := by
    unfold ismemberOn flip
    rw [List.map_map, condn_self]
    unfold notComV
    congr 2
    funext v
    have := idxOf?_eq M.getNames v.name
    unfold Cpm.getNames at this ⊢
    by_cases hm : v.name ∈ M.vars.map Variable.name
    · rw [if_pos hm] at this
      simp [this, hm]
    · rw [if_neg hm] at this
      simp [this, hm]
  rw [h3, ok_bind, h4, ok_bind]
  have h5 := productRows_ok hS hM hne
  unfold prodV newV newParentV newChildV at h5
  rw [h5, ok_bind]
  simp only
  have h6 : Cpm.mk' (prodPure S M) = .ok (prodPure S M) :=
    mk'_ok hwf.rowLen hwf.entry hwf.child (.inr hwf.pLen) hwf.noCs.1
  have h7 : ({ vars := sortVars (take S.noChild S.vars ++ take M.noChild M.vars) ++
            (setdiffOn Variable.name (drop S.noChild S.vars ++ drop M.noChild M.vars)
              (sortVars (take S.noChild S.vars ++ take M.noChild M.vars))).1
               noChild := (sortVars (take S.noChild S.vars ++ take M.noChild M.vars)).length
               C := (prodPure S M).C, p := (prodPure S M).p } : Cpm K) = prodPure S M := rfl
  rw [h7, h6, ok_bind, sort_ok hwf, ok_bind, if_pos (.inl (by simp [hS.noCs.1]))]
  rfl

theorem productCore_empty (hd : ∀ k ∈ childNames S, k ∉ childNames M)
    (hS : WF U S) (he : S.C.flatten = []) : productCore S M = .error .unbound := by
  unfold productCore
  rw [pyAssert_true, ok_bind]
  swap
  · intro v hv w hw e
    exact hd v.name (List.mem_map_of_mem hv) (e ▸ List.mem_map_of_mem hw)
  simp only
  rw [if_pos]
  exact ⟨he, by simp [hS.noCs.1]⟩

end Prod

end BNS
