import Verif.Proofs.CpmSum

/-! `Cpm.sum` on well-formed input: which rows and probabilities it returns. -/

namespace BNS

open List

set_option linter.unusedSectionVars false
set_option linter.unnecessarySimpa false

section
variable {K : Type} [DecidableEq K] {U : K → Variable K} {M : Cpm K}

/-- column numbers of some variables -/
def colIdx (M : Cpm K) (vs : List (Variable K)) : List ℕ :=
  vs.map fun v => M.getNames.idxOf v.name

/-- a row restricted to some variables -/
def projRow (M : Cpm K) (vs : List (Variable K)) (r : List ℕ) : List ℕ :=
  vs.map fun v => val M.getNames r v.name

theorem vars_idxOf (h : WF U M) {v : Variable K} (hv : v ∈ M.vars) (d : Variable K) :
    M.vars.getD (M.getNames.idxOf v.name) d = v := by
  obtain ⟨h1, h2⟩ := getElem_idxOf_name (List.mem_map_of_mem (f := Variable.name) hv)
  have h3 := h.env _ (List.getElem_mem h1)
  rw [h2, h.env v hv] at h3
  unfold Cpm.getNames
  rw [List.getD_eq_getElem?_getD, List.getElem?_eq_getElem h1, Option.getD_some, ← h3]

theorem colIdx_drop (h : WF U M) : colIdx M (M.vars.drop M.noChild) =
    List.range' M.noChild (M.vars.length - M.noChild) := by
  apply List.ext_getElem
  · simp [colIdx]
  · intro i h1 h2
    simp only [colIdx, List.getElem_map, List.getElem_drop, List.getElem_range']
    have h3 : M.noChild + i < M.getNames.length := by
      simp [colIdx] at h1
      simp [Cpm.getNames]; omega
    have := h.nodup.idxOf_getElem (M.noChild + i) (by simpa [Cpm.getNames] using h3)
    rw [List.getElem_map] at this
    simpa [Cpm.getNames] using this

theorem idxOf_child {v : Variable K} (hv : v ∈ M.vars.take M.noChild) :
    (childNames M).idxOf v.name = M.getNames.idxOf v.name := by
  have he : M.getNames = childNames M ++ parentNames M := by
    unfold Cpm.getNames childNames parentNames
    rw [← List.map_append, List.take_append_drop]
  rw [he, List.idxOf_append_of_mem]
  exact List.mem_map_of_mem hv

theorem childNames_nodup (h : WF U M) : (childNames M).Nodup :=
  h.nodup.sublist ((List.take_sublist _ _).map _)

/-- remaining children: description used by the theorems -/
def remChild (M : Cpm K) (vars : List (Variable K)) (flag : Bool) : List (Variable K) :=
  (sumRemain M vars flag).1

theorem sumRemain_true (h : WF U M) (vars : List (Variable K)) :
    sumRemain M vars true =
      ((M.vars.take M.noChild).filter (fun v => v.name ∉ vars.map Variable.name),
       colIdx M ((M.vars.take M.noChild).filter (fun v => v.name ∉ vars.map Variable.name))) := by
  unfold sumRemain setdiffOn
  simp only [if_true]
  rw [firstOccOn_of_nodup _ _ (childNames_nodup h)]
  refine Prod.ext rfl ?_
  simp only
  unfold colIdx
  refine List.map_congr_left fun v hv => ?_
  exact idxOf_child (List.mem_filter.1 hv).1

theorem sumRemain_false (h : WF U M) (vars : List (Variable K))
    (hn : (vars.map Variable.name).Nodup) :
    (sumRemain M vars false).2 = colIdx M (sumRemain M vars false).1 ∧
    (sumRemain M vars false).1 =
      (M.vars.take M.noChild).filter (fun v => v.name ∈ vars.map Variable.name) := by
  have hsub : childNames M = (M.vars.take M.noChild).map Variable.name := rfl
  have hidx : ∀ i, i ∈ (ismemberOn Variable.name vars (M.vars.take M.noChild)).filterMap id ↔
      ∃ v ∈ M.vars.take M.noChild, v.name ∈ vars.map Variable.name ∧
        i = M.getNames.idxOf v.name := by
    intro i
    unfold ismemberOn
    simp only [List.mem_filterMap, List.mem_map, id_eq, exists_eq_right, ← hsub]
    constructor
    · rintro ⟨w, hw, he⟩
      rw [idxOf?_eq] at he
      split at he
      · rename_i hm
        obtain ⟨v, hv, hvn⟩ := List.mem_map.1 hm
        refine ⟨v, hv, ⟨w, hw, hvn.symm⟩, ?_⟩
        rw [← idxOf_child hv, hvn]
        exact (Option.some.inj he).symm
      · exact absurd he (by simp)
    · rintro ⟨v, hv, ⟨w, hw, hwn⟩, rfl⟩
      refine ⟨w, hw, ?_⟩
      rw [idxOf?_eq, if_pos (hwn ▸ List.mem_map_of_mem hv), hwn, idxOf_child hv]
  have hlt : ∀ i ∈ (sumRemain M vars false).2, i < M.vars.length := by
    intro i hi
    unfold sumRemain at hi
    simp only [Bool.false_eq_true, if_false] at hi
    rw [List.mem_insertionSort] at hi
    obtain ⟨v, hv, -, rfl⟩ := (hidx i).1 hi
    exact (getElem_idxOf_name (List.mem_map_of_mem (f := Variable.name)
      (List.mem_of_mem_take hv))).1
  have h2 : (sumRemain M vars false).2 = colIdx M (sumRemain M vars false).1 := by
    have h1 : (sumRemain M vars false).1 =
        (sumRemain M vars false).2.filterMap fun i => M.vars[i]? := by
      unfold sumRemain; simp
    rw [h1]
    generalize (sumRemain M vars false).2 = I at hlt
    induction I with
    | nil => rfl
    | cons i I ih =>
      have hi := hlt i (by simp)
      rw [List.filterMap_cons, List.getElem?_eq_getElem hi]
      simp only [colIdx, List.map_cons]
      have := h.nodup.idxOf_getElem i (by simpa using hi)
      rw [List.getElem_map] at this
      unfold Cpm.getNames
      rw [this]
      congr 1
      exact ih fun j hj => hlt j (by simp [hj])
  refine ⟨h2, ?_⟩
  -- the kept indices are exactly the matching positions, increasing
  have hchild_lt : ∀ i, i < (M.vars.take M.noChild).length → i < M.vars.length := by
    intro i hi; rw [List.length_take] at hi; omega
  have hI : (sumRemain M vars false).2 =
      colIdx M ((M.vars.take M.noChild).filter (fun v => v.name ∈ vars.map Variable.name)) := by
    unfold sumRemain
    simp only [Bool.false_eq_true, if_false]
    have hchildidx : ∀ v ∈ M.vars.take M.noChild, (childNames M).idxOf v.name =
      M.getNames.idxOf v.name := fun v hv => idxOf_child hv
    have hsorted : (colIdx M ((M.vars.take M.noChild).filter
        (fun v => v.name ∈ vars.map Variable.name))).Pairwise (· < ·) := by
      unfold colIdx
      have hp : (M.vars.take M.noChild).Pairwise
          fun a b => M.getNames.idxOf a.name < M.getNames.idxOf b.name := by
        rw [List.pairwise_iff_getElem]
        intro i j hi hj hij
        rw [List.getElem_take, List.getElem_take]
        have e1 := h.nodup.idxOf_getElem i (by simpa using hchild_lt i hi)
        have e2 := h.nodup.idxOf_getElem j (by simpa using hchild_lt j hj)
        rw [List.getElem_map] at e1 e2
        unfold Cpm.getNames
        rw [e1, e2]; exact hij
      rw [List.pairwise_map]
      exact hp.filter _
    have hnd : ((ismemberOn Variable.name vars (M.vars.take M.noChild)).filterMap id).Nodup := by
      have he : (ismemberOn Variable.name vars (M.vars.take M.noChild)).filterMap id =
          (vars.map Variable.name).filterMap fun k => (childNames M).idxOf? k := by
        unfold ismemberOn
        rw [List.filterMap_map, List.filterMap_map]
        rfl
      rw [he]
      refine List.Nodup.filterMap ?_ hn
      intro a a' b hb hb'
      simp only [Option.mem_def, idxOf?_eq] at hb hb'
      split at hb <;> split at hb' <;> simp_all
      exact (List.idxOf_inj (by assumption)).1 (hb.trans hb'.symm)
    refine List.Perm.eq_of_pairwise (le := (· ≤ ·)) (fun a b _ _ h1 h2 => le_antisymm h1 h2) ?_ ?_ ?_
    · exact List.pairwise_insertionSort _ _
    · exact hsorted.imp le_of_lt
    · refine (List.perm_insertionSort _ _).trans ?_
      rw [List.perm_ext_iff_of_nodup hnd (hsorted.imp ne_of_lt)]
      intro i
      rw [hidx]
      simp only [colIdx, List.mem_filter, List.mem_map, decide_eq_true_eq]
      constructor
      · rintro ⟨v, hv, h1, rfl⟩; exact ⟨v, ⟨hv, h1⟩, rfl⟩
      · rintro ⟨v, ⟨hv, h1⟩, rfl⟩; exact ⟨v, hv, h1, rfl⟩
  have h1 : (sumRemain M vars false).1 =
      (sumRemain M vars false).2.filterMap fun i => M.vars[i]? := by
    unfold sumRemain; simp
  rw [h1, hI]
  unfold colIdx
  rw [List.filterMap_map]
  have : ∀ v ∈ (M.vars.take M.noChild).filter (fun v => v.name ∈ vars.map Variable.name),
      ((fun i => M.vars[i]?) ∘ fun v : Variable K => M.getNames.idxOf v.name) v = some v := by
    intro v hv
    have hv' := List.mem_of_mem_take (List.mem_filter.1 hv).1
    have := vars_idxOf h hv' v
    obtain ⟨h1, h2⟩ := getElem_idxOf_name (List.mem_map_of_mem (f := Variable.name) hv')
    simp only [Function.comp]
    unfold Cpm.getNames at *
    rw [List.getD_eq_getElem?_getD, List.getElem?_eq_getElem h1, Option.getD_some] at this
    rw [List.getElem?_eq_getElem h1, this]
  rw [List.filterMap_congr this]
  simp

/-! ### the body -/

theorem projRow_val {vs : List (Variable K)} (r : List ℕ) {v : Variable K}
    (hv : v ∈ vs) : val (vs.map Variable.name) (projRow M vs r) v.name = val M.getNames r v.name := by
  have : projRow M vs r = (vs.map Variable.name).map fun k => val M.getNames r k := by
    simp [projRow]
  rw [this, val_map _ _ (List.mem_map_of_mem hv)]

/-- the intermediate table of `sum`: the kept columns, duplicates not merged yet -/
def projPure (M : Cpm K) (vs : List (Variable K)) : Cpm K :=
  { vars := vs, noChild := vs.length, C := M.C.map (projRow M vs), p := M.p }

theorem projPure_WF (h : WF U M) {vs : List (Variable K)} (hs : ∀ v ∈ vs, v ∈ M.vars)
    (hn : (vs.map Variable.name).Nodup) : WF U (projPure M vs) := by
  have hlen : ∀ r, (projRow M vs r).length = vs.length := fun r => by simp [projRow]
  refine ⟨fun v hv => h.env v (hs v hv), fun v hv => h.table v (hs v hv), hn, ?_, ?_, ?_, le_rfl,
    by simp [projPure]⟩
  · intro r hr
    obtain ⟨r', -, rfl⟩ := List.mem_map.1 hr
    exact hlen r'
  · intro r hr
    obtain ⟨r', hr', rfl⟩ := List.mem_map.1 hr
    refine (zip_forall_iff hn (hlen r') (fun v s => s + 1 < 2 ^ v.values.length)).2 fun v hv => ?_
    rw [projRow_val r' hv]
    have := h.entry_lt hr' (hs v hv)
    rw [length_genB] at this
    omega
  · simp [projPure, h.pLen]

/-- Everything `sum` returns, in terms of the kept columns. -/
theorem sumBody_ok (h : WF U M) {R : List (Variable K)} (hR : ∀ v ∈ R, v ∈ M.vars.take M.noChild)
    (hn : (R.map Variable.name).Nodup) (hne : R ++ M.vars.drop M.noChild ≠ []) :
    ∃ P, sumBody M R (colIdx M R) = .ok P ∧ P.vars = R ++ M.vars.drop M.noChild ∧
      P.noChild = R.length ∧ WF U P ∧ P.C.Nodup ∧
      (∀ r, r ∈ P.C ↔ r ∈ M.C.map (projRow M (R ++ M.vars.drop M.noChild))) ∧
      ∀ g : List ℕ → ℚ → ℚ, (∀ r a b, g r (a + b) = g r a + g r b) →
        ((P.C.zip P.p).map fun cp => g cp.1 cp.2).sum =
        ((M.C.zip M.p).map fun cp =>
          g (projRow M (R ++ M.vars.drop M.noChild) cp.1) cp.2).sum := by
  generalize hkeep : R ++ M.vars.drop M.noChild = keep at *
  have hsub : ∀ v ∈ keep, v ∈ M.vars := by
    intro v hv
    rw [← hkeep] at hv
    rcases List.mem_append.1 hv with hv | hv
    · exact List.mem_of_mem_take (hR v hv)
    · exact List.mem_of_mem_drop hv
  have hkn : (keep.map Variable.name).Nodup := by
    rw [← hkeep, List.map_append, List.nodup_append]
    refine ⟨hn, h.nodup.sublist ((List.drop_sublist _ _).map _), ?_⟩
    intro a ha b hb e
    obtain ⟨v, hv, rfl⟩ := List.mem_map.1 ha
    have hd := h.nodup
    rw [← List.take_append_drop M.noChild M.vars, List.map_append, List.nodup_append] at hd
    exact hd.2.2 _ (List.mem_map_of_mem (hR v hv)) b hb e
  have hidx : colIdx M R ++ List.range' M.noChild (M.vars.length - M.noChild) = colIdx M keep := by
    rw [← colIdx_drop h, ← hkeep]; simp [colIdx]
  have hlt : ∀ i ∈ colIdx M keep, i < M.vars.length := by
    intro i hi
    obtain ⟨v, hv, rfl⟩ := List.mem_map.1 hi
    exact (getElem_idxOf_name (List.mem_map_of_mem (f := Variable.name) (hsub v hv))).1
  have hwf := projPure_WF h hsub hkn
  obtain ⟨v0, hv0⟩ := List.exists_mem_of_ne_nil _ hne
  have hvars : takeRows M.vars (colIdx M keep) = .ok keep := by
    rw [takeRows_ok v0 hlt]
    congr 1
    unfold colIdx
    rw [List.map_map]
    conv_rhs => rw [← List.map_id keep]
    exact List.map_congr_left fun v hv => vars_idxOf h (hsub v hv) v0
  have hC : takeCols M.C (colIdx M keep) = .ok (projPure M keep).C := by
    rw [takeCols_ok fun r hr i hi => by rw [h.rowLen r hr]; exact hlt i hi]
    congr 1
    refine List.map_congr_left fun r _ => ?_
    unfold colIdx projRow
    rw [List.map_map]
    rfl
  have hmk : Cpm.mk' ({ vars := keep, noChild := (colIdx M keep).length, C := (projPure M keep).C,
                        p := M.p, q := M.q, sampleIdx := M.sampleIdx } : Cpm K) =
      .ok (projPure M keep) := by
    have he : ({ vars := keep, noChild := (colIdx M keep).length, C := (projPure M keep).C,
                   p := M.p, q := M.q, sampleIdx := M.sampleIdx } : Cpm K) = projPure M keep := by
      simp [projPure, h.noCs, colIdx]
    rw [he]
    exact mk'_ok hwf.rowLen hwf.entry hwf.child (.inr hwf.pLen) hwf.noCs.1
  obtain ⟨Cs, ps, e1, e2, e3, e4, e5⟩ := sumLoop_spec _ (projPure M keep) hwf hne le_rfl
  have hPwf : WF U ({ vars := keep, noChild := R.length, C := Cs, p := ps } : Cpm K) := by
    refine ⟨hwf.env, hwf.table, hwf.nodup, fun r hr => hwf.rowLen r ((e4 r).1 hr),
      fun r hr => hwf.entry r ((e4 r).1 hr), e2, ?_, by simp⟩
    rw [← hkeep]; simp
  have hmk2 : Cpm.mk' ({ vars := keep, noChild := R.length, C := Cs, p := ps } : Cpm K) =
      .ok { vars := keep, noChild := R.length, C := Cs, p := ps } :=
    mk'_ok hPwf.rowLen hPwf.entry hPwf.child (.inr e2) rfl
  refine ⟨{ vars := keep, noChild := R.length, C := Cs, p := ps }, ?_, rfl, rfl, hPwf, e3, e4, ?_⟩
  · unfold sumBody
    simp only [hidx, hkeep]
    rw [hvars, ok_bind, hC, ok_bind, hmk, ok_bind, e1, ok_bind]
    simp only [if_neg hne]
    rw [hmk2, ok_bind, if_pos (by simp [h.noCs.1])]
    rfl
  · intro g hg
    rw [e5 g hg]
    have hz : (projPure M keep).C.zip (projPure M keep).p =
        (M.C.zip M.p).map fun cp => (projRow M keep cp.1, cp.2) := by
      simp only [projPure]
      rw [List.zip_map_left]
      rfl
    rw [hz, List.map_map]
    rfl

/-! ### marginalisation -/

theorem sumOver_congr (vs : List (K × ℕ)) {f g : (K → ℕ) → ℚ} (x : K → ℕ)
    (h : ∀ y, f y = g y) : sumOver vs f x = sumOver vs g x := by
  have : f = g := funext h
  rw [this]

theorem sumOver_list_sum {α : Type} (vs : List (K × ℕ)) (l : List α) (f : α → (K → ℕ) → ℚ)
    (x : K → ℕ) : sumOver vs (fun y => (l.map fun a => f a y).sum) x =
      (l.map fun a => sumOver vs (f a) x).sum := by
  induction vs generalizing x with
  | nil => rfl
  | cons kn vs ih =>
    simp only [sumOver, ih]
    clear ih
    generalize Finset.range kn.2 = s
    induction l with
    | nil => simp
    | cons a l ihl => simp only [List.map_cons, List.sum_cons, Finset.sum_add_distrib, ihl]

/-- Summing an indicator over variables whose entry is a single basic state. -/
theorem sumOver_indicator (c : ℚ) (D : List (Variable K)) : ∀ (keep : List (Variable K))
    (b : Variable K → Finset ℕ) (_ : ∀ v ∈ D, ∃ i < v.values.length, b v = {i})
    (_ : ((D ++ keep).map Variable.name).Nodup) (x : K → ℕ),
    sumOver (D.map fun v => (v.name, v.values.length))
      (fun y => if ∀ v ∈ D ++ keep, y v.name ∈ b v then c else 0) x =
      if ∀ v ∈ keep, x v.name ∈ b v then c else 0 := by
  induction D with
  | nil => intro keep b _ _ x; simp [sumOver]
  | cons v D ih =>
    intro keep b hb hn x
    obtain ⟨i, hi, hbi⟩ := hb v (by simp)
    simp only [List.map_cons, sumOver]
    have hperm : ∀ y : K → ℕ, (∀ w ∈ (v :: D) ++ keep, y w.name ∈ b w) ↔
        ∀ w ∈ D ++ (v :: keep), y w.name ∈ b w := by
      intro y
      constructor <;> intro h w hw <;> apply h <;> simp at hw ⊢ <;> tauto
    have hn' : ((D ++ (v :: keep)).map Variable.name).Nodup := by
      refine (List.Perm.nodup_iff ?_).1 hn
      exact (List.perm_middle.symm).map _
    simp only [hperm]
    have := fun y => ih (v :: keep) b (fun w hw => hb w (by simp [hw])) hn' y
    simp only [this]
    have hvk : ∀ w ∈ keep, w.name ≠ v.name := by
      intro w hw e
      rw [List.cons_append, List.map_cons, List.nodup_cons] at hn
      exact hn.1 (e ▸ List.mem_map_of_mem (by simp [hw]))
    have hterm : ∀ j, (if ∀ w ∈ v :: keep, Function.update x v.name j w.name ∈ b w then c else 0) =
        if j = i then (if ∀ w ∈ keep, x w.name ∈ b w then c else 0) else 0 := by
      intro j
      have h1 : (∀ w ∈ v :: keep, Function.update x v.name j w.name ∈ b w) ↔
          j = i ∧ ∀ w ∈ keep, x w.name ∈ b w := by
        rw [List.forall_mem_cons, Function.update_self, hbi, Finset.mem_singleton]
        refine and_congr_right fun _ => forall₂_congr fun w hw => ?_
        rw [Function.update_of_ne (hvk w hw)]
      rw [if_congr h1 rfl rfl]
      by_cases hj : j = i <;> simp [hj]
    simp only [hterm]
    rw [Finset.sum_ite_eq' (Finset.range v.values.length) i]
    simp [hi]

theorem dens_sum (h : WF U M) {R D : List (Variable K)}
    (hb : ∀ r ∈ M.C, ∀ v ∈ D, val M.getNames r v.name < v.values.length)
    (hD : ∀ v ∈ D, v ∈ M.vars.take M.noChild)
    (hperm : (D ++ R).Perm (M.vars.take M.noChild)) {P : Cpm K}
    (hP : P.vars = R ++ M.vars.drop M.noChild)
    (hsum : ∀ g : List ℕ → ℚ → ℚ, (∀ r a b, g r (a + b) = g r a + g r b) →
        ((P.C.zip P.p).map fun cp => g cp.1 cp.2).sum =
        ((M.C.zip M.p).map fun cp =>
          g (projRow M (R ++ M.vars.drop M.noChild) cp.1) cp.2).sum) (x : K → ℕ) :
    dens P x = sumOver (D.map fun v => (v.name, v.values.length)) (dens M) x := by
  have hpermall : (D ++ (R ++ M.vars.drop M.noChild)).Perm M.vars := by
    rw [← List.append_assoc]
    refine (hperm.append_right _).trans ?_
    rw [List.take_append_drop]
  have hnall : ((D ++ (R ++ M.vars.drop M.noChild)).map Variable.name).Nodup :=
    ((hpermall.map _).nodup_iff).2 h.nodup
  unfold dens
  rw [hP]
  have := hsum (fun r q => if RowMatches (R ++ M.vars.drop M.noChild) r x then q else 0)
    (by intro r a b; split <;> simp)
  rw [this, sumOver_list_sum]
  congr 1
  refine List.map_congr_left fun cp hcp => ?_
  have hr := (List.of_mem_zip hcp).1
  have hlen := h.rowLen _ hr
  have hnk : ((R ++ M.vars.drop M.noChild).map Variable.name).Nodup := by
    rw [List.map_append] at hnall
    exact (List.nodup_append.1 hnall).2.1
  have key := sumOver_indicator cp.2 D (R ++ M.vars.drop M.noChild)
    (fun v => stateSet v (val M.getNames cp.1 v.name))
    (fun v hv => ⟨_, hb _ hr v hv,
      stateSet_basic (h.table v (List.mem_of_mem_take (hD v hv))) (hb _ hr v hv)⟩) hnall x
  have h1 : RowMatches (R ++ M.vars.drop M.noChild)
      (projRow M (R ++ M.vars.drop M.noChild) cp.1) x ↔
      ∀ v ∈ R ++ M.vars.drop M.noChild, x v.name ∈ stateSet v (val M.getNames cp.1 v.name) := by
    rw [rowMatches_iff hnk (by simp [projRow])]
    refine forall₂_congr fun v hv => ?_
    rw [projRow_val cp.1 hv]
  simp only [h1]
  rw [← key]
  refine sumOver_congr _ _ fun y => ?_
  have h2 : RowMatches M.vars cp.1 y ↔
      ∀ v ∈ D ++ (R ++ M.vars.drop M.noChild),
        y v.name ∈ stateSet v (val M.getNames cp.1 v.name) := by
    rw [rowMatches_iff h.nodup hlen]
    exact ⟨fun hh v hv => hh v (hpermall.mem_iff.1 hv), fun hh v hv => hh v (hpermall.mem_iff.2 hv)⟩
  simp only [h2]

end
end BNS
