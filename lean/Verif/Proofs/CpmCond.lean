import Verif.Proofs.CpmBasic

/-! `Cpm.condition` on well-formed input. -/

namespace BNS

open List

set_option linter.unusedSectionVars false
set_option linter.unnecessarySimpa false

section
variable {K : Type} [DecidableEq K]

theorem val_set {names : List K} {row : List ℕ} (hl : row.length = names.length) {k0 k : K}
    (h0 : k0 ∈ names) (c : ℕ) :
    val names (row.set (names.idxOf k0) c) k = if k = k0 then c else val names row k := by
  unfold val
  have hlt := List.idxOf_lt_length_iff.2 h0
  by_cases h : k = k0
  · subst h
    simp [List.getD_eq_getElem?_getD, hl, hlt]
  · rw [if_neg h]
    have : names.idxOf k0 ≠ names.idxOf k := fun e => h (((List.idxOf_inj h0).1 e)).symm
    simp [List.getD_eq_getElem?_getD, List.getElem?_set_ne this]

/-- Overwrite the columns listed in `L`. -/
def setCols (c : (Variable K × ℕ) × ℕ → ℕ) (L : List ((Variable K × ℕ) × ℕ)) (row : List ℕ) :
    List ℕ := L.foldl (fun row t => row.set t.2 (c t)) row

theorem length_setCols (c : (Variable K × ℕ) × ℕ → ℕ) (L : List ((Variable K × ℕ) × ℕ))
    (row : List ℕ) : (setCols c L row).length = row.length := by
  unfold setCols
  induction L generalizing row with
  | nil => rfl
  | cons t L ih => rw [List.foldl_cons, ih]; simp

theorem val_setCols {names : List K} (c : (Variable K × ℕ) × ℕ → ℕ)
    (L : List ((Variable K × ℕ) × ℕ)) (row : List ℕ) (hl : row.length = names.length)
    (hL : ∀ t ∈ L, t.1.1.name ∈ names ∧ t.2 = names.idxOf t.1.1.name)
    (hn : (L.map fun t => t.1.1.name).Nodup) :
    (∀ t ∈ L, val names (setCols c L row) t.1.1.name = c t) ∧
    (∀ k, k ∉ L.map (fun t => t.1.1.name) → val names (setCols c L row) k = val names row k) := by
  induction L generalizing row with
  | nil => simp [setCols]
  | cons t L ih =>
    rw [List.map_cons, List.nodup_cons] at hn
    obtain ⟨h1, h2⟩ := hL t (by simp)
    have hl' : (row.set t.2 (c t)).length = names.length := by simpa using hl
    obtain ⟨i1, i2⟩ := ih (row.set t.2 (c t)) hl' (fun t' ht' => hL t' (by simp [ht'])) hn.2
    have hunf : setCols c (t :: L) row = setCols c L (row.set t.2 (c t)) := rfl
    rw [hunf]
    constructor
    · intro t' ht'
      rcases List.mem_cons.1 ht' with rfl | ht'
      · rw [i2 _ hn.1, h2, val_set hl h1, if_pos rfl]
      · exact i1 t' ht'
    · intro k hk
      simp only [List.map_cons, List.mem_cons, not_or] at hk
      rw [i2 k hk.2, h2, val_set hl h1, if_neg hk.1]

/-- Index written by `condition` for the intersection. -/
def newEntry (r : List ℕ) (t : (Variable K × ℕ) × ℕ) : ℕ :=
  ((genB t.1.1.values.length).idxOf?
    (stateSet t.1.1 (r.getD t.2 0) ∩ stateSet t.1.1 t.1.2)).getD 0

/-- The row written by `condition`. -/
def condRow (L : List ((Variable K × ℕ) × ℕ)) (r : List ℕ) : List ℕ := setCols (newEntry r) L r

theorem mem_genB_stateSet {v : Variable K} (hB : v.B = some (genB v.values.length)) {s : ℕ}
    (hs : s < (genB v.values.length).length) : stateSet v s ∈ genB v.values.length := by
  have : stateSet v s = (genB v.values.length)[s] := by simp [stateSet, hB, hs]
  rw [this]; exact List.getElem_mem hs

theorem genB_inter {n : ℕ} {S T : Finset ℕ} (hS : S ∈ genB n) (h : (S ∩ T).Nonempty) :
    S ∩ T ∈ genB n := by
  rw [mem_genB] at hS ⊢
  exact ⟨h, fun i hi => hS.2 i (Finset.mem_inter.1 hi).1⟩

theorem newEntry_spec {r : List ℕ} {t : (Variable K × ℕ) × ℕ}
    (hB : t.1.1.B = some (genB t.1.1.values.length))
    (hr : r.getD t.2 0 < (genB t.1.1.values.length).length)
    (hne : (stateSet t.1.1 t.1.2 ∩ stateSet t.1.1 (r.getD t.2 0)).Nonempty) :
    newEntry r t < (genB t.1.1.values.length).length ∧
    stateSet t.1.1 (newEntry r t) =
      stateSet t.1.1 (r.getD t.2 0) ∩ stateSet t.1.1 t.1.2 := by
  rw [Finset.inter_comm] at hne
  have hm := genB_inter (mem_genB_stateSet hB hr) hne
  unfold newEntry
  rw [idxOf?_eq, if_pos hm]
  have hlt := List.idxOf_lt_length_iff.2 hm
  refine ⟨by simpa using hlt, ?_⟩
  rw [Option.getD_some]
  generalize stateSet t.1.1 (r.getD t.2 0) ∩ stateSet t.1.1 t.1.2 = X at *
  unfold stateSet
  rw [hB]
  simp [hlt]

/-- Names of the evidence in scope. -/
theorem checkList_nodup {names : List K} {cv : List (Variable K)} {cs : List ℕ}
    (hn : (cv.map Variable.name).Nodup) :
    ((checkList names cv cs).map fun t => t.1.1.name).Nodup := by
  unfold checkList
  induction cv generalizing cs with
  | nil => simp
  | cons v cv ih =>
    cases cs with
    | nil => simp
    | cons c cs =>
      rw [List.map_cons, List.nodup_cons] at hn
      simp only [List.zip_cons_cons, List.filterMap_cons]
      cases h : names.idxOf? v.name with
      | none => simpa using ih hn.2
      | some i =>
        simp only [Option.map_some, List.map_cons, List.nodup_cons]
        refine ⟨?_, ih hn.2⟩
        intro hmem
        obtain ⟨t, ht, hte⟩ := List.mem_map.1 hmem
        have := (mem_checkList.1 ht).1
        exact hn.1 (hte ▸ List.mem_map_of_mem (List.of_mem_zip this).1)

variable {U : K → Variable K} {M : Cpm K} {cv : List (Variable K)} {cs : List ℕ}

theorem checkList_facts (h : WF U M) (he : EvidenceOK U M.getNames cv cs)
    {t : (Variable K × ℕ) × ℕ} (ht : t ∈ checkList M.getNames cv cs) :
    t.1.1 ∈ M.vars ∧ t.1.1.B = some (genB t.1.1.values.length) ∧
    t.1.2 < (genB t.1.1.values.length).length ∧
    t.1.1.name ∈ M.getNames ∧ t.2 = M.getNames.idxOf t.1.1.name ∧
    ∀ r ∈ M.C, t.2 < r.length ∧ r.getD t.2 0 < (genB t.1.1.values.length).length ∧
      r.getD t.2 0 = val M.getNames r t.1.1.name := by
  obtain ⟨h1, h2, h3⟩ := mem_checkList.1 ht
  have hu := he.env _ h1 h2
  have hm : t.1.1 ∈ M.vars := hu ▸ h.mem_of_name h2
  refine ⟨hm, h.table _ hm, ?_, h2, h3, ?_⟩
  · have := he.state _ h1 h2
    rw [length_genB]; omega
  · intro r hr
    have hv : r.getD t.2 0 = val M.getNames r t.1.1.name := by rw [h3]; rfl
    refine ⟨?_, ?_, hv⟩
    · rw [h3, h.rowLen r hr]
      obtain ⟨h4, _⟩ := getElem_idxOf_name h2
      exact h4
    · rw [hv]; exact h.entry_lt hr hm

/-- The conditioned CPM. -/
def condPure (M : Cpm K) (cv : List (Variable K)) (cs : List ℕ) : Cpm K :=
  let L := checkList M.getNames cv cs
  { M with
    C := (M.C.filter fun r => L.all fun t => rowTest t r).map (condRow L)
    p := maskRows (M.C.map fun r => L.all fun t => rowTest t r) M.p }

theorem condRow_val (h : WF U M) (he : EvidenceOK U M.getNames cv cs)
    (hn : (cv.map Variable.name).Nodup) {r : List ℕ} (hr : r ∈ M.C) :
    (∀ t ∈ checkList M.getNames cv cs,
      val M.getNames (condRow (checkList M.getNames cv cs) r) t.1.1.name = newEntry r t) ∧
    (∀ k, k ∉ (checkList M.getNames cv cs).map (fun t => t.1.1.name) →
      val M.getNames (condRow (checkList M.getNames cv cs) r) k = val M.getNames r k) := by
  apply val_setCols
  · rw [h.rowLen r hr]; simp [Cpm.getNames]
  · intro t ht
    have := checkList_facts h he ht
    exact ⟨this.2.2.2.1, this.2.2.2.2.1⟩
  · exact checkList_nodup hn

/-- Each value of a surviving conditioned row is the intersection of the old value and the
evidence. -/
theorem condRow_stateSet (h : WF U M) (he : EvidenceOK U M.getNames cv cs)
    (hn : (cv.map Variable.name).Nodup) {r : List ℕ} (hr : r ∈ M.C)
    (hc : ∀ t ∈ checkList M.getNames cv cs, rowTest t r = true) {v : Variable K}
    (hv : v ∈ M.vars) :
    val M.getNames (condRow (checkList M.getNames cv cs) r) v.name <
      (genB v.values.length).length ∧
    (∀ i, i ∈ stateSet v (val M.getNames (condRow (checkList M.getNames cv cs) r) v.name) ↔
      i ∈ stateSet v (val M.getNames r v.name) ∧
      ∀ t ∈ checkList M.getNames cv cs, t.1.1.name = v.name → i ∈ stateSet v t.1.2) := by
  obtain ⟨h1, h2⟩ := condRow_val h he hn hr
  by_cases hk : v.name ∈ (checkList M.getNames cv cs).map (fun t => t.1.1.name)
  · obtain ⟨t, ht, hte⟩ := List.mem_map.1 hk
    obtain ⟨f1, f2, f3, f4, f5, f6⟩ := checkList_facts h he ht
    obtain ⟨g1, g2, g3⟩ := f6 r hr
    have hvt : t.1.1 = v := by rw [← h.env _ f1, ← h.env v hv, hte]
    have hne : (stateSet t.1.1 t.1.2 ∩ stateSet t.1.1 (r.getD t.2 0)).Nonempty := by
      simpa [rowTest] using hc t ht
    obtain ⟨e1, e2⟩ := newEntry_spec f2 g2 hne
    rw [← hte, h1 t ht, ← hvt]
    refine ⟨e1, fun i => ?_⟩
    rw [e2, g3, Finset.mem_inter]
    refine and_congr_right fun _ => ⟨fun hi t' ht' hte' => ?_, fun hall => hall t ht rfl⟩
    have : t' = t := by
      have hnd := checkList_nodup (names := M.getNames) (cs := cs) hn
      exact List.inj_on_of_nodup_map hnd ht' ht hte'
    rw [this]; exact hi
  · rw [h2 _ hk]
    refine ⟨h.entry_lt hr hv, fun i => ⟨fun hi => ⟨hi, fun t ht hte => ?_⟩, fun hi => hi.1⟩⟩
    exact absurd (List.mem_map.2 ⟨t, ht, hte⟩) hk

theorem condPure_mem {r' : List ℕ} (hr' : r' ∈ (condPure M cv cs).C) :
    ∃ r ∈ M.C, (∀ t ∈ checkList M.getNames cv cs, rowTest t r = true) ∧
      r' = condRow (checkList M.getNames cv cs) r := by
  obtain ⟨r, hr, rfl⟩ := List.mem_map.1 hr'
  rw [List.mem_filter, List.all_eq_true] at hr
  exact ⟨r, hr.1, hr.2, rfl⟩

theorem condRow_length (L : List ((Variable K × ℕ) × ℕ)) (r : List ℕ) :
    (condRow L r).length = r.length := length_setCols _ _ _

theorem condPure_WF (h : WF U M) (he : EvidenceOK U M.getNames cv cs)
    (hn : (cv.map Variable.name).Nodup) : WF U (condPure M cv cs) := by
  have hlen : ∀ r' ∈ (condPure M cv cs).C, r'.length = M.vars.length := by
    intro r' hr'
    obtain ⟨r, hr, _, rfl⟩ := condPure_mem hr'
    rw [condRow_length, h.rowLen r hr]
  refine ⟨h.env, h.table, h.nodup, hlen, ?_, ?_, h.child, h.noCs⟩
  · intro r' hr'
    refine (zip_forall_iff h.nodup (hlen r' hr') (fun v s => s + 1 < 2 ^ v.values.length)).2 ?_
    intro v hv
    obtain ⟨r, hr, hc, rfl⟩ := condPure_mem hr'
    have := (condRow_stateSet h he hn hr hc hv).1
    rw [length_genB] at this
    unfold Cpm.getNames at this ⊢
    omega
  · simp only [condPure]
    rw [length_maskRows _ _ _ h.pLen]; simp

theorem condition_ok (h : WF U M) (he : EvidenceOK U M.getNames cv cs)
    (hn : (cv.map Variable.name).Nodup) :
    M.condition cv cs = .ok (condPure M cv cs) := by
  have hwf := condPure_WF h he hn
  unfold Cpm.condition
  rw [isCompatible_ok h he, ok_bind]
  simp only [ismemberOn]
  rw [condn_self, ok_bind, condn_other _ _ _ he.len, ok_bind]
  have hcl := checkList_eq M.getNames cv cs he.len
  unfold Cpm.getNames at hcl
  rw [hcl, maskRows_self]
  have hfold : (checkList (M.vars.map Variable.name) cv cs).foldlM (fun Cc vsi => do
      let col ← column (M.C.filter fun r =>
        (checkList M.getNames cv cs).all fun t => rowTest t r) vsi.2
      let col' ← condColumn vsi.1.1.B vsi.1.2 col
      return setCol Cc vsi.2 col') (M.C.filter fun r =>
        (checkList M.getNames cv cs).all fun t => rowTest t r) =
      .ok (condPure M cv cs).C := by
    have key : ∀ (L : List ((Variable K × ℕ) × ℕ)) (C : List (List ℕ)) (g : List ℕ → List ℕ),
        (∀ r ∈ C, r ∈ M.C) →
        (∀ t ∈ L, t ∈ checkList (M.vars.map Variable.name) cv cs) →
        L.foldlM (fun Cc vsi => do
          let col ← column C vsi.2
          let col' ← condColumn vsi.1.1.B vsi.1.2 col
          return setCol Cc vsi.2 col') (C.map g) =
        .ok (C.map fun r => setCols (newEntry r) L (g r)) := by
      intro L
      induction L with
      | nil => intro C g _ _; simp [pure_ok, setCols]
      | cons t L ih =>
        intro C g hC hL
        have hf := checkList_facts h he (t := t) (hL t (by simp))
        obtain ⟨f1, f2, f3, f4, f5, f6⟩ := hf
        rw [List.foldlM_cons]
        have hcol : column C t.2 = .ok (C.map fun r => r.getD t.2 0) :=
          column_ok fun r hr => (f6 r (hC r hr)).1
        rw [hcol, ok_bind]
        have hcc : condColumn t.1.1.B t.1.2 (C.map fun r => r.getD t.2 0) =
            .ok (C.map fun r => newEntry r t) := by
          unfold condColumn
          rw [f2]
          simp only
          have hx : ∀ x ∈ C.map (fun r => r.getD t.2 0), (do
              let S ← pyGet (genB t.1.1.values.length) x
              let T ← pyGet (genB t.1.1.values.length) t.1.2
              return ((genB t.1.1.values.length).idxOf? (S ∩ T)).getD 0 : Except Err ℕ) =
              .ok (((genB t.1.1.values.length).idxOf?
                (stateSet t.1.1 x ∩ stateSet t.1.1 t.1.2)).getD 0) := by
            intro x hx
            obtain ⟨r, hr, rfl⟩ := List.mem_map.1 hx
            rw [pyGet_lt (f6 r (hC r hr)).2.1 ∅, ok_bind, pyGet_lt f3 ∅, ok_bind]
            simp [stateSet, f2, pure_ok]
          rw [mapM_ok hx, List.map_map]
          rfl
        rw [hcc, ok_bind, pure_ok, ok_bind]
        have hset : setCol (C.map g) t.2 (C.map fun r => newEntry r t) =
            C.map fun r => (g r).set t.2 (newEntry r t) := by
          unfold setCol
          rw [List.zipWith_map, List.zipWith_self]
        rw [hset, ih C _ hC (fun t' ht' => hL t' (by simp [ht']))]
        rfl
    have := key (checkList (M.vars.map Variable.name) cv cs)
      (M.C.filter fun r => (checkList M.getNames cv cs).all fun t => rowTest t r) id
      (fun r hr => (List.mem_filter.1 hr).1) (fun t ht => ht)
    rw [List.map_id] at this
    rw [this]
    rfl
  rw [hfold, ok_bind]
  have hp : (if M.p = [] then [] else maskRows (M.C.map fun r =>
      (checkList M.getNames cv cs).all fun t => rowTest t r) M.p) = (condPure M cv cs).p := by
    split
    · rename_i h0; simp [condPure, h0, maskRows]
    · rfl
  simp only [hp]
  rw [show M.vars = (condPure M cv cs).vars from rfl, checkC_ok hwf.rowLen hwf.entry, ok_bind,
    pyAssert_true (Or.inr hwf.pLen), ok_bind, if_pos (by simp [h.noCs.1])]
  rfl

theorem condRow_matches (h : WF U M) (he : EvidenceOK U M.getNames cv cs)
    (hn : (cv.map Variable.name).Nodup) (x : K → ℕ) :
    ∀ r ∈ M.C,
      ((∀ t ∈ checkList M.getNames cv cs, rowTest t r = true) ∧
        RowMatches M.vars (condRow (checkList M.getNames cv cs) r) x) ↔
      (Consistent M.getNames cv cs x ∧ RowMatches M.vars r x) := by
  have hcons : Consistent M.getNames cv cs x ↔
      ∀ t ∈ checkList M.getNames cv cs, x t.1.1.name ∈ stateSet t.1.1 t.1.2 := by
    constructor
    · intro hc t ht
      obtain ⟨h1, h2, h3⟩ := mem_checkList.1 ht
      exact hc _ h1 h2
    · intro hall p hp hpn
      exact hall (p, M.getNames.idxOf p.1.name) (mem_checkList.2 ⟨hp, hpn, rfl⟩)
  intro r hr
  rw [rowMatches_iff h.nodup (by rw [condRow_length, h.rowLen r hr]),
    rowMatches_iff h.nodup (h.rowLen r hr), hcons]
  constructor
  · rintro ⟨hc, hm⟩
    refine ⟨fun t ht => ?_, fun v hv => ((condRow_stateSet h he hn hr hc hv).2 _).1 (hm v hv) |>.1⟩
    have f1 := (checkList_facts h he ht).1
    exact ((condRow_stateSet h he hn hr hc f1).2 _).1 (hm _ f1) |>.2 t ht rfl
  · rintro ⟨hc, hm⟩
    have ht : ∀ t ∈ checkList M.getNames cv cs, rowTest t r = true := by
      intro t ht
      obtain ⟨f1, -, -, -, -, f6⟩ := checkList_facts h he ht
      have := (f6 r hr).2.2
      unfold rowTest
      rw [decide_eq_true_iff]
      refine ⟨x t.1.1.name, Finset.mem_inter.2 ⟨hc t ht, ?_⟩⟩
      rw [this]; exact hm _ f1
    refine ⟨ht, fun v hv => ((condRow_stateSet h he hn hr ht hv).2 _).2 ⟨hm v hv, ?_⟩⟩
    intro t htm hte
    have hvt : t.1.1 = v := by
      rw [← h.env _ (checkList_facts h he htm).1, ← h.env v hv, hte]
    rw [← hvt]; exact hc t htm

theorem dens_condPure (h : WF U M) (he : EvidenceOK U M.getNames cv cs)
    (hn : (cv.map Variable.name).Nodup) (x : K → ℕ) :
    dens (condPure M cv cs) x = if Consistent M.getNames cv cs x then dens M x else 0 := by
  have hrow := condRow_matches h he hn x
  unfold dens
  have hz : (condPure M cv cs).C.zip (condPure M cv cs).p =
      ((M.C.zip M.p).filter fun cp => (checkList M.getNames cv cs).all fun t => rowTest t cp.1).map
        fun cp => (condRow (checkList M.getNames cv cs) cp.1, cp.2) :=
    zip_filter_map _ _ _ _ h.pLen
  rw [hz, List.map_map]
  have hgen : ∀ (l : List (List ℕ × ℚ)), (∀ cp ∈ l, cp.1 ∈ M.C) →
      ((l.filter fun cp => (checkList M.getNames cv cs).all fun t => rowTest t cp.1).map
        ((fun cp : List ℕ × ℚ => if RowMatches (condPure M cv cs).vars cp.1 x then cp.2 else 0) ∘
          fun cp => (condRow (checkList M.getNames cv cs) cp.1, cp.2))).sum =
      if Consistent M.getNames cv cs x then
        (l.map fun cp => if RowMatches M.vars cp.1 x then cp.2 else 0).sum else 0 := by
    intro l
    induction l with
    | nil => simp
    | cons cp l ih =>
      intro hl
      have ih := ih fun cp' h' => hl cp' (by simp [h'])
      have hr := hrow cp.1 (hl cp (by simp))
      rw [List.filter_cons]
      by_cases hc : ∀ t ∈ checkList M.getNames cv cs, rowTest t cp.1 = true
      · rw [if_pos (by rw [List.all_eq_true]; exact hc), List.map_cons, List.sum_cons, ih,
          List.map_cons, List.sum_cons]
        simp only [Function.comp]
        have hr' : RowMatches M.vars (condRow (checkList M.getNames cv cs) cp.1) x ↔
          (Consistent M.getNames cv cs x ∧ RowMatches M.vars cp.1 x) := by
          rw [← hr]; exact ⟨fun hh => ⟨hc, hh⟩, fun hh => hh.2⟩
        rw [show (condPure M cv cs).vars = M.vars from rfl]
        simp only [hr']
        by_cases hcc : Consistent M.getNames cv cs x <;> simp [hcc]
      · rw [if_neg (by rw [List.all_eq_true]; exact hc), ih, List.map_cons, List.sum_cons]
        by_cases hcc : Consistent M.getNames cv cs x
        · have : ¬ RowMatches M.vars cp.1 x := fun hm => hc ((hr.2 ⟨hcc, hm⟩).1)
          simp [hcc, this]
        · simp [hcc]
  exact hgen _ fun cp hcp => (List.of_mem_zip hcp).1

end

end BNS
