import Verif.Spec.PowerHouse
import Verif.Props.SysVal
import Verif.Props.Elim
import Verif.Proofs.ModelPy
import Verif.Proofs.Sampling

/-! Helper lemmas for the power_house demo. -/

namespace BNS

set_option linter.unusedSectionVars false

section Dens
variable {K : Type} [DecidableEq K]

theorem dens_zero {M : Cpm K} {x : K → ℕ} (h : ¬ Covers M x) : dens M x = 0 := by
  unfold dens
  apply List.sum_eq_zero
  intro y hy
  obtain ⟨cp, hcp, rfl⟩ := List.mem_map.1 hy
  rw [if_neg fun hc => h ⟨_, (List.of_mem_zip hcp).1, hc⟩]

/-- Rows without common assignment and with probability one. -/
theorem dens_unit {M : Cpm K} (hd : RowsDisjoint M) (hp : M.p = M.C.map fun _ => 1) (x : K → ℕ) :
    dens M x = if Covers M x then 1 else 0 := by
  by_cases h : Covers M x
  · rw [if_pos h]
    obtain ⟨r, hr, hm⟩ := h
    refine dens_of_row hd (r := r) ?_ hm
    rw [hp]
    obtain ⟨i, hi⟩ := List.mem_iff_getElem?.1 hr
    refine List.mem_of_getElem? (i := i) ?_
    rw [List.getElem?_zip_eq_some]
    exact ⟨hi, by rw [List.getElem?_map, hi]; rfl⟩
  · rw [if_neg h, dens_zero h]

theorem basic_match {vs : List (Variable K)} (ht : ∀ v ∈ vs, v.B = some (genB v.values.length)) :
    ∀ {r : List ℕ} {x : K → ℕ}, r.length = vs.length →
    (∀ vc ∈ vs.zip r, vc.2 < vc.1.values.length) →
    (RowMatches vs r x ↔ r = vs.map fun v => x v.name) := by
  induction vs with
  | nil =>
    intro r x hl _
    rw [List.length_nil, List.length_eq_zero_iff] at hl
    subst hl
    simp [RowMatches]
  | cons v vs ih =>
    intro r x hl hb
    cases r with
    | nil => simp at hl
    | cons a r =>
      have ih' := ih (fun v hv => ht v (by simp [hv])) (r := r) (x := x) (by simpa using hl)
        (fun vc hvc => hb vc (by simp [hvc]))
      unfold RowMatches at ih' ⊢
      rw [List.zip_cons_cons, List.forall_mem_cons, ih', List.map_cons, List.cons.injEq,
        stateSet_basic (ht v (by simp)) (hb (v, a) (by simp)), Finset.mem_singleton]
      simp only [eq_comm]

theorem rowsDisjoint_basic {M : Cpm K} (ht : ∀ v ∈ M.vars, v.B = some (genB v.values.length))
    (hl : ∀ r ∈ M.C, r.length = M.vars.length) (hb : AllBasic M) (hn : M.C.Nodup) :
    RowsDisjoint M := by
  unfold RowsDisjoint
  refine hn.imp_of_mem fun {a b} ha hb' hab x hx => hab ?_
  rw [(basic_match ht (hl a ha) (hb a ha)).1 hx.1, (basic_match ht (hl b hb') (hb b hb')).1 hx.2]

theorem rowMatches_cons {v : Variable K} {vs : List (Variable K)} {a : ℕ} {r : List ℕ} {x : K → ℕ} :
    RowMatches (v :: vs) (a :: r) x ↔ x v.name ∈ stateSet v a ∧ RowMatches vs r x := by
  unfold RowMatches
  rw [List.zip_cons_cons, List.forall_mem_cons]

theorem stateSet_lt {v : Variable K} (hB : v.B = some (genB v.values.length)) {s i : ℕ}
    (h : i ∈ stateSet v s) : i < v.values.length := by
  unfold stateSet at h
  rw [hB] at h
  simp only at h
  by_cases hs : s < (genB v.values.length).length
  · have hm := List.getElem_mem hs
    rw [mem_genB] at hm
    refine hm.2 i ?_
    simpa [List.getD_eq_getElem?_getD, List.getElem?_eq_getElem hs] using h
  · rw [List.getD_eq_getElem?_getD, List.getElem?_eq_none (by omega)] at h
    simp at h

theorem rowMatches_valid : ∀ {vs : List (Variable K)} {r : List ℕ} {x : K → ℕ},
    (∀ v ∈ vs, v.B = some (genB v.values.length)) → r.length = vs.length → RowMatches vs r x →
    ValidAt vs x
  | [], _, _, _, _, _ => by intro v hv; simp at hv
  | v :: vs, [], _, _, hl, _ => by simp at hl
  | v :: vs, a :: r, x, ht, hl, h => by
    obtain ⟨h1, h2⟩ := rowMatches_cons.1 h
    intro w hw
    rcases List.mem_cons.1 hw with rfl | hw
    · exact stateSet_lt (ht w (by simp)) h1
    · exact rowMatches_valid (fun v hv => ht v (by simp [hv])) (by simpa using hl) h2 w hw

end Dens

section Values
variable {K : Type} [DecidableEq K]

theorem length_rangeValues (m : ℕ) : (rangeValues m).length = m := by simp [rangeValues]

theorem getElem?_rangeValues {m i : ℕ} {z : ℚ} :
    (rangeValues m)[i]? = some z ↔ i < m ∧ z = i := by
  unfold rangeValues
  rw [List.getElem?_map, Option.map_eq_some_iff]
  constructor
  · rintro ⟨a, ha, rfl⟩
    obtain ⟨h1, h2⟩ := List.getElem?_eq_some_iff.1 ha
    rw [List.getElem_range] at h2
    exact ⟨by simpa using h1, by rw [h2]⟩
  · rintro ⟨h, rfl⟩
    exact ⟨i, by rw [List.getElem?_range h], rfl⟩

theorem mem_rangeValues {m : ℕ} {z : ℚ} : z ∈ rangeValues m ↔ ∃ i < m, z = (i : ℕ) := by
  unfold rangeValues
  simp [eq_comm]

theorem pairwise_rangeValues (m : ℕ) : (rangeValues m).Pairwise (· < ·) := by
  unfold rangeValues
  rw [List.pairwise_map]
  exact List.pairwise_lt_range.imp fun h => by exact_mod_cast h

theorem eq_of_pairwise_lt {l l' : List ℚ} (h : l.Pairwise (· < ·)) (h' : l'.Pairwise (· < ·))
    (hm : ∀ z, z ∈ l ↔ z ∈ l') : l = l' := by
  have hp : l.Perm l' := (List.perm_ext_iff_of_nodup (h.imp ne_of_lt) (h'.imp ne_of_lt)).2 hm
  exact hp.eq_of_pairwise (fun a b _ _ h1 h2 => absurd h2 (not_lt.2 (le_of_lt h1))) h h'

/-- A CPM that computes the state of `k` from the states of `ps`. -/
structure StateFun (k : K) (ps : List (Variable K)) (M : Cpm K) (m : ℕ) (F : List ℕ → ℕ) : Prop where
  vars : ∃ v, M.vars = v :: ps ∧ v.name = k ∧ v.values = rangeValues m ∧
    v.B = some (genB v.values.length)
  noChild : M.noChild = 1
  pLen : M.p.length = M.C.length
  noCs : M.Cs = [] ∧ M.q = [] ∧ M.ps = [] ∧ M.sampleIdx = []
  rows : ∀ r ∈ M.C, r.length = M.vars.length ∧ (∀ s ∈ r.head?, s < m) ∧
    ∀ vs ∈ M.vars.zip r, vs.2 + 1 < 2 ^ vs.1.values.length
  dens : ∀ x, ValidAt ps x → dens M x = if x k = F (ps.map fun v => x v.name) then 1 else 0

theorem encodes_stateFun {k : K} {ps : List (Variable K)} {M : Cpm K} {var : Variable K}
    {best : (K → ℕ) → ℚ → Prop} (h : Encodes best k ps M var var.values)
    (ht : ∀ v ∈ ps, v.B = some (genB v.values.length)) {m : ℕ} (hm : 0 < m) {F : List ℕ → ℕ}
    (hbest : ∀ x, ValidAt ps x → ∀ z, best x z ↔ z = (F (ps.map fun v => x v.name) : ℕ))
    (hF : ∀ x, ValidAt ps x → F (ps.map fun v => x v.name) < m)
    (hatt : ∀ n < m, ∃ x, ValidAt ps x ∧ F (ps.map fun v => x v.name) = n) :
    StateFun k ps M m F ∧ M.vars = var :: ps := by
  have hv : var.values = rangeValues m := by
    refine eq_of_pairwise_lt h.sorted (pairwise_rangeValues m) fun z => ?_
    rw [h.attained, mem_rangeValues]
    constructor
    · rintro ⟨x, hx, hz⟩
      exact ⟨_, hF x hx, (hbest x hx z).1 hz⟩
    · rintro ⟨n, hn, rfl⟩
      obtain ⟨x, hx, e⟩ := hatt n hn
      exact ⟨x, hx, (hbest x hx _).2 (by rw [e])⟩
  have hlen : var.values.length = m := by rw [hv, length_rangeValues]
  have hB : var.B = some (genB var.values.length) :=
    h.table (fun e => by rw [e] at hlen; simp at hlen; omega)
  have hdis : RowsDisjoint M := by
    unfold RowsDisjoint
    rw [List.pairwise_iff_getElem]
    intro i j hi hj hij x hx
    have hri := (h.rows _ (List.getElem_mem hi)).1
    have hrj := (h.rows _ (List.getElem_mem hj)).1
    rw [h.vars] at hx hri hrj
    have hval : ValidAt ps x := fun v hv' => rowMatches_valid (vs := var :: ps)
      (fun w hw => by
        rcases List.mem_cons.1 hw with rfl | hw
        · exact hB
        · exact ht w hw) hri hx.1 v (by simp [hv'])
    obtain ⟨l, s, r, z, -, -, -, -, hu⟩ := h.row x hval
    have tail : ∀ r' : List ℕ, r'.length = (var :: ps).length → RowMatches (var :: ps) r' x →
        RowMatches ps r'.tail x := by
      intro r' hl' hm'
      cases r' with
      | nil => simp at hl'
      | cons a r' => exact (rowMatches_cons.1 hm').2
    have e1 := hu i _ (List.getElem?_eq_getElem hi) (tail _ hri hx.1)
    have e2 := hu j _ (List.getElem?_eq_getElem hj) (tail _ hrj hx.2)
    omega
  refine ⟨⟨⟨var, h.vars, h.name, hv, hB⟩, h.noChild, by rw [h.p]; simp, h.noCs, fun r hr =>
    ⟨(h.rows r hr).1, fun s hs => hlen ▸ (h.rows r hr).2.1 s hs, (h.rows r hr).2.2⟩,
    fun x hx => ?_⟩, h.vars⟩
  rw [dens_unit hdis h.p]
  obtain ⟨i, s, r, z, h1, h2, h3, h4, h5⟩ := h.row x hx
  rw [hbest x hx] at h4
  rw [hv, getElem?_rangeValues] at h3
  have hs : s = F (ps.map fun v => x v.name) := by
    have := h3.2
    rw [h4] at this
    exact_mod_cast this.symm
  have hmem := List.mem_of_getElem? h1
  refine if_congr ⟨?_, fun hk => ⟨_, hmem, ?_⟩⟩ rfl rfl
  · rintro ⟨r', hr', hm'⟩
    have hl' := (h.rows r' hr').1
    rw [h.vars] at hm' hl'
    cases r' with
    | nil => simp at hl'
    | cons a r' =>
      obtain ⟨h6, h7⟩ := rowMatches_cons.1 hm'
      obtain ⟨j, hj⟩ := List.mem_iff_getElem?.1 hr'
      have := h5 j _ hj h7
      subst this
      rw [h1] at hj
      cases hj
      rw [stateSet_basic hB (by rw [hlen]; exact h3.1), Finset.mem_singleton, h.name] at h6
      rw [h6, hs]
  · rw [h.vars]
    refine rowMatches_cons.2 ⟨?_, h2⟩
    rw [stateSet_basic hB (by rw [hlen]; exact h3.1), Finset.mem_singleton, h.name, hk, hs]

theorem foldr_max_lt {l : List ℕ} {m : ℕ} : l.foldr max 0 < m ↔ 0 < m ∧ ∀ a ∈ l, a < m := by
  induction l with
  | nil => simp
  | cons a l ih =>
    rw [List.foldr_cons, max_lt_iff, ih, List.forall_mem_cons]
    tauto

theorem mem_le_foldr_max {l : List ℕ} {a : ℕ} (h : a ∈ l) : a ≤ l.foldr max 0 := by
  by_contra hn
  push Not at hn
  have := (foldr_max_lt.1 hn).2 a h
  omega

theorem foldr_max_mem {l : List ℕ} (h : l ≠ []) : l.foldr max 0 ∈ l := by
  induction l with
  | nil => exact absurd rfl h
  | cons a l ih =>
    rw [List.foldr_cons]
    rcases le_total a (l.foldr max 0) with hle | hle
    · rw [max_eq_right hle]
      by_cases hl : l = []
      · subst hl
        simp at hle
        simp [hle]
      · simp [ih hl]
    · rw [max_eq_left hle]; simp

theorem min?_ne {l : List ℕ} (h : l ≠ []) : ∃ m, l.min? = some m ∧ m ∈ l ∧ ∀ a ∈ l, m ≤ a := by
  cases e : l.min? with
  | none => exact absurd (List.min?_eq_none_iff.1 e) h
  | some m =>
    obtain ⟨h1, h2⟩ := List.min?_eq_some_iff.1 e
    exact ⟨m, rfl, h1, h2⟩

/-- Parents with states `0, …, m - 1` whose values are their states. -/
structure RangeParents (vs : List (Variable K)) : Prop where
  ne : vs ≠ []
  names : (vs.map Variable.name).Nodup
  table : ∀ v ∈ vs, v.B = some (genB v.values.length)
  values : ∀ v ∈ vs, ∃ m, 0 < m ∧ v.values = rangeValues m

theorem RangeParents.ok {vs : List (Variable K)} (h : RangeParents vs) : SysParentsOK vs :=
  ⟨h.ne, h.names, h.table, fun v hv => by
    obtain ⟨m, hm, e⟩ := h.values v hv
    intro hc
    rw [e] at hc
    have := length_rangeValues m
    rw [hc] at this
    simp at this
    omega, fun v hv => by
    obtain ⟨m, -, e⟩ := h.values v hv
    rw [e]
    exact (pairwise_rangeValues m).imp ne_of_lt⟩

theorem RangeParents.initial {vs : List (Variable K)} (h : RangeParents vs) :
    ∀ p ∈ vs, ∀ q ∈ vs, ∀ z ∈ p.values, ∀ y ∈ q.values, y ≤ z → y ∈ p.values := by
  intro p hp q hq z hz y hy hyz
  obtain ⟨m, -, e⟩ := h.values p hp
  obtain ⟨m', -, e'⟩ := h.values q hq
  rw [e, mem_rangeValues] at hz ⊢
  rw [e', mem_rangeValues] at hy
  obtain ⟨i, hi, rfl⟩ := hz
  obtain ⟨j, hj, rfl⟩ := hy
  have : j ≤ i := by exact_mod_cast hyz
  exact ⟨j, by omega, rfl⟩

theorem RangeParents.value {vs : List (Variable K)} (h : RangeParents vs) {v : Variable K}
    (hv : v ∈ vs) {i : ℕ} {z : ℚ} : v.values[i]? = some z ↔ i < v.values.length ∧ z = i := by
  obtain ⟨m, -, e⟩ := h.values v hv
  rw [e, getElem?_rangeValues, length_rangeValues]

theorem sysMaxVal_stateFun (k : K) {vs : List (Variable K)} (h : RangeParents vs) :
    ∃ M var, sysMaxVal k vs = .ok (M, var) ∧ M.vars = var :: vs ∧
      StateFun k vs M ((vs.map fun v => v.values.length).foldr max 0) (fun l => l.foldr max 0) := by
  obtain ⟨M, var, e, hE⟩ := C45_max_initial_values k vs h.ok h.initial
  have hpos : ∀ v ∈ vs, 0 < v.values.length := fun v hv => List.length_pos_of_ne_nil (h.ok.some_value v hv)
  have hm : 0 < (vs.map fun v => v.values.length).foldr max 0 := by
    obtain ⟨v, hv⟩ := List.exists_mem_of_ne_nil _ h.ne
    exact lt_of_lt_of_le (hpos v hv) (mem_le_foldr_max (List.mem_map_of_mem hv))
  suffices hk : StateFun k vs M ((vs.map fun v => v.values.length).foldr max 0) (fun l => l.foldr max 0) ∧ M.vars = var :: vs from
    ⟨M, var, e, hk.2, hk.1⟩
  refine encodes_stateFun hE h.table hm (fun x hx z => ?_) (fun x hx => ?_) (fun n hn => ?_)
  · have hne : (vs.map fun v => x v.name) ≠ [] := by simpa using h.ne
    unfold IsMaxAt
    constructor
    · rintro ⟨⟨v, hv, hz⟩, hle⟩
      rw [h.value hv] at hz
      rw [hz.2]
      congr 1
      refine le_antisymm (mem_le_foldr_max (List.mem_map_of_mem hv)) ?_
      have hmem := foldr_max_mem hne
      obtain ⟨w, hw, ew⟩ := List.mem_map.1 hmem
      rw [← ew]
      have := hle w hw (x w.name : ℕ) ((h.value hw).2 ⟨hx w hw, rfl⟩)
      rw [hz.2] at this
      exact_mod_cast this
    · rintro rfl
      obtain ⟨w, hw, ew⟩ := List.mem_map.1 (foldr_max_mem hne)
      refine ⟨⟨w, hw, (h.value hw).2 ⟨hx w hw, by rw [← ew]⟩⟩, fun v hv y hy => ?_⟩
      rw [(h.value hv).1 hy |>.2]
      exact_mod_cast mem_le_foldr_max (List.mem_map_of_mem (f := fun v : Variable K => x v.name) hv)
  · rw [foldr_max_lt]
    refine ⟨hm, fun a ha => ?_⟩
    obtain ⟨v, hv, rfl⟩ := List.mem_map.1 ha
    exact lt_of_lt_of_le (hx v hv)
      (mem_le_foldr_max (List.mem_map_of_mem (f := fun v : Variable K => v.values.length) hv))
  · obtain ⟨w, hw, ew⟩ := List.mem_map.1 (foldr_max_mem (l := vs.map fun v => v.values.length)
      (by simpa using h.ne))
    refine ⟨fun j => if j = w.name then n else 0, fun v hv => ?_, ?_⟩
    · by_cases hvw : v.name = w.name
      · have : v = w := List.inj_on_of_nodup_map h.names hv hw hvw
        subst this
        simp only [if_true]
        rw [ew]; exact hn
      · simp only [if_neg hvw]
        exact hpos v hv
    · refine le_antisymm ?_ ?_
      · rw [← Nat.lt_succ_iff, foldr_max_lt]
        refine ⟨by omega, fun a ha => ?_⟩
        obtain ⟨v, -, rfl⟩ := List.mem_map.1 ha
        simp only
        split <;> omega
      · refine le_trans ?_ (mem_le_foldr_max (List.mem_map_of_mem
          (f := fun v : Variable K => if v.name = w.name then n else 0) hw))
        simp

theorem sysMinVal_stateFun (k : K) {vs : List (Variable K)} (h : RangeParents vs) :
    ∃ M var, sysMinVal k vs = .ok (M, var) ∧ M.vars = var :: vs ∧
      StateFun k vs M ((vs.map fun v => v.values.length).min?.getD 0)
        (fun l => l.min?.getD 0) := by
  obtain ⟨M, var, e, hE⟩ := C45_min_initial_values k vs h.ok h.initial
  have hpos : ∀ v ∈ vs, 0 < v.values.length := fun v hv => List.length_pos_of_ne_nil (h.ok.some_value v hv)
  obtain ⟨m, em, hmm, hml⟩ := min?_ne (l := vs.map fun v => v.values.length) (by simpa using h.ne)
  rw [em, Option.getD_some]
  have hm : 0 < m := by
    obtain ⟨v, hv, rfl⟩ := List.mem_map.1 hmm
    exact hpos v hv
  have hmin : ∀ x : K → ℕ, ∃ a, ((vs.map fun v => x v.name).min?).getD 0 = a ∧
      (∃ v ∈ vs, x v.name = a) ∧ ∀ v ∈ vs, a ≤ x v.name := by
    intro x
    obtain ⟨a, ea, ha, hal⟩ := min?_ne (l := vs.map fun v => x v.name) (by simpa using h.ne)
    refine ⟨a, by rw [ea]; rfl, ?_, fun v hv => hal _ (List.mem_map_of_mem hv)⟩
    obtain ⟨v, hv, e⟩ := List.mem_map.1 ha
    exact ⟨v, hv, e⟩
  suffices hk : StateFun k vs M m (fun l => l.min?.getD 0) ∧ M.vars = var :: vs from
    ⟨M, var, e, hk.2, hk.1⟩
  refine encodes_stateFun hE h.table hm (fun x hx z => ?_) (fun x hx => ?_) (fun n hn => ?_)
  · obtain ⟨a, ea, ⟨w, hw, ew⟩, hal⟩ := hmin x
    simp only [ea]
    unfold IsMinAt
    constructor
    · rintro ⟨⟨v, hv, hz⟩, hle⟩
      rw [h.value hv] at hz
      rw [hz.2]
      congr 1
      refine le_antisymm ?_ (hal v hv)
      have := hle w hw (x w.name : ℕ) ((h.value hw).2 ⟨hx w hw, rfl⟩)
      rw [hz.2, ew] at this
      exact_mod_cast this
    · rintro rfl
      refine ⟨⟨w, hw, (h.value hw).2 ⟨hx w hw, by rw [ew]⟩⟩, fun v hv y hy => ?_⟩
      rw [(h.value hv).1 hy |>.2]
      exact_mod_cast hal v hv
  · obtain ⟨a, ea, -, hal⟩ := hmin x
    simp only [ea]
    obtain ⟨w, hw, ew⟩ := List.mem_map.1 hmm
    rw [← ew]
    exact lt_of_le_of_lt (hal w hw) (hx w hw)
  · refine ⟨fun _ => n, fun v hv => lt_of_lt_of_le hn (hml _ (List.mem_map_of_mem hv)), ?_⟩
    obtain ⟨a, ea, ⟨w, hw, ew⟩, -⟩ := hmin fun _ => n
    simp only at ea ew ⊢
    rw [ea, ← ew]

end Values

end BNS
