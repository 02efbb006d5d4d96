import Verif.Proofs.CpmMarg
import Mathlib.Tactic.Linarith

/-! `Cpm.get_prob` and related queries on well-formed input. -/

namespace BNS

open List

set_option linter.unusedSectionVars false
set_option linter.unnecessarySimpa false

section
variable {K : Type} [DecidableEq K] {U : K → Variable K} {M : Cpm K} {cv : List (Variable K)}
  {cs : List ℕ}

/-- the rows that pass the compatibility test -/
def compatRow (M : Cpm K) (cv : List (Variable K)) (cs : List ℕ) (r : List ℕ) : Bool :=
  (checkList M.getNames cv cs).all fun t => rowTest t r

theorem isCompatibleM_ok (h : WF U M) (he : EvidenceOK U M.getNames cv cs) (hne : cs ≠ [])
    {one : Cpm K} (h1 : one.vars = cv) (h2 : one.C = [cs]) (h3 : one.Cs = []) :
    M.isCompatibleM one true = .ok (M.C.map (compatRow M cv cs)) := by
  unfold Cpm.isCompatibleM
  rw [pyAssert_true (by simp [h2, h3]), ok_bind, h2]
  obtain ⟨a, cs', hcs⟩ := List.exists_cons_of_ne_nil hne
  subst hcs
  simp only [ismemberOn]
  rw [h1, condn_self, ok_bind, condn_other _ _ _ he.len, ok_bind]
  have hcl := checkList_eq M.getNames cv (a :: cs') he.len
  unfold Cpm.getNames at hcl
  rw [hcl]
  generalize hcsdef : a :: cs' = cs at *
  have key : ∀ (L : List ((Variable K × ℕ) × ℕ)) (f : List ℕ → Bool),
      (∀ t ∈ L, t ∈ checkList (M.vars.map Variable.name) cv cs) →
      L.foldlM (fun mask vsi => do
        let B ← compatTable M.C vsi.1.1 vsi.2 true
        let mask' ← compatStep M.C mask B vsi.1.2 vsi.2
        if mask.any id ∧ ∃ T ∈ B, T.length ≤ vsi.1.2 then .error .index else .ok mask')
        (M.C.map f) =
        (.ok (M.C.map fun r => f r && L.all fun t => rowTest t r) : Except Err (List Bool)) := by
    intro L
    induction L with
    | nil => intro f _; simp [pure_ok]
    | cons t L ih =>
      intro f ht
      obtain ⟨f1, f2, f3, f4, f5, f6⟩ := checkList_facts h he (ht t (by simp))
      have htab : compatTable M.C t.1.1 t.2 true = .ok (some (genB t.1.1.values.length)) := by
        unfold compatTable; rw [if_pos rfl, f2]
      rw [List.foldlM_cons, htab, ok_bind, compatStep_ok]
      · rw [ok_bind, if_neg (by simp; omega), ok_bind, ih _ (fun t' ht' => ht t' (by simp [ht']))]
        congr 1
        refine List.map_congr_left fun r _ => ?_
        rw [List.all_cons, ← Bool.and_assoc]
        simp [rowTest, stateSet, f2]
      · exact f3
      · intro r hr
        obtain ⟨g1, g2, -⟩ := f6 r hr
        exact ⟨g1, by simpa [g1] using g2⟩
  have hrep : List.replicate M.C.length true = M.C.map fun _ => true := by simp
  rw [hrep, key _ _ (fun t ht => ht)]
  simp only [Bool.true_and]
  rfl

theorem isCompatibleM_append {M : Cpm K} (h : WF U M) {cv : List (Variable K)} {cs : List ℕ}
    (he : EvidenceOK U M.getNames cv cs) (hne : cs ≠ []) (v : Variable K)
    (s : ℕ) {i : ℕ} (hi : M.getNames.idxOf? v.name = some i) (hB : v.B = none) :
    M.isCompatibleM { vars := cv ++ [v], noChild := (cv ++ [v]).length, C := [cs ++ [s]], p := [0] } true =
      if (M.C.map (compatRow M cv cs)).any id then .error .attribute
      else .ok (M.C.map (compatRow M cv cs)) := by
  have h1 := isCompatibleM_ok h he hne
    (one := { vars := cv, noChild := cv.length, C := [cs], p := [0] }) rfl rfl rfl
  obtain ⟨a, cs', hcs⟩ := List.exists_cons_of_ne_nil hne
  subst hcs
  unfold Cpm.isCompatibleM at h1 ⊢
  rw [pyAssert_true (by simp), ok_bind] at h1 ⊢
  simp only [ismemberOn, List.cons_append] at h1 ⊢
  rw [condn_self, ok_bind, condn_other _ _ _ he.len, ok_bind] at h1
  have hlen : (a :: (cs' ++ [s])).length = (cv ++ [v]).length := by
    have := he.len; simp at this ⊢; omega
  rw [condn_self, ok_bind, condn_other _ _ _ hlen, ok_bind]
  have hcl := checkList_eq M.getNames cv (a :: cs') he.len
  have hcl' := checkList_eq M.getNames (cv ++ [v]) (a :: (cs' ++ [s])) hlen
  have happ : checkList M.getNames (cv ++ [v]) (a :: (cs' ++ [s])) =
      checkList M.getNames cv (a :: cs') ++ [((v, s), i)] := by
    unfold checkList
    rw [show a :: (cs' ++ [s]) = (a :: cs') ++ [s] from rfl, List.zip_append he.len.symm,
      List.filterMap_append]
    congr 1
    simp [hi]
  rw [happ] at hcl'
  unfold Cpm.getNames at hcl hcl'
  rw [hcl] at h1
  rw [hcl', List.foldlM_append]
  rw [h1, ok_bind, List.foldlM_cons]
  simp only [compatTable, if_true, hB, compatStep]
  split
  · rfl
  · simp [ok_bind, pure_ok]

theorem getProb_ok (h : WF U M) (hq : QueryOK U M.getNames cv cs) (flag : Bool) :
    M.getProb cv cs flag =
      .ok (maskRows (M.C.map fun r => if flag then compatRow M cv cs r
        else !compatRow M cv cs r) M.p).sum := by
  have hcs : cs ≠ [] := by
    intro e; have := hq.ev.len; rw [e] at this
    exact hq.ne (List.length_eq_zero_iff.1 this.symm)
  unfold Cpm.getProb
  rw [pyAssert_true hq.ev.len.symm, ok_bind]
  have hmk : Cpm.mk' ({ vars := cv, noChild := cv.length, C := [cs], p := [0] } : Cpm K) =
      .ok { vars := cv, noChild := cv.length, C := [cs], p := [0] } := by
    refine mk'_ok ?_ ?_ le_rfl (.inr rfl) rfl
    · intro r hr; simp at hr; subst hr; exact hq.ev.len
    · intro r hr; simp at hr; subst hr; exact hq.all
  rw [hmk, ok_bind, isCompatibleM_ok h hq.ev hcs rfl rfl rfl, ok_bind, getSubset_where h, ok_bind]
  rfl

theorem entryOf_lt (h : WF U M) {r : List ℕ} (hr : r ∈ M.C) {v : Variable K} (hv : v ∈ M.vars) :
    (stateSet v (val M.getNames r v.name)).Nonempty := by
  have := mem_genB_stateSet (h.table v hv) (h.entry_lt hr hv)
  exact (mem_genB.1 this).1

/-- The compatibility test is about assignments: a row passes iff it covers some assignment
consistent with the evidence (evidence names not repeated). -/
theorem compatRow_iff (h : WF U M) (he : EvidenceOK U M.getNames cv cs)
    (hn : (cv.map Variable.name).Nodup) {r : List ℕ} (hr : r ∈ M.C) :
    compatRow M cv cs r = true ↔
      ∃ x, Consistent M.getNames cv cs x ∧ RowMatches M.vars r x := by
  unfold compatRow
  rw [List.all_eq_true]
  constructor
  · intro hc
    have hsets := fun v (hv : v ∈ M.vars) => condRow_stateSet h he hn hr hc hv
    have hne : ∀ v ∈ M.vars,
        (stateSet v (val M.getNames (condRow (checkList M.getNames cv cs) r) v.name)).Nonempty := by
      intro v hv
      exact (mem_genB.1 (mem_genB_stateSet (h.table v hv) (hsets v hv).1)).1
    classical
    let x : K → ℕ := fun k => if hk : k ∈ M.getNames then (hne (U k) (h.mem_of_name hk)).choose else 0
    have hx : ∀ v ∈ M.vars, x v.name ∈
        stateSet v (val M.getNames (condRow (checkList M.getNames cv cs) r) v.name) := by
      intro v hv
      have hk : v.name ∈ M.getNames := List.mem_map_of_mem hv
      have hu := h.env v hv
      simp only [x, dif_pos hk]
      have := (hne (U v.name) (h.mem_of_name hk)).choose_spec
      generalize (hne (U v.name) (h.mem_of_name hk)).choose = i at this
      rw [hu] at this
      exact this
    refine ⟨x, ?_⟩
    rw [← condRow_matches h he hn x r hr]
    refine ⟨hc, ?_⟩
    rw [rowMatches_iff h.nodup (by rw [condRow_length, h.rowLen r hr])]
    exact hx
  · rintro ⟨x, hx⟩
    exact ((condRow_matches h he hn x r hr).2 hx).1

theorem maskRows_sum_compl (C : List (List ℕ)) (p : List ℚ) (f : List ℕ → Bool)
    (hl : p.length = C.length) :
    (maskRows (C.map f) p).sum + (maskRows (C.map fun r => !f r) p).sum = p.sum := by
  rw [maskRows_map, maskRows_map]
  induction C generalizing p with
  | nil =>
    have : p = [] := List.length_eq_zero_iff.1 (by simpa using hl)
    simp [this]
  | cons c C ih =>
    cases p with
    | nil => simp at hl
    | cons q p =>
      have := ih p (by simpa using hl)
      simp only [List.zip_cons_cons, List.filter_cons]
      cases hf : f c <;> simp <;> linarith

end
end BNS
