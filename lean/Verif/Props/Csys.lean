import Verif.Proofs.Csys
import Verif.Props.BrcRun

/-!
# Property C32: the event matrix of the branches
-/

namespace BNS

set_option linter.unusedSectionVars false

section
variable {K : Type} [DecidableEq K]

/-- `get_csys` on a non-empty list of branches, the tables of the components holding the basic
states first (complete tables do) and the label map knowing the labels that occur: it succeeds, with
one row per branch.  Row `i` starts with the mapped label of branch `i`; its other columns, read
with the *returned* tables, match a component vector exactly when the vector lies in the box of
branch `i`.  The tables are only extended.  Missing for the full claim: tables that are not
stored (see `C32_not_stored_raises`). -/
theorem C32_rows_partial (vs : List (K × ℕ)) (brs : List (Branch K)) (varis : K → Option (Variable K))
    (lbl : St → Option ℕ) (ht : TablesOK vs varis) (hne : brs ≠ []) (hb : ∀ b ∈ brs, BoxOK vs b)
    (hl : ∀ b ∈ brs, lbl b.label ≠ none) :
    ∃ C varis', getCsys (vs.map Prod.fst) brs varis lbl = .ok (C, varis') ∧
      C.length = brs.length ∧ TablesExtend varis varis' ∧ TablesOK vs varis' ∧
      ∀ (i : ℕ) (b : Branch K), brs[i]? = some b → ∃ s cs, C[i]? = some (s :: cs) ∧
        cs.length = vs.length ∧ lbl b.label = some s ∧
        ∀ x, RowMatches (compVars vs varis') cs x ↔ InBox vs b x := by
  obtain ⟨C, varis', e1, e2, e3⟩ := getCsysLoop_ok vs lbl brs varis ht hb hl
  refine ⟨C, varis', ?_, e3.length_eq.symm, e2, ht.extend e2, fun i b hi => ?_⟩
  · unfold getCsys
    rw [if_neg hne, e1]
  · obtain ⟨hlt, rfl⟩ := List.getElem?_eq_some_iff.1 hi
    have hlt' : i < C.length := by rw [← e3.length_eq]; exact hlt
    obtain ⟨s, cs, h1, h2, h3⟩ := (List.forall₂_iff_get.1 e3).2 i hlt hlt'
    refine ⟨s, cs, ?_, h3.length_eq.symm, h1, rowMatches_of_cols h3⟩
    rw [List.getElem?_eq_getElem hlt']
    exact congrArg some h2

/-- With complete tables the variables are returned unchanged. -/
theorem C32_complete_unchanged (vs : List (K × ℕ)) (brs : List (Branch K))
    (varis : K → Option (Variable K)) (lbl : St → Option ℕ)
    (ht : ∀ kn ∈ vs, ∃ v, varis kn.1 = some v ∧ v.B = some (genB kn.2))
    (hb : ∀ b ∈ brs, BoxOK vs b) {C : List (List ℕ)} {varis' : K → Option (Variable K)}
    (h : getCsys (vs.map Prod.fst) brs varis lbl = .ok (C, varis')) : varis' = varis := by
  unfold getCsys at h
  by_cases hne : brs = []
  · rw [if_pos hne] at h; cases h
  · rw [if_neg hne] at h
    exact getCsysLoop_same vs lbl brs varis ht hb h

/-- Applied to the branches a run returns: every component vector matches exactly one row, and the
label of that row, if it maps back to survival or failure, is the state of the system there. -/
theorem C32_of_run {Φ : (K → ℕ) → Bool} {c : RunCfg K} (hc : CfgOK c Φ) (h0 : 0 < c.maxSf)
    {rules : Rules K} {brs0 : Option (List (Branch K))} (hs : StartOK c Φ rules brs0)
    {st : RunState K} (h : run c rules brs0 = .ok st) (varis : K → Option (Variable K))
    (ht : TablesOK c.vs varis) (lbl : St → Option ℕ) (hl : ∀ l, lbl l ≠ none) :
    ∃ bs C varis', st.brs = some bs ∧
      getCsys (c.vs.map Prod.fst) bs varis lbl = .ok (C, varis') ∧ C.length = bs.length ∧
      ∀ x, InSpace c.vs x → ∃ (i : ℕ) (b : Branch K) (s : ℕ) (cs : List ℕ), bs[i]? = some b ∧ C[i]? = some (s :: cs) ∧
        lbl b.label = some s ∧ RowMatches (compVars c.vs varis') cs x ∧
        (∀ (j s' : ℕ) (cs' : List ℕ), C[j]? = some (s' :: cs') → RowMatches (compVars c.vs varis') cs' x → j = i) ∧
        (b.label = .s → Φ x = true) ∧ (b.label = .f → Φ x = false) := by
  obtain ⟨-, -, -, hrun⟩ := C27_bounds hc hs h
  obtain ⟨bs, row, hb, hpart, hex, -⟩ := hrun h0
  have hne : bs ≠ [] := by
    rintro rfl
    have := hpart.2 (fun _ => 0) (fun kn hkn => hc.vs.pos kn hkn)
    simp at this
  obtain ⟨C, varis', e1, e2, -, -, e5⟩ := C32_rows_partial c.vs bs varis lbl ht hne hpart.1 fun b _ => hl _
  refine ⟨bs, C, varis', hb, e1, e2, fun x hx => ?_⟩
  have h1 := hpart.2 x hx
  obtain ⟨i, b, hib, hin, huniq⟩ : ∃ (i : ℕ) (b : Branch K), bs[i]? = some b ∧ InBox c.vs b x ∧
      ∀ (j : ℕ) (b' : Branch K), bs[j]? = some b' → InBox c.vs b' x → j = i := by
    clear e1 e2 e5 hex hb hrun hne
    have hp : bs.countP (fun b => decide (InBox c.vs b x)) = 1 := h1
    clear hpart h1
    induction bs with
    | nil => simp at hp
    | cons a l ih =>
      by_cases ha : InBox c.vs a x
      · rw [List.countP_cons_of_pos (by simpa using ha)] at hp
        refine ⟨0, a, rfl, ha, fun j b' hj hb' => ?_⟩
        cases j with
        | zero => rfl
        | succ j =>
          have := List.countP_eq_zero.1 (by omega : l.countP (fun b => decide (InBox c.vs b x)) = 0)
            b' (List.mem_of_getElem? hj)
          simp [hb'] at this
      · rw [List.countP_cons_of_neg (by simpa using ha)] at hp
        obtain ⟨i, b, h1, h2, h3⟩ := ih hp
        refine ⟨i + 1, b, h1, h2, fun j b' hj hb' => ?_⟩
        cases j with
        | zero => cases hj; exact absurd hb' ha
        | succ j => rw [h3 j b' hj hb']
  obtain ⟨s, cs, f1, -, f3, f4⟩ := e5 i b hib
  have hlab := (hex b (List.mem_of_getElem? hib)).2
  refine ⟨i, b, s, cs, hib, f1, f3, (f4 x).2 hin, fun j s' cs' hj hm => ?_, fun hbl => ?_,
    fun hbl => ?_⟩
  · have hlt : j < bs.length := by rw [← e2]; exact (List.getElem?_eq_some_iff.1 hj).1
    obtain ⟨s2, cs2, g1, -, -, g4⟩ := e5 j bs[j] (List.getElem?_eq_getElem hlt)
    rw [hj] at g1
    cases g1
    exact huniq j _ (List.getElem?_eq_getElem hlt) ((g4 x).1 hm)
  · unfold Branch.label at hbl
    split at hbl
    · exact hc.coh b.down x (fun kn hkn => (hin kn hkn).1) (hlab.1.1 hbl)
    · cases hbl
  · unfold Branch.label at hbl
    split at hbl
    · rename_i heq
      cases hx' : Φ x with
      | false => rfl
      | true =>
        have := hc.coh x b.up (fun kn hkn => (hin kn hkn).2) hx'
        rw [hlab.2.2 (heq ▸ hbl)] at this
        cases this
    · cases hbl

/-- No branches: `IndexError`. -/
theorem C32_no_branches (names : List K) (varis : K → Option (Variable K)) (lbl : St → Option ℕ) :
    getCsys names [] varis lbl = .error .index := rfl

/-- A label the map does not know: `KeyError`. -/
theorem C32_unknown_label (names : List K) (b : Branch K) (brs : List (Branch K))
    (varis : K → Option (Variable K)) (lbl : St → Option ℕ) (h : lbl b.label = none) :
    getCsys names (b :: brs) varis lbl = .error .key := by
  have hd : dictGet lbl (if b.downState = b.upState then b.downState else .u) = .error .key := by
    have : lbl (if b.downState = b.upState then b.downState else .u) = none := h
    unfold dictGet
    rw [this]
  unfold getCsys
  rw [if_neg (by simp)]
  unfold getCsysLoop Branch.getC
  rw [hd]
  rfl

/-- Defect: a component whose table is not stored (more than six values, or `B_flag='fly'`) and
which a branch leaves open raises `TypeError`. -/
theorem C32_not_stored_raises (k : K) (names : List K) (b : Branch K) (brs : List (Branch K))
    (varis : K → Option (Variable K)) (lbl : St → Option ℕ) (hl : lbl b.label ≠ none)
    (v : Variable K) (hv : varis k = some v) (hB : v.B = none) (hlt : b.down k < b.up k) :
    getCsys (k :: names) (b :: brs) varis lbl = .error .type := by
  obtain ⟨s, hs⟩ := Option.ne_none_iff_exists'.1 hl
  have hd : dictGet lbl (if b.downState = b.upState then b.downState else .u) = .ok s := by
    have : lbl (if b.downState = b.upState then b.downState else .u) = some s := hs
    unfold dictGet
    rw [this]
  have hk : dictGet varis k = .ok v := by unfold dictGet; rw [hv]
  unfold getCsys
  rw [if_neg (by simp)]
  unfold getCsysLoop Branch.getC
  rw [hd, ok_bind]
  unfold getCLoop
  rw [if_pos hlt, hk, ok_bind, C05_not_stored_raises v hB]
  rfl

end

/-- An example: three components with 2, 3 and 2 states, one table incomplete. -/
def Ex.csVaris : ℕ → Option (Variable ℕ)
  | 0 => some (Variable.mk' 0 [0, 1] .dflt)
  | 1 => some { name := 1, values := [0, 1, 2], B := some [{0}, {1}, {2}] }
  | 2 => some (Variable.mk' 2 [0, 1] .store)
  | _ => none

def Ex.csBrs : List (Branch ℕ) :=
  [{ down := fun _ => 0, up := fun k => if k = 1 then 1 else if k = 2 then 1 else 0,
     downState := .f, upState := .f, p := 0 },
   { down := fun k => if k = 0 then 1 else 0, up := fun k => if k = 1 then 2 else 1,
     downState := .u, upState := .s, p := 0 },
   { down := fun k => if k = 1 then 2 else 0, up := fun k => if k = 1 then 2 else if k = 2 then 1 else 0,
     downState := .s, upState := .s, p := 0 }]

def Ex.lbl : St → Option ℕ
  | .f => some 0
  | .s => some 1
  | .u => some 2

example : TablesOK [(0, 2), (1, 3), (2, 2)] Ex.csVaris ∧
    (∀ b ∈ Ex.csBrs, BoxOK [(0, 2), (1, 3), (2, 2)] b) ∧
    (getCsys [0, 1, 2] Ex.csBrs Ex.csVaris Ex.lbl).toOption.map
      (fun r => (r.1, (r.2 1).map Variable.B)) =
      some ([[0, 0, 3, 2], [2, 1, 4, 2], [1, 0, 2, 2]],
        some (some [{0}, {1}, {2}, {0, 1}, {0, 1, 2}])) := by
  refine ⟨?_, by decide +kernel, by decide +kernel⟩
  intro kn hkn
  simp only [List.mem_cons, List.not_mem_nil, or_false] at hkn
  rcases hkn with rfl | rfl | rfl
  · exact ⟨_, _, rfl, rfl, rfl, by decide +kernel⟩
  · exact ⟨_, _, rfl, rfl, rfl, by decide +kernel⟩
  · exact ⟨_, _, rfl, rfl, rfl, by decide +kernel⟩

end BNS
