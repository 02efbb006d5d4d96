import Verif.Proofs.Monad
import Verif.Spec.Cpm
import Mathlib.Data.List.Forall2
import Mathlib.Tactic.Ring
import Mathlib.Algebra.BigOperators.Group.List.Lemmas
import Mathlib.Algebra.BigOperators.Ring.List

/-! Helper lemmas on rows, scopes and masks. -/

namespace BNS

open List

set_option linter.unusedSectionVars false
set_option linter.unnecessarySimpa false

section
variable {K : Type} [DecidableEq K]

/-- Value of variable `k` in a row. -/
def val (names : List K) (row : List ℕ) (k : K) : ℕ := row.getD (names.idxOf k) 0

theorem val_cons (n : K) (ns : List K) (c : ℕ) (cs : List ℕ) (k : K) :
    val (n :: ns) (c :: cs) k = if n = k then c else val ns cs k := by
  unfold val
  by_cases h : n = k
  · subst h; simp
  · rw [List.idxOf_cons_ne _ h]; simp [h]

theorem val_append (ns ms : List K) (r t : List ℕ) (hl : r.length = ns.length) (k : K) :
    val (ns ++ ms) (r ++ t) k = if k ∈ ns then val ns r k else val ms t k := by
  induction ns generalizing r with
  | nil =>
    have : r = [] := List.length_eq_zero_iff.1 (by simpa using hl)
    simp [this]
  | cons n ns ih =>
    cases r with
    | nil => simp at hl
    | cons c r =>
      simp only [List.cons_append, val_cons]
      by_cases h : n = k
      · simp [h]
      · have h' : ¬ k = n := fun e => h e.symm
        simp only [h, if_false, List.mem_cons, h', false_or]
        exact ih r (by simpa using hl)

theorem getD_eq_val {ns : List K} (hn : ns.Nodup) (r : List ℕ) {j : ℕ} (hj : j < ns.length) :
    val ns r ns[j] = r.getD j 0 := by
  unfold val; rw [hn.idxOf_getElem]

theorem zip_forall_iff {vs : List (Variable K)} (hn : (vs.map Variable.name).Nodup)
    {row : List ℕ} (hl : row.length = vs.length) (P : Variable K → ℕ → Prop) :
    (∀ p ∈ vs.zip row, P p.1 p.2) ↔
      ∀ v ∈ vs, P v (val (vs.map Variable.name) row v.name) := by
  induction vs generalizing row with
  | nil => simp
  | cons v vs ih =>
    cases row with
    | nil => simp at hl
    | cons c row =>
      rw [List.map_cons, List.nodup_cons] at hn
      simp only [List.zip_cons_cons, List.forall_mem_cons, List.map_cons, val_cons, if_true]
      rw [ih hn.2 (by simpa using hl)]
      refine and_congr_right fun _ => forall₂_congr fun w hw => ?_
      rw [if_neg]
      intro e
      exact hn.1 (e ▸ List.mem_map_of_mem hw)

/-- Row coverage in terms of named values. -/
theorem rowMatches_iff {vs : List (Variable K)} (hn : (vs.map Variable.name).Nodup)
    {row : List ℕ} (hl : row.length = vs.length) (x : K → ℕ) :
    RowMatches vs row x ↔
      ∀ v ∈ vs, x v.name ∈ stateSet v (val (vs.map Variable.name) row v.name) :=
  zip_forall_iff hn hl fun v s => x v.name ∈ stateSet v s

/-! ### `checkC` and `Cpm.mk'` -/

theorem checkC_ok {vs : List (Variable K)} {C : List (List ℕ)}
    (hl : ∀ r ∈ C, r.length = vs.length)
    (he : ∀ r ∈ C, ∀ p ∈ vs.zip r, p.2 + 1 < 2 ^ p.1.values.length) : checkC vs C = .ok () := by
  unfold checkC
  split
  · rfl
  · have h1 : C.Pairwise (fun a b => a.length = b.length) := by
      rw [List.pairwise_iff_getElem]
      intro i j hi hj _
      rw [hl _ (List.getElem_mem hi), hl _ (List.getElem_mem hj)]
    rw [if_neg (not_not.2 h1), if_pos]
    simp only [Bool.and_eq_true, List.all_eq_true, decide_eq_true_eq]
    refine ⟨hl, fun r hr p hp => ?_⟩
    have := he r hr p hp
    omega

theorem mk'_ok {M : Cpm K} (hl : ∀ r ∈ M.C, r.length = M.vars.length)
    (he : ∀ r ∈ M.C, ∀ p ∈ M.vars.zip r, p.2 + 1 < 2 ^ p.1.values.length)
    (hc : M.noChild ≤ M.vars.length) (hp : M.p = [] ∨ M.p.length = M.C.length)
    (hCs : M.Cs = []) : Cpm.mk' M = .ok M := by
  unfold Cpm.mk'
  rw [pyAssert_true hc, ok_bind, checkC_ok hl he, ok_bind, pyAssert_true hp, ok_bind]
  have h0 : checkCs M.vars M.Cs = .ok () := by simp [checkCs, hCs]
  rw [h0, ok_bind, pyAssert_true (by simp [hCs]), ok_bind, pyAssert_true (by simp [hCs]), ok_bind,
    pyAssert_true (by simp [hCs]), ok_bind]
  rfl

/-! ### masks -/

theorem maskRows_map {α β : Type} (f : α → Bool) (C : List α) (X : List β) :
    maskRows (C.map f) X = ((C.zip X).filter fun cx => f cx.1).map Prod.snd := by
  unfold maskRows
  induction C generalizing X with
  | nil => simp
  | cons c C ih =>
    cases X with
    | nil => simp
    | cons y X =>
      simp only [List.map_cons, List.zip_cons_cons, List.filterMap_cons, List.filter_cons]
      by_cases h : f c <;> simp [h, ih]

theorem maskRows_self {α : Type} (f : α → Bool) (C : List α) :
    maskRows (C.map f) C = C.filter f := by
  unfold maskRows
  induction C with
  | nil => simp
  | cons c C ih =>
    simp only [List.map_cons, List.zip_cons_cons, List.filterMap_cons, List.filter_cons]
    by_cases h : f c <;> simp [h, ih]

theorem zip_filter_map {α β γ : Type} (f : α → Bool) (g : α → γ) (C : List α) (X : List β)
    (hl : X.length = C.length) :
    ((C.filter f).map g).zip (maskRows (C.map f) X) =
      ((C.zip X).filter fun cx => f cx.1).map fun cx => (g cx.1, cx.2) := by
  rw [maskRows_map]
  induction C generalizing X with
  | nil => simp
  | cons c C ih =>
    cases X with
    | nil => simp at hl
    | cons y X =>
      have := ih X (by simpa using hl)
      simp only [List.zip_cons_cons, List.filter_cons]
      by_cases h : f c <;> simp [h, this]

theorem length_maskRows {α β : Type} (f : α → Bool) (C : List α) (X : List β)
    (hl : X.length = C.length) : (maskRows (C.map f) X).length = (C.filter f).length := by
  induction C generalizing X with
  | nil => simp [maskRows]
  | cons c C ih =>
    cases X with
    | nil => simp at hl
    | cons y X =>
      have := ih X (by simpa using hl)
      unfold maskRows at this ⊢
      simp only [List.map_cons, List.zip_cons_cons, List.filterMap_cons, List.filter_cons]
      by_cases h : f c <;> simp [h, this]

/-! ### `get_value_given_condn` after `ismember` -/

theorem condn_self {α β : Type} (f : α → Option β) (A : List α) :
    getValueGivenCondn A (A.map f) = .ok (A.filter fun a => (f a).isSome) := by
  unfold getValueGivenCondn
  rw [if_pos (by simp)]
  congr 1
  induction A with
  | nil => simp
  | cons a A ih =>
    simp only [List.map_cons, List.zip_cons_cons, List.filterMap_cons, List.filter_cons]
    cases h : f a <;> simp [ih]

theorem condn_other {α β γ : Type} (f : α → Option β) (A : List α) (S : List γ)
    (hl : S.length = A.length) :
    getValueGivenCondn S (A.map f) =
      .ok (((A.zip S).filter fun as => (f as.1).isSome).map Prod.snd) := by
  unfold getValueGivenCondn
  rw [if_pos (by simpa using hl)]
  congr 1
  induction A generalizing S with
  | nil => simp
  | cons a A ih =>
    cases S with
    | nil => simp at hl
    | cons s S =>
      simp only [List.map_cons, List.zip_cons_cons, List.filterMap_cons, List.filter_cons]
      have := ih S (by simpa using hl)
      cases h : f a <;> simp [this]

/-- The list of `((variable, state), column)` the compatibility loops run over. -/
def checkList (names : List K) (cv : List (Variable K)) (cs : List ℕ) :
    List ((Variable K × ℕ) × ℕ) :=
  (cv.zip cs).filterMap fun vs => (names.idxOf? vs.1.name).map fun i => (vs, i)

theorem checkList_eq (names : List K) (cv : List (Variable K)) (cs : List ℕ)
    (hl : cs.length = cv.length) :
    ((cv.filter fun a => (names.idxOf? a.name).isSome).zip
      (((cv.zip cs).filter fun as => (names.idxOf? as.1.name).isSome).map Prod.snd)).zip
      ((cv.map fun a => names.idxOf? a.name).filterMap id) = checkList names cv cs := by
  unfold checkList
  induction cv generalizing cs with
  | nil => simp
  | cons v cv ih =>
    cases cs with
    | nil => simp at hl
    | cons c cs =>
      have := ih cs (by simpa using hl)
      simp only [List.map_cons, List.zip_cons_cons, List.filterMap_cons, List.filter_cons, id]
      cases h : names.idxOf? v.name with
      | none => simpa using this
      | some i => simpa using this

theorem idxOf?_eq (names : List K) (k : K) :
    names.idxOf? k = if k ∈ names then some (names.idxOf k) else none := by
  have h := pyIndex_eq names k
  unfold pyIndex at h
  by_cases hk : k ∈ names
  · rw [if_pos hk] at h ⊢
    split at h
    · injection h with h; subst h; assumption
    · cases h
  · simpa [hk] using hk

theorem mem_checkList {names : List K} {cv : List (Variable K)} {cs : List ℕ}
    {t : (Variable K × ℕ) × ℕ} :
    t ∈ checkList names cv cs ↔
      t.1 ∈ cv.zip cs ∧ t.1.1.name ∈ names ∧ t.2 = names.idxOf t.1.1.name := by
  unfold checkList
  rw [List.mem_filterMap]
  constructor
  · rintro ⟨vs, h1, h2⟩
    rw [idxOf?_eq] at h2
    split at h2
    · simp at h2; subst h2; exact ⟨h1, by assumption, rfl⟩
    · simp at h2
  · rintro ⟨h1, h2, h3⟩
    refine ⟨t.1, h1, ?_⟩
    rw [idxOf?_eq, if_pos h2]; simp [← h3]

/-! ### the compatibility loop -/

/-- The test performed for one checked variable on one row. -/
def rowTest (t : (Variable K × ℕ) × ℕ) (r : List ℕ) : Bool :=
  decide ((stateSet t.1.1 t.1.2 ∩ stateSet t.1.1 (r.getD t.2 0)).Nonempty)

theorem compatStep_ok (C : List (List ℕ)) (f : List ℕ → Bool) (B : List (Finset ℕ))
    (state col : ℕ) (hs : state < B.length)
    (hC : ∀ r ∈ C, ∃ h : col < r.length, r[col] < B.length) :
    compatStep C (C.map f) (some B) state col =
      .ok (C.map fun r => f r && decide ((B.getD state ∅ ∩ B.getD (r.getD col 0) ∅).Nonempty)) := by
  unfold compatStep
  simp only
  have h1 : ((C.map f).zip C).mapM (fun mr : Bool × List ℕ =>
      if mr.1 = true then (do
        let k ← pyGet mr.2 col
        let x ← pyGet B k
        return some x)
      else (return none : Except Err (Option (Finset ℕ)))) =
      .ok (((C.map f).zip C).map fun mr => if mr.1 = true then
        some (B.getD (mr.2.getD col 0) ∅) else none) := by
    apply mapM_ok
    intro mr hmr
    obtain ⟨h2, h3⟩ := hC mr.2 (List.of_mem_zip hmr).2
    split
    · rw [pyGet_lt h2 0, ok_bind, pyGet_lt (d := ∅), ok_bind]
      · rfl
      · simpa [h2] using h3
    · rfl
  rw [h1, ok_bind, List.getElem?_eq_getElem hs]
  simp only [pure_ok]
  congr 1
  have h4 : (C.map f).zip C = C.map fun r => (f r, r) := by
    clear h1 hC
    induction C with
    | nil => rfl
    | cons c C ih => simp [ih]
  rw [h4, List.map_map, List.map_map]
  refine List.map_congr_left fun r _ => ?_
  simp only [Function.comp]
  by_cases h : f r <;> simp [h, hs]

theorem getElem_idxOf_name {vs : List (Variable K)} {k : K}
    (hk : k ∈ vs.map Variable.name) :
    ∃ h : (vs.map Variable.name).idxOf k < vs.length, (vs[(vs.map Variable.name).idxOf k]).name = k := by
  have h1 : (vs.map Variable.name).idxOf k < vs.length := by
    simpa using List.idxOf_lt_length_iff.2 hk
  refine ⟨h1, ?_⟩
  have h2 : (vs.map Variable.name)[(vs.map Variable.name).idxOf k]'(by simpa using h1) = k := by
    simp
  rw [List.getElem_map] at h2
  exact h2

theorem WF.entry_lt {U : K → Variable K} {M : Cpm K} (h : WF U M) {r : List ℕ} (hr : r ∈ M.C)
    {v : Variable K} (hv : v ∈ M.vars) :
    val M.getNames r v.name < (genB v.values.length).length := by
  rw [length_genB]
  have := (zip_forall_iff h.nodup (h.rowLen r hr)
    (fun v s => s + 1 < 2 ^ v.values.length)).1 (h.entry r hr) v hv
  unfold Cpm.getNames
  omega

theorem WF.mem_of_name {U : K → Variable K} {M : Cpm K} (h : WF U M) {k : K}
    (hk : k ∈ M.getNames) : U k ∈ M.vars := by
  obtain ⟨v, hv, rfl⟩ := List.mem_map.1 hk
  rw [h.env v hv]; exact hv

theorem isCompatible_ok {U : K → Variable K} {M : Cpm K} (h : WF U M) {cv : List (Variable K)}
    {cs : List ℕ} (he : EvidenceOK U M.getNames cv cs) :
    isCompatible M.C M.vars cv cs =
      .ok (M.C.map fun r => (checkList M.getNames cv cs).all fun t => rowTest t r) := by
  unfold isCompatible
  simp only [ismemberOn]
  rw [condn_self, ok_bind, condn_other _ _ _ he.len, ok_bind]
  have hcl := checkList_eq M.getNames cv cs he.len
  unfold Cpm.getNames at hcl ⊢
  rw [hcl]
  have key : ∀ (L : List ((Variable K × ℕ) × ℕ)) (f : List ℕ → Bool),
      (∀ t ∈ L, t ∈ checkList (M.vars.map Variable.name) cv cs) →
      L.foldlM (fun mask vsi => compatStep M.C mask vsi.1.1.B vsi.1.2 vsi.2) (M.C.map f) =
        .ok (M.C.map fun r => f r && L.all fun t => rowTest t r) := by
    intro L
    induction L with
    | nil => intro f _; simp [pure_ok]
    | cons t L ih =>
      intro f ht
      have h1 := mem_checkList.1 (ht t (by simp))
      have hu := he.env t.1 h1.1 h1.2.1
      have hs := he.state t.1 h1.1 h1.2.1
      have hm : t.1.1 ∈ M.vars := hu ▸ h.mem_of_name h1.2.1
      have hB := h.table _ hm
      rw [List.foldlM_cons, hB, compatStep_ok]
      · rw [ok_bind, ih _ (fun t' ht' => ht t' (by simp [ht']))]
        congr 1
        refine List.map_congr_left fun r _ => ?_
        rw [List.all_cons, ← Bool.and_assoc]
        simp [rowTest, stateSet, hB]
      · rw [length_genB]; omega
      · intro r hr
        have h3 := h.entry_lt hr hm
        obtain ⟨h4, _⟩ := getElem_idxOf_name h1.2.1
        have h5 : t.2 < r.length := by rw [h1.2.2, h.rowLen r hr]; exact h4
        refine ⟨h5, ?_⟩
        unfold val Cpm.getNames at h3
        rw [← h1.2.2] at h3
        simpa [h5] using h3
  have hrep : List.replicate M.C.length true = M.C.map fun _ => true := by simp
  rw [hrep, key _ _ (fun t ht => ht)]
  simp

end

end BNS
