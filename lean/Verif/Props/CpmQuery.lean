import Verif.Proofs.CpmProb
import Verif.Proofs.CpmProdList
import Verif.Examples.Cpm
import Mathlib.Tactic.Linarith
import Mathlib.Tactic.Positivity
import Mathlib.Algebra.Order.Field.Basic

/-!
# Properties C11, C12, C14 and C16: queries, bounds, merge and row subsets
-/

namespace BNS

set_option linter.unusedSectionVars false

variable {K : Type} [DecidableEq K] {U : K → Variable K}

/-! ## C11 -/

open Classical in
/-- `get_prob` adds the probabilities of exactly the rows that have an assignment in common with
the queried states. -/
theorem C11_get_prob (M : Cpm K) (h : WF U M) (cv : List (Variable K)) (cs : List ℕ)
    (hq : QueryOK U M.getNames cv cs) :
    M.getProb cv cs true =
      .ok ((M.C.zip M.p).map fun cp => if Compatible M cv cs cp.1 then cp.2 else 0).sum := by
  rw [getProb_ok h hq true]
  congr 1
  simp only [if_true]
  have : (fun r => compatRow M cv cs r) = compatRow M cv cs := rfl
  rw [this, maskRows_map]
  have hmem : ∀ cp ∈ M.C.zip M.p, cp.1 ∈ M.C := fun cp hcp => (List.of_mem_zip hcp).1
  generalize M.C.zip M.p = l at hmem
  induction l with
  | nil => rfl
  | cons cp l ih =>
    have h1 := compatRow_iff h hq.ev hq.nodup (hmem cp (by simp))
    have h2 : Compatible M cv cs cp.1 ↔ compatRow M cv cs cp.1 = true := h1.symm
    rw [List.filter_cons, List.map_cons, List.sum_cons, if_congr h2 rfl rfl,
      ← ih fun c hc => hmem c (by simp [hc])]
    split <;> simp

/-- The complementary query adds the other rows: the two always total the CPM's probability. -/
theorem C11_complement (M : Cpm K) (h : WF U M) (cv : List (Variable K)) (cs : List ℕ)
    (hq : QueryOK U M.getNames cv cs) :
    ∃ a b, M.getProb cv cs true = .ok a ∧ M.getProb cv cs false = .ok b ∧ a + b = M.p.sum := by
  refine ⟨_, _, getProb_ok h hq true, getProb_ok h hq false, ?_⟩
  simp only [if_true, Bool.false_eq_true, if_false]
  exact maskRows_sum_compl M.C M.p (compatRow M cv cs) h.pLen

/-- On a CPM whose entries are basic states, `get_prob` is the probability of the event: the sum
of the probabilities of all assignments consistent with the queried states. -/
theorem C11_event_probability (M : Cpm K) (h : WF U M) (hb : AllBasic M)
    (cv : List (Variable K)) (cs : List ℕ) (hq : QueryOK U M.getNames cv cs) (x : K → ℕ) :
    M.getProb cv cs true =
      .ok (sumOver (M.vars.map fun v => (v.name, v.values.length))
        (fun y => if Consistent M.getNames cv cs y then dens M y else 0) x) := by
  classical
  rw [C11_get_prob M h cv cs hq]
  congr 1
  have hdist : ∀ y, (if Consistent M.getNames cv cs y then dens M y else 0) =
      ((M.C.zip M.p).map fun cp => if Consistent M.getNames cv cs y then
        (if RowMatches M.vars cp.1 y then cp.2 else 0) else 0).sum := by
    intro y
    by_cases hc : Consistent M.getNames cv cs y
    · simp [hc, dens]
    · simp [hc]
  rw [sumOver_congr _ x hdist, sumOver_list_sum]
  congr 1
  refine List.map_congr_left fun cp hcp => ?_
  have hr := (List.of_mem_zip hcp).1
  have hbr := (zip_forall_iff h.nodup (h.rowLen _ hr) (fun v s => s < v.values.length)).1
    (hb _ hr)
  have hset : ∀ v ∈ M.vars, ∃ i < v.values.length,
      stateSet v (val (M.vars.map Variable.name) cp.1 v.name) = {i} :=
    fun v hv => ⟨_, hbr v hv, stateSet_basic (h.table v hv) (hbr v hv)⟩
  -- every assignment covered by the row agrees on the scope, so consistency only depends on the row
  have huniq : ∀ y z, RowMatches M.vars cp.1 y → RowMatches M.vars cp.1 z →
      (Consistent M.getNames cv cs y → Consistent M.getNames cv cs z) := by
    intro y z hy hz hc p hp hpn
    rw [rowMatches_iff h.nodup (h.rowLen _ hr)] at hy hz
    obtain ⟨v, hv, hvn⟩ := List.mem_map.1 hpn
    obtain ⟨i, -, hi⟩ := hset v hv
    have e1 := hy v hv
    have e2 := hz v hv
    rw [hi, Finset.mem_singleton] at e1 e2
    have := hc p hp hpn
    rw [← hvn, e1] at this
    rw [← hvn, e2]; exact this
  have hind := sumOver_indicator cp.2 M.vars []
    (fun v => stateSet v (val (M.vars.map Variable.name) cp.1 v.name)) hset
    (by simpa using h.nodup) x
  have hterm : ∀ y, (if Consistent M.getNames cv cs y then
      (if RowMatches M.vars cp.1 y then cp.2 else 0) else 0) =
      if Compatible M cv cs cp.1 then (if RowMatches M.vars cp.1 y then cp.2 else 0) else 0 := by
    intro y
    by_cases hm : RowMatches M.vars cp.1 y
    · have : Consistent M.getNames cv cs y ↔ Compatible M cv cs cp.1 :=
        ⟨fun hc => ⟨y, hc, hm⟩, fun ⟨z, hc, hz⟩ => huniq z y hz hm hc⟩
      simp only [this]
    · simp [hm]
  rw [sumOver_congr _ x hterm]
  by_cases hc : Compatible M cv cs cp.1
  · simp only [hc, if_true]
    simp only [rowMatches_iff h.nodup (h.rowLen _ hr)]
    simp only [List.append_nil, List.not_mem_nil, false_imp_iff, implies_true, if_true] at hind
    exact hind.symm
  · simp only [hc, if_false]
    have : ∀ (vs : List (K × ℕ)) x, sumOver vs (fun _ => (0 : ℚ)) x = 0 := by
      intro vs
      induction vs with
      | nil => intro x; rfl
      | cons kn vs ih => intro x; simp [sumOver, ih]
    exact (this _ _).symm

example : QueryOK Ex.U Ex.B.getNames [Ex.U 2] [4] ∧
    Ex.B.getProb [Ex.U 2] [4] true = .ok (7/10) :=
  ⟨⟨⟨rfl, by decide +kernel, by decide +kernel⟩, by simp, by decide +kernel, by decide +kernel⟩,
    by decide +kernel⟩

/-- **A queried variable without a table** (which `Variable` makes with more than six values, and with
`B='fly'`): `get_prob` raises `AttributeError` as soon as a row agrees with the queries before it, and
otherwise ignores it. -/
theorem C11_without_table (M : Cpm K) (h : WF U M) (cv : List (Variable K)) (cs : List ℕ)
    (hq : QueryOK U M.getNames cv cs) (v : Variable K) (hv : v.name ∈ M.getNames) (hB : v.B = none)
    (s : ℕ) (hs : s + 1 < 2 ^ v.values.length) (flag : Bool) :
    ((∃ r ∈ M.C, Compatible M cv cs r) →
      M.getProb (cv ++ [v]) (cs ++ [s]) flag = .error .attribute) ∧
    ((¬ ∃ r ∈ M.C, Compatible M cv cs r) →
      M.getProb (cv ++ [v]) (cs ++ [s]) flag = M.getProb cv cs flag) := by
  have hcs : cs ≠ [] := by
    intro e; have := hq.ev.len; rw [e] at this
    exact hq.ne (List.length_eq_zero_iff.1 this.symm)
  obtain ⟨i, hi⟩ : ∃ i, M.getNames.idxOf? v.name = some i := by
    cases hh : M.getNames.idxOf? v.name with
    | none => exact absurd hv (List.idxOf?_eq_none_iff.1 hh)
    | some i => exact ⟨i, rfl⟩
  have hany : (M.C.map (compatRow M cv cs)).any id = true ↔ ∃ r ∈ M.C, Compatible M cv cs r := by
    rw [List.any_map, List.any_eq_true]
    constructor
    · rintro ⟨r, hr, h1⟩
      exact ⟨r, hr, (compatRow_iff h hq.ev hq.nodup hr).1 h1⟩
    · rintro ⟨r, hr, h1⟩
      exact ⟨r, hr, (compatRow_iff h hq.ev hq.nodup hr).2 h1⟩
  have hlen : (cs ++ [s]).length = (cv ++ [v]).length := by
    have := hq.ev.len; simp at this ⊢; omega
  have hmk : Cpm.mk' ({ vars := cv ++ [v], noChild := (cv ++ [v]).length,
                                C := [cs ++ [s]], p := [0] } : Cpm K) =
      .ok { vars := cv ++ [v], noChild := (cv ++ [v]).length, C := [cs ++ [s]], p := [0] } := by
    refine mk'_ok ?_ ?_ le_rfl (.inr rfl) rfl
    · intro r hr; simp at hr; subst hr; exact hlen
    · intro r hr; simp at hr; subst hr
      intro p hp
      rw [List.zip_append hq.ev.len.symm] at hp
      rcases List.mem_append.1 hp with hp | hp
      · exact hq.all p hp
      · simp at hp; subst hp; exact hs
  have hmk0 : Cpm.mk' ({ vars := cv, noChild := cv.length, C := [cs], p := [0] } : Cpm K) =
      .ok { vars := cv, noChild := cv.length, C := [cs], p := [0] } := by
    refine mk'_ok ?_ ?_ le_rfl (.inr rfl) rfl
    · intro r hr; simp at hr; subst hr; exact hq.ev.len
    · intro r hr; simp at hr; subst hr; exact hq.all
  have hrun := isCompatibleM_append h hq.ev hcs v s hi hB
  constructor
  · intro hex
    rw [if_pos (hany.2 hex)] at hrun
    unfold Cpm.getProb
    rw [pyAssert_true hlen.symm, ok_bind, hmk, ok_bind, hrun]
    rfl
  · intro hno
    rw [if_neg (fun hh => hno (hany.1 hh))] at hrun
    unfold Cpm.getProb
    rw [pyAssert_true hlen.symm, ok_bind, hmk, ok_bind, hrun, pyAssert_true hq.ev.len.symm, ok_bind,
      hmk0, ok_bind, ok_bind, isCompatibleM_ok h hq.ev hcs rfl rfl rfl, ok_bind]

/-- The second query, on a variable without table: two of the five rows agree with the first one. -/
example : Ex.D.getProb [Ex.U 1, { Ex.U 0 with B := none }] [0, 0] true = .error .attribute :=
  (C11_without_table (U := Ex.U) Ex.D (by decide +kernel) [Ex.U 1] [0]
    ⟨⟨rfl, by decide +kernel, by decide +kernel⟩, by decide, by decide +kernel, by decide +kernel⟩
    { Ex.U 0 with B := none } (by decide +kernel) rfl
    0 (by decide +kernel) true).1 ⟨[0, 0, 2], by decide +kernel, fun _ => 0,
      by decide +kernel, by decide +kernel⟩

/-! ## C12 -/

/-- `M` completed by further rows: the unknown part of the distribution. -/
def complete (M : Cpm K) (C' : List (List ℕ)) (p' : List ℚ) : Cpm K :=
  { M with C := M.C ++ C', p := M.p ++ p' }

theorem maskRows_nonneg (C : List (List ℕ)) (p : List ℚ) (f : List ℕ → Bool)
    (hp : ∀ q ∈ p, 0 ≤ q) : 0 ≤ (maskRows (C.map f) p).sum := by
  rw [maskRows_map]
  apply List.sum_nonneg
  intro q hq
  obtain ⟨cp, hcp, rfl⟩ := List.mem_map.1 hq
  exact hp _ (List.of_mem_zip (List.mem_filter.1 hcp).1).2

theorem maskRows_append (C C' : List (List ℕ)) (p p' : List ℚ) (f : List ℕ → Bool)
    (hl : p.length = C.length) :
    maskRows ((C ++ C').map f) (p ++ p') = maskRows (C.map f) p ++ maskRows (C'.map f) p' := by
  rw [maskRows_map, maskRows_map, maskRows_map, List.zip_append hl.symm, List.filter_append,
    List.map_append]

theorem getProb_complete (M : Cpm K) (h : WF U M) (C' : List (List ℕ)) (p' : List ℚ)
    (h' : WF U (complete M C' p')) (hp : ∀ q ∈ p', 0 ≤ q)
    (cv : List (Variable K)) (cs : List ℕ) (hq : QueryOK U M.getNames cv cs) (flag : Bool) :
    ∃ a u, M.getProb cv cs flag = .ok a ∧ (complete M C' p').getProb cv cs flag = .ok (a + u) ∧
      0 ≤ u ∧ u ≤ p'.sum := by
  have hl' : p'.length = C'.length := by
    have := h'.pLen
    simp only [complete, List.length_append, h.pLen] at this
    omega
  refine ⟨_, (maskRows (C'.map fun r => if flag then compatRow M cv cs r
        else !compatRow M cv cs r) p').sum, getProb_ok h hq flag, ?_, ?_, ?_⟩
  · rw [getProb_ok h' hq flag]
    congr 1
    have : compatRow (complete M C' p') cv cs = compatRow M cv cs := rfl
    rw [this]
    simp only [complete]
    rw [maskRows_append _ _ _ _ _ h.pLen, List.sum_append]
  · exact maskRows_nonneg _ _ _ hp
  · have h1 := maskRows_sum_compl C' p' (fun r => if flag then compatRow M cv cs r
        else !compatRow M cv cs r) hl'
    have h2 := maskRows_nonneg C' p' (fun r => !(if flag then compatRow M cv cs r
        else !compatRow M cv cs r)) hp
    linarith

/-- The interval of `get_prob_bnd` contains the true probability of the event, for every way of
completing the partly known distribution, and stays below 1. -/
theorem C12_bounds (M : Cpm K) (h : WF U M) (C' : List (List ℕ)) (p' : List ℚ)
    (h' : WF U (complete M C' p')) (hp : ∀ q ∈ M.p ++ p', 0 ≤ q) (h1 : (M.p ++ p').sum = 1)
    (cv : List (Variable K)) (cs : List ℕ) (hq : QueryOK U M.getNames cv cs) (flag : Bool) :
    ∃ lo hi t, M.getProbBnd cv cs flag none = .ok (lo, hi) ∧
      (complete M C' p').getProb cv cs flag = .ok t ∧ lo ≤ t ∧ t ≤ hi ∧ 0 ≤ lo ∧ hi ≤ 1 := by
  obtain ⟨a, u, e1, e2, e3, e4⟩ := getProb_complete M h C' p' h'
    (fun q hq => hp q (by simp [hq])) cv cs hq flag
  obtain ⟨b, w, f1, f2, f3, f4⟩ := getProb_complete M h C' p' h'
    (fun q hq => hp q (by simp [hq])) cv cs hq (!flag)
  have hsum : M.p.sum + p'.sum = 1 := by rw [← List.sum_append]; exact h1
  have ha : 0 ≤ a := by
    rw [getProb_ok h hq flag] at e1
    injection e1 with e1
    rw [← e1]
    exact maskRows_nonneg _ _ _ fun q hq => hp q (by simp [hq])
  have hle : a ≤ M.p.sum := by
    rw [getProb_ok h hq flag] at e1
    injection e1 with e1
    have g1 := maskRows_sum_compl M.C M.p (fun r => if flag then compatRow M cv cs r
        else !compatRow M cv cs r) h.pLen
    have g2 := maskRows_nonneg M.C M.p (fun r => !(if flag then compatRow M cv cs r
        else !compatRow M cv cs r)) fun q hq => hp q (by simp [hq])
    rw [← e1]; linarith
  refine ⟨a, min 1 (a + (1 - M.p.sum)), a + u, ?_, e2, by linarith, ?_, ha, min_le_left _ _⟩
  · unfold Cpm.getProbBnd
    rw [e1, ok_bind]
    rfl
  · refine le_min ?_ ?_ <;> linarith

/-- The conditional form contains the true conditional probability. -/
theorem C12_conditional_bounds (M : Cpm K) (h : WF U M) (C' : List (List ℕ)) (p' : List ℚ)
    (h' : WF U (complete M C' p')) (hp : ∀ q ∈ M.p ++ p', 0 ≤ q) (h1 : (M.p ++ p').sum = 1)
    (cv : List (Variable K)) (cs : List ℕ) (hq : QueryOK U M.getNames cv cs) (flag : Bool)
    (dv : List (Variable K)) (ds : List ℕ) (hd : QueryOK U M.getNames dv ds) (dflag : Bool)
    (hpos : ∃ b, M.getProb dv ds dflag = .ok b ∧ 0 < b)
    (hsub : ∀ s t, (complete M C' p').getProb cv cs flag = .ok s →
      (complete M C' p').getProb dv ds dflag = .ok t → s ≤ t) :
    ∃ lo hi s t, M.getProbBnd cv cs flag (some (dv, ds, dflag)) = .ok (lo, hi) ∧
      (complete M C' p').getProb cv cs flag = .ok s ∧
      (complete M C' p').getProb dv ds dflag = .ok t ∧ 0 < t ∧
      lo ≤ s / t ∧ s / t ≤ hi ∧ 0 ≤ lo ∧ hi ≤ 1 := by
  obtain ⟨a, u, e1, e2, e3, e4⟩ := getProb_complete M h C' p' h'
    (fun q hq => hp q (by simp [hq])) cv cs hq flag
  obtain ⟨b, w, f1, f2, f3, f4⟩ := getProb_complete M h C' p' h'
    (fun q hq => hp q (by simp [hq])) dv ds hd dflag
  obtain ⟨b', hb', hb0⟩ := hpos
  rw [f1] at hb'
  cases hb'
  have hsum : M.p.sum + p'.sum = 1 := by rw [← List.sum_append]; exact h1
  have hst := hsub _ _ e2 f2
  have ha : 0 ≤ a := by
    rw [getProb_ok h hq flag] at e1
    injection e1 with e1
    rw [← e1]
    exact maskRows_nonneg _ _ _ fun q hq => hp q (by simp [hq])
  have hunk : 1 - M.p.sum = p'.sum := by linarith
  have hunk0 : 0 ≤ p'.sum := by linarith
  refine ⟨a / (b + p'.sum), min 1 ((a + p'.sum) / b), a + u, b + w, ?_, e2, f2, by linarith,
    ?_, ?_, by positivity, min_le_left _ _⟩
  · unfold Cpm.getProbBnd
    rw [e1, ok_bind]
    have hdv : dv ≠ [] := hd.ne
    simp only [f1, ok_bind, hunk, hdv, if_false]
    rw [if_neg]
    · rfl
    · rintro (h | h)
      · linarith
      · linarith
  · apply div_le_div₀ <;> linarith
  · refine le_min ?_ ?_
    · rw [div_le_one (by linarith)]; exact hst
    · apply div_le_div₀ <;> linarith

/-- **C12**, an empty list of conditions is no condition. -/
theorem C12_no_condition (M : Cpm K) (cv : List (Variable K)) (cs : List ℕ) (flag : Bool) (ds : List ℕ)
    (dflag : Bool) : M.getProbBnd cv cs flag (some ([], ds, dflag)) = M.getProbBnd cv cs flag none := by
  unfold Cpm.getProbBnd
  cases M.getProb cv cs flag <;> simp

example : WF Ex.U (complete { Ex.A with C := [[0]], p := [1/10] } [[1]] [9/10]) ∧
    QueryOK Ex.U Ex.A.getNames [Ex.U 0] [1] :=
  ⟨by decide +kernel, ⟨⟨rfl, by decide +kernel, by decide +kernel⟩, by simp, by decide +kernel,
    by decide +kernel⟩⟩

/-! ## C14 -/

theorem pyIndex_mem {α : Type} [DecidableEq α] {xs : List α} {x : α} (h : x ∈ xs) :
    ∃ i, ∃ hi : i < xs.length, pyIndex xs x = .ok i ∧ xs[i] = x := by
  refine ⟨xs.idxOf x, List.idxOf_lt_length_iff.2 h, by rw [pyIndex_eq, if_pos h], ?_⟩
  exact List.getElem_idxOf _

theorem sum_set_add (C : List (List ℕ)) (p : List ℚ) (hl : p.length = C.length) (i : ℕ)
    (hi : i < p.length) (q : ℚ) (g : List ℕ → ℚ → ℚ) (hg : ∀ r a b, g r (a + b) = g r a + g r b) :
    ((C.zip (p.set i (p[i] + q))).map fun cp => g cp.1 cp.2).sum =
      ((C.zip p).map fun cp => g cp.1 cp.2).sum + g (C[i]'(by omega)) q := by
  induction C generalizing p i with
  | nil => simp at hl; simp [hl] at hi
  | cons c C ih =>
    cases p with
    | nil => simp at hl
    | cons y p =>
      cases i with
      | zero => simp [hg]; ring
      | succ i =>
        have := ih p (by simpa using hl) i (by simpa using hi)
        simp only [List.set_cons_succ, List.zip_cons_cons, List.map_cons, List.sum_cons,
          List.getElem_cons_succ, this]
        ring

theorem mergeLoop_ok (A : Cpm K) : ∀ (l : List (List ℕ × ℚ)), (∀ cp ∈ l, cp.1 ∈ A.C) → ∀ p : List ℚ,
    p.length = A.C.length →
    ∃ p', l.foldlM (fun p cx => do
        let i ← pyIndex A.C cx.1
        let old ← pyGet p i
        return p.set i (old + cx.2)) p = (.ok p' : Except Err (List ℚ)) ∧ p'.length = A.C.length ∧
      ∀ g : List ℕ → ℚ → ℚ, (∀ r a b, g r (a + b) = g r a + g r b) →
        ((A.C.zip p').map fun cp => g cp.1 cp.2).sum =
          ((A.C.zip p).map fun cp => g cp.1 cp.2).sum + (l.map fun cp => g cp.1 cp.2).sum := by
  intro l
  induction l with
  | nil => intro _ p hp; exact ⟨p, rfl, hp, by simp⟩
  | cons cp l ih =>
    intro hl p hp
    have hmem := hl cp (by simp)
    obtain ⟨i, hi, hx, hgi⟩ := pyIndex_mem hmem
    obtain ⟨p', e1, e2, e3⟩ := ih (fun c hc => hl c (by simp [hc]))
      (p.set i (p[i]'(by omega) + cp.2)) (by simpa using hp)
    refine ⟨p', ?_, e2, fun g hg => ?_⟩
    · have hy : pyGet p i = .ok (p[i]'(by omega)) := by
        rw [pyGet_lt (by omega) 0]; simp [hp, hi]
      rw [List.foldlM_cons, hx, ok_bind, hy, ok_bind, pure_ok, ok_bind, e1]
    · rw [e3 g hg, sum_set_add A.C p hp _ (by omega) cp.2 g hg]
      simp only [hgi, List.map_cons, List.sum_cons]
      ring

/-- When every row of `B` already occurs in `A`, `merge` adds the two distributions.  Missing for
the full claim: rows of `B` that do not occur in `A` (`C14_missing_row_raises`), and leaving `A`
unchanged (`C14_changes_self`). -/
theorem C14_merge_partial (A B : Cpm K) (hA : WF U A) (hB : WF U B) (hv : A.vars = B.vars)
    (hsub : ∀ r ∈ B.C, r ∈ A.C) :
    ∃ A' P, A.merge B = .ok (A', P) ∧ WF U P ∧ P.vars = A.vars ∧ P.noChild = A.noChild ∧
      P.C = A.C ∧ ∀ x, dens P x = dens A x + dens B x := by
  have key := mergeLoop_ok A
  have hmem : ∀ cp ∈ B.C.zip B.p, cp.1 ∈ A.C := fun cp hcp => hsub _ (List.of_mem_zip hcp).1
  obtain ⟨p', e1, e2, e3⟩ := key (B.C.zip B.p) hmem A.p hA.pLen
  obtain ⟨a1, a2, a3, a4⟩ := hA.noCs
  obtain ⟨b1, b2, b3, b4⟩ := hB.noCs
  refine ⟨{ A with p := p' }, { A with p := p' }, ?_, ?_, rfl, rfl, rfl, fun x => ?_⟩
  · unfold Cpm.merge
    rw [pyAssert_true (by simp [Cpm.getNames, hv]), ok_bind, e1, ok_bind]
    have hcs : checkCs A.vars (A.Cs ++ B.Cs) = .ok () := by simp [checkCs, a1, b1]
    rw [if_neg (by simp [a1, b1]), hcs, ok_bind, pyAssert_true (by simp [a2, b2]), ok_bind,
      pyAssert_true (by simp [a3, b3]),
      ok_bind, pyAssert_true (by simp [a4, b4]), ok_bind]
    simp only [a1, b1, a2, b2, a3, b3, a4, b4, List.append_nil]
    rfl
  · exact ⟨hA.env, hA.table, hA.nodup, hA.rowLen, hA.entry, e2, hA.child, hA.noCs⟩
  · unfold dens
    rw [← hv]
    exact e3 (fun r q => if RowMatches A.vars r x then q else 0)
      (by intro r a b; split <;> simp)

theorem mergeLoop_missing (A : Cpm K) : ∀ (l : List (List ℕ × ℚ)), (∃ cp ∈ l, cp.1 ∉ A.C) → ∀ p : List ℚ,
    p.length = A.C.length →
    l.foldlM (fun p cx => do
        let i ← pyIndex A.C cx.1
        let old ← pyGet p i
        return p.set i (old + cx.2)) p = (.error .value : Except Err (List ℚ)) := by
  intro l
  induction l with
  | nil => rintro ⟨cp, h, -⟩; simp at h
  | cons cp l ih =>
    intro hl p hp
    by_cases hmem : cp.1 ∈ A.C
    · obtain ⟨i, hi, hx, -⟩ := pyIndex_mem hmem
      have hy : pyGet p i = .ok (p[i]'(by omega)) := by
        rw [pyGet_lt (by omega) 0]; simp [hp, hi]
      rw [List.foldlM_cons, hx, ok_bind, hy, ok_bind, pure_ok, ok_bind]
      refine ih ?_ _ (by simpa using hp)
      obtain ⟨c, hc, hcm⟩ := hl
      rcases List.mem_cons.1 hc with rfl | hc
      · exact absurd hmem hcm
      · exact ⟨c, hc, hcm⟩
    · have hx : pyIndex A.C cp.1 = .error .value := by rw [pyIndex_eq, if_neg hmem]
      rw [List.foldlM_cons, hx]
      rfl

/-- A row of `B` that does not occur in `A` makes `merge` raise `ValueError`. -/
theorem C14_missing_row_raises (A B : Cpm K) (hA : WF U A) (hB : WF U B) (hv : A.vars = B.vars)
    (hmiss : ∃ r ∈ B.C, r ∉ A.C) : A.merge B = .error .value := by
  have key := mergeLoop_missing A
  unfold Cpm.merge
  rw [pyAssert_true (by simp [Cpm.getNames, hv]), ok_bind, key (B.C.zip B.p) ?_ A.p hA.pLen]
  · rfl
  · obtain ⟨r, hr, hrm⟩ := hmiss
    obtain ⟨q, hq⟩ := exists_snd hB.pLen hr
    exact ⟨(r, q), hq, hrm⟩

/-- **C14**, samples on both sides are put one below the other, each with its weights, probabilities and
index. -/
theorem C14_samples (A B : Cpm K) (hA : Cpm.mk' A = .ok A) (hB : Cpm.mk' B = .ok B) (hv : A.vars = B.vars)
    (hp : A.p.length = A.C.length) (hsub : ∀ r ∈ B.C, r ∈ A.C)
    (hAs : A.Cs.flatten ≠ [] ∧ A.q.length = A.Cs.length ∧ A.ps.length = A.Cs.length ∧
      A.sampleIdx.length = A.Cs.length)
    (hBs : B.Cs.flatten ≠ [] ∧ B.q.length = B.Cs.length ∧ B.ps.length = B.Cs.length ∧
      B.sampleIdx.length = B.Cs.length) :
    ∃ A' P, A.merge B = .ok (A', P) ∧ P.Cs = A.Cs ++ B.Cs ∧ P.q = A.q ++ B.q ∧ P.ps = A.ps ++ B.ps ∧
      P.sampleIdx = A.sampleIdx ++ B.sampleIdx ∧ A' = { A with p := P.p } := by
  obtain ⟨p', e1, -, -⟩ := mergeLoop_ok A (B.C.zip B.p)
    (fun cp hcp => hsub _ (List.of_mem_zip hcp).1) A.p hp
  refine ⟨{ A with p := p' },
    { A with
      p := p', Cs := A.Cs ++ B.Cs, q := A.q ++ B.q, ps := A.ps ++ B.ps
      sampleIdx := A.sampleIdx ++ B.sampleIdx }, ?_, rfl, rfl, rfl, rfl, rfl⟩
  have hcs : ∀ M : Cpm K, Cpm.mk' M = .ok M → checkCs M.vars M.Cs = .ok () := by
    intro M hM
    unfold Cpm.mk' at hM
    obtain ⟨_, -, hM⟩ := bind_ok.1 hM
    obtain ⟨_, -, hM⟩ := bind_ok.1 hM
    obtain ⟨_, -, hM⟩ := bind_ok.1 hM
    obtain ⟨⟨⟩, h, -⟩ := bind_ok.1 hM
    exact h
  have hrows : ∀ M : Cpm K, checkCs M.vars M.Cs = .ok () → M.Cs.flatten ≠ [] → ∀ r ∈ M.Cs,
      r.length = M.vars.length ∧ ∀ vs ∈ M.vars.zip r, vs.2 ≤ vs.1.values.length := by
    intro M hM h0 r hr
    unfold checkCs at hM
    rw [if_neg h0] at hM
    split at hM
    · cases hM
    · split at hM
      · rename_i h
        rw [Bool.and_eq_true, List.all_eq_true, List.all_eq_true] at h
        refine ⟨by simpa using h.1 r hr, fun vs hvs => ?_⟩
        have := h.2 r hr
        rw [List.all_eq_true] at this
        simpa using this vs hvs
      · cases hM
  have ha := hrows A (hcs A hA) hAs.1
  have hb := hrows B (hcs B hB) hBs.1
  rw [← hv] at hb
  have hab : ∀ r ∈ A.Cs ++ B.Cs,
      r.length = A.vars.length ∧ ∀ vs ∈ A.vars.zip r, vs.2 ≤ vs.1.values.length :=
    fun r hr => (List.mem_append.1 hr).elim (ha r) (hb r)
  have hne : (A.Cs ++ B.Cs).flatten ≠ [] := by simp only [List.flatten_append]; simp [hAs.1]
  have hck : checkCs A.vars (A.Cs ++ B.Cs) = .ok () := by
    unfold checkCs
    rw [if_neg hne, if_neg (not_not.2 (List.pairwise_of_forall_mem_list fun r hr t ht =>
      (hab r hr).1.trans (hab t ht).1.symm)), if_pos]
    rw [Bool.and_eq_true, List.all_eq_true, List.all_eq_true]
    exact ⟨fun r hr => by simpa using (hab r hr).1, fun r hr => by
      rw [List.all_eq_true]; exact fun vs hvs => by simpa using (hab r hr).2 vs hvs⟩
  have hA0 : A.Cs ≠ [] := fun h => hAs.1 (by simp [h])
  have hB0 : B.Cs ≠ [] := fun h => hBs.1 (by simp [h])
  unfold Cpm.merge
  rw [pyAssert_true (by simp [Cpm.getNames, hv]), ok_bind, e1, ok_bind, if_neg (by simp [hA0, hB0]),
    hck, ok_bind, pyAssert_true (.inr (.inr (by simp [hAs.2.1, hBs.2.1]))), ok_bind,
    pyAssert_true (.inr (.inr (by simp [hAs.2.2.1, hBs.2.2.1]))), ok_bind,
    pyAssert_true (.inr (.inr (by simp [hAs.2.2.2, hBs.2.2.2]))), ok_bind]
  rfl

/-- Two samples and three more. -/
example : ∃ A' P, Cpm.merge
    { Ex.A with Cs := [[0], [1]], q := [1/2, 1/2], ps := [1/2, 1/3], sampleIdx := [0, 1] }
    { Ex.A with Cs := [[1], [1], [0]], q := [1, 1, 1], ps := [1, 1, 1/4], sampleIdx := [2, 3, 4] } =
      .ok (A', P) ∧ P.Cs = [[0], [1], [1], [1], [0]] := by
  obtain ⟨A', P, h1, h2, -⟩ := C14_samples
    { Ex.A with Cs := [[0], [1]], q := [1/2, 1/2], ps := [1/2, 1/3], sampleIdx := [0, 1] }
    { Ex.A with Cs := [[1], [1], [0]], q := [1, 1, 1], ps := [1, 1, 1/4], sampleIdx := [2, 3, 4] }
    (by decide +kernel) (by decide +kernel) rfl rfl (fun _ h => h)
    ⟨by simp, rfl, rfl, rfl⟩ ⟨by simp, rfl, rfl, rfl⟩
  exact ⟨A', P, h1, h2⟩

/-- **C14**, samples on one side only: `merge` raises `ValueError`. -/
theorem C14_not_one_sided (A B : Cpm K) (hv : A.vars = B.vars) (hp : A.p.length = A.C.length)
    (hs : A.Cs = [] ∧ B.Cs.flatten ≠ [] ∨ A.Cs.flatten ≠ [] ∧ B.Cs = []) :
    A.merge B = .error .value := by
  unfold Cpm.merge
  rw [pyAssert_true (by simp [Cpm.getNames, hv]), ok_bind]
  by_cases h : ∀ cp ∈ B.C.zip B.p, cp.1 ∈ A.C
  · obtain ⟨p', e1, -, -⟩ := mergeLoop_ok A _ h A.p hp
    rw [e1, ok_bind, if_pos hs]
  · push Not at h
    rw [mergeLoop_missing A _ h A.p hp]
    rfl

example : Ex.A.merge { Ex.A with Cs := [[1]], q := [1], ps := [1], sampleIdx := [2] } = .error .value :=
  C14_not_one_sided _ _ rfl rfl (.inl ⟨rfl, by simp⟩)

/-- **C14**, whatever `merge` returns is a CPM the constructor accepts: in particular weights,
probabilities and numbers of samples that do not match the samples are refused. -/
theorem C14_valid (A B A' P : Cpm K) (hA : Cpm.mk' A = .ok A) (h : A.merge B = .ok (A', P)) :
    Cpm.mk' P = .ok P ∧ P.vars = A.vars ∧ P.C = A.C := by
  unfold Cpm.mk' at hA
  obtain ⟨⟨⟩, a1, hA⟩ := bind_ok.1 hA
  obtain ⟨⟨⟩, a2, hA⟩ := bind_ok.1 hA
  obtain ⟨⟨⟩, a3, -⟩ := bind_ok.1 hA
  unfold Cpm.merge at h
  obtain ⟨⟨⟩, -, h⟩ := bind_ok.1 h
  obtain ⟨p', hp', h⟩ := bind_ok.1 h
  have hlen : ∀ (l : List (List ℕ × ℚ)) (p q : List ℚ),
      l.foldlM (fun p cx => do
        let i ← pyIndex A.C cx.1
        let old ← pyGet p i
        return p.set i (old + cx.2)) p = (.ok q : Except Err (List ℚ)) → q.length = p.length := by
    intro l
    induction l with
    | nil => intro p q h; cases h; rfl
    | cons a l ih =>
      intro p q h
      rw [List.foldlM_cons] at h
      obtain ⟨p1, h1, h⟩ := bind_ok.1 h
      obtain ⟨i, -, h1⟩ := bind_ok.1 h1
      obtain ⟨o, -, h1⟩ := bind_ok.1 h1
      cases h1
      rw [ih _ _ h, List.length_set]
  have hl := hlen _ _ _ hp'
  split at h
  · cases h
  · obtain ⟨⟨⟩, b1, h⟩ := bind_ok.1 h
    obtain ⟨⟨⟩, b2, h⟩ := bind_ok.1 h
    obtain ⟨⟨⟩, b3, h⟩ := bind_ok.1 h
    obtain ⟨⟨⟩, b4, h⟩ := bind_ok.1 h
    cases h
    refine ⟨?_, rfl, rfl⟩
    unfold Cpm.mk'
    have a3' : A.p = [] ∨ A.p.length = A.C.length := by
      by_contra hc
      rw [pyAssert_false hc] at a3
      cases a3
    have e3 : pyAssert (p' = [] ∨ p'.length = A.C.length) = .ok () := by
      refine pyAssert_true ?_
      rcases a3' with h | h
      · exact .inl (List.eq_nil_of_length_eq_zero (by rw [hl, h]; rfl))
      · exact .inr (hl.trans h)
    simp only
    rw [a1, ok_bind, a2, ok_bind, e3, ok_bind, b1, ok_bind, b2, ok_bind, b3, ok_bind, b4, ok_bind]
    rfl

/-- Three sample numbers for two samples are refused. -/
example : Cpm.merge
    { Ex.A with Cs := [[0]], q := [1], ps := [1], sampleIdx := [0] }
    { Ex.A with Cs := [[1]], q := [1], ps := [1], sampleIdx := [2, 3] } = .error .assertion := by
  decide +kernel

/-- `merge` changes the CPM it is called on. -/
theorem C14_changes_self : ∃ A' P, Ex.A.merge Ex.A = .ok (A', P) ∧ A' ≠ Ex.A :=
  ⟨{ Ex.A with p := [1/5, 9/5] }, { Ex.A with p := [1/5, 9/5] }, by decide +kernel,
    by decide +kernel⟩

/-! ## C16 -/

/-- `get_subset(rows)` returns the requested rows in the requested order with their
probabilities. -/
theorem C16_subset (M : Cpm K) (h : WF U M) (idx : List ℕ) (hi : ∀ i ∈ idx, i < M.C.length) :
    ∃ P, M.getSubset idx true = .ok P ∧ WF U P ∧ P.vars = M.vars ∧
      P.C = idx.map (fun i => M.C.getD i []) ∧ P.p = idx.map (fun i => M.p.getD i 0) := by
  have hsub : ∀ r ∈ idx.map (fun i => M.C.getD i []), r ∈ M.C := by
    intro r hr
    obtain ⟨i, hi', rfl⟩ := List.mem_map.1 hr
    have := hi i hi'
    simp [this]
  have hwf : WF U { M with C := idx.map (fun i => M.C.getD i []),
                           p := idx.map (fun i => M.p.getD i 0) } :=
    ⟨h.env, h.table, h.nodup, fun r hr => h.rowLen r (hsub r hr),
      fun r hr => h.entry r (hsub r hr), by simp, h.child, h.noCs⟩
  refine ⟨_, ?_, hwf, rfl, rfl, rfl⟩
  unfold Cpm.getSubset subsetRows
  rw [if_pos rfl, if_pos hi, ok_bind]
  have hp : takeRowsOpt M.p idx = .ok (idx.map fun i => M.p.getD i 0) := by
    unfold takeRowsOpt
    split
    · rename_i hp0
      have : M.C.length = 0 := by rw [← h.pLen, hp0]; rfl
      have : idx = [] := by
        rw [List.eq_nil_iff_forall_not_mem]
        intro i hi'
        have := hi i hi'
        omega
      simp [this]
    · exact takeRows_ok 0 fun i hi' => by rw [h.pLen]; exact hi i hi'
  rw [hp, ok_bind, takeRows_ok [] hi, ok_bind]
  exact mk'_ok hwf.rowLen hwf.entry hwf.child (.inr hwf.pLen) hwf.noCs.1

/-- Requested rows that do not exist are refused. -/
theorem C16_out_of_range (M : Cpm K) (idx : List ℕ) (hi : ∃ i ∈ idx, M.C.length ≤ i) :
    M.getSubset idx true = .error .assertion := by
  unfold Cpm.getSubset subsetRows
  rw [if_pos rfl, if_neg]
  · rfl
  · intro h
    obtain ⟨i, h1, h2⟩ := hi
    exact absurd (h i h1) (by omega)

/-- `get_subset(rows, flag=0)` keeps exactly the other rows, in their order, with their
probabilities. -/
theorem C16_complement (M : Cpm K) (h : WF U M) (idx : List ℕ) :
    ∃ P, M.getSubset idx false = .ok P ∧ WF U P ∧ P.vars = M.vars ∧
      P.C = ((List.range M.C.length).filter fun i => i ∉ idx).map (fun i => M.C.getD i []) ∧
      P.p = ((List.range M.C.length).filter fun i => i ∉ idx).map (fun i => M.p.getD i 0) := by
  obtain ⟨P, h1, h2, h3, h4, h5⟩ := C16_subset M h ((List.range M.C.length).filter fun i => i ∉ idx)
    (fun i hi => by simpa using (List.mem_filter.1 hi).1)
  refine ⟨P, ?_, h2, h3, h4, h5⟩
  rw [← h1]
  unfold Cpm.getSubset subsetRows
  rw [if_neg (by simp), if_pos rfl, setdiff_range, if_pos]
  intro i hi
  simpa using (List.mem_filter.1 hi).1

/-- The two selections lose nothing: together they are the rows of the CPM. -/
theorem C16_no_loss (M P Q : Cpm K) (h : WF U M) (idx : List ℕ) (hn : idx.Nodup)
    (hP : M.getSubset idx true = .ok P) (hQ : M.getSubset idx false = .ok Q) :
    ((P.C.zip P.p) ++ (Q.C.zip Q.p)).Perm (M.C.zip M.p) ∧
      ∀ x, dens P x + dens Q x = dens M x := by
  have hi : ∀ i ∈ idx, i < M.C.length := by
    by_contra hc
    push Not at hc
    obtain ⟨i, h1, h2⟩ := hc
    rw [C16_out_of_range M idx ⟨i, h1, h2⟩] at hP
    cases hP
  obtain ⟨P', a1, a2, a3, a4, a5⟩ := C16_subset M h idx hi
  obtain ⟨Q', b1, b2, b3, b4, b5⟩ := C16_complement M h idx
  rw [a1] at hP; cases hP
  rw [b1] at hQ; cases hQ
  have hperm : ((P.C.zip P.p) ++ (Q.C.zip Q.p)).Perm (M.C.zip M.p) := by
    have hM : M.C.zip M.p = (List.range M.C.length).map
        fun i => (M.C.getD i [], M.p.getD i 0) := by
      have := range_map_getD₂ M.C M.p [] 0 h.pLen (fun a b => (a, b))
      rw [this]; simp
    rw [a4, a5, b4, b5, List.zip_map', List.zip_map', ← List.map_append, hM]
    apply List.Perm.map
    rw [List.perm_ext_iff_of_nodup]
    · intro i
      simp only [List.mem_append, List.mem_filter, List.mem_range, decide_eq_true_eq]
      constructor
      · rintro (h | h)
        · exact hi i h
        · exact h.1
      · intro h
        by_cases hm : i ∈ idx
        · exact .inl hm
        · exact .inr ⟨h, hm⟩
    · rw [List.nodup_append]
      refine ⟨hn, List.nodup_range.filter _, ?_⟩
      intro a ha b hb e
      subst e
      have := (List.mem_filter.1 hb).2
      simp at this
      exact this ha
    · exact List.nodup_range
  refine ⟨hperm, fun x => ?_⟩
  have := ((hperm.map fun cp => if RowMatches M.vars cp.1 x then cp.2 else 0).sum_eq)
  rw [List.map_append, List.sum_append] at this
  unfold dens
  rw [a3, b3]
  exact this

example : ∃ P, Ex.B.getSubset [2, 0] true = .ok P ∧ P.C = [[2, 0], [0, 2]] :=
  ⟨{ Ex.B with C := [[2, 0], [0, 2]], p := [1/2, 1/5] }, by decide +kernel, rfl⟩

end BNS
