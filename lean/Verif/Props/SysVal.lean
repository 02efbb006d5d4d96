import Verif.Proofs.SysVal
import Verif.Examples.Cpm

/-!
# Property C45: maximum and minimum systems

The full claim is false: the state written in a row is the position of its value in the list of
values met so far, and that list is sorted afterwards (see `C45_max_wrong`, `C45_min_wrong`).
-/

namespace BNS

set_option linter.unusedSectionVars false

variable {K : Type} [DecidableEq K]

theorem selMax : Sel (fun z v : ℚ => decide (z < v)) (fun z v => decide (z ≤ v)) where
  total a b := by simpa using le_total a b
  trans a b c := by simpa using le_trans
  antisymm a b := by simpa using le_antisymm
  before z v := by simp

theorem selMin : Sel (fun z v : ℚ => decide (v < z)) (fun z v => decide (v ≤ z)) where
  total a b := by simpa using le_total b a
  trans a b c h1 h2 := by simp at h1 h2 ⊢; exact h2.trans h1
  antisymm a b h1 h2 := by simp at h1 h2; exact le_antisymm h2 h1
  before z v := by simp

/-- What the CPM of a maximum or minimum system is meant to be, with `lab` the value that each
system state stands for: no other children, no samples, probabilities 1, valid states, every
assignment of the parents covered by exactly one row, whose system state stands for the maximum
(minimum). -/
structure Encodes (best : (K → ℕ) → ℚ → Prop) (name : K) (varsP : List (Variable K)) (M : Cpm K)
    (var : Variable K) (lab : List ℚ) : Prop where
  vars : M.vars = var :: varsP
  noChild : M.noChild = 1
  p : M.p = M.C.map fun _ => 1
  noCs : M.Cs = [] ∧ M.q = [] ∧ M.ps = [] ∧ M.sampleIdx = []
  rows : ∀ r ∈ M.C, r.length = M.vars.length ∧ (∀ s ∈ r.head?, s < var.values.length) ∧
    ∀ vs ∈ M.vars.zip r, vs.2 + 1 < 2 ^ vs.1.values.length
  name : var.name = name
  table : var.values ≠ [] → var.B = some (genB var.values.length)
  sorted : var.values.Pairwise (· < ·)
  attained : ∀ z, z ∈ var.values ↔ ∃ x, ValidAt varsP x ∧ best x z
  row : ∀ x, ValidAt varsP x → ∃ i s r z, M.C[i]? = some (s :: r) ∧ RowMatches varsP r x ∧
    lab[s]? = some z ∧ best x z ∧
    ∀ (j : ℕ) (r' : List ℕ), M.C[j]? = some r' → RowMatches varsP r'.tail x → j = i

theorem SysSpec.encodes {tA : ℚ → ℚ → Bool} {name : K} {varsP : List (Variable K)} {M : Cpm K}
    {var : Variable K} {lab : List ℚ} (h : SysSpec tA name varsP M var lab)
    {best : (K → ℕ) → ℚ → Prop} (hb : ∀ x z, IsBestAt tA varsP x z ↔ best x z) :
    Encodes best name varsP M var lab ∧ lab.Perm var.values := by
  have hp := List.perm_insertionSort (· ≤ ·) lab
  have hv : var.values = lab.insertionSort (· ≤ ·) := by rw [h.var]; rfl
  refine ⟨⟨h.vars, h.noChild, h.p, h.noCs, h.rows, by rw [h.var]; rfl, fun hne => ?_, ?_, fun z => ?_, ?_⟩, ?_⟩
  · have : 0 < var.values.length := List.length_pos_of_ne_nil hne
    rw [h.var] at this ⊢
    unfold Variable.mk' storesB at *
    simp only at this ⊢
    rw [if_pos (by simpa using this)]
  · rw [hv]
    have h1 := List.pairwise_insertionSort (· ≤ ·) lab
    have h2 : (lab.insertionSort (· ≤ ·)).Pairwise (· ≠ ·) := hp.nodup_iff.2 h.nodup
    exact (h1.and h2).imp fun hab => lt_of_le_of_ne hab.1 hab.2
  · rw [hv, hp.mem_iff, h.mem]
    simp only [hb]
  · intro x hx
    obtain ⟨i, s, r, z, h1, h2, h3, h4, h5⟩ := h.row x hx
    exact ⟨i, s, r, z, h1, h2, h3, (hb x z).1 h4, h5⟩
  · rw [hv]; exact hp.symm

theorem isBestAt_max {varsP : List (Variable K)} (x : K → ℕ) (z : ℚ) :
    IsBestAt (fun z v : ℚ => decide (z ≤ v)) varsP x z ↔ IsMaxAt varsP x z := by
  unfold IsBestAt IsMaxAt; simp

theorem isBestAt_min {varsP : List (Variable K)} (x : K → ℕ) (z : ℚ) :
    IsBestAt (fun z v : ℚ => decide (v ≤ z)) varsP x z ↔ IsMinAt varsP x z := by
  unfold IsBestAt IsMinAt; simp

/-- Missing from the full claim: the value that state `s` of the system stands for is `lab[s]`, for
some reordering `lab` of the values of the system variable (so two rows carry the same state exactly
when they have the same maximum), instead of the value at `s` itself. -/
theorem C45_max_partial (name : K) (varsP : List (Variable K)) (h : SysParentsOK varsP) :
    ∃ M var lab, sysMaxVal name varsP = .ok (M, var) ∧ lab.Perm var.values ∧
      Encodes (IsMaxAt varsP) name varsP M var lab := by
  obtain ⟨M, var, h1, h2⟩ := sysVal_spec selMax (fun p => (p.values.min?).getD 0) name h
  obtain ⟨h3, h4⟩ := h2.encodes isBestAt_max
  refine ⟨M, var, _, ?_, h4, h3⟩
  unfold sysMaxVal
  rw [if_neg (by rintro ⟨v, hv, hc⟩; exact h.some_value v hv hc)]
  exact h1

/-- The same for the minimum. -/
theorem C45_min_partial (name : K) (varsP : List (Variable K)) (h : SysParentsOK varsP) :
    ∃ M var lab, sysMinVal name varsP = .ok (M, var) ∧ lab.Perm var.values ∧
      Encodes (IsMinAt varsP) name varsP M var lab := by
  obtain ⟨M, var, h1, h2⟩ := sysVal_spec selMin (fun p => (p.values.max?).getD 0) name h
  obtain ⟨h3, h4⟩ := h2.encodes isBestAt_min
  refine ⟨M, var, _, ?_, h4, h3⟩
  unfold sysMinVal
  rw [if_neg (by rintro ⟨v, hv, hc⟩; exact h.some_value v hv hc)]
  exact h1

/-- When all the parents have the same values the claim holds in full: the system state of the row
that covers `x` stands for the maximum. -/
theorem C45_max_same_values (name : K) (varsP : List (Variable K)) (h : SysParentsOK varsP)
    (hsame : ∀ p ∈ varsP, ∀ q ∈ varsP, ∀ z ∈ p.values, z ∈ q.values) :
    ∃ M var, sysMaxVal name varsP = .ok (M, var) ∧
      Encodes (IsMaxAt varsP) name varsP M var var.values := by
  obtain ⟨M, var, h1, h2⟩ := sysVal_spec selMax (fun p => (p.values.min?).getD 0) name h
  obtain ⟨h3, h4⟩ := h2.encodes isBestAt_max
  have hperm := List.perm_insertionSort (fun a b : Variable K =>
    (a.values.min?).getD 0 ≤ (b.values.min?).getD 0) varsP
  have hv := congrArg Variable.values h2.var
  rw [show ∀ l : List ℚ, (Variable.mk' name l .store).values = l from fun _ => rfl,
    sysKeys_same selMax (fun p hp => h.distinct p (hperm.mem_iff.1 hp))
    (fun p hp q hq => hsame p (hperm.mem_iff.1 hp) q (hperm.mem_iff.1 hq))] at hv
  rw [← hv] at h3
  refine ⟨M, var, ?_, h3⟩
  unfold sysMaxVal
  rw [if_neg (by rintro ⟨v, hv, hc⟩; exact h.some_value v hv hc)]
  exact h1

/-- The same for the minimum. -/
theorem C45_min_same_values (name : K) (varsP : List (Variable K)) (h : SysParentsOK varsP)
    (hsame : ∀ p ∈ varsP, ∀ q ∈ varsP, ∀ z ∈ p.values, z ∈ q.values) :
    ∃ M var, sysMinVal name varsP = .ok (M, var) ∧
      Encodes (IsMinAt varsP) name varsP M var var.values := by
  obtain ⟨M, var, h1, h2⟩ := sysVal_spec selMin (fun p => (p.values.max?).getD 0) name h
  obtain ⟨h3, h4⟩ := h2.encodes isBestAt_min
  have hperm := List.perm_insertionSort (fun a b : Variable K =>
    (a.values.max?).getD 0 ≤ (b.values.max?).getD 0) varsP
  have hv := congrArg Variable.values h2.var
  rw [show ∀ l : List ℚ, (Variable.mk' name l .store).values = l from fun _ => rfl,
    sysKeys_same selMin (fun p hp => h.distinct p (hperm.mem_iff.1 hp))
    (fun p hp q hq => hsame p (hperm.mem_iff.1 hp) q (hperm.mem_iff.1 hq))] at hv
  rw [← hv] at h3
  refine ⟨M, var, ?_, h3⟩
  unfold sysMinVal
  rw [if_neg (by rintro ⟨v, hv, hc⟩; exact h.some_value v hv hc)]
  exact h1

/-- More generally the claim holds in full when the values of every parent are the smallest ones of
the values of all parents, for instance 0, …, kᵢ with any numbers kᵢ. -/
theorem C45_max_initial_values (name : K) (varsP : List (Variable K)) (h : SysParentsOK varsP)
    (hin : ∀ p ∈ varsP, ∀ q ∈ varsP, ∀ z ∈ p.values, ∀ y ∈ q.values, y ≤ z → y ∈ p.values) :
    ∃ M var, sysMaxVal name varsP = .ok (M, var) ∧
      Encodes (IsMaxAt varsP) name varsP M var var.values := by
  obtain ⟨M, var, h1, h2⟩ := sysVal_spec selMax (fun p => (p.values.min?).getD 0) name h
  obtain ⟨h3, h4⟩ := h2.encodes isBestAt_max
  have hperm := List.perm_insertionSort (fun a b : Variable K =>
    (a.values.min?).getD 0 ≤ (b.values.min?).getD 0) varsP
  have hv := congrArg Variable.values h2.var
  have hlt := sysKeys_initial_max (fun p hp => h.distinct p (hperm.mem_iff.1 hp))
    (fun p hp => h.some_value p (hperm.mem_iff.1 hp))
    (fun p hp q hq => hin p (hperm.mem_iff.1 hp) q (hperm.mem_iff.1 hq))
  rw [show ∀ l : List ℚ, (Variable.mk' name l .store).values = l from fun _ => rfl,
    (hlt.imp le_of_lt).insertionSort_eq] at hv
  rw [← hv] at h3
  refine ⟨M, var, ?_, h3⟩
  unfold sysMaxVal
  rw [if_neg (by rintro ⟨v, hv, hc⟩; exact h.some_value v hv hc)]
  exact h1

/-- The same for the minimum. -/
theorem C45_min_initial_values (name : K) (varsP : List (Variable K)) (h : SysParentsOK varsP)
    (hin : ∀ p ∈ varsP, ∀ q ∈ varsP, ∀ z ∈ p.values, ∀ y ∈ q.values, y ≤ z → y ∈ p.values) :
    ∃ M var, sysMinVal name varsP = .ok (M, var) ∧
      Encodes (IsMinAt varsP) name varsP M var var.values := by
  obtain ⟨M, var, h1, h2⟩ := sysVal_spec selMin (fun p => (p.values.max?).getD 0) name h
  obtain ⟨h3, h4⟩ := h2.encodes isBestAt_min
  have hperm := List.perm_insertionSort (fun a b : Variable K =>
    (a.values.max?).getD 0 ≤ (b.values.max?).getD 0) varsP
  have hsort := List.pairwise_insertionSort (fun a b : Variable K =>
    (a.values.max?).getD 0 ≤ (b.values.max?).getD 0) varsP
  have hv := congrArg Variable.values h2.var
  have hlt : ∀ vs : List (Variable K), vs.Perm varsP →
      vs.Pairwise (fun a b : Variable K => (a.values.max?).getD 0 ≤ (b.values.max?).getD 0) →
      (addVals ((sysKeys (fun z v : ℚ => decide (v < z)) (fun z v => decide (v ≤ z)) vs.zipIdx
        vs.zipIdx).map Prod.snd) []).Pairwise (· < ·) := by
    intro vs hp hs
    cases vs with
    | nil => simp [sysKeys, addVals]
    | cons v0 vs0 =>
      refine sysKeys_initial_min (fun p hq => h.distinct p (hp.mem_iff.1 hq))
        (fun p hq q hr => hin p (hp.mem_iff.1 hq) q (hp.mem_iff.1 hr)) fun p hq z hz => ?_
      have hle := (List.pairwise_cons.1 hs).1 p hq
      have hmax : ∀ v ∈ v0 :: vs0, ∃ m, v.values.max? = some m := by
        intro v hv
        cases e : v.values.max? with
        | some m => exact ⟨m, rfl⟩
        | none => exact absurd (List.max?_eq_none_iff.1 e) (h.some_value v (hp.mem_iff.1 hv))
      obtain ⟨m0, e0⟩ := hmax v0 (by simp)
      obtain ⟨m1, e1⟩ := hmax p (by simp [hq])
      rw [e0, e1, Option.getD_some, Option.getD_some] at hle
      obtain ⟨-, b0⟩ := List.max?_eq_some_iff.1 e0
      obtain ⟨a1, -⟩ := List.max?_eq_some_iff.1 e1
      exact ⟨m1, a1, (b0 z hz).trans hle⟩
  rw [show ∀ l : List ℚ, (Variable.mk' name l .store).values = l from fun _ => rfl,
    ((hlt _ hperm hsort).imp le_of_lt).insertionSort_eq] at hv
  rw [← hv] at h3
  refine ⟨M, var, ?_, h3⟩
  unfold sysMinVal
  rw [if_neg (by rintro ⟨v, hv, hc⟩; exact h.some_value v hv hc)]
  exact h1

/-- Non-vacuity: parents with 0, …, 3 and 0, 1 and 0, …, 2, in any order. -/
example : SysParentsOK [Variable.mk' 0 [0, 1, 2, 3] .dflt, Variable.mk' 1 [1, 0] .dflt,
      Variable.mk' 2 [0, 2, 1] .dflt] ∧
    InitialValues [Variable.mk' 0 [0, 1, 2, 3] .dflt, Variable.mk' 1 [1, 0] .dflt,
      Variable.mk' 2 [0, 2, 1] .dflt] :=
  ⟨⟨by simp, by decide +kernel, by decide +kernel, by decide +kernel, by decide +kernel⟩,
    by unfold InitialValues; decide +kernel⟩

/-- Parents without stored table cannot be used. -/
theorem C45_no_table_raises :
    sysMaxVal 9 [Variable.mk' 0 [0, 1] .fly, Variable.mk' 1 [0, 1] .fly] = .error .attribute := by
  decide +kernel

/-! ### Witnesses -/

/-- two parents whose values differ -/
def Ex.par : List (Variable ℕ) := [Variable.mk' 0 [0, 2] .dflt, Variable.mk' 1 [1, 3] .dflt]

theorem Ex.par_ok : SysParentsOK Ex.par where
  ne := by simp [Ex.par]
  names := by decide +kernel
  table := by decide +kernel
  some_value := by decide +kernel
  distinct := by decide +kernel

/-- two parents with the same values, in a different order -/
example : SysParentsOK [Variable.mk' 0 [0, 2, 5] .dflt, Variable.mk' 1 [5, 0, 2] .dflt] :=
  ⟨by simp, by decide +kernel, by decide +kernel, by decide +kernel, by decide +kernel⟩

/-- Defect: with values {0, 2} and {1}, the row for 0 ≤ 1 carries state 1 (value 2 after sorting)
although the maximum is 1. -/
theorem C45_max_wrong : ∃ M var, sysMaxVal 9 [Variable.mk' 0 [0, 2] .dflt, Variable.mk' 1 [1] .dflt]
      = .ok (M, var) ∧ var.values = [1, 2] ∧ M.C = [[0, 1, 0], [1, 0, 0]] ∧
    RowMatches [Variable.mk' 0 [0, 2] .dflt, Variable.mk' 1 [1] .dflt] [0, 0] (fun _ => 0) ∧
    IsMaxAt [Variable.mk' 0 [0, 2] .dflt, Variable.mk' 1 [1] .dflt] (fun _ => 0) 1 := by
  obtain ⟨⟨M, var⟩, h1, h2, h3⟩ := exists_ok
    (x := sysMaxVal 9 [Variable.mk' 0 [0, 2] .dflt, Variable.mk' 1 [1] .dflt])
    (P := fun r => r.2.values = [1, 2] ∧ r.1.C = [[0, 1, 0], [1, 0, 0]]) (by decide +kernel)
  refine ⟨M, var, h1, h2, h3, by decide +kernel, ?_, ?_⟩
  · exact ⟨Variable.mk' 1 [1] .dflt, by simp, by decide +kernel⟩
  · intro v hv y hy
    simp only [List.mem_cons, List.not_mem_nil, or_false] at hv
    rcases hv with rfl | rfl <;>
    · simp [Variable.mk'] at hy
      subst hy
      norm_num

/-- Defect: with values {0, 2} and {1, 3}, the minimum at states (1, 0) is 1, but the row carries
the state of value 2. -/
theorem C45_min_wrong : ∃ M var, sysMinVal 9 Ex.par = .ok (M, var) ∧ var.values = [0, 1, 2] ∧
    [2, 1, 0] ∈ M.C ∧ RowMatches Ex.par [1, 0] (fun k => if k = 0 then 1 else 0) ∧
    IsMinAt Ex.par (fun k => if k = 0 then 1 else 0) 1 := by
  obtain ⟨⟨M, var⟩, h1, h2, h3⟩ := exists_ok (x := sysMinVal 9 Ex.par)
    (P := fun r => r.2.values = [0, 1, 2] ∧ [2, 1, 0] ∈ r.1.C) (by decide +kernel)
  refine ⟨M, var, h1, h2, h3, by decide +kernel, ?_, ?_⟩
  · exact ⟨Variable.mk' 1 [1, 3] .dflt, by simp [Ex.par], by decide +kernel⟩
  · intro v hv y hy
    simp only [Ex.par, List.mem_cons, List.not_mem_nil, or_false] at hv
    rcases hv with rfl | rfl <;>
    · simp [Variable.mk'] at hy
      subst hy
      norm_num

end BNS
