import Verif.Spec.BnbOld
import Verif.Proofs.Variable
import Verif.Proofs.Monad
import Mathlib.Algebra.BigOperators.Group.Finset.Basic
import Mathlib.Algebra.Order.BigOperators.Group.Finset

/-!
# Lemmas on the first branch and bound
-/

namespace BNS

set_option linter.unusedSectionVars false

variable {K V R : Type} [DecidableEq K]

theorem getIdxFrom_cons (k : ℕ) (b : OldBranch K V) (l : List (OldBranch K V)) (flag : Bool) :
    getIdxFrom k (b :: l) flag =
      if b.complete = flag then k :: getIdxFrom (k + 1) l flag else getIdxFrom (k + 1) l flag := by
  unfold getIdxFrom
  rw [List.zipIdx_cons, List.filter_cons]
  by_cases h : b.complete = flag <;> simp [h]

theorem getIdxFrom_append (k : ℕ) (a b : List (OldBranch K V)) (flag : Bool) :
    getIdxFrom k (a ++ b) flag = getIdxFrom k a flag ++ getIdxFrom (k + a.length) b flag := by
  unfold getIdxFrom
  rw [List.zipIdx_append, List.filter_append, List.map_append]

theorem getIdxFrom_eq_nil {k : ℕ} {l : List (OldBranch K V)} :
    getIdxFrom k l false = [] ↔ ∀ b ∈ l, b.complete = true := by
  induction l generalizing k with
  | nil => simp [getIdxFrom]
  | cons b l ih =>
    rw [getIdxFrom_cons]
    by_cases h : b.complete = false
    · rw [if_pos h]
      simp [h]
    · rw [if_neg h, ih]
      simpa using fun _ => by simpa using h

/-- The first open branch. -/
theorem getIdxFrom_split {k i : ℕ} {l : List (OldBranch K V)} {idx : List ℕ}
    (h : getIdxFrom k l false = i :: idx) :
    ∃ pre b post, l = pre ++ b :: post ∧ (∀ c ∈ pre, c.complete = true) ∧ b.complete = false ∧
      i = k + pre.length ∧ idx = getIdxFrom (i + 1) post false := by
  induction l generalizing k with
  | nil => simp [getIdxFrom] at h
  | cons a l ih =>
    rw [getIdxFrom_cons] at h
    by_cases ha : a.complete = false
    · rw [if_pos ha] at h
      obtain ⟨rfl, rfl⟩ := List.cons.inj h
      exact ⟨[], a, l, rfl, by simp, ha, rfl, rfl⟩
    · rw [if_neg ha] at h
      obtain ⟨pre, b, post, rfl, h1, h2, h3, h4⟩ := ih h
      refine ⟨a :: pre, b, post, rfl, ?_, h2, ?_, h4⟩
      · simpa using ⟨by simpa using ha, h1⟩
      · rw [h3, List.length_cons]; omega

/-! ## Boxes -/

theorem ohits_append (a b : List (OldBranch K V)) (x : List ℕ) :
    ohits (a ++ b) x = ohits a x + ohits b x := List.countP_append

theorem ohits_cons (b : OldBranch K V) (l : List (OldBranch K V)) (x : List ℕ) :
    ohits (b :: l) x = (if Between b.down b.up x then 1 else 0) + ohits l x := by
  unfold ohits
  rw [List.countP_cons, Nat.add_comm]
  simp only [decide_eq_true_eq]

theorem getD_set (l : List ℕ) (i j v : ℕ) (hi : i < l.length) :
    (l.set i v).getD j 0 = if i = j then v else l.getD j 0 := by
  rw [List.getD_eq_getElem?_getD, List.getD_eq_getElem?_getD, List.getElem?_set]
  by_cases h : i = j
  · subst h; simp [hi]
  · simp [h]

theorem between_set_up {down up x : List ℕ} (hl : up.length = down.length) {j s : ℕ}
    (hj : j < down.length) (hs : s ≤ up.getD j 0) :
    Between down (up.set j s) x ↔ Between down up x ∧ x.getD j 0 ≤ s := by
  unfold Between
  constructor
  · rintro ⟨h1, h2⟩
    refine ⟨⟨h1, fun i hi => ?_⟩, ?_⟩
    · have := h2 i hi
      rw [getD_set _ _ _ _ (by omega)] at this
      split at this
      · rename_i e; subst e; omega
      · exact this
    · have := h2 j hj
      rw [getD_set _ _ _ _ (by omega), if_pos rfl] at this
      exact this.2
  · rintro ⟨⟨h1, h2⟩, h3⟩
    refine ⟨h1, fun i hi => ?_⟩
    rw [getD_set _ _ _ _ (by omega)]
    have := h2 i hi
    split
    · rename_i e; subst e; exact ⟨this.1, h3⟩
    · exact this

theorem between_set_down {down up x : List ℕ} {j s : ℕ}
    (hj : j < down.length) (hs : down.getD j 0 ≤ s) :
    Between (down.set j s) up x ↔ Between down up x ∧ s ≤ x.getD j 0 := by
  unfold Between
  rw [List.length_set]
  constructor
  · rintro ⟨h1, h2⟩
    refine ⟨⟨h1, fun i hi => ?_⟩, ?_⟩
    · have := h2 i hi
      rw [getD_set _ _ _ _ (by omega)] at this
      split at this
      · rename_i e; subst e; omega
      · exact this
    · have := h2 j hj
      rw [getD_set _ _ _ _ (by omega), if_pos rfl] at this
      exact this.1
  · rintro ⟨⟨h1, h2⟩, h3⟩
    refine ⟨h1, fun i hi => ?_⟩
    rw [getD_set _ _ _ _ (by omega)]
    have := h2 i hi
    split
    · rename_i e; subst e; exact ⟨h3, this.2⟩
    · exact this

/-- Total width of a box. -/
def width (down up : List ℕ) : ℕ := ∑ i ∈ Finset.range down.length, (up.getD i 0 - down.getD i 0)

theorem width_lt {down up down' up' : List ℕ} (hl : down'.length = down.length)
    (h : ∀ i < down.length, down.getD i 0 ≤ down'.getD i 0 ∧ up'.getD i 0 ≤ up.getD i 0) {j : ℕ}
    (hj : j < down.length)
    (hlt : up'.getD j 0 - down'.getD j 0 < up.getD j 0 - down.getD j 0) :
    width down' up' < width down up := by
  unfold width
  rw [hl]
  refine Finset.sum_lt_sum (fun i hi => ?_) ⟨j, Finset.mem_range.2 hj, hlt⟩
  have := h i (Finset.mem_range.1 hi)
  omega

/-- A branch inside the initial box. -/
structure OldBoxOK (arcs : List K) (maxStates : List ℕ) (b : OldBranch K V) : Prop where
  down : b.down.length = arcs.length
  up : b.up.length = arcs.length
  names : b.names = arcs
  le : ∀ i < arcs.length, 1 ≤ b.down.getD i 0 ∧ b.down.getD i 0 ≤ b.up.getD i 0 ∧
    b.up.getD i 0 ≤ maxStates.getD i 0

/-- What a finished branch satisfies. -/
def OldDone (sysFn : List ℕ → Except Err (SysOut V R)) (f : List ℕ → ℕ) (b : OldBranch K V) : Prop :=
  (∃ d u, sysFn b.down = .ok d ∧ sysFn b.up = .ok u ∧ b.downVal = some d.val ∧
    b.upVal = some u.val) ∧
  b.downState = b.upState ∧ ∀ x, Between b.down b.up x → f x = b.upState

theorem mem_candComps {arcs : List K} {b : OldBranch K V} (hd : b.down.length = arcs.length)
    (hu : b.up.length = arcs.length) {c : K} :
    c ∈ candComps arcs b ↔ ∃ i, arcs[i]? = some c ∧ b.down.getD i 0 < b.up.getD i 0 := by
  unfold candComps
  simp only [List.mem_map, List.mem_filter, decide_eq_true_eq]
  constructor
  · rintro ⟨⟨c', u, d⟩, ⟨h1, h2⟩, rfl⟩
    obtain ⟨i, hi⟩ := List.mem_iff_getElem?.1 h1
    rw [List.getElem?_zip_eq_some, List.getElem?_zip_eq_some] at hi
    obtain ⟨h3, h4, h5⟩ := hi
    refine ⟨i, h3, ?_⟩
    simp only at h2 h4 h5 ⊢
    rw [List.getD_eq_getElem?_getD, List.getD_eq_getElem?_getD, h4, h5]
    exact h2
  · rintro ⟨i, h1, h2⟩
    have hi : i < arcs.length := (List.getElem?_eq_some_iff.1 h1).1
    refine ⟨(c, b.up.getD i 0, b.down.getD i 0), ⟨?_, h2⟩, rfl⟩
    refine List.mem_iff_getElem?.2 ⟨i, ?_⟩
    rw [List.getElem?_zip_eq_some, List.getElem?_zip_eq_some]
    refine ⟨h1, ?_, ?_⟩
    · simp [List.getD_eq_getElem?_getD, List.getElem?_eq_getElem (by omega : i < b.up.length)]
    · simp [List.getD_eq_getElem?_getD, List.getElem?_eq_getElem (by omega : i < b.down.length)]

/-- Work left. -/
def oldWork (brs : List (OldBranch K V)) : ℕ :=
  ((brs.filter fun b => !b.complete).map fun b => 2 ^ (width b.down b.up + 1) - 1).sum

theorem oldWork_append (a b : List (OldBranch K V)) : oldWork (a ++ b) = oldWork a + oldWork b := by
  unfold oldWork
  rw [List.filter_append, List.map_append, List.sum_append]

theorem oldWork_cons (b : OldBranch K V) (l : List (OldBranch K V)) :
    oldWork (b :: l) = (if b.complete then 0 else 2 ^ (width b.down b.up + 1) - 1) + oldWork l := by
  unfold oldWork
  rw [List.filter_cons]
  cases h : b.complete <;> simp

theorem between_replicate {n : ℕ} {maxStates x : List ℕ} :
    Between (List.replicate n 1) maxStates x ↔
      x.length = n ∧ ∀ i < n, 1 ≤ x.getD i 0 ∧ x.getD i 0 ≤ maxStates.getD i 0 := by
  unfold Between
  rw [List.length_replicate]
  refine and_congr_right fun _ => forall₂_congr fun i hi => ?_
  rw [List.getD_eq_getElem?_getD, List.getElem?_replicate, if_pos hi]
  rfl

theorem coherent_const {maxStates : List ℕ} {f : List ℕ → ℕ} (h : BnbCoherent maxStates f)
    {arcs : List K} (hm : maxStates.length = arcs.length) {b : OldBranch K V}
    (hb : OldBoxOK arcs maxStates b)
    (he : f b.down = f b.up) {x : List ℕ} (hx : Between b.down b.up x) : f x = f b.up := by
  have h1 : Between (List.replicate maxStates.length 1) maxStates b.up :=
    between_replicate.2 ⟨by rw [hb.up, hm], fun i hi => by
      have := hb.le i (by omega); omega⟩
  have h2 : Between (List.replicate maxStates.length 1) b.up x :=
    between_replicate.2 ⟨by rw [hx.1, hb.down, hm], fun i hi => by
      have := hb.le i (by omega)
      have := hx.2 i (by rw [hb.down]; omega)
      omega⟩
  have h3 : Between (List.replicate maxStates.length 1) maxStates x :=
    between_replicate.2 ⟨by rw [hx.1, hb.down, hm], fun i hi => by
      have := hb.le i (by omega)
      have := hx.2 i (by rw [hb.down]; omega)
      omega⟩
  have h4 : Between (List.replicate maxStates.length 1) x b.down :=
    between_replicate.2 ⟨by rw [hb.down, hm], fun i hi => by
      have := hb.le i (by omega)
      have := hx.2 i (by rw [hb.down]; omega)
      omega⟩
  rcases h with h | h
  · have := h _ _ h1 h2
    have := h _ _ h3 h4
    omega
  · have := h _ _ h1 h2
    have := h _ _ h3 h4
    omega

theorem eraseIdx_mid {α : Type} (pre : List α) (b : α) (post : List α) :
    (pre ++ b :: post).eraseIdx pre.length = pre ++ post := by
  rw [List.eraseIdx_append_of_length_le le_rfl]
  simp

theorem set_mid {α : Type} (pre : List α) (b c : α) (post : List α) :
    (pre ++ b :: post).set pre.length c = pre ++ c :: post := by
  rw [List.set_append_right _ _ le_rfl]
  simp

theorem pyGet_mid {α : Type} (pre : List α) (b : α) (post : List α) :
    pyGet (pre ++ b :: post) pre.length = .ok b := by
  unfold pyGet
  rw [List.getElem?_append_right le_rfl]
  simp

theorem oldLoop_ok {sysFn : List ℕ → Except Err (SysOut V R)}
    {nextComp : List K → R → R → Except Err K} {nextState : K → ℕ → ℕ → R → R → Except Err ℕ}
    {arcs : List K} (hn : arcs.Nodup) {maxStates : List ℕ} (hm : maxStates.length = arcs.length)
    {f : List ℕ → ℕ}
    (hf : Computes sysFn maxStates f) (hc : BnbCoherent maxStates f)
    (ha : Admissible arcs maxStates nextComp nextState) :
    ∀ (n : ℕ) (brs : List (OldBranch K V)), oldWork brs < n →
    (∀ b ∈ brs, OldBoxOK arcs maxStates b) → (∀ b ∈ brs, b.complete = true → OldDone sysFn f b) →
    ∃ out, oldLoop sysFn nextComp nextState arcs n brs (getIdxFrom 0 brs false) = .ok out ∧
      (∀ b ∈ out, OldBoxOK arcs maxStates b ∧ b.complete = true ∧ OldDone sysFn f b) ∧
      ∀ x, ohits out x = ohits brs x := by
  intro n
  induction n with
  | zero => intro brs h; omega
  | succ n ih =>
    intro brs hw hbox hdone
    cases hidx : getIdxFrom 0 brs false with
    | nil =>
      have := getIdxFrom_eq_nil.1 hidx
      exact ⟨brs, rfl, fun b hb => ⟨hbox b hb, this b hb, hdone b hb (this b hb)⟩, fun _ => rfl⟩
    | cons i idx =>
      obtain ⟨pre, b, post, rfl, hpre, hbc, hi, hix⟩ := getIdxFrom_split hidx
      rw [Nat.zero_add] at hi
      subst hi
      have hb := hbox b (by simp)
      have hbd : Between (List.replicate maxStates.length 1) maxStates b.down :=
        between_replicate.2 ⟨by rw [hb.down, hm], fun i hi => by
          have := hb.le i (by omega); omega⟩
      have hbu : Between (List.replicate maxStates.length 1) maxStates b.up :=
        between_replicate.2 ⟨by rw [hb.up, hm], fun i hi => by
          have := hb.le i (by omega); omega⟩
      obtain ⟨v1, r1, e1⟩ := hf _ hbd
      obtain ⟨v2, r2, e2⟩ := hf _ hbu
      unfold oldLoop
      rw [pyGet_mid, ok_bind, e1, ok_bind, e2, ok_bind]
      simp only
      rw [oldWork_append, oldWork_cons, hbc] at hw
      simp only [Bool.false_eq_true, if_false] at hw
      have hp : 2 ≤ 2 ^ (width b.down b.up + 1) := by
        rw [Nat.pow_succ]; have := Nat.one_le_two_pow (n := width b.down b.up); omega
      by_cases hst : f b.down = f b.up
      · rw [if_pos hst, set_mid]
        have hidx' : idx = getIdxFrom 0 (pre ++ { b with complete := true, downState := f b.down, upState := f b.up, downVal := some v1, upVal := some v2 } :: post) false := by
          rw [getIdxFrom_append, getIdxFrom_eq_nil.2 hpre, getIdxFrom_cons]
          simp only [Bool.true_eq_false, if_false, List.nil_append, hix, Nat.zero_add]
        rw [hidx']
        obtain ⟨out, e3, h3, h4⟩ := ih (pre ++ { b with complete := true, downState := f b.down, upState := f b.up, downVal := some v1, upVal := some v2 } :: post)
          (by rw [oldWork_append, oldWork_cons]; simp only [if_true]; omega)
          (by
            intro c hcm
            rw [List.mem_append, List.mem_cons] at hcm
            rcases hcm with h | rfl | h
            · exact hbox c (by simp [h])
            · exact ⟨hb.down, hb.up, hb.names, hb.le⟩
            · exact hbox c (by simp [h]))
          (by
            intro c hcm hcc
            rw [List.mem_append, List.mem_cons] at hcm
            rcases hcm with h | rfl | h
            · exact hdone c (by simp [h]) hcc
            · exact ⟨⟨_, _, e1, e2, rfl, rfl⟩, hst, fun x hx => coherent_const hc hm hb hst hx⟩
            · exact hdone c (by simp [h]) hcc)
        refine ⟨out, e3, h3, fun x => ?_⟩
        rw [h4, ohits_append, ohits_append, ohits_cons, ohits_cons]
      · rw [if_neg hst]
        have hcand : candComps arcs b ≠ [] := by
          intro h0
          apply hst
          congr 1
          refine List.ext_getElem (by rw [hb.down, hb.up]) fun i hi1 hi2 => ?_
          have hi : i < arcs.length := by rw [← hb.down]; exact hi1
          have h1 : arcs[i] ∉ candComps arcs b := by rw [h0]; simp
          rw [mem_candComps hb.down hb.up] at h1
          have h2 : ¬ b.down.getD i 0 < b.up.getD i 0 := fun h =>
            h1 ⟨i, List.getElem?_eq_getElem hi, h⟩
          have h3 := (hb.le i hi).2.1
          have h4 : b.down.getD i 0 = b.up.getD i 0 := by omega
          simpa [List.getD_eq_getElem?_getD, hi1, hi2] using h4
        obtain ⟨c, hcm, e3⟩ := ha.comp (candComps arcs b) r1 r2 hcand fun c hcm => by
          obtain ⟨i, h1, -⟩ := (mem_candComps hb.down hb.up).1 hcm
          exact List.mem_iff_getElem?.2 ⟨i, h1⟩
        obtain ⟨j, hj, hlt⟩ := (mem_candComps hb.down hb.up).1 hcm
        obtain ⟨hjl, hjc⟩ := List.getElem?_eq_some_iff.1 hj
        have hjx : arcs.idxOf c = j := by rw [← hjc]; exact hn.idxOf_getElem j hjl
        have hj1 : j < b.down.length := by rw [hb.down]; exact hjl
        have hj2 : j < b.up.length := by rw [hb.up]; exact hjl
        have hjm : j < maxStates.length := by omega
        obtain ⟨s, e4, hs1, hs2⟩ := ha.state j c (maxStates.getD j 0) hj
          (by rw [List.getD_eq_getElem?_getD, List.getElem?_eq_getElem hjm]; rfl)
          (b.down.getD j 0) (b.up.getD j 0) r1 r2 (hb.le j hjl).1 hlt (hb.le j hjl).2.2
        rw [e3, ok_bind, pyIndex_eq, if_pos (List.mem_iff_getElem?.2 ⟨j, hj⟩), ok_bind, hjx,
          pyGet_lt hj1 0, ok_bind, pyGet_lt hj2 0, ok_bind, e4, ok_bind, eraseIdx_mid]
        have hw1 : width b.down (b.up.set j s) < width b.down b.up := by
          refine width_lt rfl (fun i hi => ⟨le_rfl, ?_⟩) hj1 ?_
          · rw [getD_set _ _ _ _ hj2]; split
            · rename_i e; subst e; omega
            · exact le_rfl
          · rw [getD_set _ _ _ _ hj2, if_pos rfl]; omega
        have hw2 : width (b.down.set j (s + 1)) b.up < width b.down b.up := by
          refine width_lt (by simp) (fun i hi => ⟨?_, le_rfl⟩) hj1 ?_
          · rw [getD_set _ _ _ _ hj1]; split
            · rename_i e; subst e; omega
            · exact le_rfl
          · rw [getD_set _ _ _ _ hj1, if_pos rfl]; omega
        have hp1 : 2 ^ (width b.down (b.up.set j s) + 1) ≤ 2 ^ width b.down b.up :=
          Nat.pow_le_pow_right (by omega) hw1
        have hp2 : 2 ^ (width (b.down.set j (s + 1)) b.up + 1) ≤ 2 ^ width b.down b.up :=
          Nat.pow_le_pow_right (by omega) hw2
        have hp3 : 2 ^ (width b.down b.up + 1) = 2 ^ width b.down b.up * 2 := Nat.pow_succ ..
        have hp4 := Nat.one_le_two_pow (n := width b.down (b.up.set j s) + 1)
        have hp5 := Nat.one_le_two_pow (n := width (b.down.set j (s + 1)) b.up + 1)
        obtain ⟨out, e5, h3, h4⟩ := ih (pre ++ post ++
          [{ b with up := b.up.set j s }, { b with down := b.down.set j (s + 1) }])
          (by
            rw [oldWork_append, oldWork_append, oldWork_cons, oldWork_cons]
            simp only [hbc, Bool.false_eq_true, if_false]
            have : oldWork ([] : List (OldBranch K V)) = 0 := rfl
            omega)
          (by
            intro d hd
            rw [List.mem_append, List.mem_append, List.mem_cons, List.mem_singleton] at hd
            rcases hd with (h | h) | rfl | rfl
            · exact hbox d (by simp [h])
            · exact hbox d (by simp [h])
            · refine ⟨hb.down, by simp [hb.up], hb.names, fun i hi => ?_⟩
              have := hb.le i hi
              simp only
              rw [getD_set _ _ _ _ hj2]
              split
              · rename_i e; subst e; omega
              · exact this
            · refine ⟨by simp [hb.down], hb.up, hb.names, fun i hi => ?_⟩
              have := hb.le i hi
              simp only
              rw [getD_set _ _ _ _ hj1]
              split
              · rename_i e; subst e; omega
              · exact this)
          (by
            intro d hd hdc
            rw [List.mem_append, List.mem_append, List.mem_cons, List.mem_singleton] at hd
            rcases hd with (h | h) | rfl | rfl
            · exact hdone d (by simp [h]) hdc
            · exact hdone d (by simp [h]) hdc
            · simp only at hdc; rw [hbc] at hdc; cases hdc
            · simp only at hdc; rw [hbc] at hdc; cases hdc)
        refine ⟨out, e5, h3, fun x => ?_⟩
        rw [h4, ohits_append, ohits_append, ohits_append, ohits_cons, ohits_cons, ohits_cons]
        simp only
        rw [show ohits ([] : List (OldBranch K V)) x = 0 from rfl]
        simp only [between_set_up (hb.up.trans hb.down.symm) hj1 (by omega : s ≤ b.up.getD j 0),
          between_set_down (up := b.up) (x := x) hj1 (by omega : b.down.getD j 0 ≤ s + 1)]
        by_cases hx : Between b.down b.up x
        · by_cases hxs : x.getD j 0 ≤ s
          · have : ¬ s + 1 ≤ x.getD j 0 := by omega
            rw [if_pos ⟨hx, hxs⟩, if_neg (fun h => this h.2), if_pos hx]
            omega
          · have : s + 1 ≤ x.getD j 0 := by omega
            rw [if_neg (fun h => hxs h.2), if_pos ⟨hx, this⟩, if_pos hx]
            omega
        · rw [if_neg (fun h => hx h.1), if_neg (fun h => hx h.1), if_neg hx]
          omega

theorem width_le_sum (maxStates : List ℕ) (n : ℕ) :
    width (List.replicate n 1) maxStates ≤ maxStates.sum := by
  have : maxStates.sum = ∑ i ∈ Finset.range maxStates.length, maxStates.getD i 0 := by
    induction maxStates with
    | nil => rfl
    | cons a l ih =>
      rw [List.sum_cons, List.length_cons, Finset.sum_range_succ', ih]
      simp [Nat.add_comm]
  have h2 : ∑ i ∈ Finset.range n, maxStates.getD i 0 ≤
      ∑ i ∈ Finset.range maxStates.length, maxStates.getD i 0 := by
    by_cases h : n ≤ maxStates.length
    · exact Finset.sum_le_sum_of_subset (Finset.range_mono h)
    · refine le_of_eq (Finset.sum_subset (Finset.range_mono (by omega)) fun i _ hi => ?_).symm
      rw [Finset.mem_range] at hi
      rw [List.getD_eq_getElem?_getD, List.getElem?_eq_none (by omega)]
      rfl
  unfold width
  rw [List.length_replicate, this]
  refine le_trans (Finset.sum_le_sum fun i _ => Nat.sub_le _ _) h2

theorem runBnb_ok {sysFn : List ℕ → Except Err (SysOut V R)}
    {nextComp : List K → R → R → Except Err K} {nextState : K → ℕ → ℕ → R → R → Except Err ℕ}
    {arcs : List K} (hn : arcs.Nodup) {maxStates : List ℕ} (hm : maxStates.length = arcs.length)
    (h1 : ∀ m ∈ maxStates, 1 ≤ m) {f : List ℕ → ℕ}
    (hf : Computes sysFn maxStates f) (hc : BnbCoherent maxStates f)
    (ha : Admissible arcs maxStates nextComp nextState) :
    ∃ out, runBnb sysFn nextComp nextState arcs maxStates = .ok out ∧
      (∀ b ∈ out, OldBoxOK arcs maxStates b ∧ b.complete = true ∧ OldDone sysFn f b) ∧
      ∀ x, ohits out x =
        if Between (List.replicate maxStates.length 1) maxStates x then 1 else 0 := by
  unfold runBnb OldBranch.new
  rw [List.length_replicate, if_neg (by simp), if_neg (by simpa using hm), ok_bind]
  obtain ⟨out, e, h2, h3⟩ := oldLoop_ok hn hm hf hc ha (2 ^ (maxStates.sum + 1))
    [⟨List.replicate maxStates.length 1, maxStates, arcs, false, 1, 1, none, none⟩]
    (by
      rw [oldWork_cons]
      simp only [Bool.false_eq_true, if_false]
      have : oldWork ([] : List (OldBranch K V)) = 0 := rfl
      have h5 : 2 ^ (width (List.replicate maxStates.length 1) maxStates + 1) ≤
          2 ^ (maxStates.sum + 1) :=
        Nat.pow_le_pow_right (by omega) (Nat.succ_le_succ (width_le_sum _ _))
      have := Nat.one_le_two_pow (n := width (List.replicate maxStates.length 1) maxStates + 1)
      omega)
    (by
      intro b hb
      rw [List.mem_singleton] at hb
      subst hb
      refine ⟨by simp [hm], hm, rfl, fun i hi => ?_⟩
      have hi' : i < maxStates.length := by omega
      have := h1 _ (List.getElem_mem hi')
      simp only [List.getD_eq_getElem?_getD, List.getElem?_eq_getElem hi',
        List.getElem?_replicate, if_pos hi', Option.getD_some]
      omega)
    (by intro b hb hbc; rw [List.mem_singleton] at hb; subst hb; cases hbc)
  refine ⟨out, e, h2, fun x => ?_⟩
  rw [h3, ohits_cons]
  rfl

end BNS
