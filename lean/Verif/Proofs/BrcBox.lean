import Verif.Proofs.BrcRules
import Verif.Proofs.SumOver
import Mathlib.Tactic.Linarith
import Mathlib.Tactic.Ring
import Mathlib.Algebra.Order.BigOperators.GroupWithZero.List

/-! Helper lemmas: boxes and their probabilities. -/

namespace BNS

set_option linter.unusedSectionVars false

variable {K : Type} [DecidableEq K]

theorem rangeProb_eq (q : ℕ → ℚ) {lo hi n : ℕ} (h : hi < n) :
    rangeProb q lo hi = ∑ i ∈ Finset.range n, if lo ≤ i ∧ i ≤ hi then q i else 0 := by
  unfold rangeProb
  rw [← Finset.sum_filter]
  have h1 : ((List.range' lo (hi + 1 - lo)).map q).sum =
      ∑ i ∈ (List.range' lo (hi + 1 - lo)).toFinset, q i :=
    (List.sum_toFinset q List.nodup_range').symm
  rw [h1]
  refine Finset.sum_congr ?_ fun _ _ => rfl
  ext i
  simp only [List.mem_toFinset, List.mem_range'_1, Finset.mem_filter, Finset.mem_range]
  omega

theorem prod_ite (vs : List (K × ℕ)) (P : K × ℕ → Prop) [DecidablePred P] (q : K × ℕ → ℚ) :
    (vs.map fun kn => if P kn then q kn else 0).prod =
      if ∀ kn ∈ vs, P kn then (vs.map q).prod else 0 := by
  induction vs with
  | nil => simp
  | cons kn vs ih =>
    rw [List.map_cons, List.prod_cons, ih]
    by_cases h : P kn
    · simp only [h, if_true, List.mem_cons, forall_eq_or_imp, true_and, List.map_cons,
        List.prod_cons, mul_ite, mul_zero]
    · simp [h]

theorem approxProb_eq {vs : List (K × ℕ)} (hv : VarisOK vs) (probs : K → ℕ → ℚ) {b : Branch K}
    (hb : BoxOK vs b) : approxProb vs probs b.down b.up = probOf vs probs (InBox vs b) := by
  unfold approxProb probOf
  have h1 : (fun x : K → ℕ => if InBox vs b x then weight vs probs x else 0) =
      fun x => (vs.map fun kn => (fun k i => if b.down k ≤ i ∧ i ≤ b.up k then probs k i else 0)
        kn.1 (x kn.1)).prod := by
    funext x
    rw [prod_ite vs (fun kn => b.down kn.1 ≤ x kn.1 ∧ x kn.1 ≤ b.up kn.1)
      (fun kn => probs kn.1 (x kn.1))]
    rfl
  rw [h1, sumOver_prod vs hv.nodup (fun k i => if b.down k ≤ i ∧ i ≤ b.up k then probs k i else 0)]
  congr 1
  exact List.map_congr_left fun kn hkn => rangeProb_eq _ (hb kn hkn).2

theorem weight_nonneg {vs : List (K × ℕ)} {probs : K → ℕ → ℚ} (hp : ProbOK vs probs)
    {x : K → ℕ} (hx : InSpace vs x) : 0 ≤ weight vs probs x := by
  unfold weight
  refine List.prod_nonneg ?_
  intro q hq
  obtain ⟨kn, hkn, rfl⟩ := List.mem_map.1 hq
  exact hp.nonneg kn hkn _ (hx kn hkn)

theorem probOf_mono {vs : List (K × ℕ)} (hv : VarisOK vs) {probs : K → ℕ → ℚ}
    (hp : ProbOK vs probs) (E F : (K → ℕ) → Prop) [DecidablePred E] [DecidablePred F]
    (h : ∀ x, InSpace vs x → E x → F x) : probOf vs probs E ≤ probOf vs probs F := by
  refine sumOver_mono vs hv.nodup _ fun y hy _ => ?_
  have := weight_nonneg hp hy
  by_cases hE : E y
  · simp [hE, h y hy hE]
  · rw [if_neg hE]; split <;> simp [this]

theorem probOf_congr {vs : List (K × ℕ)} (hv : VarisOK vs) (probs : K → ℕ → ℚ)
    (E F : (K → ℕ) → Prop) [DecidablePred E] [DecidablePred F]
    (h : ∀ x, InSpace vs x → (E x ↔ F x)) : probOf vs probs E = probOf vs probs F := by
  refine sumOver_congr' vs hv.nodup _ fun y hy _ => ?_
  exact if_congr (h y hy) rfl rfl

theorem probOf_true {vs : List (K × ℕ)} (hv : VarisOK vs) {probs : K → ℕ → ℚ}
    (hp : ProbOK vs probs) : probOf vs probs (fun _ => True) = 1 := by
  unfold probOf weight
  simp only [if_true]
  rw [sumOver_prod vs hv.nodup]
  have : (vs.map fun kn => ∑ i ∈ Finset.range kn.2, probs kn.1 i) = vs.map fun _ => 1 :=
    List.map_congr_left fun kn hkn => hp.total kn hkn
  rw [this]
  simp

theorem probOf_nonneg {vs : List (K × ℕ)} (hv : VarisOK vs) {probs : K → ℕ → ℚ}
    (hp : ProbOK vs probs) (E : (K → ℕ) → Prop) [DecidablePred E] : 0 ≤ probOf vs probs E := by
  have := probOf_mono hv hp (fun _ => False) E (fun _ _ h => h.elim)
  refine le_trans (le_of_eq ?_) this
  unfold probOf
  simp [sumOver_zero]

theorem probOf_not {vs : List (K × ℕ)} (hv : VarisOK vs) {probs : K → ℕ → ℚ}
    (hp : ProbOK vs probs) (E : (K → ℕ) → Prop) [DecidablePred E] :
    probOf vs probs (fun x => ¬ E x) = 1 - probOf vs probs E := by
  rw [← probOf_true hv hp]
  unfold probOf
  rw [← sumOver_sub]
  congr 1
  funext x
  by_cases h : E x <;> simp [h]

theorem sumOver_list {α : Type} (vs : List (K × ℕ)) (l : List α) (f : α → (K → ℕ) → ℚ)
    (x : K → ℕ) : sumOver vs (fun y => (l.map fun a => f a y).sum) x =
      (l.map fun a => sumOver vs (f a) x).sum := by
  induction l with
  | nil => simp [sumOver_zero]
  | cons a l ih => simp only [List.map_cons, List.sum_cons, sumOver_add, ih]

theorem sum_count {α : Type} (l : List α) (P : α → Prop) [DecidablePred P] (w : ℚ) :
    (l.map fun a => if P a then w else 0).sum = (l.countP fun a => decide (P a)) * w := by
  induction l with
  | nil => simp
  | cons a l ih =>
    rw [List.map_cons, List.sum_cons, ih, List.countP_cons]
    by_cases h : P a
    · simp [h]; ring
    · simp [h]

/-- The probabilities of the selected branches of a partition: the probability of lying in one of
them. -/
theorem partition_prob {vs : List (K × ℕ)} (hv : VarisOK vs) (probs : K → ℕ → ℚ)
    {brs : List (Branch K)} (hpart : Partition vs brs)
    (hp : ∀ b ∈ brs, b.p = probOf vs probs (InBox vs b)) (S : Branch K → Bool) :
    ((brs.filter S).map fun b => b.p).sum =
      probOf vs probs (fun x => ∃ b ∈ brs, S b = true ∧ InBox vs b x) := by
  have h1 : ((brs.filter S).map fun b => b.p) =
      (brs.filter S).map fun b => probOf vs probs (InBox vs b) :=
    List.map_congr_left fun b hb => hp b (List.mem_filter.1 hb).1
  rw [h1]
  unfold probOf
  rw [← sumOver_list vs (brs.filter S) (fun b x => if InBox vs b x then weight vs probs x else 0)]
  refine sumOver_congr' vs hv.nodup _ fun y hy _ => ?_
  rw [sum_count]
  have hc := hpart.2 y hy
  have hle : (brs.filter S).countP (fun b => decide (InBox vs b y)) ≤ 1 := by
    rw [← hc]
    exact List.Sublist.countP_le List.filter_sublist
  by_cases he : ∃ b ∈ brs, S b = true ∧ InBox vs b y
  · rw [if_pos he]
    obtain ⟨b, hb, hS, hin⟩ := he
    have : 0 < (brs.filter S).countP (fun b => decide (InBox vs b y)) :=
      List.countP_pos_iff.2 ⟨b, List.mem_filter.2 ⟨hb, hS⟩, by simpa using hin⟩
    have : (brs.filter S).countP (fun b => decide (InBox vs b y)) = 1 := by omega
    rw [this]; simp
  · rw [if_neg he]
    have : (brs.filter S).countP (fun b => decide (InBox vs b y)) = 0 := by
      rw [List.countP_eq_zero]
      intro b hb hin
      obtain ⟨h1, h2⟩ := List.mem_filter.1 hb
      exact he ⟨b, h1, h2, by simpa using hin⟩
    rw [this]; simp

/-- The branch of a partition that contains `x`. -/
theorem Partition.exists {vs : List (K × ℕ)} {brs : List (Branch K)} (h : Partition vs brs)
    {x : K → ℕ} (hx : InSpace vs x) : ∃ b ∈ brs, InBox vs b x := by
  have := h.2 x hx
  have hpos : 0 < brs.countP (fun b => decide (InBox vs b x)) := by omega
  obtain ⟨b, hb, hin⟩ := List.countP_pos_iff.1 hpos
  exact ⟨b, hb, by simpa using hin⟩

theorem BoxOK.inSpace {vs : List (K × ℕ)} {b : Branch K} (hb : BoxOK vs b) {x : K → ℕ}
    (hx : InBox vs b x) : InSpace vs x := fun kn hkn =>
  lt_of_le_of_lt (hx kn hkn).2 (hb kn hkn).2

theorem BoxOK.down {vs : List (K × ℕ)} {b : Branch K} (hb : BoxOK vs b) : InBox vs b b.down :=
  fun kn hkn => ⟨le_rfl, (hb kn hkn).1⟩

theorem BoxOK.up {vs : List (K × ℕ)} {b : Branch K} (hb : BoxOK vs b) : InBox vs b b.up :=
  fun kn hkn => ⟨(hb kn hkn).1, le_rfl⟩

theorem topState_eq {vs : List (K × ℕ)} (hv : VarisOK vs) {kn : K × ℕ} (h : kn ∈ vs) :
    topState vs kn.1 = kn.2 - 1 := by
  unfold topState
  have : vs.lookup kn.1 = some kn.2 := lookup_of_mem hv.nodup h
  rw [this]

theorem initBranch_part {vs : List (K × ℕ)} (hv : VarisOK vs) (rules : Rules K) :
    Partition vs (initBranch vs rules) := by
  have hbox : ∀ b ∈ initBranch vs rules, b.down = (fun _ => 0) ∧ b.up = topState vs := by
    intro b hb
    simp only [initBranch, List.mem_singleton] at hb
    subst hb
    exact ⟨rfl, rfl⟩
  refine ⟨?_, ?_⟩
  · intro b hb kn hkn
    obtain ⟨h1, h2⟩ := hbox b hb
    rw [h1, h2, topState_eq hv hkn]
    have := hv.pos kn hkn
    exact ⟨Nat.zero_le _, by omega⟩
  · intro x hx
    simp only [initBranch, List.countP_cons, List.countP_nil]
    rw [if_pos]
    simp only [decide_eq_true_eq]
    intro kn hkn
    have := hx kn hkn
    exact ⟨Nat.zero_le _, by
      show x kn.1 ≤ topState vs kn.1
      rw [topState_eq hv hkn]; omega⟩

theorem initBranch_p {vs : List (K × ℕ)} (hv : VarisOK vs) {probs : K → ℕ → ℚ}
    (hp : ProbOK vs probs) (rules : Rules K) :
    ∀ b ∈ initBranch vs rules, b.p = probOf vs probs (InBox vs b) := by
  intro b hb
  have hpart := initBranch_part hv rules
  have hall : ∀ x, InSpace vs x → InBox vs b x := by
    intro x hx
    obtain ⟨b', hb', hin⟩ := hpart.exists hx
    simp only [initBranch, List.mem_singleton] at hb hb'
    rw [hb, ← hb']; exact hin
  have h1 : b.p = 1 := by
    simp only [initBranch, List.mem_singleton] at hb
    rw [hb]
  rw [h1, ← probOf_true hv hp]
  exact probOf_congr hv probs _ _ fun x hx => ⟨fun _ => hall x hx, fun _ => trivial⟩

/-! ## Splitting a box -/

@[simp] theorem newBranch_down_true (vs : List (K × ℕ)) (b : Branch K) (rules probs xd st) :
    (b.newBranch vs rules probs xd st true).down = b.down := rfl
@[simp] theorem newBranch_up_true (vs : List (K × ℕ)) (b : Branch K) (rules probs xd st) :
    (b.newBranch vs rules probs xd st true).up = Function.update b.up xd (st - 1) := rfl
@[simp] theorem newBranch_down_false (vs : List (K × ℕ)) (b : Branch K) (rules probs xd st) :
    (b.newBranch vs rules probs xd st false).down = Function.update b.down xd st := rfl
@[simp] theorem newBranch_up_false (vs : List (K × ℕ)) (b : Branch K) (rules probs xd st) :
    (b.newBranch vs rules probs xd st false).up = b.up := rfl

theorem newBranch_p (vs : List (K × ℕ)) (b : Branch K) (rules : Rules K) (probs xd st)
    (flag : Bool) : (b.newBranch vs rules probs xd st flag).p =
      approxProb vs probs (b.newBranch vs rules probs xd st flag).down
        (b.newBranch vs rules probs xd st flag).up := by
  cases flag <;> rfl

theorem newBranch_boxOK {vs : List (K × ℕ)} {b : Branch K} (hb : BoxOK vs b) (rules : Rules K)
    (probs : K → ℕ → ℚ) {xd : K} {st : ℕ} (h1 : b.down xd < st) (h2 : st ≤ b.up xd)
    (flag : Bool) : BoxOK vs (b.newBranch vs rules probs xd st flag) := by
  intro kn hkn
  have := hb kn hkn
  cases flag
  · rw [newBranch_down_false, newBranch_up_false]
    by_cases he : kn.1 = xd
    · rw [he, Function.update_self]; rw [he] at this; exact ⟨h2, this.2⟩
    · rw [Function.update_of_ne he]; exact this
  · rw [newBranch_down_true, newBranch_up_true]
    by_cases he : kn.1 = xd
    · rw [he, Function.update_self]; rw [he] at this; omega
    · rw [Function.update_of_ne he]; exact this

theorem split_count {vs : List (K × ℕ)} (b : Branch K) (rules : Rules K)
    (probs : K → ℕ → ℚ) {xd : K} {st : ℕ} (hk : xd ∈ vs.map Prod.fst) (h1 : b.down xd < st)
    (h2 : st ≤ b.up xd) (x : K → ℕ) :
    ((if InBox vs (b.newBranch vs rules probs xd st true) x then 1 else 0) +
      (if InBox vs (b.newBranch vs rules probs xd st false) x then 1 else 0) : ℕ) =
      if InBox vs b x then 1 else 0 := by
  obtain ⟨kn, hkn, rfl⟩ := List.mem_map.1 hk
  have e1 : InBox vs (b.newBranch vs rules probs kn.1 st true) x ↔
      InBox vs b x ∧ x kn.1 < st := by
    constructor
    · intro h
      have h0 := h kn hkn
      rw [newBranch_up_true, Function.update_self] at h0
      refine ⟨fun kn' hkn' => ?_, by omega⟩
      have := h kn' hkn'
      rw [newBranch_down_true, newBranch_up_true] at this
      by_cases he : kn'.1 = kn.1
      · rw [he] at this ⊢; rw [Function.update_self] at this; omega
      · rwa [Function.update_of_ne he] at this
    · rintro ⟨h, hlt⟩ kn' hkn'
      have := h kn' hkn'
      rw [newBranch_down_true, newBranch_up_true]
      by_cases he : kn'.1 = kn.1
      · rw [he] at this ⊢; rw [Function.update_self]; omega
      · rwa [Function.update_of_ne he]
  have e2 : InBox vs (b.newBranch vs rules probs kn.1 st false) x ↔
      InBox vs b x ∧ st ≤ x kn.1 := by
    constructor
    · intro h
      have h0 := h kn hkn
      rw [newBranch_down_false, Function.update_self] at h0
      refine ⟨fun kn' hkn' => ?_, by omega⟩
      have := h kn' hkn'
      rw [newBranch_down_false, newBranch_up_false] at this
      by_cases he : kn'.1 = kn.1
      · rw [he] at this ⊢; rw [Function.update_self] at this; omega
      · rwa [Function.update_of_ne he] at this
    · rintro ⟨h, hlt⟩ kn' hkn'
      have := h kn' hkn'
      rw [newBranch_down_false, newBranch_up_false]
      by_cases he : kn'.1 = kn.1
      · rw [he] at this ⊢; rw [Function.update_self]; omega
      · rwa [Function.update_of_ne he]
  rw [if_congr e1 rfl rfl, if_congr e2 rfl rfl]
  by_cases h : InBox vs b x
  · rcases Nat.lt_or_ge (x kn.1) st with h' | h'
    · simp [h, h', Nat.not_le.2 h']
    · simp [h, h', Nat.not_lt.2 h']
  · simp [h]

theorem size_pos {vs : List (K × ℕ)} {b : Branch K} (hb : BoxOK vs b) : 0 < b.size vs := by
  unfold Branch.size
  refine List.prod_pos ?_
  intro q hq
  obtain ⟨kn, hkn, rfl⟩ := List.mem_map.1 hq
  have := hb kn hkn
  omega

theorem prod_update_split (vs : List (K × ℕ)) (hn : (vs.map Prod.fst).Nodup) {xd : K}
    (hk : xd ∈ vs.map Prod.fst) (f g h : K → ℕ) (h1 : f xd = g xd + h xd)
    (h2 : ∀ k, k ≠ xd → g k = f k ∧ h k = f k) :
    (vs.map fun kn => f kn.1).prod = (vs.map fun kn => g kn.1).prod +
      (vs.map fun kn => h kn.1).prod := by
  induction vs with
  | nil => simp at hk
  | cons kn vs ih =>
    rw [List.map_cons, List.nodup_cons] at hn
    simp only [List.map_cons, List.prod_cons]
    by_cases he : kn.1 = xd
    · have hother : ∀ kn' ∈ vs, kn'.1 ≠ xd := by
        intro kn' hkn' e
        exact hn.1 (he ▸ e ▸ List.mem_map_of_mem hkn')
      have eg : (vs.map fun kn => g kn.1) = vs.map fun kn => f kn.1 :=
        List.map_congr_left fun kn' h' => (h2 _ (hother kn' h')).1
      have eh : (vs.map fun kn => h kn.1) = vs.map fun kn => f kn.1 :=
        List.map_congr_left fun kn' h' => (h2 _ (hother kn' h')).2
      rw [eg, eh, he, h1]
      ring
    · rw [List.map_cons, List.mem_cons] at hk
      have hk' := hk.resolve_left (Ne.symm he)
      rw [ih hn.2 hk', (h2 _ he).1, (h2 _ he).2]
      ring

theorem split_size {vs : List (K × ℕ)} (hv : VarisOK vs) (b : Branch K) (rules : Rules K)
    (probs : K → ℕ → ℚ) {xd : K} {st : ℕ} (hk : xd ∈ vs.map Prod.fst) (h1 : b.down xd < st)
    (h2 : st ≤ b.up xd) :
    b.size vs = (b.newBranch vs rules probs xd st true).size vs +
      (b.newBranch vs rules probs xd st false).size vs := by
  unfold Branch.size
  refine prod_update_split vs hv.nodup hk (fun k => b.up k + 1 - b.down k)
    (fun k => (b.newBranch vs rules probs xd st true).up k + 1 -
      (b.newBranch vs rules probs xd st true).down k)
    (fun k => (b.newBranch vs rules probs xd st false).up k + 1 -
      (b.newBranch vs rules probs xd st false).down k) ?_ ?_
  · simp; omega
  · intro k hne
    simp [Function.update_of_ne hne]

theorem evalState_down (b : Branch K) (rules : Rules K) : (b.evalState rules).down = b.down := rfl
theorem evalState_up (b : Branch K) (rules : Rules K) : (b.evalState rules).up = b.up := rfl
theorem evalState_p (b : Branch K) (rules : Rules K) : (b.evalState rules).p = b.p := rfl

end BNS
