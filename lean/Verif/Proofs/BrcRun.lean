import Verif.Proofs.BrcDecomp
import Mathlib.Tactic.Linarith

/-! Helper lemmas: choosing the next vector, the monitor, the loop of `run`. -/

namespace BNS

set_option linter.unusedSectionVars false

variable {K : Type} [DecidableEq K] {vs : List (K × ℕ)} {Φ : (K → ℕ) → Bool}

/-! ## `get_comp_st` -/

/-- No label is unknown. -/
def NoUnknown (brs : List (Branch K)) : Prop :=
  ∀ b ∈ brs, b.downState ≠ .u ∧ b.upState ≠ .u

/-- `x` is an end point with unknown label. -/
def UnknownEnd (brs : List (Branch K)) (x : K → ℕ) : Prop :=
  ∃ b ∈ brs, (x = b.up ∧ b.upState = .u) ∨ (x = b.down ∧ b.downState = .u)

theorem compStLoop_spec (probs : K → ℕ → ℚ) (brs : List (Branch K))
    (n : Option ((K → ℕ) × ℚ)) (acc out : List ((K → ℕ) × ℚ))
    (h : compStLoop vs probs brs n acc = .ok out) (hacc : n ≠ none → acc ≠ []) :
    (∀ xp ∈ out, xp ∈ acc ∨ (∃ m, n = some m ∧ xp = m) ∨
      ∃ b ∈ brs, xp.1 = b.up ∧ b.upState = .u) ∧
    (out = [] → acc = [] ∧ NoUnknown brs) ∧ (acc = [] → NoUnknown brs → out = []) := by
  induction brs generalizing n acc with
  | nil =>
    cases h
    exact ⟨fun xp h => .inl h, fun h => ⟨h, fun b hb => by cases hb⟩, fun h _ => h⟩
  | cons b brs ih =>
    unfold compStLoop at h
    by_cases hu : b.upState = .u
    · simp only [hu, if_true] at h
      by_cases hd : b.downState = .u
      · simp only [hd, if_true] at h
        obtain ⟨h1, h2, -⟩ := ih _ _ h (by intro _; simp)
        refine ⟨fun xp hxp => ?_, fun ho => ?_, fun _ hno => ?_⟩
        · rcases h1 xp hxp with h | ⟨m, hm, rfl⟩ | ⟨b', hb', h⟩
          · simp only [List.append_assoc, List.mem_append, List.mem_singleton] at h
            rcases h with h | h | h
            · exact .inl h
            · exact .inr (.inr ⟨b, by simp, by rw [h], hu⟩)
            · exact .inr (.inr ⟨b, by simp, by rw [h], hu⟩)
          · injection hm with hm
            exact .inr (.inr ⟨b, by simp, by rw [← hm], hu⟩)
          · exact .inr (.inr ⟨b', by simp [hb'], h⟩)
        · have := (h2 ho).1
          simp at this
        · exact absurd hu (hno b (by simp)).2
      · simp only [hd, if_false] at h
        obtain ⟨h1, h2, -⟩ := ih _ _ h (by intro _; simp)
        refine ⟨fun xp hxp => ?_, fun ho => ?_, fun _ hno => ?_⟩
        · rcases h1 xp hxp with h | ⟨m, hm, rfl⟩ | ⟨b', hb', h⟩
          · simp only [List.mem_append, List.mem_singleton] at h
            rcases h with h | h
            · exact .inl h
            · exact .inr (.inr ⟨b, by simp, by rw [h], hu⟩)
          · injection hm with hm
            exact .inr (.inr ⟨b, by simp, by rw [← hm], hu⟩)
          · exact .inr (.inr ⟨b', by simp [hb'], h⟩)
        · have := (h2 ho).1
          simp at this
        · exact absurd hu (hno b (by simp)).2
    · simp only [hu, if_false] at h
      by_cases hd : b.downState = .u
      · simp only [hd, if_true] at h
        cases n with
        | none => cases h
        | some m =>
          obtain ⟨h1, h2, -⟩ := ih _ _ h (by intro _; simp)
          refine ⟨fun xp hxp => ?_, fun ho => ?_, fun _ hno => ?_⟩
          · rcases h1 xp hxp with h | h | ⟨b', hb', h⟩
            · simp only [List.mem_append, List.mem_singleton] at h
              rcases h with h | h
              · exact .inl h
              · exact .inr (.inl ⟨m, rfl, h⟩)
            · exact .inr (.inl h)
            · exact .inr (.inr ⟨b', by simp [hb'], h⟩)
          · have := (h2 ho).1
            simp at this
          · exact absurd hd (hno b (by simp)).1
      · simp only [hd, if_false] at h
        obtain ⟨h1, h2, h3⟩ := ih _ _ h hacc
        refine ⟨fun xp hxp => ?_, fun ho => ?_, fun ha hno => ?_⟩
        · rcases h1 xp hxp with h | h | ⟨b', hb', h⟩
          · exact .inl h
          · exact .inr (.inl h)
          · exact .inr (.inr ⟨b', by simp [hb'], h⟩)
        · refine ⟨(h2 ho).1, fun b' hb' => ?_⟩
          rcases List.mem_cons.1 hb' with rfl | hb'
          · exact ⟨hd, hu⟩
          · exact (h2 ho).2 b' hb'
        · exact h3 ha fun b' hb' => hno b' (by simp [hb'])

theorem getCompSt_false_eq {probs : K → ℕ → ℚ} {brs : List (Branch K)} {o : Option (K → ℕ)}
    (h : getCompSt vs probs false brs = .ok o) :
    ∃ new, compStLoop vs probs brs none [] = .ok new ∧
      o = ((new.insertionSort fun a b => b.2 ≤ a.2).head?).map Prod.fst := by
  unfold getCompSt at h
  simp only [Bool.false_eq_true, if_false] at h
  cases hc : compStLoop vs probs brs none [] with
  | error e => rw [hc] at h; cases h
  | ok new => rw [hc] at h; cases h; exact ⟨new, rfl, rfl⟩

theorem getCompSt_false_some {probs : K → ℕ → ℚ} {brs : List (Branch K)} {x : K → ℕ}
    (h : getCompSt vs probs false brs = .ok (some x)) :
    ∃ b ∈ brs, x = b.up ∧ b.upState = .u := by
  obtain ⟨new, hc, ho⟩ := getCompSt_false_eq h
  obtain ⟨h1, -⟩ := compStLoop_spec probs brs none [] new hc (by simp)
  obtain ⟨xp, hxp, rfl⟩ := Option.map_eq_some_iff.1 ho.symm
  have hm : xp ∈ new := (List.mem_insertionSort _).1 (List.mem_of_mem_head? hxp)
  rcases h1 xp hm with h | ⟨m, hm, -⟩ | h
  · cases h
  · cases hm
  · exact h

theorem getCompSt_false_none {probs : K → ℕ → ℚ} {brs : List (Branch K)} :
    getCompSt vs probs false brs = .ok none ↔ NoUnknown brs := by
  constructor
  · intro h
    obtain ⟨new, hc, ho⟩ := getCompSt_false_eq h
    obtain ⟨-, h2, -⟩ := compStLoop_spec probs brs none [] new hc (by simp)
    refine (h2 ?_).2
    have h3 := Option.map_eq_none_iff.1 ho.symm
    rw [List.head?_eq_none_iff] at h3
    have := List.length_insertionSort (fun a b : (K → ℕ) × ℚ => b.2 ≤ a.2) new
    rw [h3] at this
    exact List.eq_nil_of_length_eq_zero this.symm
  · intro h
    have hc : compStLoop vs probs brs none [] = .ok [] := by
      induction brs with
      | nil => rfl
      | cons b brs ih =>
        obtain ⟨hd, hu⟩ := h b (by simp)
        unfold compStLoop
        simp only [hd, hu, if_false]
        exact ih fun b' hb' => h b' (by simp [hb'])
    unfold getCompSt
    simp only [Bool.false_eq_true, if_false]
    rw [hc]
    rfl

/-- Every unknown upper end point is among the candidates, with the probability above it. -/
theorem compStLoop_all (probs : K → ℕ → ℚ) (brs : List (Branch K))
    (n : Option ((K → ℕ) × ℚ)) (acc out : List ((K → ℕ) × ℚ))
    (h : compStLoop vs probs brs n acc = .ok out)
    (hn : ∀ m ∈ n, m.2 = approxProb vs probs m.1 (topState vs))
    (hacc : ∀ m ∈ acc, m.2 = approxProb vs probs m.1 (topState vs)) :
    (∀ m ∈ out, m.2 = approxProb vs probs m.1 (topState vs)) ∧ (∀ m ∈ acc, m ∈ out) ∧
    ∀ b ∈ brs, b.upState = .u → (b.up, approxProb vs probs b.up (topState vs)) ∈ out := by
  induction brs generalizing n acc with
  | nil =>
    cases h
    exact ⟨hacc, fun m hm => hm, fun b hb => by cases hb⟩
  | cons b brs ih =>
    unfold compStLoop at h
    by_cases hu : b.upState = .u
    · simp only [hu, if_true] at h
      have e1 : ∀ m ∈ some (b.up, approxProb vs probs b.up (topState vs)),
          m.2 = approxProb vs probs m.1 (topState vs) := by
        intro m hm
        cases hm
        rfl
      by_cases hd : b.downState = .u
      · simp only [hd, if_true] at h
        obtain ⟨h1, h2, h3⟩ := ih _ _ h e1 (by
          intro m hm
          simp only [List.append_assoc, List.mem_append, List.mem_singleton] at hm
          rcases hm with hm | rfl | rfl
          · exact hacc m hm
          · rfl
          · rfl)
        refine ⟨h1, fun m hm => h2 m (by simp [hm]), fun b' hb' hu' => ?_⟩
        rcases List.mem_cons.1 hb' with rfl | hb'
        · exact h2 _ (by simp)
        · exact h3 b' hb' hu'
      · simp only [hd, if_false] at h
        obtain ⟨h1, h2, h3⟩ := ih _ _ h e1 (by
          intro m hm
          simp only [List.mem_append, List.mem_singleton] at hm
          rcases hm with hm | rfl
          · exact hacc m hm
          · rfl)
        refine ⟨h1, fun m hm => h2 m (by simp [hm]), fun b' hb' hu' => ?_⟩
        rcases List.mem_cons.1 hb' with rfl | hb'
        · exact h2 _ (by simp)
        · exact h3 b' hb' hu'
    · simp only [hu, if_false] at h
      by_cases hd : b.downState = .u
      · simp only [hd, if_true] at h
        cases n with
        | none => cases h
        | some m0 =>
          obtain ⟨h1, h2, h3⟩ := ih _ _ h hn (by
            intro m hm
            simp only [List.mem_append, List.mem_singleton] at hm
            rcases hm with hm | rfl
            · exact hacc m hm
            · exact hn _ rfl)
          refine ⟨h1, fun m hm => h2 m (by simp [hm]), fun b' hb' hu' => ?_⟩
          rcases List.mem_cons.1 hb' with rfl | hb'
          · exact absurd hu' hu
          · exact h3 b' hb' hu'
      · simp only [hd, if_false] at h
        obtain ⟨h1, h2, h3⟩ := ih _ _ h hn hacc
        refine ⟨h1, h2, fun b' hb' hu' => ?_⟩
        rcases List.mem_cons.1 hb' with rfl | hb'
        · exact absurd hu' hu
        · exact h3 b' hb' hu'

/-- The vector returned has the largest probability of being reached or exceeded. -/
theorem getCompSt_false_max {probs : K → ℕ → ℚ} {brs : List (Branch K)} {x : K → ℕ}
    (h : getCompSt vs probs false brs = .ok (some x)) {b : Branch K} (hb : b ∈ brs)
    (hu : b.upState = .u) :
    approxProb vs probs b.up (topState vs) ≤ approxProb vs probs x (topState vs) := by
  obtain ⟨new, hc, ho⟩ := getCompSt_false_eq h
  obtain ⟨h1, -, h3⟩ := compStLoop_all probs brs none [] new hc (by simp) (by simp)
  obtain ⟨xp, hxp, rfl⟩ := Option.map_eq_some_iff.1 ho.symm
  have hm : xp ∈ new := (List.mem_insertionSort _).1 (List.mem_of_mem_head? hxp)
  have hs := List.pairwise_insertionSort (fun a b : (K → ℕ) × ℚ => b.2 ≤ a.2) new
  have hb' := (List.mem_insertionSort (fun a b : (K → ℕ) × ℚ => b.2 ≤ a.2)).2 (h3 b hb hu)
  rw [← h1 xp hm]
  cases hl : new.insertionSort fun a b => b.2 ≤ a.2 with
  | nil => rw [hl] at hxp; cases hxp
  | cons y l =>
    rw [hl] at hxp hs hb'
    cases hxp
    rcases List.mem_cons.1 hb' with e | hb'
    · rw [← e]
    · exact (List.pairwise_cons.1 hs).1 _ hb'

/-- For `surv_first=False` there is an answer when no branch has an unknown lower label under a known
upper one. -/
theorem getCompSt_false_total (probs : K → ℕ → ℚ) (brs : List (Branch K))
    (h : ∀ b ∈ brs, b.downState = .u → b.upState = .u) :
    ∃ o, getCompSt vs probs false brs = .ok o := by
  have hl : ∀ n acc, ∃ out, compStLoop vs probs brs n acc = .ok out := by
    induction brs with
    | nil => exact fun n acc => ⟨acc, rfl⟩
    | cons b brs ih =>
      have ih := ih fun b hb => h b (by simp [hb])
      intro n acc
      unfold compStLoop
      by_cases hu : b.upState = .u
      · simp only [hu, if_true]
        by_cases hd : b.downState = .u
        · simp only [hd, if_true]
          exact ih _ _
        · simp only [hd, if_false]
          exact ih _ _
      · have hd : ¬ b.downState = .u := fun hd => hu (h b (by simp) hd)
        simp only [hu, hd, if_false]
        exact ih _ _
  obtain ⟨out, ho⟩ := hl none []
  unfold getCompSt
  simp only [Bool.false_eq_true, if_false]
  rw [ho]
  exact ⟨_, rfl⟩

theorem find_sorted {α : Type} {l : List α} {p : α → ℚ} {q : α → Bool} {a : α}
    (h : (l.insertionSort fun a b => p b ≤ p a).find? q = some a) :
    a ∈ l ∧ q a = true ∧ ∀ b ∈ l, q b = true → p b ≤ p a := by
  have ha := List.mem_of_find?_eq_some h
  refine ⟨(List.mem_insertionSort _).1 ha, List.find?_some h, fun b hb hq => ?_⟩
  have hs : (l.insertionSort fun a b => p b ≤ p a).Pairwise fun a b => p b ≤ p a := by
    have : Std.Total fun a b : α => p b ≤ p a := ⟨fun a b => le_total _ _⟩
    have : IsTrans α fun a b => p b ≤ p a := ⟨fun a b c h1 h2 => le_trans h2 h1⟩
    exact List.pairwise_insertionSort _ l
  have hb' := (List.mem_insertionSort fun a b => p b ≤ p a).2 hb
  revert h hs hb'
  generalize (l.insertionSort fun a b => p b ≤ p a) = s
  intro h hs hb'
  induction s with
  | nil => cases hb'
  | cons c s ih =>
    rw [List.find?_cons] at h
    rw [List.pairwise_cons] at hs
    split at h
    · injection h with h
      subst h
      rcases List.mem_cons.1 hb' with rfl | hb'
      · exact le_rfl
      · exact hs.1 b hb'
    · rename_i hc
      rcases List.mem_cons.1 hb' with rfl | hb'
      · rw [hq] at hc; cases hc
      · exact ih h hs.2 hb'

theorem find_sorted_none {α : Type} {l : List α} {p : α → ℚ} {q : α → Bool} :
    (l.insertionSort fun a b => p b ≤ p a).find? q = none ↔ ∀ b ∈ l, q b = false := by
  rw [List.find?_eq_none]
  constructor
  · intro h b hb
    simpa using h b ((List.mem_insertionSort _).2 hb)
  · intro h b hb
    simp [h b ((List.mem_insertionSort _).1 hb)]

/-- `get_comp_st` with `surv_first`: full description. -/
theorem getCompSt_true (probs : K → ℕ → ℚ) (brs : List (Branch K)) :
    (∃ b ∈ brs, b.upState = .u ∧ (∀ b' ∈ brs, b'.upState = .u → b'.p ≤ b.p) ∧
        getCompSt vs probs true brs = .ok (some b.up)) ∨
    ((∀ b ∈ brs, b.upState ≠ .u) ∧ ∃ b ∈ brs, b.downState = .u ∧
        (∀ b' ∈ brs, b'.downState = .u → b'.p ≤ b.p) ∧
        getCompSt vs probs true brs = .ok (some b.down)) ∨
    (NoUnknown brs ∧ getCompSt vs probs true brs = .ok none) := by
  unfold getCompSt
  simp only [if_true]
  cases h1 : (brs.insertionSort fun a b => b.p ≤ a.p).find? fun b => b.upState = .u with
  | some b =>
    left
    obtain ⟨hm, hq, hmax⟩ := find_sorted (p := fun b : Branch K => b.p) h1
    exact ⟨b, hm, by simpa using hq, fun b' hb' h => hmax b' hb' (by simpa using h), rfl⟩
  | none =>
    right
    have hno := (find_sorted_none (p := fun b : Branch K => b.p)).1 h1
    have hno : ∀ b ∈ brs, b.upState ≠ .u := fun b hb => by simpa using hno b hb
    simp only
    cases h2 : (brs.insertionSort fun a b => b.p ≤ a.p).find? fun b => b.downState = .u with
    | some b =>
      left
      obtain ⟨hm, hq, hmax⟩ := find_sorted (p := fun b : Branch K => b.p) h2
      exact ⟨hno, b, hm, by simpa using hq, fun b' hb' h => hmax b' hb' (by simpa using h), rfl⟩
    | none =>
      right
      have hno' := (find_sorted_none (p := fun b : Branch K => b.p)).1 h2
      exact ⟨fun b hb => ⟨by simpa using hno' b hb, hno b hb⟩, rfl⟩

theorem getCompSt_some {probs : K → ℕ → ℚ} {sf : Bool} {brs : List (Branch K)} {x : K → ℕ}
    (h : getCompSt vs probs sf brs = .ok (some x)) : UnknownEnd brs x := by
  cases sf with
  | false =>
    obtain ⟨b, hb, hx⟩ := getCompSt_false_some h
    exact ⟨b, hb, .inl hx⟩
  | true =>
    rcases getCompSt_true (vs := vs) probs brs with ⟨b, hb, hu, -, he⟩ | ⟨-, b, hb, hu, -, he⟩ |
      ⟨-, he⟩
    · rw [he] at h; cases h; exact ⟨b, hb, .inl ⟨rfl, hu⟩⟩
    · rw [he] at h; cases h; exact ⟨b, hb, .inr ⟨rfl, hu⟩⟩
    · rw [he] at h; cases h

theorem getCompSt_none {probs : K → ℕ → ℚ} {sf : Bool} {brs : List (Branch K)} :
    getCompSt vs probs sf brs = .ok none ↔ NoUnknown brs := by
  cases sf with
  | false => exact getCompSt_false_none
  | true =>
    rcases getCompSt_true (vs := vs) probs brs with ⟨b, hb, hu, -, he⟩ | ⟨-, b, hb, hu, -, he⟩ |
      ⟨h, he⟩
    · rw [he]
      refine ⟨fun h => (by cases h), fun h => absurd hu (h b hb).2⟩
    · rw [he]
      refine ⟨fun h => (by cases h), fun h => absurd hu (h b hb).1⟩
    · exact ⟨fun _ => h, fun _ => he⟩

theorem UnknownEnd.inSpace {brs : List (Branch K)} {x : K → ℕ} (h : UnknownEnd brs x)
    (hb : ∀ b ∈ brs, BoxOK vs b) : InSpace vs x := by
  obtain ⟨b, hm, ⟨rfl, -⟩ | ⟨rfl, -⟩⟩ := h
  · exact (hb b hm).inSpace (hb b hm).up
  · exact (hb b hm).inSpace (hb b hm).down

/-! ## One decomposition inside `run` -/

theorem label_eval_cov {rules : Rules K} {x : K → ℕ} {st : St}
    (h : (st = .s → CoveredS rules x) ∧ (st = .f → CoveredF rules x)) :
    ((if st ≠ .u then st else if CoveredS rules x then .s
      else if CoveredF rules x then .f else .u) = .s → CoveredS rules x) ∧
    ((if st ≠ .u then st else if CoveredS rules x then .s
      else if CoveredF rules x then .f else .u) = .f → CoveredF rules x) := by
  by_cases hu : st = .u
  · subst hu
    simp only [ne_eq, not_true_eq_false, if_false]
    by_cases h1 : CoveredS rules x
    · simp [h1]
    · by_cases h2 : CoveredF rules x
      · simp [h1, h2]
      · simp [h1, h2]
  · rw [if_pos hu]
    exact h

theorem stable_cov (vs : List (K × ℕ)) (rules : Rules K) (probs : K → ℕ → ℚ) :
    Stable vs rules probs (LabelsCov rules) := by
  refine ⟨fun b h => ⟨?_, ?_⟩, fun b h _ xd _ st h1 h2 flag => ?_⟩
  · rw [evalState_downState]; exact label_eval_cov h.1
  · rw [evalState_upState]; exact label_eval_cov h.2
  · cases flag
    · exact ⟨⟨fun h => getState_s h, fun h => getState_f h⟩, h.2⟩
    · exact ⟨h.1, ⟨fun h => getState_s h, fun h => getState_f h⟩⟩

theorem Stable.imp {vs : List (K × ℕ)} {rules : Rules K} {probs : K → ℕ → ℚ}
    {P : Branch K → Prop} (C : Prop) (h : Stable vs rules probs P) :
    Stable vs rules probs (fun b => C → P b) :=
  ⟨fun b hb hc => h.eval b (hb hc), fun b hb hn xd hx st h1 h2 flag hc =>
    h.split b (hb hc) hn xd hx st h1 h2 flag⟩

theorem CoveredS.up {vs : List (K × ℕ)} {rules : Rules K} (hk : RulesDict vs rules)
    {x y : K → ℕ} (hxy : ∀ kn ∈ vs, x kn.1 ≤ y kn.1) (h : CoveredS rules x) :
    CoveredS rules y := by
  obtain ⟨r, hr, ha⟩ := h
  refine ⟨r, hr, fun kv hkv => ?_⟩
  obtain ⟨kn, hkn, he⟩ := List.mem_map.1
    ((hk r (List.mem_append_left _ hr)).known kv hkv)
  have := hxy kn hkn
  rw [he] at this
  exact (ha kv hkv).trans this

theorem CoveredF.down {vs : List (K × ℕ)} {rules : Rules K} (hk : RulesDict vs rules)
    {x y : K → ℕ} (hxy : ∀ kn ∈ vs, x kn.1 ≤ y kn.1) (h : CoveredF rules y) :
    CoveredF rules x := by
  obtain ⟨r, hr, ha⟩ := h
  refine ⟨r, hr, fun kv hkv => ?_⟩
  obtain ⟨kn, hkn, he⟩ := List.mem_map.1
    ((hk r (List.mem_append_right _ hr)).known kv hkv)
  have := hxy kn hkn
  rw [he] at this
  exact this.trans (ha kv hkv)

theorem stable_mono {vs : List (K × ℕ)} {rules : Rules K} (hk : RulesDict vs rules)
    (hr : RulesValid vs Φ rules) (probs : K → ℕ → ℚ) :
    Stable vs rules probs (fun b => BoxOK vs b ∧ LabelsCov rules b ∧ MonoLab b) := by
  refine ⟨fun b h => ⟨h.1, (stable_cov vs rules probs).eval b h.2.1, ?_⟩,
    fun b h hn xd hx st h1 h2 flag => ⟨newBranch_boxOK h.1 rules probs h1 h2 flag,
      (stable_cov vs rules probs).split b h.2.1 hn xd hx st h1 h2 flag, ?_⟩⟩
  · obtain ⟨hb, -, hm1, hm2⟩ := h
    have hle : ∀ kn ∈ vs, b.down kn.1 ≤ b.up kn.1 := fun kn hkn => (hb kn hkn).1
    have hS := CoveredS.up (rules := rules) hk hle
    have hF := CoveredF.down (rules := rules) hk hle
    unfold MonoLab
    rw [evalState_downState, evalState_upState]
    by_cases c1 : CoveredS rules b.down <;> by_cases c2 : CoveredF rules b.up <;>
      by_cases c3 : CoveredS rules b.up <;> by_cases c4 : CoveredF rules b.down <;>
      cases hd : b.downState <;> cases hu : b.upState <;> simp_all
  · have hb' := newBranch_boxOK h.1 rules probs h1 h2 flag
    obtain ⟨hb, hc, hm1, hm2⟩ := h
    cases flag
    · have hle : ∀ kn ∈ vs, Function.update b.down xd st kn.1 ≤ b.up kn.1 :=
        fun kn hkn => (hb' kn hkn).1
      refine ⟨fun hu => ?_, fun hd => ?_⟩
      · exact (hr.getState_f_iff (hb'.inSpace hb'.down)).2 (CoveredF.down hk hle (hc.2.2 hu))
      · have hcs : CoveredS rules b.up := CoveredS.up hk hle (getState_s hd)
        show b.upState = .s
        have hgs := (hr.getState_s_iff (hb.inSpace hb.up)).2 hcs
        cases hu : b.upState with
        | s => rfl
        | f =>
          rw [(hr.getState_f_iff (hb.inSpace hb.up)).2 (hc.2.2 hu)] at hgs
          cases hgs
        | u => rw [hn.2 hu] at hgs; cases hgs
    · have hle : ∀ kn ∈ vs, b.down kn.1 ≤ Function.update b.up xd (st - 1) kn.1 :=
        fun kn hkn => (hb' kn hkn).1
      refine ⟨fun hu => ?_, fun hd => ?_⟩
      · have hcs : CoveredF rules b.down := CoveredF.down hk hle (getState_f hu)
        show b.downState = .f
        have hgs := (hr.getState_f_iff (hb.inSpace hb.down)).2 hcs
        cases hu : b.downState with
        | f => rfl
        | s =>
          rw [(hr.getState_s_iff (hb.inSpace hb.down)).2 (hc.1.1 hu)] at hgs
          cases hgs
        | u => rw [hn.1 hu] at hgs; cases hgs
      · exact (hr.getState_s_iff (hb'.inSpace hb'.up)).2 (CoveredS.up hk hle (hc.1.1 hd))

theorem mono_of_exact {vs : List (K × ℕ)} {rules : Rules K} (hk : RulesDict vs rules)
    (hr : RulesValid vs Φ rules) {b : Branch K} (hb : BoxOK vs b) (he : LabelsExact rules b) :
    MonoLab b := by
  have hle : ∀ kn ∈ vs, b.down kn.1 ≤ b.up kn.1 := fun kn hkn => (hb kn hkn).1
  unfold MonoLab
  rw [he.1, he.2]
  exact ⟨fun h => (hr.getState_f_iff (hb.inSpace hb.down)).2
      (CoveredF.down hk hle (getState_f h)),
    fun h => (hr.getState_s_iff (hb.inSpace hb.up)).2 (CoveredS.up hk hle (getState_s h))⟩

/-- What one decomposition delivers. -/
structure DecompOut (vs : List (K × ℕ)) (Φ : (K → ℕ) → Bool) (probs : K → ℕ → ℚ)
    (rules : Rules K) (maxNb : ℕ) (start brs : List (Branch K)) (trunc : Bool) : Prop where
  part : Partition vs brs
  p : ∀ b ∈ brs, b.p = probOf vs probs (InBox vs b)
  labels : ∀ b ∈ brs, LabelsOK Φ b
  done : trunc = false → ∀ b ∈ brs, b.specified = true ∨
        (b.compatRules rules).s = [] ∧ (b.compatRules rules).f = []
  limit : trunc = true → maxNb < 2 * brs.length
  new : trunc = false → ∀ b ∈ brs, LabelsNew rules b
  cov : (∀ b ∈ start, LabelsCov rules b) → ∀ b ∈ brs, LabelsCov rules b
  exact : start = [] → ∀ b ∈ brs, LabelsExact rules b
  mono : (∀ b ∈ start, LabelsCov rules b ∧ MonoLab b) → ∀ b ∈ brs, MonoLab b

theorem decomp_run (hv : VarisOK vs) {rules : Rules K} (hk : RulesDict vs rules)
    (hr : RulesValid vs Φ rules) {probs : K → ℕ → ℚ} (hp : ProbOK vs probs) (maxNb : ℕ)
    {start : List (Branch K)} (hg : GoodBrs vs Φ probs start) :
    ∃ trunc out, decomp vs rules probs maxNb start = .ok (trunc, out) ∧
      DecompOut vs Φ probs rules maxNb start (out.map Prod.fst) trunc := by
  have hs := start_partition hv rules hg.part
  obtain ⟨trunc, out, h0, h1, h2, h3, h4, h5⟩ := decomp_spec hv hk probs maxNb start
    (fun b => ((BoxOK vs b ∧ b.p = probOf vs probs (InBox vs b)) ∧ (BoxOK vs b ∧ LabelsOK Φ b)) ∧
      ((∀ b ∈ start, LabelsCov rules b) → LabelsCov rules b) ∧
      (start = [] → BoxOK vs b ∧ LabelsExact rules b) ∧
      ((∀ b ∈ start, LabelsCov rules b ∧ MonoLab b) →
        BoxOK vs b ∧ LabelsCov rules b ∧ MonoLab b))
    (((stable_p hv rules probs).and (stable_labels hr probs)).and
      (((stable_cov vs rules probs).imp _).and (((stable_exact vs rules probs).imp _).and
        ((stable_mono hk hr probs).imp _))))
    (fun _ h => h.1.1.1) _ (fresh_new vs rules probs _)
    (fun b hb => by
      have hbox := hs.1 b hb
      refine ⟨⟨⟨hbox, ?_⟩, hbox, ?_⟩, fun hc => ?_, fun he => ⟨hbox, ?_⟩,
        fun hc => ⟨hbox, ?_⟩⟩
      · exact start_mem (P := fun b => b.p = probOf vs probs (InBox vs b))
          (initBranch_p hv hp rules) hg.p b hb
      · refine start_mem (P := LabelsOK Φ) (fun b hb => ?_) hg.labels b hb
        have hbox := (initBranch_part hv rules).1 b hb
        have he := initBranch_exact vs rules b hb
        refine ⟨?_, ?_⟩
        · rw [he.1]; exact hr.label (hbox.inSpace hbox.down)
        · rw [he.2]; exact hr.label (hbox.inSpace hbox.up)
      · refine start_mem (P := LabelsCov rules) (fun b hb => ?_) hc b hb
        have he := initBranch_exact vs rules b hb
        unfold LabelsCov
        rw [he.1, he.2]
        exact ⟨⟨getState_s, getState_f⟩, getState_s, getState_f⟩
      · subst he
        exact initBranch_exact vs rules b hb
      · refine start_mem (P := fun b => LabelsCov rules b ∧ MonoLab b) (fun b hb => ?_) hc b hb
        have he := initBranch_exact vs rules b hb
        refine ⟨?_, mono_of_exact hk hr ((initBranch_part hv rules).1 b hb) he⟩
        unfold LabelsCov
        rw [he.1, he.2]
        exact ⟨⟨getState_s, getState_f⟩, getState_s, getState_f⟩)
  have hmem : ∀ b ∈ out.map Prod.fst, ∃ bc ∈ out, bc.1 = b := fun b hb => List.mem_map.1 hb
  refine ⟨trunc, out, h0, ⟨⟨?_, ?_⟩, ?_, ?_, ?_, ?_, ?_, ?_, ?_, ?_⟩⟩
  · intro b hb
    obtain ⟨bc, hbc, rfl⟩ := hmem b hb
    exact (h1 bc hbc).1.1.1
  · intro x hx
    have := hits_brsOf vs x out
    unfold brsOf at this
    rw [this, h2 x]
    exact hs.2 x hx
  · intro b hb
    obtain ⟨bc, hbc, rfl⟩ := hmem b hb
    exact (h1 bc hbc).1.1.2
  · intro b hb
    obtain ⟨bc, hbc, rfl⟩ := hmem b hb
    exact (h1 bc hbc).1.2.2
  · intro ht b hb
    obtain ⟨bc, hbc, rfl⟩ := hmem b hb
    exact h3 ht bc hbc
  · intro ht
    rw [List.length_map]
    exact h4 ht
  · intro ht b hb
    obtain ⟨bc, hbc, rfl⟩ := hmem b hb
    exact h5 ht bc hbc
  · intro hc b hb
    obtain ⟨bc, hbc, rfl⟩ := hmem b hb
    exact (h1 bc hbc).2.1 hc
  · intro he b hb
    obtain ⟨bc, hbc, rfl⟩ := hmem b hb
    exact ((h1 bc hbc).2.2.1 he).2
  · intro hc b hb
    obtain ⟨bc, hbc, rfl⟩ := hmem b hb
    exact ((h1 bc hbc).2.2.2 hc).2.2

/-! ## The monitor -/

theorem monRow_low (hv : VarisOK vs) {probs : K → ℕ → ℚ} {brs : List (Branch K)}
    (hpart : Partition vs brs) (hp : ∀ b ∈ brs, b.p = probOf vs probs (InBox vs b))
    (rules : Rules K) : (monRow brs rules).pfLow =
      probOf vs probs (fun x => ∃ b ∈ brs, b.upState = .f ∧ InBox vs b x) := by
  have := partition_prob hv probs hpart hp (fun b => decide (b.upState = .f))
  refine this.trans ?_
  exact probOf_congr hv probs _ _ fun x _ => by simp

theorem monRow_up (hv : VarisOK vs) {probs : K → ℕ → ℚ} {brs : List (Branch K)}
    (hpart : Partition vs brs) (hp : ∀ b ∈ brs, b.p = probOf vs probs (InBox vs b))
    (rules : Rules K) : (monRow brs rules).pfUp =
      1 - probOf vs probs (fun x => ∃ b ∈ brs, b.downState = .s ∧ InBox vs b x) := by
  have := partition_prob hv probs hpart hp (fun b => decide (b.downState = .s))
  show 1 - _ = 1 - _
  rw [this]
  congr 1
  exact probOf_congr hv probs _ _ fun x _ => by simp

theorem monRow_bounds (hv : VarisOK vs) (hc : Coherent vs Φ) {probs : K → ℕ → ℚ}
    (hprob : ProbOK vs probs) {brs : List (Branch K)} (hpart : Partition vs brs)
    (hp : ∀ b ∈ brs, b.p = probOf vs probs (InBox vs b)) (hl : ∀ b ∈ brs, LabelsOK Φ b)
    (rules : Rules K) : (monRow brs rules).pfLow ≤ pFail vs probs Φ ∧
      pFail vs probs Φ ≤ (monRow brs rules).pfUp := by
  rw [monRow_low hv hpart hp, monRow_up hv hpart hp]
  constructor
  · refine probOf_mono hv hprob _ _ fun x _ => ?_
    rintro ⟨b, hb, hu, hx⟩
    by_contra hne
    have := hc x b.up (fun kn hkn => (hx kn hkn).2) (by simpa using hne)
    rw [(hl b hb).2.2 hu] at this
    cases this
  · have h1 : probOf vs probs (fun x => ∃ b ∈ brs, b.downState = .s ∧ InBox vs b x) ≤
        probOf vs probs (fun x => ¬ Φ x = false) := by
      refine probOf_mono hv hprob _ _ fun x _ => ?_
      rintro ⟨b, hb, hd, hx⟩
      have := hc b.down x (fun kn hkn => (hx kn hkn).1) ((hl b hb).1.1 hd)
      simp [this]
    rw [probOf_not hv hprob] at h1
    linarith

/-- All branches decided: the bounds are exact. -/
theorem monRow_exact (hv : VarisOK vs) (hc : Coherent vs Φ) {probs : K → ℕ → ℚ}
    (hprob : ProbOK vs probs) {brs : List (Branch K)} (hpart : Partition vs brs)
    (hp : ∀ b ∈ brs, b.p = probOf vs probs (InBox vs b)) (hl : ∀ b ∈ brs, LabelsOK Φ b)
    (hd : ∀ b ∈ brs, b.downState = b.upState ∧ b.downState ≠ .u)
    (rules : Rules K) : (monRow brs rules).pfLow = pFail vs probs Φ ∧
      (monRow brs rules).pfUp = pFail vs probs Φ := by
  have hb := monRow_bounds hv hc hprob hpart hp hl rules
  have heq : (monRow brs rules).pfUp ≤ (monRow brs rules).pfLow := by
    rw [monRow_low hv hpart hp, monRow_up hv hpart hp, ← probOf_not hv hprob]
    refine probOf_mono hv hprob _ _ fun x hx hn => ?_
    obtain ⟨b, hbm, hin⟩ := hpart.exists hx
    obtain ⟨h1, h2⟩ := hd b hbm
    refine ⟨b, hbm, ?_, hin⟩
    cases hs : b.downState with
    | s => exact absurd ⟨b, hbm, hs, hin⟩ hn
    | f => exact h1 ▸ hs
    | u => exact absurd hs h2
  constructor <;> linarith [hb.1, hb.2]

/-- Disjoint events. -/
theorem probOf_add_le (hv : VarisOK vs) {probs : K → ℕ → ℚ} (hp : ProbOK vs probs)
    (E F : (K → ℕ) → Prop) [DecidablePred E] [DecidablePred F]
    (h : ∀ x, InSpace vs x → E x → ¬ F x) : probOf vs probs E + probOf vs probs F ≤ 1 := by
  have := probOf_mono hv hp E (fun x => ¬ F x) h
  rw [probOf_not hv hp] at this
  linarith

/-! ## The loop -/

/-- The conditions under which an iteration goes on to evaluate the system function. -/
structure GoesOn (c : RunCfg K) (st : RunState K) (brs : List (Branch K)) : Prop where
  nb : brs.length < c.maxNb
  bnd : ¬ st.prBu < st.pfLow * c.pfBndWr
  rules : c.rulesFull st.rules = false

/-- Induction over the iterations: `I` is kept by an evaluating iteration, and `F` holds of the
state that the loop leaves, either after `max_sf` evaluations or by one of the stops. -/
theorem runLoop_ind (c : RunCfg K) (I : ℕ → RunState K → Prop) (F : RunState K → Prop)
    (hstep : ∀ r st trunc bcs x st', I (r + 1) st →
      decomp c.vs st.rules c.probs c.maxNb (c.startBrs st) = .ok (trunc, bcs) →
      getCompSt c.vs c.probs c.survFirst (bcs.map Prod.fst) = .ok (some x) →
      GoesOn c st (bcs.map Prod.fst) →
      runStep c st (bcs.map Prod.fst) x (r = 0) = .ok st' → I r st')
    (hdone : ∀ st, I 0 st → F st)
    (hcomplete : ∀ r st trunc bcs, I (r + 1) st →
      decomp c.vs st.rules c.probs c.maxNb (c.startBrs st) = .ok (trunc, bcs) →
      getCompSt c.vs c.probs c.survFirst (bcs.map Prod.fst) = .ok none →
      F { st with brs := some (bcs.map Prod.fst), outFlag := some .complete, started := true })
    (hstop : ∀ r st trunc bcs x flag, I (r + 1) st →
      decomp c.vs st.rules c.probs c.maxNb (c.startBrs st) = .ok (trunc, bcs) →
      getCompSt c.vs c.probs c.survFirst (bcs.map Prod.fst) = .ok (some x) →
      (flag = .maxNb ∧ c.maxNb ≤ bcs.length ∨ flag = .pfBnd ∧ st.prBu < st.pfLow * c.pfBndWr ∨
        flag = .maxRules ∧ c.rulesFull st.rules = true) →
      F { st with brs := some (bcs.map Prod.fst), outFlag := some flag, started := true })
    (r : ℕ) (st st' : RunState K) (hI : I r st) (h : runLoop c r st = .ok st') : F st' := by
  induction r generalizing st with
  | zero =>
    injection h with h
    exact h ▸ hdone st hI
  | succ r ih =>
    unfold runLoop at h
    cases hd : decomp c.vs st.rules c.probs c.maxNb (c.startBrs st) with
    | error e => rw [hd] at h; cases h
    | ok tb =>
      obtain ⟨trunc, bcs⟩ := tb
      rw [hd, ok_bind] at h
      simp only at h
      cases hg : getCompSt c.vs c.probs c.survFirst (bcs.map Prod.fst) with
      | error e => rw [hg] at h; cases h
      | ok o =>
        rw [hg, ok_bind] at h
        cases o with
        | none =>
          cases h
          exact hcomplete r st trunc bcs hI hd hg
        | some x =>
          simp only at h
          split at h
          · rename_i h1
            cases h
            exact hstop r st trunc bcs x _ hI hd hg (.inl ⟨rfl, by simpa using h1⟩)
          · rename_i h1
            split at h
            · rename_i h2
              cases h
              exact hstop r st trunc bcs x _ hI hd hg (.inr (.inl ⟨rfl, h2⟩))
            · rename_i h2
              split at h
              · rename_i h3
                cases h
                exact hstop r st trunc bcs x _ hI hd hg (.inr (.inr ⟨rfl, h3⟩))
              · rename_i h3
                cases hs : runStep c st (bcs.map Prod.fst) x (r = 0) with
                | error e => rw [hs] at h; cases h
                | ok st1 =>
                  rw [hs, ok_bind] at h
                  exact ih st1 (hstep r st trunc bcs x st1 hI hd hg
                    ⟨by omega, h2, by simpa using h3⟩ hs) h

end BNS
