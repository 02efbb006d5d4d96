import Verif.Proofs.BrcBox

/-! Helper lemmas: the decomposition. -/

namespace BNS

set_option linter.unusedSectionVars false

variable {K : Type} [DecidableEq K]

/-! ## The component to split -/

theorem mem_firstOcc (l : List K) (k : K) : k ∈ firstOccOn id l ↔ k ∈ l := by
  induction l with
  | nil => simp [firstOccOn]
  | cons a l ih =>
    simp only [firstOccOn, List.mem_cons, List.mem_filter, ih, id]
    by_cases h : k = a <;> simp [h]

theorem mem_mostCommon (l : List K) (k : K) : k ∈ mostCommon l ↔ k ∈ l := by
  unfold mostCommon
  rw [List.mem_insertionSort, mem_firstOcc]

theorem mem_compat_s {b : Branch K} {rules : Rules K} {c : Rule K}
    (h : c ∈ (b.compatRules rules).s) : c ≠ [] ∧ ∃ r ∈ rules.s, AppliesS r b.up ∧
      c = r.filter fun kv => b.down kv.1 < kv.2 := by
  simp only [Branch.compatRules, List.mem_filterMap] at h
  obtain ⟨r, hr, he⟩ := h
  split at he
  · rename_i hm
    split at he
    · cases he
    · rename_i hne
      injection he with he
      subst he
      exact ⟨hne, r, hr, meetsS_iff.1 hm, rfl⟩
  · cases he

theorem mem_compat_f {b : Branch K} {rules : Rules K} {c : Rule K}
    (h : c ∈ (b.compatRules rules).f) : c ≠ [] ∧ ∃ r ∈ rules.f, AppliesF r b.down ∧
      c = r.filter fun kv => kv.2 < b.up kv.1 := by
  simp only [Branch.compatRules, List.mem_filterMap] at h
  obtain ⟨r, hr, he⟩ := h
  split at he
  · rename_i hm
    split at he
    · cases he
    · rename_i hne
      injection he with he
      subst he
      exact ⟨hne, r, hr, meetsF_iff.1 hm, rfl⟩
  · cases he

theorem compat_s_empty {b : Branch K} {rules : Rules K} (h : (b.compatRules rules).s = []) :
    ∀ r ∈ rules.s, AppliesS r b.up → AppliesS r b.down := by
  intro r hr ha
  by_contra hn
  have : r.filter (fun kv => decide (b.down kv.1 < kv.2)) ≠ [] := by
    intro he
    refine hn fun kv hkv => ?_
    by_contra hlt
    have := List.filter_eq_nil_iff.1 he kv hkv
    simp at this
    omega
  have hmem : r.filter (fun kv => decide (b.down kv.1 < kv.2)) ∈ (b.compatRules rules).s := by
    simp only [Branch.compatRules, List.mem_filterMap]
    exact ⟨r, hr, by rw [if_pos (meetsS_iff.2 ha), if_neg this]⟩
  rw [h] at hmem
  cases hmem

theorem compat_f_empty {b : Branch K} {rules : Rules K} (h : (b.compatRules rules).f = []) :
    ∀ r ∈ rules.f, AppliesF r b.down → AppliesF r b.up := by
  intro r hr ha
  by_contra hn
  have : r.filter (fun kv => decide (kv.2 < b.up kv.1)) ≠ [] := by
    intro he
    refine hn fun kv hkv => ?_
    by_contra hlt
    have := List.filter_eq_nil_iff.1 he kv hkv
    simp at this
    omega
  have hmem : r.filter (fun kv => decide (kv.2 < b.up kv.1)) ∈ (b.compatRules rules).f := by
    simp only [Branch.compatRules, List.mem_filterMap]
    exact ⟨r, hr, by rw [if_pos (meetsF_iff.2 ha), if_neg this]⟩
  rw [h] at hmem
  cases hmem

theorem compatRules_congr {b b' : Branch K} (h1 : b.down = b'.down) (h2 : b.up = b'.up)
    (rules : Rules K) : b.compatRules rules = b'.compatRules rules := by
  unfold Branch.compatRules
  rw [h1, h2]

theorem count_zero {cr : Rules K} : cr.count = 0 ↔ cr.s = [] ∧ cr.f = [] := by
  unfold Rules.count
  constructor
  · intro h
    exact ⟨List.eq_nil_of_length_eq_zero (by omega), List.eq_nil_of_length_eq_zero (by omega)⟩
  · rintro ⟨h1, h2⟩
    simp [h1, h2]

/-- Whenever a branch has a compatible rule a component is found, and it is cut strictly inside
the branch. -/
theorem decompComp_spec {vs : List (K × ℕ)} {b : Branch K} {rules : Rules K}
    (hk : RulesDict vs rules) (probs : K → ℕ → ℚ) (hc : (b.compatRules rules).count ≠ 0) :
    ∃ xd st, b.decompComp (b.compatRules rules) probs = some (xd, st) ∧
      xd ∈ vs.map Prod.fst ∧ b.down xd < st ∧ st ≤ b.up xd := by
  unfold Branch.decompComp
  simp only
  generalize hR : ((b.compatRules rules).s.map (fun r => (St.s, r)) ++
    (b.compatRules rules).f.map (fun r => (St.f, r))) = R
  have hRne : R ≠ [] := by
    intro he
    rw [he] at hR
    rw [List.append_eq_nil_iff] at hR
    exact hc (count_zero.2 ⟨by simpa using hR.1, by simpa using hR.2⟩)
  -- facts about the compatible rules
  have hfact : ∀ sr ∈ R, sr.2 ≠ [] ∧ ∀ kv ∈ sr.2, kv.1 ∈ vs.map Prod.fst ∧
      b.down kv.1 < cutState sr.1 kv.2 ∧ cutState sr.1 kv.2 ≤ b.up kv.1 := by
    intro sr hsr
    rw [← hR, List.mem_append] at hsr
    rcases hsr with h | h
    · obtain ⟨c, hc, rfl⟩ := List.mem_map.1 h
      obtain ⟨hne, r, hr, ha, rfl⟩ := mem_compat_s hc
      refine ⟨hne, fun kv hkv => ?_⟩
      obtain ⟨h1, h2⟩ := List.mem_filter.1 hkv
      exact ⟨(hk r (by simp [hr])).known kv h1, by simpa [cutState] using h2, ha kv h1⟩
    · obtain ⟨c, hc, rfl⟩ := List.mem_map.1 h
      obtain ⟨hne, r, hr, ha, rfl⟩ := mem_compat_f hc
      refine ⟨hne, fun kv hkv => ?_⟩
      obtain ⟨h1, h2⟩ := List.mem_filter.1 hkv
      refine ⟨(hk r (by simp [hr])).known kv h1, ?_, ?_⟩
      · have := ha kv h1; simp only [cutState]; omega
      · simpa [cutState] using h2
  generalize hcomps : mostCommon (R.map fun sr => sr.2.map Prod.fst).flatten = comps
  generalize hS : (R.insertionSort fun a b' =>
    b.jointProb probs b'.1 b'.2 ≤ b.jointProb probs a.1 a.2) = S
  have hSmem : ∀ sr, sr ∈ S ↔ sr ∈ R := by
    intro sr; rw [← hS, List.mem_insertionSort]
  cases S with
  | nil =>
    exfalso
    cases R with
    | nil => exact hRne rfl
    | cons a R => exact absurd ((hSmem a).2 (by simp)) (by simp)
  | cons sr S =>
    have hsr : sr ∈ R := (hSmem sr).1 (by simp)
    obtain ⟨hne, hall⟩ := hfact sr hsr
    have hinner : ∃ xd st, (comps.findSome? fun c => b.tryComp sr c) = some (xd, st) := by
      obtain ⟨kv, hkv⟩ := List.exists_mem_of_ne_nil _ hne
      have hin : kv.1 ∈ comps := by
        rw [← hcomps, mem_mostCommon, List.mem_flatten]
        exact ⟨sr.2.map Prod.fst, List.mem_map.2 ⟨sr, hsr, rfl⟩, List.mem_map.2 ⟨kv, hkv, rfl⟩⟩
      have hlk : sr.2.lookup kv.1 ≠ none := by
        intro h
        exact lookup_none.1 h (List.mem_map.2 ⟨kv, hkv, rfl⟩)
      obtain ⟨v, hv⟩ := Option.ne_none_iff_exists'.1 hlk
      have hok := hall _ (lookup_mem hv)
      have : (comps.findSome? fun c => b.tryComp sr c).isSome := by
        rw [List.findSome?_isSome_iff]
        refine ⟨kv.1, hin, ?_⟩
        unfold Branch.tryComp
        rw [hv]
        simp only
        rw [if_pos ⟨hok.2.1, hok.2.2⟩]
        rfl
      obtain ⟨⟨xd, st⟩, h⟩ := Option.isSome_iff_exists.1 this
      exact ⟨xd, st, h⟩
    obtain ⟨xd, st, he⟩ := hinner
    refine ⟨xd, st, ?_, ?_⟩
    · rw [List.findSome?_cons]
      rw [he]
    · obtain ⟨c, -, hc2⟩ := List.exists_of_findSome?_eq_some he
      unfold Branch.tryComp at hc2
      cases hl : sr.2.lookup c with
      | none => rw [hl] at hc2; cases hc2
      | some v =>
        rw [hl] at hc2
        simp only at hc2
        have hok := hall _ (lookup_mem hl)
        rw [if_pos ⟨hok.2.1, hok.2.2⟩] at hc2
        injection hc2 with hc2
        injection hc2 with e1 e2
        subst e1
        rw [← e2]
        exact hok

/-! ## Labels -/

theorem evalLoop_u (label : St) (meets : Rule K → Bool) (l : List (Rule K)) (st : St)
    (h : st ≠ .u) : evalLoop label meets l st = st := by
  cases l with
  | nil => rfl
  | cons r l => simp [evalLoop, h]

theorem evalLoop_eq (label : St) (hl : label ≠ .u) (meets : Rule K → Bool) (l : List (Rule K))
    (st : St) : evalLoop label meets l st =
      if st ≠ .u then st else if ∃ r ∈ l, meets r = true then label else .u := by
  induction l generalizing st with
  | nil => simp [evalLoop]
  | cons r l ih =>
    unfold evalLoop
    by_cases h : st = .u
    · subst h
      simp only [ne_eq, not_true_eq_false, if_false]
      by_cases hm : meets r = true
      · rw [if_pos hm, evalLoop_u _ _ _ _ hl, if_pos ⟨r, by simp, hm⟩]
      · rw [if_neg hm, ih]
        simp [hm]
    · rw [if_pos h, if_pos h]

/-- The label after `eval_state`. -/
theorem evalLabel_eq (rules : Rules K) (x : K → ℕ) (st : St) :
    evalLoop .f (meetsF x) rules.f (evalLoop .s (meetsS x) rules.s st) =
      if st ≠ .u then st else if CoveredS rules x then .s else if CoveredF rules x then .f else .u := by
  have h1 : (∃ r ∈ rules.s, meetsS x r = true) ↔ CoveredS rules x := by
    unfold CoveredS; simp only [meetsS_iff]
  have h2 : (∃ r ∈ rules.f, meetsF x r = true) ↔ CoveredF rules x := by
    unfold CoveredF; simp only [meetsF_iff]
  rw [evalLoop_eq _ (by decide), evalLoop_eq _ (by decide), if_congr h1 rfl rfl,
    if_congr h2 rfl rfl]
  by_cases h : st = .u
  · subst h
    by_cases hs : CoveredS rules x <;> simp [hs]
  · simp [h]

theorem evalState_upState (b : Branch K) (rules : Rules K) : (b.evalState rules).upState =
    if b.upState ≠ .u then b.upState else if CoveredS rules b.up then .s
      else if CoveredF rules b.up then .f else .u := evalLabel_eq rules b.up b.upState

theorem evalState_downState (b : Branch K) (rules : Rules K) : (b.evalState rules).downState =
    if b.downState ≠ .u then b.downState else if CoveredS rules b.down then .s
      else if CoveredF rules b.down then .f else .u := evalLabel_eq rules b.down b.downState

theorem specified_evalState {b : Branch K} {rules : Rules K} (h : b.specified = true) :
    (b.evalState rules).specified = true := by
  unfold Branch.specified at h ⊢
  rw [decide_eq_true_eq] at h ⊢
  have h2 : b.upState ≠ .u := h.1 ▸ h.2
  rw [evalState_upState, evalState_downState, if_pos h.2, if_pos h2]
  exact h

/-! ## One pass -/

/-- What each pair (branch, its rules) satisfies at all times. -/
def PairOK (rules : Rules K) (bc : Branch K × Rules K) : Prop :=
  bc.2 = bc.1.compatRules rules ∨ (bc.2 = { s := [], f := [] } ∧ bc.1.specified = true)

/-- A label `'u'` is right about the rules. -/
def LabelsNew (rules : Rules K) (b : Branch K) : Prop :=
  (b.downState = .u → getState b.down rules = .u) ∧ (b.upState = .u → getState b.up rules = .u)

theorem label_eval_new {rules : Rules K} {x : K → ℕ} {st : St}
    (h : (if st ≠ .u then st else if CoveredS rules x then .s
      else if CoveredF rules x then .f else .u) = .u) : getState x rules = .u := by
  split at h
  · contradiction
  · split at h
    · cases h
    · split at h
      · cases h
      · exact getState_u.2 ⟨by assumption, by assumption⟩

theorem labelsNew_eval (rules : Rules K) (b : Branch K) : LabelsNew rules (b.evalState rules) := by
  refine ⟨?_, ?_⟩
  · rw [evalState_downState]; exact label_eval_new
  · rw [evalState_upState]; exact label_eval_new

/-- A property of single branches that evaluation, and splitting after evaluation, preserve. -/
structure Stable (vs : List (K × ℕ)) (rules : Rules K) (probs : K → ℕ → ℚ)
    (P : Branch K → Prop) : Prop where
  eval : ∀ b, P b → P (b.evalState rules)
  split : ∀ b, P b → LabelsNew rules b → ∀ xd ∈ vs.map Prod.fst, ∀ st, b.down xd < st →
    st ≤ b.up xd → ∀ flag, P (b.newBranch vs rules probs xd st flag)

/-- A property of single branches that evaluation establishes and splitting preserves. -/
structure Fresh (vs : List (K × ℕ)) (rules : Rules K) (probs : K → ℕ → ℚ)
    (P Q : Branch K → Prop) : Prop where
  eval : ∀ b, P b → Q (b.evalState rules)
  split : ∀ b, P b → Q b → ∀ xd ∈ vs.map Prod.fst, ∀ st, b.down xd < st → st ≤ b.up xd →
    ∀ flag, Q (b.newBranch vs rules probs xd st flag)

/-- How often `x` lies in the branches of a list. -/
def hits (vs : List (K × ℕ)) (x : K → ℕ) (l : List (Branch K × Rules K)) : ℕ :=
  l.countP fun bc => decide (InBox vs bc.1 x)

/-- Sum of the (sizes minus one): the measure of the decomposition. -/
def excess (vs : List (K × ℕ)) (l : List (Branch K × Rules K)) : ℕ :=
  (l.map fun bc => bc.1.size vs - 1).sum

theorem hits_append (vs : List (K × ℕ)) (x : K → ℕ) (l m : List (Branch K × Rules K)) :
    hits vs x (l ++ m) = hits vs x l + hits vs x m := List.countP_append

theorem hits_cons (vs : List (K × ℕ)) (x : K → ℕ) (a) (l : List (Branch K × Rules K)) :
    hits vs x (a :: l) = hits vs x l + if InBox vs a.1 x then 1 else 0 := by
  unfold hits
  rw [List.countP_cons]
  by_cases h : InBox vs a.1 x <;> simp [h]

theorem inBox_evalState (vs : List (K × ℕ)) (b : Branch K) (rules : Rules K) (x : K → ℕ) :
    InBox vs (b.evalState rules) x ↔ InBox vs b x := Iff.rfl

theorem size_evalState (vs : List (K × ℕ)) (b : Branch K) (rules : Rules K) :
    (b.evalState rules).size vs = b.size vs := rfl

theorem excess_append (vs : List (K × ℕ)) (l m : List (Branch K × Rules K)) :
    excess vs (l ++ m) = excess vs l + excess vs m := by
  simp [excess]

/-- Everything about one pass. -/
theorem decompPass_spec {vs : List (K × ℕ)} (hv : VarisOK vs) {rules : Rules K}
    (hk : RulesDict vs rules) (probs : K → ℕ → ℚ) (maxNb total : ℕ)
    (P : Branch K → Prop) (hP : Stable vs rules probs P) (hbox : ∀ b, P b → BoxOK vs b)
    (Q : Branch K → Prop) (hQ : Fresh vs rules probs P Q)
    (rest acc : List (Branch K × Rules K))
    (h1 : ∀ bc ∈ rest, PairOK rules bc) (h2 : ∀ bc ∈ acc, PairOK rules bc)
    (h3 : ∀ bc ∈ rest, P bc.1) (h4 : ∀ bc ∈ acc, P bc.1) :
    ∃ go out, decompPass vs rules probs maxNb total rest acc = .ok (go, out) ∧
      (∀ bc ∈ out, PairOK rules bc) ∧ (∀ bc ∈ out, P bc.1) ∧
      (∀ x, hits vs x out = hits vs x acc + hits vs x rest) ∧
      (excess vs out + (out.length - (acc.length + rest.length)) = excess vs acc + excess vs rest) ∧
      acc.length + rest.length ≤ out.length ∧
      (acc.length + rest.length = out.length → go = true → ∀ bc ∈ out, bc ∉ acc →
        bc.2.count = 0) ∧
      (go = false → maxNb < out.length + total) ∧
      (go = true → (∀ bc ∈ acc, Q bc.1) → ∀ bc ∈ out, Q bc.1) := by
  induction rest generalizing acc with
  | nil =>
    refine ⟨true, acc, rfl, h2, h4, ?_, ?_, ?_, ?_, ?_, fun _ h => h⟩
    · intro x; simp [hits]
    · simp [excess]
    · simp
    · intro _ _ bc hb hn; exact absurd hb hn
    · intro h; cases h
  | cons bc rest ih =>
    obtain ⟨b, cr⟩ := bc
    have hpair := h1 (b, cr) (by simp)
    have hPb : P b := h3 (b, cr) (by simp)
    have h1' : ∀ bc ∈ rest, PairOK rules bc := fun bc h => h1 bc (by simp [h])
    have h3' : ∀ bc ∈ rest, P bc.1 := fun bc h => h3 bc (by simp [h])
    unfold decompPass
    simp only
    by_cases hdone : (b.evalState rules).specified = true ∨ cr.count = 0
    · rw [if_pos hdone]
      have hpe : PairOK rules (b.evalState rules, { s := [], f := [] }) := by
        rcases hdone with h | h
        · exact .inr ⟨rfl, h⟩
        · rcases hpair with h' | ⟨h', h''⟩
          · left
            simp only at h' ⊢
            rw [compatRules_congr (evalState_down b rules) (evalState_up b rules), ← h']
            obtain ⟨e1, e2⟩ := count_zero.1 h
            cases cr; simp_all
          · exact .inr ⟨rfl, specified_evalState h''⟩
      obtain ⟨go, out, e, p1, p2, p3, p4, p5, p6, p7, p8⟩ :=
        ih (acc ++ [(b.evalState rules, { s := [], f := [] })]) h1'
          (by
            intro bc hbc
            rcases List.mem_append.1 hbc with h | h
            · exact h2 bc h
            · rw [List.mem_singleton] at h; subst h; exact hpe) h3'
          (by
            intro bc hbc
            rcases List.mem_append.1 hbc with h | h
            · exact h4 bc h
            · rw [List.mem_singleton] at h; subst h; exact hP.eval b hPb)
      refine ⟨go, out, e, p1, p2, ?_, ?_, ?_, ?_, p7, fun hgo hq => p8 hgo (by
        intro bc hbc
        rcases List.mem_append.1 hbc with h | h
        · exact hq bc h
        · rw [List.mem_singleton] at h; subst h; exact hQ.eval b hPb)⟩
      · intro x
        rw [p3, hits_append, hits_cons, hits_cons]
        simp only [inBox_evalState]
        simp [hits]
        omega
      · have hx : excess vs [((b.evalState rules), ({ s := [], f := [] } : Rules K))] =
            b.size vs - 1 := by simp [excess, size_evalState]
        have hy : excess vs ((b, cr) :: rest) = (b.size vs - 1) + excess vs rest := by
          simp [excess]
        rw [excess_append, hx] at p4
        rw [hy]
        simp only [List.length_append, List.length_cons, List.length_nil] at p4 p5 ⊢
        omega
      · simp only [List.length_append, List.length_cons, List.length_nil] at p5 ⊢
        omega
      · intro hlen hgo bc hbc hn
        by_cases hb : bc = (b.evalState rules, { s := [], f := [] })
        · subst hb; rfl
        · refine p6 ?_ hgo bc hbc ?_
          · simp only [List.length_append, List.length_cons, List.length_nil] at hlen ⊢; omega
          · simp [hn, hb]
    · rw [if_neg hdone]
      push Not at hdone
      have hcr : cr = (b.evalState rules).compatRules rules := by
        rcases hpair with h' | ⟨h', -⟩
        · simp only at h'
          rw [h', compatRules_congr (evalState_down b rules) (evalState_up b rules)]
        · exact absurd (by simp only at h'; rw [h']; rfl) hdone.2
      have hc : ((b.evalState rules).compatRules rules).count ≠ 0 := hcr ▸ hdone.2
      obtain ⟨xd, st, e, hxd, hlt, hle⟩ := decompComp_spec (vs := vs) hk probs hc
      rw [hcr, e]
      simp only
      generalize hB : b.evalState rules = b' at *
      have hPb' : P b' := hB ▸ hP.eval b hPb
      have hNb' : LabelsNew rules b' := hB ▸ labelsNew_eval rules b
      have hbb := hbox b' hPb'
      generalize hb1 : b'.newBranch vs rules probs xd st true = b1
      generalize hb2 : b'.newBranch vs rules probs xd st false = b2
      have hP1 : P b1 := hb1 ▸ hP.split b' hPb' hNb' xd hxd st hlt hle true
      have hP2 : P b2 := hb2 ▸ hP.split b' hPb' hNb' xd hxd st hlt hle false
      have hhit : ∀ x, (if InBox vs b1 x then 1 else 0) + (if InBox vs b2 x then 1 else 0) =
          if InBox vs b x then 1 else 0 := by
        intro x
        rw [← hb1, ← hb2, split_count b' rules probs hxd hlt hle x]
        have : InBox vs b' x ↔ InBox vs b x := by rw [← hB]; exact inBox_evalState vs b rules x
        exact if_congr this rfl rfl
      have hs1 := size_pos (hbox b1 hP1)
      have hs2 := size_pos (hbox b2 hP2)
      have hsz : b.size vs = b1.size vs + b2.size vs := by
        rw [← hb1, ← hb2, ← split_size hv b' rules probs hxd hlt hle, ← hB, size_evalState]
      have hacc : ∀ bc ∈ acc ++ [(b1, b1.compatRules rules), (b2, b2.compatRules rules)],
          PairOK rules bc ∧ P bc.1 := by
        intro bc hbc
        rcases List.mem_append.1 hbc with h | h
        · exact ⟨h2 bc h, h4 bc h⟩
        · simp only [List.mem_cons, List.not_mem_nil, or_false] at h
          rcases h with rfl | rfl
          · exact ⟨.inl rfl, hP1⟩
          · exact ⟨.inl rfl, hP2⟩
      have hex : excess vs ((b, cr) :: rest) = (b.size vs - 1) + excess vs rest := by
        simp [excess]
      have hex2 : excess vs [(b1, b1.compatRules rules), (b2, b2.compatRules rules)] =
          (b1.size vs - 1) + (b2.size vs - 1) := by simp [excess]
      have hh2 : ∀ x, hits vs x [(b1, b1.compatRules rules), (b2, b2.compatRules rules)] =
          if InBox vs b x then 1 else 0 := by
        intro x
        rw [← hhit x, hits_cons, hits_cons]
        simp [hits]
        omega
      split
      · rename_i hmax
        refine ⟨false, _, rfl, ?_, ?_, ?_, ?_, ?_, ?_, ?_, (by intro h; cases h)⟩
        · intro bc hbc
          rcases List.mem_append.1 hbc with h | h
          · exact (hacc bc h).1
          · exact h1' bc h
        · intro bc hbc
          rcases List.mem_append.1 hbc with h | h
          · exact (hacc bc h).2
          · exact h3' bc h
        · intro x
          rw [hits_append, hits_append, hh2, hits_cons]
          simp only
          omega
        · rw [excess_append, excess_append, hex2]
          rw [hcr] at hex
          rw [hex]
          simp only [List.length_append, List.length_cons, List.length_nil]
          omega
        · simp only [List.length_append, List.length_cons, List.length_nil]; omega
        · intro hlen
          simp only [List.length_append, List.length_cons, List.length_nil] at hlen
          omega
        · intro _
          simp only [List.length_append, List.length_cons, List.length_nil] at hmax ⊢
          omega
      · obtain ⟨go, out, e', p1, p2, p3, p4, p5, p6, p7, p8⟩ :=
          ih (acc ++ [(b1, b1.compatRules rules), (b2, b2.compatRules rules)]) h1'
            (fun bc h => (hacc bc h).1) h3' (fun bc h => (hacc bc h).2)
        have hQb' : Q b' := hB ▸ hQ.eval b hPb
        refine ⟨go, out, e', p1, p2, ?_, ?_, ?_, ?_, p7, fun hgo hq => p8 hgo (by
          intro bc hbc
          rcases List.mem_append.1 hbc with h | h
          · exact hq bc h
          · simp only [List.mem_cons, List.not_mem_nil, or_false] at h
            rcases h with rfl | rfl
            · exact hb1 ▸ hQ.split b' hPb' hQb' xd hxd st hlt hle true
            · exact hb2 ▸ hQ.split b' hPb' hQb' xd hxd st hlt hle false)⟩
        · intro x
          rw [p3, hits_append, hh2, hits_cons]
          simp only
          omega
        · rw [excess_append, hex2] at p4
          rw [hcr] at hex
          rw [hex]
          simp only [List.length_append, List.length_cons, List.length_nil] at p4 p5 ⊢
          omega
        · simp only [List.length_append, List.length_cons, List.length_nil] at p5 ⊢
          omega
        · intro hlen
          simp only [List.length_append, List.length_cons, List.length_nil] at hlen p5
          omega

/-! ## The loop -/

theorem hits_perm {vs : List (K × ℕ)} {x : K → ℕ} {l m : List (Branch K × Rules K)}
    (h : l.Perm m) : hits vs x l = hits vs x m := h.countP_eq _

theorem excess_perm {vs : List (K × ℕ)} {l m : List (Branch K × Rules K)}
    (h : l.Perm m) : excess vs l = excess vs m := (h.map _).sum_eq

/-- Everything about the loop: it terminates; the invariants hold of the result; when the branch
limit was not hit, each branch is specified or has no compatible rule left. -/
theorem decompLoop_spec {vs : List (K × ℕ)} (hv : VarisOK vs) {rules : Rules K}
    (hk : RulesDict vs rules) (probs : K → ℕ → ℚ) (maxNb : ℕ)
    (P : Branch K → Prop) (hP : Stable vs rules probs P) (hbox : ∀ b, P b → BoxOK vs b)
    (Q : Branch K → Prop) (hQ : Fresh vs rules probs P Q)
    (n : ℕ) (bcs : List (Branch K × Rules K)) (hn : excess vs bcs < n)
    (h1 : ∀ bc ∈ bcs, PairOK rules bc) (h3 : ∀ bc ∈ bcs, P bc.1) :
    ∃ trunc out, decompLoop vs rules probs maxNb n bcs = .ok (trunc, out) ∧
      (∀ bc ∈ out, P bc.1) ∧ (∀ x, hits vs x out = hits vs x bcs) ∧
      bcs.length ≤ out.length ∧
      (trunc = false → ∀ bc ∈ out, bc.1.specified = true ∨
        (bc.1.compatRules rules).s = [] ∧ (bc.1.compatRules rules).f = []) ∧
      (trunc = true → maxNb < 2 * out.length) ∧
      (trunc = false → ∀ bc ∈ out, Q bc.1) := by
  induction n generalizing bcs with
  | zero => omega
  | succ n ih =>
    unfold decompLoop
    simp only
    generalize hS : (bcs.insertionSort fun a b => b.1.p ≤ a.1.p) = S
    have hperm : S.Perm bcs := by rw [← hS]; exact List.perm_insertionSort _ _
    obtain ⟨go, out, e, p1, p2, p3, p4, p5, p6, p7, p8⟩ :=
      decompPass_spec hv hk probs maxNb S.length P hP hbox Q hQ S []
        (fun bc h => h1 bc (hperm.subset h)) (by simp) (fun bc h => h3 bc (hperm.subset h))
        (by simp)
    rw [e, ok_bind]
    have hlen : S.length = bcs.length := hperm.length_eq
    have hhits : ∀ x, hits vs x out = hits vs x bcs := by
      intro x; rw [p3 x]; simp only [hits, List.countP_nil, Nat.zero_add]; exact hits_perm hperm
    simp only [List.length_nil, Nat.zero_add] at p4 p5 p6
    have hex0 : excess vs ([] : List (Branch K × Rules K)) = 0 := by simp [excess]
    rw [hex0, Nat.zero_add, excess_perm hperm] at p4
    simp only
    split
    · rename_i hgo
      refine ⟨true, out, rfl, p2, hhits, by omega, (by intro h; cases h), ?_,
        (by intro h; cases h)⟩
      intro _
      have := p7 hgo
      omega
    · rename_i hgo
      split
      · rename_i hz
        refine ⟨false, out, rfl, p2, hhits, by omega, ?_, (by intro h; cases h),
          fun _ => p8 (by simpa using hgo) (by simp)⟩
        intro _ bc hbc
        have hc : bc.2.count = 0 := by
          have := List.sum_eq_zero_iff.1 hz bc.2.count (List.mem_map.2 ⟨bc, hbc, rfl⟩)
          exact this
        rcases p1 bc hbc with h | ⟨-, h⟩
        · right
          rw [h] at hc
          exact count_zero.1 hc
        · exact .inl h
      · rename_i hz
        have hgt : S.length < out.length := by
          by_contra hcon
          have : S.length = out.length := by omega
          apply hz
          refine List.sum_eq_zero_iff.2 ?_
          intro q hq
          obtain ⟨bc, hbc, rfl⟩ := List.mem_map.1 hq
          exact p6 this (by simpa using hgo) bc hbc (by simp)
        obtain ⟨trunc, out', e', q1, q2, q3, q4, q5, q6⟩ := ih out (by omega) p1 p2
        exact ⟨trunc, out', e', q1, fun x => by rw [q2, hhits], by omega, q4, q5, q6⟩

/-! ## The whole decomposition -/

theorem checkKeys_ok {vs : List (K × ℕ)} {rules : Rules K} (h : RulesDict vs rules) :
    checkKeys vs rules = .ok () := by
  unfold checkKeys
  rw [if_pos]
  rw [List.all_eq_true]
  intro r hr
  rw [List.all_eq_true]
  intro kv hkv
  simpa using (h r hr).known kv hkv

theorem excess_le_size (vs : List (K × ℕ)) (brs : List (Branch K)) (rules : Rules K) :
    excess vs (brs.map fun b => (b, b.compatRules rules)) ≤ (brs.map fun b => b.size vs).sum := by
  unfold excess
  rw [List.map_map]
  induction brs with
  | nil => simp
  | cons b brs ih => simp only [List.map_cons, List.sum_cons, Function.comp] at ih ⊢; omega

/-- The branches the decomposition starts from. -/
def startBranches (vs : List (K × ℕ)) (rules : Rules K) (brs : List (Branch K)) :
    List (Branch K) := if brs.length < 1 then initBranch vs rules else brs

theorem decomp_eq {vs : List (K × ℕ)} {rules : Rules K} (hk : RulesDict vs rules)
    (probs : K → ℕ → ℚ) (maxNb : ℕ) (brs : List (Branch K)) :
    decomp vs rules probs maxNb brs = decompLoop vs rules probs maxNb
      (((startBranches vs rules brs).map fun b => b.size vs).sum + 1)
      ((startBranches vs rules brs).map fun b => (b, b.compatRules rules)) := by
  unfold decomp
  rw [checkKeys_ok hk, ok_bind]
  rfl

theorem decomp_spec {vs : List (K × ℕ)} (hv : VarisOK vs) {rules : Rules K}
    (hk : RulesDict vs rules) (probs : K → ℕ → ℚ) (maxNb : ℕ) (brs : List (Branch K))
    (P : Branch K → Prop) (hP : Stable vs rules probs P) (hbox : ∀ b, P b → BoxOK vs b)
    (Q : Branch K → Prop) (hQ : Fresh vs rules probs P Q)
    (h : ∀ b ∈ startBranches vs rules brs, P b) :
    ∃ trunc out, decomp vs rules probs maxNb brs = .ok (trunc, out) ∧
      (∀ bc ∈ out, P bc.1) ∧
      (∀ x, hits vs x out =
        (startBranches vs rules brs).countP fun b => decide (InBox vs b x)) ∧
      (trunc = false → ∀ bc ∈ out, bc.1.specified = true ∨
        (bc.1.compatRules rules).s = [] ∧ (bc.1.compatRules rules).f = []) ∧
      (trunc = true → maxNb < 2 * out.length) ∧
      (trunc = false → ∀ bc ∈ out, Q bc.1) := by
  rw [decomp_eq hk]
  obtain ⟨trunc, out, e, p1, p2, -, p4, p5, p6⟩ := decompLoop_spec hv hk probs maxNb P hP hbox Q hQ
    (((startBranches vs rules brs).map fun b => b.size vs).sum + 1)
    ((startBranches vs rules brs).map fun b => (b, b.compatRules rules))
    (Nat.lt_succ_of_le (excess_le_size _ _ _))
    (by
      intro bc hbc
      obtain ⟨b, -, rfl⟩ := List.mem_map.1 hbc
      exact .inl rfl)
    (by
      intro bc hbc
      obtain ⟨b, hb, rfl⟩ := List.mem_map.1 hbc
      exact h b hb)
  refine ⟨trunc, out, e, p1, ?_, p4, p5, p6⟩
  intro x
  rw [p2 x]
  unfold hits
  rw [List.countP_map]
  rfl

/-! ## Properties that are preserved -/

theorem stable_box (vs : List (K × ℕ)) (rules : Rules K) (probs : K → ℕ → ℚ) :
    Stable vs rules probs (BoxOK vs) :=
  ⟨fun _ h => h, fun _ h _ _ _ _ h1 h2 flag => newBranch_boxOK h rules probs h1 h2 flag⟩

theorem fresh_true (vs : List (K × ℕ)) (rules : Rules K) (probs : K → ℕ → ℚ)
    (P : Branch K → Prop) : Fresh vs rules probs P (fun _ => True) :=
  ⟨fun _ _ => trivial, fun _ _ _ _ _ _ _ _ _ => trivial⟩

theorem Stable.and {vs : List (K × ℕ)} {rules : Rules K} {probs : K → ℕ → ℚ}
    {P P' : Branch K → Prop} (h : Stable vs rules probs P) (h' : Stable vs rules probs P') :
    Stable vs rules probs (fun b => P b ∧ P' b) :=
  ⟨fun b hb => ⟨h.eval b hb.1, h'.eval b hb.2⟩,
   fun b hb hn xd hx st h1 h2 flag => ⟨h.split b hb.1 hn xd hx st h1 h2 flag,
    h'.split b hb.2 hn xd hx st h1 h2 flag⟩⟩

/-- Exact probability. -/
theorem stable_p {vs : List (K × ℕ)} (hv : VarisOK vs) (rules : Rules K) (probs : K → ℕ → ℚ) :
    Stable vs rules probs (fun b => BoxOK vs b ∧ b.p = probOf vs probs (InBox vs b)) :=
  ⟨fun _ h => h, fun b h _ xd _ st h1 h2 flag =>
    ⟨newBranch_boxOK h.1 rules probs h1 h2 flag, by
      rw [newBranch_p, approxProb_eq hv probs (newBranch_boxOK h.1 rules probs h1 h2 flag)]⟩⟩

theorem labelOK_eval {vs : List (K × ℕ)} {Φ : (K → ℕ) → Bool} {rules : Rules K}
    (hr : RulesValid vs Φ rules) {x : K → ℕ} (hx : InSpace vs x) {st : St} (h : LabelOK Φ st x) :
    LabelOK Φ (if st ≠ .u then st else if CoveredS rules x then .s
      else if CoveredF rules x then .f else .u) x := by
  split
  · exact h
  · split
    · rename_i hc
      exact ⟨fun _ => hr.covS hx hc, fun h => by cases h⟩
    · split
      · rename_i hc
        exact ⟨fun h => (by cases h), fun _ => hr.covF hx hc⟩
      · exact ⟨fun h => (by cases h), fun h => (by cases h)⟩

/-- Sound labels. -/
theorem stable_labels {vs : List (K × ℕ)} {Φ : (K → ℕ) → Bool} {rules : Rules K}
    (hr : RulesValid vs Φ rules) (probs : K → ℕ → ℚ) :
    Stable vs rules probs (fun b => BoxOK vs b ∧ LabelsOK Φ b) := by
  refine ⟨fun b h => ⟨h.1, ?_, ?_⟩, fun b h _ xd _ st h1 h2 flag => ?_⟩
  · rw [evalState_downState]
    exact labelOK_eval hr (h.1.inSpace h.1.down) h.2.1
  · rw [evalState_upState]
    exact labelOK_eval hr (h.1.inSpace h.1.up) h.2.2
  · have hb := newBranch_boxOK h.1 rules probs h1 h2 flag
    refine ⟨hb, ?_⟩
    cases flag
    · exact ⟨hr.label (hb.inSpace hb.down), h.2.2⟩
    · exact ⟨h.2.1, hr.label (hb.inSpace hb.up)⟩

/-- Labels that say exactly what the rules say. -/
def LabelsExact (rules : Rules K) (b : Branch K) : Prop :=
  b.downState = getState b.down rules ∧ b.upState = getState b.up rules

theorem label_eval_exact {rules : Rules K} {x : K → ℕ} {st : St} (h : st = getState x rules) :
    (if st ≠ .u then st else if CoveredS rules x then .s
      else if CoveredF rules x then .f else .u) = getState x rules := by
  split
  · exact h
  · rename_i hu
    have hu : st = .u := by simpa using hu
    rw [hu] at h
    obtain ⟨h1, h2⟩ := getState_u.1 h.symm
    rw [if_neg h1, if_neg h2, h]

theorem stable_exact (vs : List (K × ℕ)) (rules : Rules K) (probs : K → ℕ → ℚ) :
    Stable vs rules probs (fun b => BoxOK vs b ∧ LabelsExact rules b) := by
  refine ⟨fun b h => ⟨h.1, ?_, ?_⟩, fun b h _ xd _ st h1 h2 flag => ?_⟩
  · rw [evalState_downState]; exact label_eval_exact h.2.1
  · rw [evalState_upState]; exact label_eval_exact h.2.2
  · refine ⟨newBranch_boxOK h.1 rules probs h1 h2 flag, ?_⟩
    cases flag
    · exact ⟨rfl, h.2.2⟩
    · exact ⟨h.2.1, rfl⟩

theorem initBranch_exact (vs : List (K × ℕ)) (rules : Rules K) :
    ∀ b ∈ initBranch vs rules, LabelsExact rules b := by
  intro b hb
  simp only [initBranch, List.mem_singleton] at hb
  subst hb
  exact ⟨rfl, rfl⟩

theorem fresh_new (vs : List (K × ℕ)) (rules : Rules K) (probs : K → ℕ → ℚ)
    (P : Branch K → Prop) : Fresh vs rules probs P (LabelsNew rules) := by
  refine ⟨fun b _ => ⟨?_, ?_⟩, fun b _ h xd _ st _ _ flag => ?_⟩
  · rw [evalState_downState]; exact label_eval_new
  · rw [evalState_upState]; exact label_eval_new
  · cases flag
    · exact ⟨fun h => h, h.2⟩
    · exact ⟨h.1, fun h => h⟩

/-! ## Counting -/

theorem size_eq_prob {vs : List (K × ℕ)} (hv : VarisOK vs) {b : Branch K} (hb : BoxOK vs b) :
    ((b.size vs : ℕ) : ℚ) = probOf vs (fun _ _ => 1) (InBox vs b) := by
  rw [← approxProb_eq hv _ hb]
  unfold Branch.size approxProb rangeProb
  rw [Nat.cast_list_prod, List.map_map]
  congr 1
  exact List.map_congr_left fun kn _ => by simp

theorem partition_length {vs : List (K × ℕ)} (hv : VarisOK vs) {brs : List (Branch K)}
    (h : Partition vs brs) : brs.length ≤ spaceSize vs := by
  have h1 : brs.length ≤ (brs.map fun b => b.size vs).sum := by
    have : ∀ l : List (Branch K), (∀ b ∈ l, BoxOK vs b) →
        l.length ≤ (l.map fun b => b.size vs).sum := by
      intro l hl
      induction l with
      | nil => simp
      | cons b l ih =>
        have := size_pos (hl b (by simp))
        have := ih fun b hb => hl b (by simp [hb])
        simp only [List.length_cons, List.map_cons, List.sum_cons]
        omega
    exact this brs h.1
  have h2 : (((brs.map fun b => b.size vs).sum : ℕ) : ℚ) = spaceSize vs := by
    have e1 : (((brs.map fun b => b.size vs).sum : ℕ) : ℚ) =
        (brs.map fun b => probOf vs (fun _ _ => 1) (InBox vs b)).sum := by
      rw [Nat.cast_list_sum, List.map_map]
      congr 1
      exact List.map_congr_left fun b hb => size_eq_prob hv (h.1 b hb)
    rw [e1]
    have := partition_prob hv (fun _ _ => 1)
      (brs := brs.map fun b => { b with p := probOf vs (fun _ _ => 1) (InBox vs b) })
      ⟨by
        intro b hb
        obtain ⟨b', hb', rfl⟩ := List.mem_map.1 hb
        exact h.1 b' hb', by
        intro x hx
        rw [List.countP_map]
        exact h.2 x hx⟩
      (by
        intro b hb
        obtain ⟨b', hb', rfl⟩ := List.mem_map.1 hb
        rfl) (fun _ => true)
    rw [List.filter_true, List.map_map] at this
    have e2 : (brs.map fun b => probOf vs (fun _ _ => 1) (InBox vs b)) =
        brs.map ((fun b : Branch K => b.p) ∘
          fun b => { b with p := probOf vs (fun _ _ => 1) (InBox vs b) }) := rfl
    rw [e2, this]
    unfold probOf weight
    have e3 : sumOver vs (fun x => if ∃ b ∈ brs.map fun b : Branch K =>
        ({ b with p := probOf vs (fun _ _ => 1) (InBox vs b) } : Branch K), true = true ∧ InBox vs b x
        then (vs.map fun kn => (fun (_ : K) (_ : ℕ) => (1 : ℚ)) kn.1 (x kn.1)).prod else 0)
        (fun _ => 0) =
        sumOver vs (fun x => (vs.map fun kn => (fun (_ : K) (_ : ℕ) => (1 : ℚ)) kn.1 (x kn.1)).prod)
        (fun _ => 0) := by
      refine sumOver_congr' vs hv.nodup _ fun y hy _ => ?_
      rw [if_pos]
      obtain ⟨b, hb, hin⟩ := h.exists hy
      exact ⟨_, List.mem_map.2 ⟨b, hb, rfl⟩, rfl, hin⟩
    unfold probOf weight at e3
    refine e3.trans ?_
    rw [sumOver_prod vs hv.nodup (fun _ _ => 1)]
    unfold spaceSize
    rw [Nat.cast_list_prod, List.map_map]
    congr 1
    exact List.map_congr_left fun kn _ => by simp
  have h2' : (brs.map fun b => b.size vs).sum = spaceSize vs := by exact_mod_cast h2
  omega

/-- The branches of a decomposition. -/
def brsOf (out : List (Branch K × Rules K)) : List (Branch K) := out.map Prod.fst

theorem hits_brsOf (vs : List (K × ℕ)) (x : K → ℕ) (out : List (Branch K × Rules K)) :
    (brsOf out).countP (fun b => decide (InBox vs b x)) = hits vs x out := by
  unfold brsOf hits
  rw [List.countP_map]
  rfl

theorem start_partition {vs : List (K × ℕ)} (hv : VarisOK vs) (rules : Rules K)
    {brs : List (Branch K)} (h : brs = [] ∨ Partition vs brs) :
    Partition vs (startBranches vs rules brs) := by
  unfold startBranches
  split
  · exact initBranch_part hv rules
  · rcases h with rfl | h
    · rename_i hn; exact absurd (by simp) hn
    · exact h

theorem start_mem {vs : List (K × ℕ)} {rules : Rules K} {brs : List (Branch K)}
    {P : Branch K → Prop} (h1 : ∀ b ∈ initBranch vs rules, P b) (h2 : ∀ b ∈ brs, P b) :
    ∀ b ∈ startBranches vs rules brs, P b := by
  unfold startBranches
  split
  · exact h1
  · exact h2

end BNS
