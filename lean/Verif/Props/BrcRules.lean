import Verif.Proofs.BrcBox
import Verif.Examples.Brc

/-!
# Properties C18–C21 and C34: rules of the BRC algorithm
-/

namespace BNS

set_option linter.unusedSectionVars false

variable {K : Type} [DecidableEq K] {vs : List (K × ℕ)} {Φ : (K → ℕ) → Bool}

/-! ## C18 -/

/-- With valid rules of a system, `'s'` means the vector survives and `'f'` means it fails. -/
theorem C18_sound {rules : Rules K} (hr : RulesValid vs Φ rules) {x : K → ℕ}
    (hx : InSpace vs x) :
    (getState x rules = .s → Φ x = true) ∧ (getState x rules = .f → Φ x = false) :=
  hr.label hx

/-- For any rules, `'u'` is returned exactly when no rule applies. -/
theorem C18_unknown (rules : Rules K) (x : K → ℕ) :
    getState x rules = .u ↔
      (∀ r ∈ rules.s, ¬ ∀ kv ∈ r, kv.2 ≤ x kv.1) ∧ (∀ r ∈ rules.f, ¬ ∀ kv ∈ r, x kv.1 ≤ kv.2) := by
  rw [getState_u]
  unfold CoveredS CoveredF AppliesS AppliesF
  push Not
  rfl

/-- With valid rules the answer is `'s'` (`'f'`) exactly when some survival (failure) rule
applies. -/
theorem C18_known {rules : Rules K} (hr : RulesValid vs Φ rules) {x : K → ℕ}
    (hx : InSpace vs x) :
    (getState x rules = .s ↔ ∃ r ∈ rules.s, ∀ kv ∈ r, kv.2 ≤ x kv.1) ∧
    (getState x rules = .f ↔ ∃ r ∈ rules.f, ∀ kv ∈ r, x kv.1 ≤ kv.2) :=
  ⟨hr.getState_s_iff hx, hr.getState_f_iff hx⟩

/-- Classification is monotone: a vector that dominates a survival-classified one is
survival-classified, and one dominated by a failure-classified one is failure-classified. -/
theorem C18_monotone {rules : Rules K} (hk : RulesDict vs rules) (hr : RulesValid vs Φ rules)
    {x y : K → ℕ} (hx : InSpace vs x) (hy : InSpace vs y) (hxy : ∀ kn ∈ vs, x kn.1 ≤ y kn.1) :
    (getState x rules = .s → getState y rules = .s) ∧
    (getState y rules = .f → getState x rules = .f) := by
  have hle : ∀ r ∈ rules.s ++ rules.f, ∀ kv ∈ r, x kv.1 ≤ y kv.1 := by
    intro r hr kv hkv
    obtain ⟨kn, hkn, he⟩ := List.mem_map.1 ((hk r hr).known kv hkv)
    rw [← he]
    exact hxy kn hkn
  constructor
  · intro h
    obtain ⟨r, h1, h2⟩ := getState_s h
    exact (hr.getState_s_iff hy).2 ⟨r, h1, fun kv hkv =>
      (h2 kv hkv).trans (hle r (by simp [h1]) kv hkv)⟩
  · intro h
    obtain ⟨r, h1, h2⟩ := getState_f h
    exact (hr.getState_f_iff hx).2 ⟨r, h1, fun kv hkv =>
      (hle r (by simp [h1]) kv hkv).trans (h2 kv hkv)⟩

example : RulesValid Ex.vs Ex.Φ Ex.rules ∧ RulesDict Ex.vs Ex.rules ∧
    InSpace Ex.vs (fun _ => 1) ∧ getState (fun _ => 1) Ex.rules = .s ∧
    getState (fun _ => 0) Ex.rules = .f ∧
    getState (fun k => if k = 0 then 1 else 0) Ex.rules = .u :=
  ⟨Ex.rules_valid, Ex.rules_dict, by decide, by decide, by decide, by decide⟩

/-! ## C19 -/

/-- A survival rule: exactly the vectors covered before or by the new rule are covered after; the
failure rules are untouched; every rule left is an old one or the new one. -/
theorem C19_survival {rules : Rules K} (hk : RulesDict vs rules) (n : Rule K) :
    ∃ rules', updateRuleSet rules n .s = .ok rules' ∧ rules'.f = rules.f ∧
      (∀ r ∈ rules'.s, r ∈ rules.s ∨ r = n) ∧
      ∀ x : K → ℕ, (∃ r ∈ rules'.s, ∀ kv ∈ r, kv.2 ≤ x kv.1) ↔
        (∃ r ∈ rules.s, ∀ kv ∈ r, kv.2 ≤ x kv.1) ∨ ∀ kv ∈ n, kv.2 ≤ x kv.1 :=
  ⟨_, updateRuleSet_s rules n, rfl, fun _ h => mem_updated h,
    updated_covers implOK_S fun r hr => (hk r (by simp [hr])).nodup⟩

/-- The same for a failure rule. -/
theorem C19_failure {rules : Rules K} (hk : RulesDict vs rules) (n : Rule K) :
    ∃ rules', updateRuleSet rules n .f = .ok rules' ∧ rules'.s = rules.s ∧
      (∀ r ∈ rules'.f, r ∈ rules.f ∨ r = n) ∧
      ∀ x : K → ℕ, (∃ r ∈ rules'.f, ∀ kv ∈ r, x kv.1 ≤ kv.2) ↔
        (∃ r ∈ rules.f, ∀ kv ∈ r, x kv.1 ≤ kv.2) ∨ ∀ kv ∈ n, x kv.1 ≤ kv.2 :=
  ⟨_, updateRuleSet_f rules n, rfl, fun _ h => mem_updated h,
    updated_covers implOK_F fun r hr => (hk r (by simp [hr])).nodup⟩

/-- A rule of another kind is refused. -/
theorem C19_unknown_kind (rules : Rules K) (n : Rule K) :
    updateRuleSet rules n .u = .error .key := rfl

example : (updateRuleSet Ex.rules [(0, 1), (1, 2)] .s = .ok Ex.rules) ∧
    (updateRuleSet Ex.rules [(0, 1)] .s = .ok { s := [[(0, 1)]], f := [[(0, 0)]] }) := by
  decide +kernel

/-! ## C20 -/

/-- One rule is implied by another in the sense of the documentation: whenever the second names a
component, the first names it with an at least as strong requirement. -/
def ImpliedS (a b : Rule K) : Prop := ∀ kv ∈ b, ∃ w, (kv.1, w) ∈ a ∧ kv.2 ≤ w
def ImpliedF (a b : Rule K) : Prop := ∀ kv ∈ b, ∃ w, (kv.1, w) ∈ a ∧ w ≤ kv.2

theorem implS_iff {a b : Rule K} (hb : (b.map Prod.fst).Nodup) :
    implS a b = true ↔ ImpliedS b a := by
  unfold implS
  rw [List.all_eq_true]
  refine forall₂_congr fun kv _ => ?_
  constructor
  · intro h
    split at h
    · rename_i w hw
      exact ⟨w, lookup_mem hw, by simpa using h⟩
    · cases h
  · rintro ⟨w, h1, h2⟩
    rw [lookup_of_mem hb h1]
    simpa using h2

theorem implF_iff {a b : Rule K} (hb : (b.map Prod.fst).Nodup) :
    implF a b = true ↔ ImpliedF b a := by
  unfold implF
  rw [List.all_eq_true]
  refine forall₂_congr fun kv _ => ?_
  constructor
  · intro h
    split at h
    · rename_i w hw
      exact ⟨w, lookup_mem hw, by simpa using h⟩
    · cases h
  · rintro ⟨w, h1, h2⟩
    rw [lookup_of_mem hb h1]
    simpa using h2

/-- No rule is implied by another one of its kind. -/
def NoDominated (rules : Rules K) : Prop :=
  rules.s.Pairwise (fun a b => ¬ ImpliedS a b ∧ ¬ ImpliedS b a) ∧
  rules.f.Pairwise (fun a b => ¬ ImpliedF a b ∧ ¬ ImpliedF b a)

theorem irredundant_iff {rules : Rules K} (hk : RulesDict vs rules) :
    (Irredundant implS rules.s ∧ Irredundant implF rules.f) ↔ NoDominated rules := by
  unfold Irredundant NoDominated
  refine and_congr ?_ ?_
  · refine List.Pairwise.iff_of_mem fun {a b} ha hb => ?_
    rw [← implS_iff (hk a (by simp [ha])).nodup, ← implS_iff (hk b (by simp [hb])).nodup]
    simp [and_comm]
  · refine List.Pairwise.iff_of_mem fun {a b} ha hb => ?_
    rw [← implF_iff (hk a (by simp [ha])).nodup, ← implF_iff (hk b (by simp [hb])).nodup]
    simp [and_comm]

/-- A sequence of updates. -/
def updateAll (rules : Rules K) (l : List (Rule K × St)) : Except Err (Rules K) :=
  l.foldlM (fun rules ns => updateRuleSet rules ns.1 ns.2) rules

theorem update_step {rules rules' : Rules K} {n : Rule K} {st : St} (hk : RulesDict vs rules)
    (hn : RuleOK vs n) (hi : NoDominated rules) (h : updateRuleSet rules n st = .ok rules') :
    RulesDict vs rules' ∧ NoDominated rules' := by
  have hi' := (irredundant_iff hk).2 hi
  cases st with
  | s =>
    rw [updateRuleSet_s] at h
    injection h with h
    subst h
    have hd : RulesDict vs { rules with s := updated implS n rules.s } := by
      intro r hr
      rcases List.mem_append.1 hr with hr | hr
      · rcases mem_updated hr with hr | rfl
        · exact hk r (by simp [hr])
        · exact hn
      · exact hk r (by simp [hr])
    exact ⟨hd, (irredundant_iff hd).1
      ⟨updated_irredundant implOK_S (fun r hr => (hk r (by simp [hr])).nodup) hi'.1, hi'.2⟩⟩
  | f =>
    rw [updateRuleSet_f] at h
    injection h with h
    subst h
    have hd : RulesDict vs { rules with f := updated implF n rules.f } := by
      intro r hr
      rcases List.mem_append.1 hr with hr | hr
      · exact hk r (by simp [hr])
      · rcases mem_updated hr with hr | rfl
        · exact hk r (by simp [hr])
        · exact hn
    exact ⟨hd, (irredundant_iff hd).1
      ⟨hi'.1, updated_irredundant implOK_F (fun r hr => (hk r (by simp [hr])).nodup) hi'.2⟩⟩
  | u => cases h

/-- From an irredundant rule set (the empty one in particular), after any sequence of updates no
rule is implied by another. -/
theorem C20_irredundant {rules rules' : Rules K} (hk : RulesDict vs rules)
    (hi : NoDominated rules) (l : List (Rule K × St)) (hl : ∀ ns ∈ l, RuleOK vs ns.1)
    (h : updateAll rules l = .ok rules') : NoDominated rules' := by
  induction l generalizing rules with
  | nil => cases h; exact hi
  | cons ns l ih =>
    unfold updateAll at h
    rw [List.foldlM_cons] at h
    cases h1 : updateRuleSet rules ns.1 ns.2 with
    | error e => rw [h1] at h; cases h
    | ok r1 =>
      rw [h1, ok_bind] at h
      obtain ⟨hk1, hi1⟩ := update_step hk (hl ns (by simp)) hi h1
      exact ih hk1 hi1 (fun ns h => hl ns (by simp [h])) h

theorem C20_from_empty {rules' : Rules K} (l : List (Rule K × St))
    (hl : ∀ ns ∈ l, RuleOK vs ns.1) (h : updateAll { s := [], f := [] } l = .ok rules') :
    NoDominated rules' :=
  C20_irredundant (vs := vs) (fun r hr => by simp at hr) ⟨List.Pairwise.nil, List.Pairwise.nil⟩
    l hl h

/-- In terms of component vectors: of two survival rules of an irredundant set (whose requirements
are non-trivial and attainable) each applies to a vector to which the other does not. -/
theorem C20_semantic_survival {rules : Rules K} (hv : VarisOK vs) (hk : RulesDict vs rules)
    (hi : NoDominated rules)
    (hn : ∀ r ∈ rules.s, ∀ kv ∈ r, 0 < kv.2 ∧ ∀ n, (kv.1, n) ∈ vs → kv.2 < n) :
    rules.s.Pairwise fun a b => (∃ x, InSpace vs x ∧ AppliesS a x ∧ ¬ AppliesS b x) ∧
      ∃ x, InSpace vs x ∧ AppliesS b x ∧ ¬ AppliesS a x := by
  have key : ∀ a ∈ rules.s, ∀ b ∈ rules.s, ¬ ImpliedS a b →
      ∃ x, InSpace vs x ∧ AppliesS a x ∧ ¬ AppliesS b x := by
    intro a ha b hb hab
    refine ⟨fun k => (a.lookup k).getD 0, ?_, ?_, ?_⟩
    · intro kn hkn
      cases hl : a.lookup kn.1 with
      | none => simp only [hl, Option.getD_none]; exact hv.pos kn hkn
      | some v =>
        simp only [hl, Option.getD_some]
        exact (hn a ha _ (lookup_mem hl)).2 kn.2 hkn
    · intro kv hkv
      have := lookup_of_mem (hk a (by simp [ha])).nodup (k := kv.1) (v := kv.2) hkv
      simp [this]
    · intro happ
      refine hab fun kv hkv => ?_
      have h1 := happ kv hkv
      cases hl : a.lookup kv.1 with
      | none =>
        simp only [hl, Option.getD_none] at h1
        have := (hn b hb kv hkv).1
        omega
      | some w =>
        simp only [hl, Option.getD_some] at h1
        exact ⟨w, lookup_mem hl, h1⟩
  refine (List.Pairwise.iff_of_mem ?_).1 hi.1
  intro a b ha hb
  constructor
  · rintro ⟨h1, h2⟩
    exact ⟨key a ha b hb h1, key b hb a ha h2⟩
  · rintro ⟨⟨x, -, h1, h2⟩, y, -, h3, h4⟩
    refine ⟨fun h => h2 fun kv hkv => ?_, fun h => h4 fun kv hkv => ?_⟩
    · obtain ⟨w, hw, hle⟩ := h kv hkv
      exact hle.trans (h1 _ hw)
    · obtain ⟨w, hw, hle⟩ := h kv hkv
      exact hle.trans (h3 _ hw)

/-- The same for failure rules. -/
theorem C20_semantic_failure {rules : Rules K} (hv : VarisOK vs) (hk : RulesDict vs rules)
    (hi : NoDominated rules)
    (hn : ∀ r ∈ rules.f, ∀ kv ∈ r, ∀ n, (kv.1, n) ∈ vs → kv.2 < n - 1) :
    rules.f.Pairwise fun a b => (∃ x, InSpace vs x ∧ AppliesF a x ∧ ¬ AppliesF b x) ∧
      ∃ x, InSpace vs x ∧ AppliesF b x ∧ ¬ AppliesF a x := by
  have key : ∀ a ∈ rules.f, ∀ b ∈ rules.f, ¬ ImpliedF a b →
      ∃ x, InSpace vs x ∧ AppliesF a x ∧ ¬ AppliesF b x := by
    intro a ha b hb hab
    refine ⟨fun k => (a.lookup k).getD (topState vs k), ?_, ?_, ?_⟩
    · intro kn hkn
      have hpos := hv.pos kn hkn
      cases hl : a.lookup kn.1 with
      | none => simp only [hl, Option.getD_none]; rw [topState_eq hv hkn]; omega
      | some v =>
        have := hn a ha _ (lookup_mem hl) kn.2 hkn
        simp only [hl, Option.getD_some]
        omega
    · intro kv hkv
      have := lookup_of_mem (hk a (by simp [ha])).nodup (k := kv.1) (v := kv.2) hkv
      simp [this]
    · intro happ
      refine hab fun kv hkv => ?_
      have h1 := happ kv hkv
      cases hl : a.lookup kv.1 with
      | none =>
        simp only [hl, Option.getD_none] at h1
        obtain ⟨kn, hkn, he⟩ := List.mem_map.1 ((hk b (by simp [hb])).known kv hkv)
        have := hn b hb kv hkv kn.2 (he ▸ hkn)
        rw [← he, topState_eq hv hkn] at h1
        omega
      | some w =>
        simp only [hl, Option.getD_some] at h1
        exact ⟨w, lookup_mem hl, h1⟩
  refine (List.Pairwise.iff_of_mem ?_).1 hi.2
  intro a b ha hb
  constructor
  · rintro ⟨h1, h2⟩
    exact ⟨key a ha b hb h1, key b hb a ha h2⟩
  · rintro ⟨⟨x, -, h1, h2⟩, y, -, h3, h4⟩
    refine ⟨fun h => h2 fun kv hkv => ?_, fun h => h4 fun kv hkv => ?_⟩
    · obtain ⟨w, hw, hle⟩ := h kv hkv
      exact (h1 _ hw).trans hle
    · obtain ⟨w, hw, hle⟩ := h kv hkv
      exact (h3 _ hw).trans hle

example : updateAll { s := [], f := [] }
    [([(0, 1), (1, 2)], .s), ([(0, 1), (1, 1)], .s), ([(0, 1), (2, 1)], .s), ([(0, 0)], .f)] =
    .ok { s := [[(0, 1), (1, 1)], [(0, 1), (2, 1)]], f := [[(0, 0)]] } := by decide +kernel

/-! ## C21 -/

/-- Running the system function on a component vector of a coherent system gives a rule of the
kind the system is in, which is a dictionary over the components, applies to the vector and is
valid; whether or not the system function offers a minimal state. -/
theorem C21_run_sys_fn (hv : VarisOK vs) (hc : Coherent vs Φ) {sysFun : (K → ℕ) → SysRes K}
    (hs : SysOK vs Φ sysFun) {x : K → ℕ} (hx : InSpace vs x) :
    RuleOK vs (runSysFn vs sysFun x).1 ∧
    (Φ x = true → (runSysFn vs sysFun x).2 = .s ∧ ValidS vs Φ (runSysFn vs sysFun x).1 ∧
      AppliesS (runSysFn vs sysFun x).1 x) ∧
    (Φ x = false → (runSysFn vs sysFun x).2 = .f ∧ ValidF vs Φ (runSysFn vs sysFun x).1 ∧
      AppliesF (runSysFn vs sysFun x).1 x) := by
  have hst := hs.st x hx
  unfold runSysFn
  simp only
  by_cases hm : (sysFun x).min ≠ []
  · rw [if_pos hm]
    refine ⟨hs.dict x hx hm, fun h => ⟨by rw [hst, if_pos h], hs.minS x hx hm h⟩, fun h => ?_⟩
    exact ⟨by rw [hst, if_neg (by rw [h]; decide)], hs.minF x hx hm h⟩
  · rw [if_neg hm]
    have hsub : ∀ (P : K × ℕ → Prop) [DecidablePred P] (kv : K × ℕ),
        kv ∈ vs.filterMap (fun kn => if P kn then some (kn.1, x kn.1) else none) ↔
        ∃ kn ∈ vs, P kn ∧ kv = (kn.1, x kn.1) := by
      intro P _ kv
      rw [List.mem_filterMap]
      refine exists_congr fun kn => and_congr_right fun _ => ?_
      by_cases hp : P kn
      · rw [if_pos hp]; simp [hp, eq_comm]
      · simp [hp]
    have hdict : ∀ (P : K × ℕ → Prop) [DecidablePred P],
        RuleOK vs (vs.filterMap fun kn => if P kn then some (kn.1, x kn.1) else none) := by
      intro P _
      constructor
      · have : (vs.filterMap fun kn => if P kn then some (kn.1, x kn.1) else none).map Prod.fst =
            (vs.filter fun kn => P kn).map Prod.fst := by
          clear hsub hst hm hx hv hc hs
          induction vs with
          | nil => rfl
          | cons kn vs ih =>
            by_cases hp : P kn
            · simp [hp, ih]
            · simp [hp, ih]
        rw [this]
        exact hv.nodup.sublist (List.filter_sublist.map _)
      · intro kv hkv
        obtain ⟨kn, hkn, -, rfl⟩ := (hsub P kv).1 hkv
        exact List.mem_map.2 ⟨kn, hkn, rfl⟩
    cases hΦ : Φ x with
    | true =>
      have hst' : (sysFun x).st = .s := by rw [hst, hΦ]; rfl
      rw [if_pos hst']
      refine ⟨hdict _, fun _ => ⟨hst', ?_, ?_⟩, fun h => by cases h⟩
      · intro y _ ha
        refine hc x y (fun kn hkn => ?_) hΦ
        by_cases hz : x kn.1 = 0
        · omega
        · exact ha (kn.1, x kn.1) ((hsub (fun kn => x kn.1 ≠ 0) _).2 ⟨kn, hkn, hz, rfl⟩)
      · intro kv hkv
        obtain ⟨kn, -, -, rfl⟩ := (hsub (fun kn => x kn.1 ≠ 0) kv).1 hkv
        exact le_rfl
    | false =>
      have hst' : (sysFun x).st = .f := by rw [hst, hΦ]; rfl
      rw [if_neg (by rw [hst']; decide)]
      refine ⟨hdict _, fun h => (by cases h), fun _ => ⟨hst', ?_, ?_⟩⟩
      · intro y hy ha
        by_contra hne
        have hy' : Φ y = true := by simpa using hne
        have := hc y x (fun kn hkn => ?_) hy'
        · rw [hΦ] at this; cases this
        · by_cases hz : x kn.1 < kn.2 - 1
          · exact ha (kn.1, x kn.1)
              ((hsub (fun kn => x kn.1 < kn.2 - 1) _).2 ⟨kn, hkn, hz, rfl⟩)
          · have := hy kn hkn; omega
      · intro kv hkv
        obtain ⟨kn, -, -, rfl⟩ := (hsub (fun kn => x kn.1 < kn.2 - 1) kv).1 hkv
        exact le_rfl

example : VarisOK Ex.vs ∧ Coherent Ex.vs Ex.Φ ∧ SysOK Ex.vs Ex.Φ Ex.sysFun ∧
    runSysFn Ex.vs Ex.sysFun (fun _ => 1) = ([(0, 1), (1, 1), (2, 1)], .s) ∧
    runSysFn Ex.vs Ex.sysFun (fun k => if k = 1 then 2 else 0) = ([(0, 0), (2, 0)], .f) :=
  ⟨Ex.vs_ok, Ex.coherent, Ex.sysFun_ok, by decide +kernel, by decide +kernel⟩

/-! ## C34 -/

/-- Product over the components of a rule, the others counting 1. -/
theorem prod_rule (vs : List (K × ℕ)) (hn : (vs.map Prod.fst).Nodup) (r : Rule K)
    (hr : RuleOK vs r) (h : K → ℕ → ℚ) :
    (r.map fun kv => h kv.1 kv.2).prod =
      (vs.map fun kn => match r.lookup kn.1 with | some v => h kn.1 v | none => 1).prod := by
  induction r with
  | nil => simp
  | cons kv r ih =>
    have hr' : RuleOK vs r := ⟨(List.nodup_cons.1 hr.nodup).2, fun kv h => hr.known kv (by simp [h])⟩
    rw [List.map_cons, List.prod_cons, ih hr']
    have hkey : kv.1 ∉ r.map Prod.fst := (List.nodup_cons.1 hr.nodup).1
    have hin := hr.known kv (by simp)
    clear ih hr hr'
    induction vs with
    | nil => simp at hin
    | cons kn vs ih =>
      rw [List.map_cons, List.nodup_cons] at hn
      simp only [List.map_cons, List.prod_cons]
      by_cases he : kn.1 = kv.1
      · have hl : r.lookup kn.1 = none := by rw [he]; exact lookup_none.2 hkey
        have hl2 : (kv :: r).lookup kn.1 = some kv.2 := by rw [List.lookup_cons, he]; simp
        rw [hl, hl2]
        have hrest : (vs.map fun kn => match (kv :: r).lookup kn.1 with
            | some v => h kn.1 v | none => (1 : ℚ)) =
            vs.map fun kn => match r.lookup kn.1 with | some v => h kn.1 v | none => 1 := by
          refine List.map_congr_left fun kn' hkn' => ?_
          have hne : (kn'.1 == kv.1) = false := by
            simp only [beq_eq_false_iff_ne, ne_eq]
            intro e
            exact hn.1 (by rw [he, ← e]; exact List.mem_map_of_mem hkn')
          rw [List.lookup_cons, hne]
        rw [hrest, he, one_mul]
      · have hin' : kv.1 ∈ vs.map Prod.fst := by
          rw [List.map_cons, List.mem_cons] at hin
          exact hin.resolve_left (Ne.symm he)
        have hne : (kn.1 == kv.1) = false := by simpa using he
        have hl2 : (kv :: r).lookup kn.1 = r.lookup kn.1 := by rw [List.lookup_cons, hne]
        rw [hl2, ← ih hn.2 hin']
        ring

/-- The probability of an event that constrains each component of a rule separately. -/
theorem probOf_rule (hv : VarisOK vs) {probs : K → ℕ → ℚ} (hp : ProbOK vs probs) {r : Rule K}
    (hr : RuleOK vs r) (C : ℕ → ℕ → Prop) [∀ a b, Decidable (C a b)] :
    probOf vs probs (fun x => ∀ kv ∈ r, C kv.2 (x kv.1)) =
      (r.map fun kv => ∑ i ∈ Finset.range (topState vs kv.1 + 1),
        if C kv.2 i then probs kv.1 i else 0).prod := by
  rw [prod_rule vs hv.nodup r hr (fun k v => ∑ i ∈ Finset.range (topState vs k + 1),
        if C v i then probs k i else 0)]
  unfold probOf weight
  have hfun : (fun x : K → ℕ => if ∀ kv ∈ r, C kv.2 (x kv.1) then
      (vs.map fun kn => probs kn.1 (x kn.1)).prod else 0) =
      fun x => (vs.map fun kn => (fun k i => match r.lookup k with
        | some v => if C v i then probs k i else 0
        | none => probs k i) kn.1 (x kn.1)).prod := by
    funext x
    have h1 : (∀ kv ∈ r, C kv.2 (x kv.1)) ↔
        ∀ kn ∈ vs, ∀ v ∈ r.lookup kn.1, C v (x kn.1) := by
      constructor
      · intro h kn _ v hv
        exact h (kn.1, v) (lookup_mem hv)
      · intro h kv hkv
        obtain ⟨kn, hkn, he⟩ := List.mem_map.1 (hr.known kv hkv)
        have := h kn hkn kv.2 (by rw [he]; exact lookup_of_mem hr.nodup hkv)
        rwa [he] at this
    rw [if_congr h1 rfl rfl]
    rw [← prod_ite vs (fun kn => ∀ v ∈ r.lookup kn.1, C v (x kn.1))]
    congr 1
    refine List.map_congr_left fun kn _ => ?_
    cases hl : r.lookup kn.1 with
    | none => simp [hl]
    | some v => simp [hl]
  rw [hfun, sumOver_prod vs hv.nodup (fun k i => match r.lookup k with
        | some v => if C v i then probs k i else 0
        | none => probs k i)]
  congr 1
  refine List.map_congr_left fun kn hkn => ?_
  have hpos := hv.pos kn hkn
  have htop : topState vs kn.1 + 1 = kn.2 := by rw [topState_eq hv hkn]; omega
  cases hl : r.lookup kn.1 with
  | none => simp only []; exact hp.total kn hkn
  | some v => simp only []; rw [htop]

/-- `eval_rules_prob(rules, 's', probs)`: for each rule the probability that it applies, and for
`'f'` the probability that every named component is strictly below the value in the rule.  Missing
for the full claim: failure rules (see `C34_failure_wrong`). -/
theorem C34_rule_prob_partial (hv : VarisOK vs) {probs : K → ℕ → ℚ} (hp : ProbOK vs probs)
    {rules : List (Rule K)} (hr : ∀ r ∈ rules, RuleOK vs r) :
    evalRulesProb vs probs rules .s = .ok (rules.map fun r => probOf vs probs (AppliesS r)) ∧
    ((∀ r ∈ rules, ∀ kv ∈ r, ∀ n, (kv.1, n) ∈ vs → kv.2 ≤ n) →
      evalRulesProb vs probs rules .f =
        .ok (rules.map fun r => probOf vs probs (fun x => ∀ kv ∈ r, x kv.1 < kv.2))) := by
  constructor
  · unfold evalRulesProb
    simp only
    congr 1
    refine List.map_congr_left fun r hr' => ?_
    have h := probOf_rule hv hp (hr r hr') (fun a b => a ≤ b)
    refine Eq.trans ?_ h.symm
    congr 1
    refine List.map_congr_left fun kv _ => ?_
    rw [rangeProb_eq (probs kv.1) (lt_add_one (topState vs kv.1))]
    refine Finset.sum_congr rfl fun i hi => ?_
    have : i ≤ topState vs kv.1 := Nat.lt_succ_iff.1 (Finset.mem_range.1 hi)
    simp [this]
  · intro hle
    unfold evalRulesProb
    simp only
    congr 1
    refine List.map_congr_left fun r hr' => ?_
    have h := probOf_rule hv hp (hr r hr') (fun a b => b < a)
    refine Eq.trans ?_ h.symm
    congr 1
    refine List.map_congr_left fun kv hkv => ?_
    obtain ⟨kn, hkn, he⟩ := List.mem_map.1 ((hr r hr').known kv hkv)
    have hpos := hv.pos kn hkn
    have htop : topState vs kv.1 + 1 = kn.2 := by rw [← he, topState_eq hv hkn]; omega
    have hk2 := hle r hr' kv hkv kn.2 (he ▸ hkn)
    rw [htop, ← Finset.sum_filter, ← List.sum_toFinset _ List.nodup_range]
    refine Finset.sum_congr ?_ fun _ _ => rfl
    ext i
    simp only [List.mem_toFinset, List.mem_range, Finset.mem_filter, Finset.mem_range]
    omega

/-- For failure rules the claim is false: the probability returned for the rule "component 0 is at
most 0" is 0, although the rule applies with probability 1/10. -/
theorem C34_failure_wrong : ∃ (vs : List (ℕ × ℕ)) (probs : ℕ → ℕ → ℚ) (r : Rule ℕ),
    VarisOK vs ∧ ProbOK vs probs ∧ RuleOK vs r ∧
    evalRulesProb vs probs [r] .f = .ok [0] ∧ probOf vs probs (AppliesF r) = 1 / 10 :=
  ⟨Ex.vs, Ex.probs, [(0, 0)], Ex.vs_ok, Ex.probs_ok, ⟨by decide, by decide⟩, by decide +kernel,
    by decide +kernel⟩

example : evalRulesProb Ex.vs Ex.probs Ex.rules.s .s = .ok [18 / 25] := by decide +kernel

end BNS
