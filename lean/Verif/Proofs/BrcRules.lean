import Verif.Spec.Brc

/-! Helper lemmas: rules, `getState`, `updateRuleSet`. -/

namespace BNS

set_option linter.unusedSectionVars false

variable {K : Type}

theorem meetsS_iff {x : K → ℕ} {r : Rule K} : meetsS x r = true ↔ AppliesS r x := by
  simp [meetsS, AppliesS]

theorem meetsF_iff {x : K → ℕ} {r : Rule K} : meetsF x r = true ↔ AppliesF r x := by
  simp [meetsF, AppliesF]

theorem countS_zero {rules : Rules K} {x : K → ℕ} :
    rules.s.countP (meetsS x) = 0 ↔ ¬ CoveredS rules x := by
  rw [List.countP_eq_zero]
  unfold CoveredS
  push Not
  exact forall₂_congr fun r _ => not_congr meetsS_iff

theorem countF_zero {rules : Rules K} {x : K → ℕ} :
    rules.f.countP (meetsF x) = 0 ↔ ¬ CoveredF rules x := by
  rw [List.countP_eq_zero]
  unfold CoveredF
  push Not
  exact forall₂_congr fun r _ => not_congr meetsF_iff

theorem getState_u {rules : Rules K} {x : K → ℕ} :
    getState x rules = .u ↔ ¬ CoveredS rules x ∧ ¬ CoveredF rules x := by
  rw [← countS_zero, ← countF_zero]
  unfold getState
  simp only
  split
  · simp_all
  · split <;> simp_all

theorem getState_s {rules : Rules K} {x : K → ℕ} (h : getState x rules = .s) :
    CoveredS rules x := by
  by_contra hc
  rw [← countS_zero] at hc
  unfold getState at h
  simp only at h
  split at h
  · cases h
  · split at h
    · rename_i h1 h2
      exact h1 ⟨hc, by omega⟩
    · cases h

theorem getState_f {rules : Rules K} {x : K → ℕ} (h : getState x rules = .f) :
    CoveredF rules x := by
  by_contra hc
  rw [← countF_zero] at hc
  unfold getState at h
  simp only at h
  split at h
  · cases h
  · split at h
    · cases h
    · rename_i h1 h2
      omega

theorem getState_eq_s {rules : Rules K} {x : K → ℕ} (h : CoveredS rules x)
    (hf : ¬ CoveredF rules x) : getState x rules = .s := by
  cases hs : getState x rules with
  | s => rfl
  | f => exact absurd (getState_f hs) hf
  | u => exact absurd h (getState_u.1 hs).1

theorem getState_eq_f {rules : Rules K} {x : K → ℕ} (h : CoveredF rules x)
    (hf : ¬ CoveredS rules x) : getState x rules = .f := by
  cases hs : getState x rules with
  | f => rfl
  | s => exact absurd (getState_s hs) hf
  | u => exact absurd h (getState_u.1 hs).2

theorem RulesValid.covS {vs : List (K × ℕ)} {Φ : (K → ℕ) → Bool} {rules : Rules K}
    (h : RulesValid vs Φ rules) {x : K → ℕ} (hx : InSpace vs x) (hc : CoveredS rules x) :
    Φ x = true := by
  obtain ⟨r, hr, ha⟩ := hc
  exact h.s r hr x hx ha

theorem RulesValid.covF {vs : List (K × ℕ)} {Φ : (K → ℕ) → Bool} {rules : Rules K}
    (h : RulesValid vs Φ rules) {x : K → ℕ} (hx : InSpace vs x) (hc : CoveredF rules x) :
    Φ x = false := by
  obtain ⟨r, hr, ha⟩ := hc
  exact h.f r hr x hx ha

theorem RulesValid.label {vs : List (K × ℕ)} {Φ : (K → ℕ) → Bool} {rules : Rules K}
    (h : RulesValid vs Φ rules) {x : K → ℕ} (hx : InSpace vs x) :
    LabelOK Φ (getState x rules) x :=
  ⟨fun hs => h.covS hx (getState_s hs), fun hs => h.covF hx (getState_f hs)⟩

/-- With valid rules the classification is "some rule of that kind applies". -/
theorem RulesValid.getState_s_iff {vs : List (K × ℕ)} {Φ : (K → ℕ) → Bool} {rules : Rules K}
    (h : RulesValid vs Φ rules) {x : K → ℕ} (hx : InSpace vs x) :
    getState x rules = .s ↔ CoveredS rules x := by
  refine ⟨getState_s, fun hc => getState_eq_s hc fun hf => ?_⟩
  have h1 := h.covS hx hc
  rw [h.covF hx hf] at h1
  cases h1

theorem RulesValid.getState_f_iff {vs : List (K × ℕ)} {Φ : (K → ℕ) → Bool} {rules : Rules K}
    (h : RulesValid vs Φ rules) {x : K → ℕ} (hx : InSpace vs x) :
    getState x rules = .f ↔ CoveredF rules x := by
  refine ⟨getState_f, fun hc => getState_eq_f hc fun hf => ?_⟩
  have h1 := h.covS hx hf
  rw [h.covF hx hc] at h1
  cases h1

section Update
variable [DecidableEq K]

theorem lookup_mem {r : Rule K} {k : K} {v : ℕ} (h : r.lookup k = some v) : (k, v) ∈ r := by
  induction r with
  | nil => cases h
  | cons a r ih =>
    rw [List.lookup_cons] at h
    split at h
    · rename_i he
      simp only [beq_iff_eq] at he
      injection h with h
      subst h; subst he
      simp
    · exact List.mem_cons_of_mem _ (ih h)

theorem lookup_of_mem {r : Rule K} (hn : (r.map Prod.fst).Nodup) {k : K} {v : ℕ}
    (h : (k, v) ∈ r) : r.lookup k = some v := by
  induction r with
  | nil => cases h
  | cons a r ih =>
    rw [List.lookup_cons]
    rw [List.map_cons, List.nodup_cons] at hn
    rcases List.mem_cons.1 h with h | h
    · subst h; simp
    · have : k ≠ a.1 := by
        rintro rfl
        exact hn.1 (List.mem_map.2 ⟨_, h, rfl⟩)
      have hb : (k == a.1) = false := by simpa using this
      rw [hb]
      exact ih hn.2 h

theorem lookup_none {r : Rule K} {k : K} : r.lookup k = none ↔ k ∉ r.map Prod.fst := by
  induction r with
  | nil => simp
  | cons a r ih =>
    rw [List.lookup_cons]
    by_cases h : k = a.1
    · subst h; simp
    · have hb : (k == a.1) = false := by simpa using h
      rw [hb]
      simp only [List.map_cons, List.mem_cons, not_or]
      rw [ih]
      exact ⟨fun h' => ⟨h, h'⟩, fun h' => h'.2⟩

theorem implS_applies {a b : Rule K} (h : implS a b = true) {x : K → ℕ} (hb : AppliesS b x) :
    AppliesS a x := by
  intro kv hkv
  have := List.all_eq_true.1 h kv hkv
  split at this
  · rename_i w hw
    have h2 := hb _ (lookup_mem hw)
    simp only [decide_eq_true_eq] at this
    exact this.trans h2
  · cases this

theorem implF_applies {a b : Rule K} (h : implF a b = true) {x : K → ℕ} (hb : AppliesF b x) :
    AppliesF a x := by
  intro kv hkv
  have := List.all_eq_true.1 h kv hkv
  split at this
  · rename_i w hw
    have h2 := hb _ (lookup_mem hw)
    simp only [decide_eq_true_eq] at this
    exact h2.trans this
  · cases this

theorem dictEq_iff {a b : Rule K} : dictEq a b = true ↔ ∀ kv, kv ∈ a ↔ kv ∈ b := by
  unfold dictEq
  rw [Bool.and_eq_true, List.all_eq_true, List.all_eq_true]
  simp only [decide_eq_true_eq]
  exact ⟨fun ⟨h1, h2⟩ kv => ⟨h1 kv, h2 kv⟩, fun h => ⟨fun kv => (h kv).1, fun kv => (h kv).2⟩⟩

theorem dictEq_lookup {a b : Rule K} (ha : (a.map Prod.fst).Nodup) (hb : (b.map Prod.fst).Nodup)
    (h : dictEq a b = true) (k : K) : a.lookup k = b.lookup k := by
  rw [dictEq_iff] at h
  cases h1 : a.lookup k with
  | some v => exact (lookup_of_mem hb ((h _).1 (lookup_mem h1))).symm
  | none =>
    cases h2 : b.lookup k with
    | none => rfl
    | some w =>
      have := (h _).2 (lookup_mem h2)
      rw [lookup_of_mem ha this] at h1
      cases h1

/-- What the loop needs to know about the test it uses. -/
structure ImplOK (impl : Rule K → Rule K → Bool) (app : Rule K → (K → ℕ) → Prop) : Prop where
  sound : ∀ {a b x}, impl a b = true → app b x → app a x
  congr : ∀ {n a b : Rule K}, (a.map Prod.fst).Nodup → (b.map Prod.fst).Nodup →
    dictEq a b = true → impl n a = true → impl n b = true
  self : ∀ {a b : Rule K}, (a.map Prod.fst).Nodup → (b.map Prod.fst).Nodup →
    dictEq a b = true → impl a b = true

theorem implOK_S : ImplOK (K := K) implS AppliesS where
  sound h hb := implS_applies h hb
  congr ha hb he h := by
    unfold implS at h ⊢
    rw [List.all_eq_true] at h ⊢
    intro kv hkv
    rw [← dictEq_lookup ha hb he]
    exact h kv hkv
  self ha hb he := by
    unfold implS
    rw [List.all_eq_true]
    intro kv hkv
    rw [lookup_of_mem hb ((dictEq_iff.1 he kv).1 hkv)]
    simp

theorem implOK_F : ImplOK (K := K) implF AppliesF where
  sound h hb := implF_applies h hb
  congr ha hb he h := by
    unfold implF at h ⊢
    rw [List.all_eq_true] at h ⊢
    intro kv hkv
    rw [← dictEq_lookup ha hb he]
    exact h kv hkv
  self ha hb he := by
    unfold implF
    rw [List.all_eq_true]
    intro kv hkv
    rw [lookup_of_mem hb ((dictEq_iff.1 he kv).1 hkv)]
    simp

theorem dictEq_refl (a : Rule K) : dictEq a a = true := dictEq_iff.2 fun _ => Iff.rfl

theorem updateLoop_sublist (impl : Rule K → Rule K → Bool) (n : Rule K) (rest cur : List (Rule K)) :
    ((updateLoop impl n rest cur).1).Sublist cur := by
  induction rest generalizing cur with
  | nil => exact List.Sublist.refl _
  | cons r rest ih =>
    unfold updateLoop
    split
    · exact (ih _).trans List.eraseP_sublist
    · split
      · exact List.Sublist.refl _
      · exact ih _

/-- Rules that disappear are implied by the new one. -/
theorem updateLoop_removed {impl : Rule K → Rule K → Bool} {app} (hi : ImplOK impl app)
    (n : Rule K) (rest cur : List (Rule K))
    (hr : ∀ r ∈ rest, (r.map Prod.fst).Nodup) (hc : ∀ r ∈ cur, (r.map Prod.fst).Nodup) :
    ∀ a ∈ cur, a ∈ (updateLoop impl n rest cur).1 ∨ impl n a = true := by
  induction rest generalizing cur with
  | nil => intro a ha; exact .inl ha
  | cons r rest ih =>
    intro a ha
    have hr' : ∀ r ∈ rest, (r.map Prod.fst).Nodup := fun r' h => hr r' (by simp [h])
    unfold updateLoop
    split
    · rename_i h
      by_cases hd : dictEq r a = true
      · exact .inr (hi.congr (hr r (by simp)) (hc a ha) hd h)
      · exact ih _ hr' (fun b hb => hc b (List.mem_of_mem_eraseP hb)) a
          ((List.mem_eraseP_of_neg (by simpa using hd)).2 ha)
    · split
      · exact .inl ha
      · exact ih _ hr' hc a ha

/-- When the new rule is not added, an old rule that implies it is still there. -/
theorem updateLoop_notAdded {impl : Rule K → Rule K → Bool} {app} (hi : ImplOK impl app)
    (n : Rule K) (rest cur : List (Rule K))
    (hr : ∀ r ∈ rest, (r.map Prod.fst).Nodup) (hc : ∀ r ∈ cur, (r.map Prod.fst).Nodup)
    (hsub : ∀ r ∈ rest, r ∈ cur ∨ impl n r = true)
    (hf : (updateLoop impl n rest cur).2 = false) :
    ∃ r ∈ (updateLoop impl n rest cur).1, impl r n = true := by
  induction rest generalizing cur with
  | nil => cases hf
  | cons r rest ih =>
    have hr' : ∀ r ∈ rest, (r.map Prod.fst).Nodup := fun r' h => hr r' (by simp [h])
    unfold updateLoop at hf ⊢
    split
    · rename_i h
      rw [if_pos h] at hf
      refine ih _ hr' (fun b hb => hc b (List.mem_of_mem_eraseP hb)) ?_ hf
      intro a ha
      rcases hsub a (by simp [ha]) with h1 | h1
      · by_cases hd : dictEq r a = true
        · exact .inr (hi.congr (hr r (by simp)) (hc a h1) hd h)
        · exact .inl ((List.mem_eraseP_of_neg (by simpa using hd)).2 h1)
      · exact .inr h1
    · rename_i h
      rw [if_neg h] at hf
      split
      · rename_i h2
        rcases hsub r (by simp) with h1 | h1
        · exact ⟨r, h1, h2⟩
        · exact absurd h1 h
      · rename_i h2
        rw [if_neg h2] at hf
        exact ih _ hr' hc (fun a ha => hsub a (by simp [ha])) hf

/-- The list after one update. -/
def updated (impl : Rule K → Rule K → Bool) (n : Rule K) (l : List (Rule K)) : List (Rule K) :=
  if (updateLoop impl n l l).2 then (updateLoop impl n l l).1 ++ [n] else (updateLoop impl n l l).1

theorem updateRuleSet_s (rules : Rules K) (n : Rule K) :
    updateRuleSet rules n .s = .ok { rules with s := updated implS n rules.s } := rfl

theorem updateRuleSet_f (rules : Rules K) (n : Rule K) :
    updateRuleSet rules n .f = .ok { rules with f := updated implF n rules.f } := rfl

theorem mem_updated {impl : Rule K → Rule K → Bool} {n : Rule K} {l : List (Rule K)} {r : Rule K}
    (h : r ∈ updated impl n l) : r ∈ l ∨ r = n := by
  unfold updated at h
  split at h
  · rcases List.mem_append.1 h with h | h
    · exact .inl ((updateLoop_sublist impl n l l).subset h)
    · exact .inr (by simpa using h)
  · exact .inl ((updateLoop_sublist impl n l l).subset h)

theorem updated_covers {impl : Rule K → Rule K → Bool} {app} (hi : ImplOK impl app)
    {n : Rule K} {l : List (Rule K)} (hl : ∀ r ∈ l, (r.map Prod.fst).Nodup) (x : K → ℕ) :
    (∃ r ∈ updated impl n l, app r x) ↔ (∃ r ∈ l, app r x) ∨ app n x := by
  constructor
  · rintro ⟨r, hr, ha⟩
    rcases mem_updated hr with h | rfl
    · exact .inl ⟨r, h, ha⟩
    · exact .inr ha
  · have hn : app n x → ∃ r ∈ updated impl n l, app r x := by
      intro ha
      unfold updated
      split
      · exact ⟨n, by simp, ha⟩
      · rename_i h
        obtain ⟨r, hr, hr2⟩ := updateLoop_notAdded hi n l l hl hl (fun r hr => .inl hr)
          (by simpa using h)
        exact ⟨r, hr, hi.sound hr2 ha⟩
    rintro (⟨r, hr, ha⟩ | ha)
    · rcases updateLoop_removed hi n l l hl hl r hr with h | h
      · refine ⟨r, ?_, ha⟩
        unfold updated
        split
        · exact List.mem_append_left _ h
        · exact h
      · exact hn (hi.sound h ha)
    · exact hn ha

/-- No rule of the list implies another one. -/
def Irredundant (impl : Rule K → Rule K → Bool) (l : List (Rule K)) : Prop :=
  l.Pairwise fun a b => impl a b = false ∧ impl b a = false

/-- After a loop that ends with `add_rule`, nothing left implies or is implied by the new rule. -/
theorem updateLoop_added {impl : Rule K → Rule K → Bool} {app} (hi : ImplOK impl app)
    (n : Rule K) (rest cur : List (Rule K))
    (hr : ∀ r ∈ rest, (r.map Prod.fst).Nodup) (hc : ∀ r ∈ cur, (r.map Prod.fst).Nodup)
    (hirr : Irredundant impl cur)
    (hf : (updateLoop impl n rest cur).2 = true) :
    ∀ a ∈ (updateLoop impl n rest cur).1, a ∈ rest → impl n a = false ∧ impl a n = false := by
  induction rest generalizing cur with
  | nil => intro a _ h; cases h
  | cons r rest ih =>
    have hr' : ∀ r ∈ rest, (r.map Prod.fst).Nodup := fun r' h => hr r' (by simp [h])
    unfold updateLoop at hf ⊢
    split
    · rename_i h
      rw [if_pos h] at hf
      have hirr' : Irredundant impl (cur.eraseP (dictEq r)) := hirr.sublist List.eraseP_sublist
      have hc' : ∀ b ∈ cur.eraseP (dictEq r), (b.map Prod.fst).Nodup :=
        fun b hb => hc b (List.mem_of_mem_eraseP hb)
      intro a ha har
      rcases List.mem_cons.1 har with rfl | har
      · exfalso
        -- `a` is no longer in the list
        have hin : a ∈ cur.eraseP (dictEq a) := (updateLoop_sublist impl n rest _).subset ha
        clear ha hf ih hirr' hc' har hr
        induction cur with
        | nil => simp at hin
        | cons b cur ihc =>
          rw [Irredundant, List.pairwise_cons] at hirr
          rw [List.eraseP_cons, Bool.cond_eq_ite] at hin
          split at hin
          · rename_i hb
            have hbn := hc b (by simp)
            have han := hc a (by simp [hin])
            have := hirr.1 a hin
            have h2 := hi.self han hbn hb
            rw [this.2] at h2
            cases h2
          · rename_i hb
            rcases List.mem_cons.1 hin with rfl | hin
            · exact hb (dictEq_refl a)
            · exact ihc (fun r hr => hc r (by simp [hr])) hirr.2 hin
      · exact ih _ hr' hc' hirr' hf a ha har
    · rename_i h
      rw [if_neg h] at hf
      split
      · rename_i h2
        rw [if_pos h2] at hf
        cases hf
      · rename_i h2
        rw [if_neg h2] at hf
        intro a ha har
        rcases List.mem_cons.1 har with rfl | har
        · exact ⟨by simpa using h, by simpa using h2⟩
        · exact ih _ hr' hc hirr hf a ha har

theorem updated_irredundant {impl : Rule K → Rule K → Bool} {app} (hi : ImplOK impl app)
    {n : Rule K} {l : List (Rule K)} (hl : ∀ r ∈ l, (r.map Prod.fst).Nodup)
    (h : Irredundant impl l) : Irredundant impl (updated impl n l) := by
  have hsub := updateLoop_sublist impl n l l
  unfold updated
  split
  · rename_i hf
    refine List.pairwise_append.2 ⟨h.sublist hsub, List.pairwise_singleton _ _, ?_⟩
    intro a ha b hb
    rw [List.mem_singleton] at hb
    subst hb
    exact (updateLoop_added hi b l l hl hl h hf a ha (hsub.subset ha)).symm
  · exact h.sublist hsub

end Update

end BNS
