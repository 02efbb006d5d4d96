import Verif.Proofs.BrcDecomp
import Verif.Examples.Brc

/-!
# Properties C22–C26: the branch decomposition
-/

namespace BNS

set_option linter.unusedSectionVars false

variable {K : Type} [DecidableEq K] {vs : List (K × ℕ)} {Φ : (K → ℕ) → Bool}

/-! ## C22 -/

theorem partition_of_hits {rules : Rules K} {brs : List (Branch K)} {out : List (Branch K × Rules K)}
    (hv : VarisOK vs) (hb : brs = [] ∨ Partition vs brs) (h1 : ∀ bc ∈ out, BoxOK vs bc.1)
    (h2 : ∀ x, hits vs x out =
        (startBranches vs rules brs).countP fun b => decide (InBox vs b x)) :
    Partition vs (brsOf out) := by
  refine ⟨fun b hb => ?_, fun x hx => ?_⟩
  · obtain ⟨bc, hbc, rfl⟩ := List.mem_map.1 hb
    exact h1 bc hbc
  · rw [hits_brsOf, h2 x]
    exact (start_partition hv rules hb).2 x hx

/-- For any rules over the components, any probabilities and any branch limit, starting afresh or
from branches that partition the space, the decomposition returns non-empty boxes such that every
component vector lies in exactly one of them. -/
theorem C22_partition (hv : VarisOK vs) {rules : Rules K} (hk : RulesDict vs rules)
    (probs : K → ℕ → ℚ) (maxNb : ℕ) {brs : List (Branch K)}
    (hb : brs = [] ∨ Partition vs brs) :
    ∃ trunc out, decomp vs rules probs maxNb brs = .ok (trunc, out) ∧
      Partition vs (out.map Prod.fst) := by
  obtain ⟨trunc, out, h0, h1, h2, -⟩ := decomp_spec hv hk probs maxNb brs (BoxOK vs)
    (stable_box vs rules probs) (fun _ h => h) _ (fresh_true vs rules probs _)
    (start_partition hv rules hb).1
  exact ⟨trunc, out, h0, partition_of_hits hv hb h1 h2⟩

/-- Hence the boxes are pairwise disjoint and together cover the space. -/
theorem C22_disjoint_cover {brs : List (Branch K)} (h : Partition vs brs) :
    (∀ x, InSpace vs x → ∃ b ∈ brs, InBox vs b x) ∧
    brs.Pairwise (fun a b => ¬ ∃ x, InSpace vs x ∧ InBox vs a x ∧ InBox vs b x) := by
  refine ⟨fun x hx => h.exists hx, ?_⟩
  rw [List.pairwise_iff_getElem]
  rintro i j hi hj hij ⟨x, hx, h1, h2⟩
  have hc := h.2 x hx
  have hle : 2 ≤ brs.countP (fun b => decide (InBox vs b x)) := by
    have hsub : [brs[i], brs[j]].Sublist brs := by
      have e1 : brs = brs.take j ++ brs.drop j := (List.take_append_drop j brs).symm
      have hm1 : [brs[i]].Sublist (brs.take j) :=
        List.singleton_sublist.2 (List.mem_take_iff_getElem.2 ⟨i, by omega, rfl⟩)
      have hm2 : [brs[j]].Sublist (brs.drop j) :=
        List.singleton_sublist.2 (List.mem_drop_iff_getElem.2 ⟨0, by omega, by simp⟩)
      have := hm1.append hm2
      rw [List.take_append_drop] at this
      exact this
    refine le_trans ?_ (hsub.countP_le (p := fun b => decide (InBox vs b x)))
    simp [h1, h2]
  omega

example : VarisOK Ex.vs ∧ RulesDict Ex.vs Ex.rules ∧
    (∃ r, decomp Ex.vs Ex.rules Ex.probs 100 [] = .ok r ∧ r.1 = false ∧ r.2.length = 3) ∧
    (∃ r, decomp Ex.vs Ex.rules Ex.probs 2 [] = .ok r ∧ r.1 = true ∧ r.2.length = 2) := by
  refine ⟨Ex.vs_ok, Ex.rules_dict, ?_, ?_⟩
  · have h : (decomp Ex.vs Ex.rules Ex.probs 100 []).toOption.map (fun r => (r.1, r.2.length)) =
      some (false, 3) := by decide +kernel
    cases hd : decomp Ex.vs Ex.rules Ex.probs 100 [] with
    | error e => rw [hd] at h; cases h
    | ok r => rw [hd] at h; simpa [Except.toOption] using h
  · have h : (decomp Ex.vs Ex.rules Ex.probs 2 []).toOption.map (fun r => (r.1, r.2.length)) =
      some (true, 2) := by decide +kernel
    cases hd : decomp Ex.vs Ex.rules Ex.probs 2 [] with
    | error e => rw [hd] at h; cases h
    | ok r => rw [hd] at h; simpa [Except.toOption] using h

/-! ## C23 -/

/-- Exact branch probabilities, summing to 1 (fresh start, or a partition with exact
probabilities). -/
theorem C23_probabilities (hv : VarisOK vs) {rules : Rules K} (hk : RulesDict vs rules)
    {probs : K → ℕ → ℚ} (hp : ProbOK vs probs) (maxNb : ℕ) {brs : List (Branch K)}
    (hb : brs = [] ∨ Partition vs brs) (hbp : ∀ b ∈ brs, b.p = probOf vs probs (InBox vs b)) :
    ∃ trunc out, decomp vs rules probs maxNb brs = .ok (trunc, out) ∧
      (∀ b ∈ out.map Prod.fst, b.p = probOf vs probs (InBox vs b)) ∧
      ((out.map Prod.fst).map fun b => b.p).sum = 1 := by
  have hs := start_partition hv rules hb
  obtain ⟨trunc, out, h0, h1, h2, -⟩ := decomp_spec hv hk probs maxNb brs
    (fun b => BoxOK vs b ∧ b.p = probOf vs probs (InBox vs b))
    (stable_p hv rules probs) (fun _ h => h.1) _ (fresh_true vs rules probs _)
    (fun b hb' => ⟨hs.1 b hb', start_mem (P := fun b => b.p = probOf vs probs (InBox vs b))
      (initBranch_p hv hp rules) hbp b hb'⟩)
  have hpart := partition_of_hits hv hb (fun bc h => (h1 bc h).1) h2
  have hpp : ∀ b ∈ out.map Prod.fst, b.p = probOf vs probs (InBox vs b) := by
    intro b hb
    obtain ⟨bc, hbc, rfl⟩ := List.mem_map.1 hb
    exact (h1 bc hbc).2
  refine ⟨trunc, out, h0, hpp, ?_⟩
  have h3 := partition_prob hv probs hpart hpp (fun _ => true)
  rw [List.filter_true] at h3
  refine h3.trans ?_
  rw [← probOf_true hv hp]
  refine probOf_congr hv probs _ _ fun x hx => ?_
  simpa using hpart.exists hx

example : VarisOK Ex.vs ∧ ProbOK Ex.vs Ex.probs ∧ RulesDict Ex.vs Ex.rules ∧
    ((decomp Ex.vs Ex.rules Ex.probs 100 []).toOption.map fun r => r.2.map fun bc => bc.1.p) =
      some [9 / 50, 18 / 25, 1 / 10] :=
  ⟨Ex.vs_ok, Ex.probs_ok, Ex.rules_dict, by decide +kernel⟩

/-! ## C24 -/

/-- With valid rules of a coherent system the labels are right about the whole box: a branch whose
lower label is `'s'` contains only surviving vectors, one whose upper label is `'f'` only failing
ones, and no label is wrong about its own end point. -/
theorem C24_labels_sound (hv : VarisOK vs) (hc : Coherent vs Φ) {rules : Rules K}
    (hk : RulesDict vs rules) (hr : RulesValid vs Φ rules) (probs : K → ℕ → ℚ) (maxNb : ℕ)
    {brs : List (Branch K)} (hb : brs = [] ∨ Partition vs brs) (hl : ∀ b ∈ brs, LabelsOK Φ b) :
    ∃ trunc out, decomp vs rules probs maxNb brs = .ok (trunc, out) ∧
      ∀ b ∈ out.map Prod.fst,
        (b.downState = .s → ∀ x, InBox vs b x → Φ x = true) ∧
        (b.upState = .f → ∀ x, InBox vs b x → Φ x = false) ∧
        (b.downState = .f → Φ b.down = false) ∧
        (b.upState = .s → Φ b.up = true) := by
  have hs := start_partition hv rules hb
  obtain ⟨trunc, out, h0, h1, h2, -⟩ := decomp_spec hv hk probs maxNb brs
    (fun b => BoxOK vs b ∧ LabelsOK Φ b)
    (stable_labels hr probs) (fun _ h => h.1) _ (fresh_true vs rules probs _)
    (fun b hb' => ⟨hs.1 b hb', start_mem (P := LabelsOK Φ) (fun b hb'' => by
      have hbox := (initBranch_part hv rules).1 b hb''
      have he := initBranch_exact vs rules b hb''
      refine ⟨?_, ?_⟩
      · rw [he.1]; exact hr.label (hbox.inSpace hbox.down)
      · rw [he.2]; exact hr.label (hbox.inSpace hbox.up)) hl b hb'⟩)
  refine ⟨trunc, out, h0, fun b hb => ?_⟩
  obtain ⟨bc, hbc, rfl⟩ := List.mem_map.1 hb
  obtain ⟨hbox, hld, hlu⟩ := h1 bc hbc
  refine ⟨fun h x hx => ?_, fun h x hx => ?_, hld.2, hlu.1⟩
  · exact hc _ x (fun kn hkn => (hx kn hkn).1) (hld.1 h)
  · by_contra hne
    have := hc x bc.1.up (fun kn hkn => (hx kn hkn).2) (by simpa using hne)
    rw [hlu.2 h] at this
    cases this

example : VarisOK Ex.vs ∧ Coherent Ex.vs Ex.Φ ∧ RulesValid Ex.vs Ex.Φ Ex.rules ∧
    RulesDict Ex.vs Ex.rules ∧
    ((decomp Ex.vs Ex.rules Ex.probs 100 []).toOption.map fun r =>
      r.2.map fun bc => (bc.1.downState, bc.1.upState)) =
      some [(.u, .u), (.s, .s), (.f, .f)] :=
  ⟨Ex.vs_ok, Ex.coherent, Ex.rules_valid, Ex.rules_dict, by decide +kernel⟩

/-! ## C25 -/

/-- Whenever a branch has a compatible rule, a component is chosen and cut strictly inside the
branch; so both new branches are non-empty and smaller. -/
theorem C25_split_component {b : Branch K} {rules : Rules K}
    (hk : RulesDict vs rules) (probs : K → ℕ → ℚ)
    (hc : (b.compatRules rules).s ≠ [] ∨ (b.compatRules rules).f ≠ []) :
    ∃ xd st, b.decompComp (b.compatRules rules) probs = some (xd, st) ∧
      xd ∈ vs.map Prod.fst ∧ b.down xd < st ∧ st ≤ b.up xd := by
  refine decompComp_spec hk probs fun h => ?_
  obtain ⟨h1, h2⟩ := count_zero.1 h
  rcases hc with h | h
  · exact h h1
  · exact h h2

/-- The decomposition terminates without error on every input (any rules over the components, any
non-empty boxes to start from). -/
theorem C25_terminates (hv : VarisOK vs) {rules : Rules K} (hk : RulesDict vs rules)
    (probs : K → ℕ → ℚ) (maxNb : ℕ) (brs : List (Branch K)) (hb : ∀ b ∈ brs, BoxOK vs b) :
    ∃ r, decomp vs rules probs maxNb brs = .ok r := by
  obtain ⟨trunc, out, h0, -⟩ := decomp_spec hv hk probs maxNb brs (BoxOK vs)
    (stable_box vs rules probs) (fun _ h => h) _ (fresh_true vs rules probs _)
    (start_mem (initBranch_part hv rules).1 hb)
  exact ⟨_, h0⟩

/-- A rule with an unknown component is a `KeyError`. -/
theorem C25_unknown_component {rules : Rules K} (probs : K → ℕ → ℚ) (maxNb : ℕ)
    (brs : List (Branch K)) {r : Rule K} (hr : r ∈ rules.s ++ rules.f) {kv : K × ℕ} (hkv : kv ∈ r)
    (hu : kv.1 ∉ vs.map Prod.fst) : decomp vs rules probs maxNb brs = .error .key := by
  unfold decomp checkKeys
  rw [if_neg]
  · rfl
  · intro h
    rw [List.all_eq_true] at h
    have := h r hr
    rw [List.all_eq_true] at this
    exact hu (by simpa using this kv hkv)

/-- What a compatible rule is: a rule of the set that neither holds throughout the box nor fails
throughout; the compatible rule set is empty exactly when there is no such rule. -/
theorem C25_compatible {b : Branch K} {rules : Rules K} (hb : BoxOK vs b)
    (hk : RulesDict vs rules) :
    ((b.compatRules rules).s ≠ [] ↔ ∃ r ∈ rules.s, (∃ x, InBox vs b x ∧ AppliesS r x) ∧
      ∃ x, InBox vs b x ∧ ¬ AppliesS r x) ∧
    ((b.compatRules rules).f ≠ [] ↔ ∃ r ∈ rules.f, (∃ x, InBox vs b x ∧ AppliesF r x) ∧
      ∃ x, InBox vs b x ∧ ¬ AppliesF r x) := by
  have hle : ∀ r ∈ rules.s ++ rules.f, ∀ x, InBox vs b x → ∀ kv ∈ r,
      b.down kv.1 ≤ x kv.1 ∧ x kv.1 ≤ b.up kv.1 := by
    intro r hr x hx kv hkv
    obtain ⟨kn, hkn, he⟩ := List.mem_map.1 ((hk r hr).known kv hkv)
    rw [← he]
    exact hx kn hkn
  constructor
  · constructor
    · intro h
      obtain ⟨c, hcm⟩ := List.exists_mem_of_ne_nil _ h
      obtain ⟨hne, r, hr, ha, rfl⟩ := mem_compat_s hcm
      obtain ⟨kv, hkv⟩ := List.exists_mem_of_ne_nil _ hne
      rw [List.mem_filter, decide_eq_true_eq] at hkv
      exact ⟨r, hr, ⟨b.up, hb.up, ha⟩, b.down, hb.down, fun h =>
        absurd (h kv hkv.1) (not_le.2 hkv.2)⟩
    · rintro ⟨r, hr, ⟨x, hx, ha⟩, y, hy, hn⟩ he
      refine hn fun kv hkv => ?_
      have := compat_s_empty he r hr fun kv hkv =>
        (ha kv hkv).trans (hle r (by simp [hr]) x hx kv hkv).2
      exact (this kv hkv).trans (hle r (by simp [hr]) y hy kv hkv).1
  · constructor
    · intro h
      obtain ⟨c, hcm⟩ := List.exists_mem_of_ne_nil _ h
      obtain ⟨hne, r, hr, ha, rfl⟩ := mem_compat_f hcm
      obtain ⟨kv, hkv⟩ := List.exists_mem_of_ne_nil _ hne
      rw [List.mem_filter, decide_eq_true_eq] at hkv
      exact ⟨r, hr, ⟨b.down, hb.down, ha⟩, b.up, hb.up, fun h =>
        absurd (h kv hkv.1) (not_le.2 hkv.2)⟩
    · rintro ⟨r, hr, ⟨x, hx, ha⟩, y, hy, hn⟩ he
      refine hn fun kv hkv => ?_
      have := compat_f_empty he r hr fun kv hkv =>
        (hle r (by simp [hr]) x hx kv hkv).1.trans (ha kv hkv)
      exact (hle r (by simp [hr]) y hy kv hkv).2.trans (this kv hkv)

example : ∃ b ∈ initBranch Ex.vs Ex.rules, (b.compatRules Ex.rules).s ≠ [] ∧
    b.decompComp (b.compatRules Ex.rules) Ex.probs = some (0, 1) :=
  ⟨_, List.mem_singleton.2 rfl, by decide +kernel, by decide +kernel⟩

/-! ## C26 -/

/-- A box without separating rule is classified uniformly. -/
theorem uniform_of_no_compat {b : Branch K} {rules : Rules K} (hb : BoxOK vs b)
    (hk : RulesDict vs rules) (hr : RulesValid vs Φ rules)
    (h : (b.compatRules rules).s = [] ∧ (b.compatRules rules).f = []) {x y : K → ℕ}
    (hx : InBox vs b x) (hy : InBox vs b y) : getState x rules = getState y rules := by
  have hiff := C25_compatible hb hk
  have hS : ∀ x y, InBox vs b x → InBox vs b y → CoveredS rules x → CoveredS rules y := by
    rintro x y hx hy ⟨r, hr, ha⟩
    refine ⟨r, hr, ?_⟩
    by_contra hn
    exact hiff.1.2 ⟨r, hr, ⟨x, hx, ha⟩, y, hy, hn⟩ h.1
  have hF : ∀ x y, InBox vs b x → InBox vs b y → CoveredF rules x → CoveredF rules y := by
    rintro x y hx hy ⟨r, hr, ha⟩
    refine ⟨r, hr, ?_⟩
    by_contra hn
    exact hiff.2.2 ⟨r, hr, ⟨x, hx, ha⟩, y, hy, hn⟩ h.2
  cases hs : getState x rules with
  | s => exact ((hr.getState_s_iff (hb.inSpace hy)).2 (hS x y hx hy (getState_s hs))).symm
  | f => exact ((hr.getState_f_iff (hb.inSpace hy)).2 (hF x y hx hy (getState_f hs))).symm
  | u =>
    obtain ⟨h1, h2⟩ := getState_u.1 hs
    exact (getState_u.2 ⟨fun h => h1 (hS y x hy hx h), fun h => h2 (hF y x hy hx h)⟩).symm

theorem uniform_of_exact {b : Branch K} {rules : Rules K} (hb : BoxOK vs b)
    (hk : RulesDict vs rules) (hr : RulesValid vs Φ rules) (he : LabelsExact rules b)
    (h : b.specified = true ∨ (b.compatRules rules).s = [] ∧ (b.compatRules rules).f = [])
    {x : K → ℕ} (hx : InBox vs b x) :
    getState x rules = b.downState ∧ b.downState = b.upState := by
  rcases h with h | h
  · unfold Branch.specified at h
    rw [decide_eq_true_eq] at h
    refine ⟨?_, h.1⟩
    have hxs := hb.inSpace hx
    cases hd : b.downState with
    | u => exact absurd hd h.2
    | s =>
      have h1 := getState_s (he.1.symm.trans hd)
      obtain ⟨r, hrm, ha⟩ := h1
      refine (hr.getState_s_iff hxs).2 ⟨r, hrm, fun kv hkv => (ha kv hkv).trans ?_⟩
      obtain ⟨kn, hkn, hke⟩ := List.mem_map.1 ((hk r (by simp [hrm])).known kv hkv)
      rw [← hke]
      exact (hx kn hkn).1
    | f =>
      have h1 := getState_f (he.2.symm.trans (h.1 ▸ hd))
      obtain ⟨r, hrm, ha⟩ := h1
      refine (hr.getState_f_iff hxs).2 ⟨r, hrm, fun kv hkv => le_trans ?_ (ha kv hkv)⟩
      obtain ⟨kn, hkn, hke⟩ := List.mem_map.1 ((hk r (by simp [hrm])).known kv hkv)
      rw [← hke]
      exact (hx kn hkn).2
  · rw [he.1, he.2]
    exact ⟨uniform_of_no_compat hb hk hr h hx hb.down,
      uniform_of_no_compat hb hk hr h hb.down hb.up⟩

/-- A fresh decomposition with valid rules that was not cut short by the branch limit: every box is
classified uniformly by the rules, and both labels are that classification. -/
theorem C26_resolved (hv : VarisOK vs) {rules : Rules K} (hk : RulesDict vs rules)
    (hr : RulesValid vs Φ rules) (probs : K → ℕ → ℚ) (maxNb : ℕ) :
    ∃ trunc out, decomp vs rules probs maxNb [] = .ok (trunc, out) ∧
      (trunc = false → ∀ b ∈ out.map Prod.fst, b.downState = b.upState ∧
        ∀ x, InBox vs b x → getState x rules = b.downState) ∧
      (trunc = true → maxNb < 2 * out.length) := by
  have hs := start_partition hv rules (brs := []) (.inl rfl)
  obtain ⟨trunc, out, h0, h1, h2, h3, h4, -⟩ := decomp_spec hv hk probs maxNb []
    (fun b => BoxOK vs b ∧ LabelsExact rules b)
    (stable_exact vs rules probs) (fun _ h => h.1) _ (fresh_true vs rules probs _)
    (fun b hb' => ⟨hs.1 b hb', initBranch_exact vs rules b hb'⟩)
  refine ⟨trunc, out, h0, fun ht b hb => ?_, h4⟩
  obtain ⟨bc, hbc, rfl⟩ := List.mem_map.1 hb
  have hu := fun {x} (hx : InBox vs bc.1 x) =>
    uniform_of_exact (h1 bc hbc).1 hk hr (h1 bc hbc).2 (h3 ht bc hbc) hx
  exact ⟨(hu (h1 bc hbc).1.down).2, fun x hx => (hu hx).1⟩

/-- With a branch limit of at least twice the number of component vectors the decomposition is
never cut short. -/
theorem C26_enough_branches (hv : VarisOK vs) {rules : Rules K} (hk : RulesDict vs rules)
    (probs : K → ℕ → ℚ) {maxNb : ℕ} (hm : 2 * (vs.map Prod.snd).prod ≤ maxNb)
    {brs : List (Branch K)} (hb : brs = [] ∨ Partition vs brs) :
    ∃ out, decomp vs rules probs maxNb brs = .ok (false, out) := by
  obtain ⟨trunc, out, h0, h1, h2, -, h4, -⟩ := decomp_spec hv hk probs maxNb brs (BoxOK vs)
    (stable_box vs rules probs) (fun _ h => h) _ (fresh_true vs rules probs _)
    (start_partition hv rules hb).1
  have hlen := partition_length hv (partition_of_hits hv hb h1 h2)
  cases trunc with
  | false => exact ⟨out, h0⟩
  | true =>
    have := h4 rfl
    unfold brsOf at hlen
    rw [List.length_map] at hlen
    unfold spaceSize at hlen
    omega

/-- Continuing from given branches: a returned branch either carries equal known labels or is
classified uniformly by the rules; and a label `'u'` sits on an unclassified vector only. -/
theorem C26_resume (hv : VarisOK vs) {rules : Rules K} (hk : RulesDict vs rules)
    (hr : RulesValid vs Φ rules) (probs : K → ℕ → ℚ) (maxNb : ℕ) {brs : List (Branch K)}
    (hb : brs = [] ∨ Partition vs brs) :
    ∃ trunc out, decomp vs rules probs maxNb brs = .ok (trunc, out) ∧
      (trunc = false → ∀ b ∈ out.map Prod.fst,
        ((b.downState = b.upState ∧ b.downState ≠ .u) ∨
          ∀ x y, InBox vs b x → InBox vs b y → getState x rules = getState y rules) ∧
        (b.downState = .u → getState b.down rules = .u) ∧
        (b.upState = .u → getState b.up rules = .u)) := by
  have hs := start_partition hv rules hb
  obtain ⟨trunc, out, h0, h1, h2, h3, -, h5⟩ := decomp_spec hv hk probs maxNb brs (BoxOK vs)
    (stable_box vs rules probs) (fun _ h => h) _ (fresh_new vs rules probs _) hs.1
  refine ⟨trunc, out, h0, fun ht b hb => ?_⟩
  obtain ⟨bc, hbc, rfl⟩ := List.mem_map.1 hb
  refine ⟨?_, h5 ht bc hbc⟩
  rcases h3 ht bc hbc with h | h
  · unfold Branch.specified at h
    rw [decide_eq_true_eq] at h
    exact .inl h
  · exact .inr fun x y hx hy => uniform_of_no_compat (h1 bc hbc) hk hr h hx hy

end BNS
