import Verif.Props.BrcLocalRound
import Verif.Props.BrcReuseRound

/-!
# Property C115, complete runs: the answers determine the system
-/

namespace BNS

set_option linter.unusedSectionVars false

section
variable {K : Type} [DecidableEq K] {Φ Φ' : (K → ℕ) → Bool} {A : Arith}

open Classical in
/-- A complete run with enough branches has seen enough: every coherent system that agrees with the
rules and branches handed in and with the answers the run has seen is the same system, whatever the
arithmetic. -/
theorem C115_determined {c : RunCfg K} (hc : SysCfgOK c Φ)
    (hm : 2 * (c.vs.map Prod.snd).prod ≤ c.maxNb) {rules : Rules K}
    {brs : Option (List (Branch K))} (hs : StartOKR c Φ (fun _ => True) rules brs)
    (hb : ResumeOK c rules brs) {st : RunState K} (h : runR A c rules brs = .ok st)
    (hf : st.outFlag = some .complete) (hcoh : Coherent c.vs Φ')
    (hs' : StartOKR c Φ' (fun _ => True) rules brs) (hst : ∀ x ∈ st.evals, Φ' x = Φ x)
    (hmin : ∀ x ∈ st.evals, (c.sysFun x).min ≠ [] →
      (Φ x = true → ValidS c.vs Φ' (c.sysFun x).min) ∧
      (Φ x = false → ValidF c.vs Φ' (c.sysFun x).min)) :
    ∀ x, InSpace c.vs x → Φ' x = Φ x := by
  obtain ⟨hin, hv, -⟩ := C102_structure hc hs h
  have hpatch : SysOK c.vs Φ' (fun x => if x ∈ st.evals then c.sysFun x
      else ⟨0, if Φ' x then .s else .f, []⟩) := by
    refine sysOK_patch (fun x hx => ?_) (fun x hx hn => ⟨hc.sys.dict x (hin x hx) hn, fun ht => ?_,
      fun ht => ?_⟩)
    · rw [hst x hx]
      exact hc.sys.st x (hin x hx)
    · rw [hst x hx] at ht
      exact ⟨(hmin x hx hn).1 ht, (hc.sys.minS x (hin x hx) hn ht).2⟩
    · rw [hst x hx] at ht
      exact ⟨(hmin x hx hn).2 ht, (hc.sys.minF x (hin x hx) hn ht).2⟩
  have h2 := C115_local (f := fun x => if x ∈ st.evals then c.sysFun x
    else ⟨0, if Φ' x then .s else .f, []⟩) h (fun x hx => by simp [hx])
  have hv' : RulesValid c.vs Φ' st.rules :=
    (C102_structure (c := c.withSys fun x => if x ∈ st.evals then c.sysFun x
      else ⟨0, if Φ' x then .s else .f, []⟩) ⟨hc.vs, hcoh, hpatch⟩
      ⟨hs'.dict, hs'.valid, hs'.part, hs'.labels, hs'.near⟩ h2).2.1
  intro x hx
  have hcov := completeR_covered hc hs hb hm h hf hx
  cases hg : getState x st.rules with
  | u => exact absurd hg hcov
  | s =>
    obtain ⟨r, hr, ha⟩ := getState_s hg
    rw [hv.s r hr x hx ha, hv'.s r hr x hx ha]
  | f =>
    obtain ⟨r, hr, ha⟩ := getState_f hg
    rw [hv.f r hr x hx ha, hv'.f r hr x hx ha]

/-- What a complete analysis costs: started without rules, and with a system function that returns no
minimum rules, a complete run has evaluated every minimal surviving vector and every maximal failing
one, whatever the arithmetic, the order and the options. -/
theorem C115_must_evaluate {c : RunCfg K} (hc : SysCfgOK c Φ)
    (hm : 2 * (c.vs.map Prod.snd).prod ≤ c.maxNb) {st : RunState K}
    (h : runR A c { s := [], f := [] } none = .ok st) (hf : st.outFlag = some .complete)
    (hmin : ∀ x ∈ st.evals, (c.sysFun x).min = []) {x : K → ℕ} (hx : InSpace c.vs x)
    (hext : (Φ x = true ∧ ∀ y, (∀ kn ∈ c.vs, y kn.1 ≤ x kn.1) →
        (∃ kn ∈ c.vs, y kn.1 ≠ x kn.1) → Φ y = false) ∨
      (Φ x = false ∧ ∀ y, InSpace c.vs y → (∀ kn ∈ c.vs, x kn.1 ≤ y kn.1) →
        (∃ kn ∈ c.vs, y kn.1 ≠ x kn.1) → Φ y = true)) :
    ∃ y ∈ st.evals, ∀ kn ∈ c.vs, y kn.1 = x kn.1 := by
  classical
  by_contra hno
  push Not at hno
  have start : ∀ Ψ, StartOKR c Ψ (fun _ => True) { s := [], f := [] } none := fun Ψ =>
    ⟨by simp [RulesDict], ⟨by simp, by simp⟩, by simp, by simp, by simp⟩
  have hin := (C102_structure hc (start Φ) h).1
  have fin : ∀ Ψ : (K → ℕ) → Bool, Coherent c.vs Ψ → (∀ y, InSpace c.vs y →
      (∃ kn ∈ c.vs, y kn.1 ≠ x kn.1) → Ψ y = Φ y) → Ψ x = Φ x := fun Ψ hcoh hag =>
    C115_determined hc hm (start Φ) (resume_none _ _) h hf hcoh (start Ψ)
      (fun y hy => hag y (hin y hy) (hno y hy)) (fun y hy hn => absurd (hmin y hy) hn) x hx
  rcases hext with ⟨hΦ, hlt⟩ | ⟨hΦ, hlt⟩
  · have := fin (fun y => Φ y && decide (∃ kn ∈ c.vs, y kn.1 ≠ x kn.1)) ?_ ?_
    · rw [hΦ] at this
      simp at this
    · intro y z hyz hy
      simp only [Bool.and_eq_true, decide_eq_true_eq] at hy ⊢
      refine ⟨hc.coh y z hyz hy.1, ?_⟩
      by_contra hz
      push Not at hz
      have := hlt y (fun kn hk => (hyz kn hk).trans (hz kn hk).le) hy.2
      rw [hy.1] at this
      cases this
    · intro y _ hy
      simp [hy]
  · have := fin (fun y => Φ y || decide (∀ kn ∈ c.vs, x kn.1 ≤ y kn.1)) ?_ ?_
    · rw [hΦ] at this
      simp at this
    · intro y z hyz hy
      simp only [Bool.or_eq_true, decide_eq_true_eq] at hy ⊢
      rcases hy with hy | hy
      · exact .inl (hc.coh y z hyz hy)
      · exact .inr fun kn hk => (hy kn hk).trans (hyz kn hk)
    · intro y hys hy
      by_cases hle : ∀ kn ∈ c.vs, x kn.1 ≤ y kn.1
      · rw [hlt y hys hle hy]
        rfl
      · rw [decide_eq_false hle, Bool.or_false]

/-- The rules of a complete run contain all minimal surviving vectors and all maximal failing ones,
whatever rules and branches were handed in: components a survival rule does not mention are in state 0,
and those a failure rule does not mention are in their highest state. -/
theorem C115_extremal_rules {c : RunCfg K} (hc : SysCfgOK c Φ)
    (hm : 2 * (c.vs.map Prod.snd).prod ≤ c.maxNb) {rules : Rules K}
    {brs : Option (List (Branch K))} (hs : StartOKR c Φ (fun _ => True) rules brs)
    (hb : ResumeOK c rules brs) {st : RunState K} (h : runR A c rules brs = .ok st)
    (hf : st.outFlag = some .complete) {x : K → ℕ} (hx : InSpace c.vs x) :
    (Φ x = true → (∀ y, (∀ kn ∈ c.vs, y kn.1 ≤ x kn.1) → (∃ kn ∈ c.vs, y kn.1 ≠ x kn.1) →
        Φ y = false) →
      ∃ r ∈ st.rules.s, ∀ kn ∈ c.vs, x kn.1 = (r.lookup kn.1).getD 0) ∧
    (Φ x = false → (∀ y, InSpace c.vs y → (∀ kn ∈ c.vs, x kn.1 ≤ y kn.1) →
        (∃ kn ∈ c.vs, y kn.1 ≠ x kn.1) → Φ y = true) →
      ∃ r ∈ st.rules.f, ∀ kn ∈ c.vs, x kn.1 = min ((r.lookup kn.1).getD (kn.2 - 1)) (kn.2 - 1)) := by
  obtain ⟨-, hv, -⟩ := C102_structure hc hs h
  have hcov := completeR_covered hc hs hb hm h hf hx
  have hdict : RulesDict c.vs st.rules := by
    obtain ⟨st1, h1, rfl⟩ := runR_eq h
    have := (runR_inv hc (kept_true A c.vs c.probs) hs h1).1.start.dict
    split <;> exact this
  constructor
  · intro hΦ hlt
    cases hg : getState x st.rules with
    | u => exact absurd hg hcov
    | f =>
      obtain ⟨r, hr, ha⟩ := getState_f hg
      rw [hv.f r hr x hx ha] at hΦ
      cases hΦ
    | s =>
      obtain ⟨r, hr, ha⟩ := getState_s hg
      refine ⟨r, hr, ?_⟩
      by_contra hne
      push Not at hne
      obtain ⟨kn, hk, hne⟩ := hne
      have hle : ∀ k, (r.lookup k).getD 0 ≤ x k := by
        intro k
        cases hl : r.lookup k with
        | none => exact Nat.zero_le _
        | some v => exact ha (k, v) (lookup_mem hl)
      have hd : RuleOK c.vs r := hdict r (List.mem_append_left _ hr)
      have := hlt (fun k => (r.lookup k).getD 0) (fun kn _ => hle kn.1) ⟨kn, hk, hne.symm⟩
      rw [hv.s r hr _ (fun kn hkn => (hle kn.1).trans_lt (hx kn hkn)) (fun kv hkv => by
        rw [lookup_of_mem hd.nodup hkv]; exact le_rfl)] at this
      cases this
  · intro hΦ hlt
    cases hg : getState x st.rules with
    | u => exact absurd hg hcov
    | s =>
      obtain ⟨r, hr, ha⟩ := getState_s hg
      rw [hv.s r hr x hx ha] at hΦ
      cases hΦ
    | f =>
      obtain ⟨r, hr, ha⟩ := getState_f hg
      refine ⟨r, hr, ?_⟩
      by_contra hne
      push Not at hne
      obtain ⟨kn, hk, hne⟩ := hne
      have hd : RuleOK c.vs r := hdict r (List.mem_append_right _ hr)
      have htop : ∀ kn ∈ c.vs, topState c.vs kn.1 = kn.2 - 1 := fun kn hk => topState_eq hc.vs hk
      have hw : InSpace c.vs fun k =>
          min ((r.lookup k).getD (topState c.vs k)) (topState c.vs k) := by
        intro kn hk
        have h1 := hx kn hk
        have h2 := htop kn hk
        exact (min_le_right _ _).trans_lt (by omega)
      have := hlt _ hw (fun kn hk => ?_) ⟨kn, hk, ?_⟩
      · rw [hv.f r hr _ hw (fun kv hkv => by
          rw [lookup_of_mem hd.nodup hkv]; exact min_le_left _ _)] at this
        cases this
      · have h1 := hx kn hk
        have h2 := htop kn hk
        refine le_min ?_ (by omega)
        cases hl : r.lookup kn.1 with
        | none => simp only [Option.getD_none]; omega
        | some v => exact ha (kn.1, v) (lookup_mem hl)
      · simp only [htop kn hk]
        exact hne.symm

/-- Counting: so a complete run needs at least as many evaluations as there are minimal surviving and
maximal failing vectors. -/
theorem C115_cost {c : RunCfg K} (hc : SysCfgOK c Φ)
    (hm : 2 * (c.vs.map Prod.snd).prod ≤ c.maxNb) {st : RunState K}
    (h : runR A c { s := [], f := [] } none = .ok st) (hf : st.outFlag = some .complete)
    (hmin : ∀ x ∈ st.evals, (c.sysFun x).min = []) {L : List (K → ℕ)}
    (hL : L.Pairwise fun x y => ∃ kn ∈ c.vs, x kn.1 ≠ y kn.1)
    (hext : ∀ x ∈ L, InSpace c.vs x ∧ ((Φ x = true ∧ ∀ y, (∀ kn ∈ c.vs, y kn.1 ≤ x kn.1) →
        (∃ kn ∈ c.vs, y kn.1 ≠ x kn.1) → Φ y = false) ∨
      (Φ x = false ∧ ∀ y, InSpace c.vs y → (∀ kn ∈ c.vs, x kn.1 ≤ y kn.1) →
        (∃ kn ∈ c.vs, y kn.1 ≠ x kn.1) → Φ y = true))) :
    L.length ≤ st.evals.length := by
  classical
  have hex : ∀ x ∈ L, ∃ i, i < st.evals.length ∧ ∃ y, st.evals[i]? = some y ∧
      ∀ kn ∈ c.vs, y kn.1 = x kn.1 := by
    intro x hx
    obtain ⟨y, hy, e⟩ := C115_must_evaluate hc hm h hf hmin (hext x hx).1 (hext x hx).2
    obtain ⟨i, hi, he⟩ := List.mem_iff_getElem.1 hy
    exact ⟨i, hi, y, by rw [List.getElem?_eq_getElem hi, he], e⟩
  choose! g hg hy using hex
  have hnd : (L.map g).Nodup := by
    refine List.pairwise_map.2 (hL.imp_of_mem fun {a b} ha hb ⟨kn, hk, hne⟩ e => hne ?_)
    obtain ⟨y, h1, h2⟩ := hy a ha
    obtain ⟨z, h3, h4⟩ := hy b hb
    rw [e, h3] at h1
    cases h1
    rw [← h2 kn hk, ← h4 kn hk]
  have hsub : L.map g ⊆ List.range st.evals.length := by
    intro i hi
    obtain ⟨x, hx, rfl⟩ := List.mem_map.1 hi
    exact List.mem_range.2 (hg x hx)
  have := (List.subperm_of_subset hnd hsub).length_le
  simpa using this

end

/-- The series system in doubles: the hypotheses of `C115_must_evaluate` are met, and the run evaluates
the vectors 11, 01 and 10, which are the minimal surviving and the maximal failing ones. -/
example : ∃ st, runR (Arith.ofRound float64) Ex.floatSeries { s := [], f := [] } none = .ok st ∧
    st.evals.length = 3 ∧ (∃ y ∈ st.evals, ∀ kn ∈ Ex.floatSeries.vs, y kn.1 = 1) ∧
    ∃ y ∈ st.evals, ∀ kn ∈ Ex.floatSeries.vs, y kn.1 = if kn.1 = 0 then 0 else 1 := by
  have k : (runR (Arith.ofRound float64) Ex.floatSeries { s := [], f := [] } none).toOption.map
      (fun st => (st.evals.length, decide (st.outFlag = some .complete))) = some (3, true) := by
    decide +kernel
  cases h : runR (Arith.ofRound float64) Ex.floatSeries { s := [], f := [] } none with
  | error e => rw [h] at k; cases k
  | ok st =>
    rw [h] at k
    simp only [Except.toOption, Option.map_some, Option.some.injEq, Prod.mk.injEq,
      decide_eq_true_eq] at k
    have hvs : Ex.floatSeries.vs = [(0, 2), (1, 2)] := rfl
    have hm : 2 * (Ex.floatSeries.vs.map Prod.snd).prod ≤ Ex.floatSeries.maxNb := by decide
    refine ⟨st, rfl, k.1,
      C115_must_evaluate (x := fun _ => 1) Ex.floatSeries_ok hm h k.2 (fun _ _ => rfl) ?_ (.inl ⟨rfl, ?_⟩),
      C115_must_evaluate (x := fun k => if k = 0 then 0 else 1) Ex.floatSeries_ok hm h k.2
        (fun _ _ => rfl) ?_ (.inr ⟨rfl, ?_⟩)⟩
    · simp [InSpace, hvs]
    · intro y h1 h2
      simp only [hvs, List.mem_cons, List.not_mem_nil, or_false, forall_eq_or_imp, forall_eq,
        exists_eq_or_imp, exists_eq_left] at h1 h2
      simp only [Ex.seriesΦ, decide_eq_false_iff_not]
      omega
    · simp [InSpace, hvs]
    · intro y h0 h1 h2
      simp only [InSpace, hvs, List.mem_cons, List.not_mem_nil, or_false, forall_eq_or_imp, forall_eq,
        exists_eq_or_imp, exists_eq_left, if_true, one_ne_zero, if_false] at h0 h1 h2
      simp only [Ex.seriesΦ, decide_eq_true_eq]
      omega

/-- The three vectors of the series system meet the hypotheses of `C115_cost`. -/
example {st : RunState ℕ}
    (h : runR (Arith.ofRound float64) Ex.floatSeries { s := [], f := [] } none = .ok st)
    (hf : st.outFlag = some .complete) : 3 ≤ st.evals.length := by
  have hvs : Ex.floatSeries.vs = [(0, 2), (1, 2)] := rfl
  have hm : 2 * (Ex.floatSeries.vs.map Prod.snd).prod ≤ Ex.floatSeries.maxNb := by decide
  refine C115_cost (L := [fun _ => 1, fun k => if k = 0 then 0 else 1, fun k => if k = 0 then 1 else 0])
    Ex.floatSeries_ok hm h hf (fun _ _ => rfl) (by rw [hvs]; simp) fun x hx => ?_
  simp only [List.mem_cons, List.not_mem_nil, or_false] at hx
  rcases hx with rfl | rfl | rfl
  · refine ⟨by simp [InSpace, hvs], .inl ⟨rfl, fun y h1 h2 => ?_⟩⟩
    simp only [hvs, List.mem_cons, List.not_mem_nil, or_false, forall_eq_or_imp, forall_eq,
      exists_eq_or_imp, exists_eq_left] at h1 h2
    simp only [Ex.seriesΦ, decide_eq_false_iff_not]
    omega
  all_goals
    refine ⟨by simp [InSpace, hvs], .inr ⟨rfl, fun y h0 h1 h2 => ?_⟩⟩
    simp only [InSpace, hvs, List.mem_cons, List.not_mem_nil, or_false, forall_eq_or_imp, forall_eq,
      exists_eq_or_imp, exists_eq_left, if_true, one_ne_zero, if_false] at h0 h1 h2
    simp only [Ex.seriesΦ, decide_eq_true_eq]
    omega

/-- The series system in doubles: its only minimal surviving vector is a rule of the run. -/
example : ∃ st, runR (Arith.ofRound float64) Ex.floatSeries { s := [], f := [] } none = .ok st ∧
    ∃ r ∈ st.rules.s, ∀ kn ∈ Ex.floatSeries.vs, 1 = (r.lookup kn.1).getD 0 := by
  have k : (runR (Arith.ofRound float64) Ex.floatSeries { s := [], f := [] } none).toOption.map
      (fun st => decide (st.outFlag = some .complete)) = some true := by decide +kernel
  cases h : runR (Arith.ofRound float64) Ex.floatSeries { s := [], f := [] } none with
  | error e => rw [h] at k; cases k
  | ok st =>
    rw [h] at k
    simp only [Except.toOption, Option.map_some, Option.some.injEq, decide_eq_true_eq] at k
    have hvs : Ex.floatSeries.vs = [(0, 2), (1, 2)] := rfl
    refine ⟨st, rfl, (C115_extremal_rules (x := fun _ => 1) Ex.floatSeries_ok (by decide)
      (Ex.startR_empty _ _) (resume_none _ _) h k (by simp [InSpace, hvs])).1 rfl
      fun y h1 h2 => ?_⟩
    simp only [hvs, List.mem_cons, List.not_mem_nil, or_false, forall_eq_or_imp, forall_eq,
      exists_eq_or_imp, exists_eq_left] at h1 h2
    simp only [Ex.seriesΦ, decide_eq_false_iff_not]
    omega

#print axioms C115_extremal_rules
#print axioms C115_determined
#print axioms C115_must_evaluate
#print axioms C115_cost

end BNS
