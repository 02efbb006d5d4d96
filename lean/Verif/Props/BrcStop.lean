import Verif.Props.BrcRun
import Verif.Proofs.Monad

/-!
# Property C60: the reported reason for stopping

Nothing is assumed about the system, the probabilities, the rules or the branches handed in.
-/

namespace BNS

set_option linter.unusedSectionVars false

variable {K : Type} [DecidableEq K]

/-- What is known of the state between two iterations, `r` evaluations being left. -/
structure StopInv (c : RunCfg K) (rules : Rules K) (r : ℕ) (st : RunState K) : Prop where
  left : st.evals.length + r = c.maxSf
  mon : st.mon.length = st.evals.length
  flag : st.outFlag = if st.evals ≠ [] ∧ r = 0 then some .maxSf else none
  started : st.started = decide (st.evals ≠ [])
  first : st.evals = [] → st.prBu = 1 ∧ st.pfLow = 0 ∧ st.rules = rules
  last : st.evals ≠ [] → ∃ row, st.mon.getLast? = some row ∧ row.prBu = st.prBu ∧
    row.pfLow = st.pfLow ∧ row.noRa = st.rules.s.length + st.rules.f.length
  noBr : ∀ row ∈ st.mon, row.noBr < c.maxNb
  goes : ∀ row ∈ st.mon.dropLast, ¬ row.prBu < row.pfLow * c.pfBndWr ∧
    ∀ m, c.maxRules = some m → row.noRa < m
  start : st.evals ≠ [] → ∀ m, c.maxRules = some m → rules.s.length + rules.f.length < m

theorem rulesFull_iff {c : RunCfg K} {rules : Rules K} : c.rulesFull rules = true ↔
    ∃ m, c.maxRules = some m ∧ m ≤ rules.s.length + rules.f.length := by
  unfold RunCfg.rulesFull
  cases c.maxRules with
  | none => simp
  | some m => simp

theorem stopInv_step {c : RunCfg K} {rules : Rules K} {r : ℕ} {st st' : RunState K}
    {brs : List (Branch K)} {x : K → ℕ} (hi : StopInv c rules (r + 1) st) (hg : GoesOn c st brs)
    (hs : runStep c st brs x (r = 0) = .ok st') : StopInv c rules r st' := by
  unfold runStep at hs
  simp only at hs
  cases hu : updateRuleSet st.rules (runSysFn c.vs c.sysFun x).1 (runSysFn c.vs c.sysFun x).2 with
  | error e => rw [hu] at hs; cases hs
  | ok ru =>
    rw [hu, ok_bind] at hs
    cases hs
    have hfull : ∀ m, c.maxRules = some m → st.rules.s.length + st.rules.f.length < m := by
      intro m hm
      by_contra hlt
      have := rulesFull_iff.2 ⟨m, hm, not_lt.1 hlt⟩
      rw [hg.rules] at this
      cases this
    have hne : st.evals ++ [x] ≠ [] := by simp
    refine ⟨?_, ?_, ?_, ?_, fun h => absurd h hne, fun _ => ?_, ?_, ?_, fun _ m hm => ?_⟩
    · have := hi.left
      simp only [List.length_append, List.length_singleton]
      omega
    · simp [hi.mon]
    · by_cases hr : r = 0 <;> simp [hr]
    · simp
    · exact ⟨_, by rw [List.getLast?_append]; rfl, rfl, rfl, rfl⟩
    · intro row hrow
      rcases List.mem_append.1 hrow with h | h
      · exact hi.noBr row h
      · rw [List.mem_singleton.1 h]
        exact hg.nb
    · simp only [List.dropLast_concat]
      intro row hrow
      by_cases he : st.evals = []
      · have : st.mon = [] := List.eq_nil_of_length_eq_zero (by rw [hi.mon, he]; rfl)
        rw [this] at hrow
        cases hrow
      · obtain ⟨l, hl, h1, h2, h3⟩ := hi.last he
        have hsplit := List.dropLast_append_getLast? l hl
        rw [← hsplit] at hrow
        rcases List.mem_append.1 hrow with h | h
        · exact hi.goes row h
        · rw [List.mem_singleton.1 h, h1, h2, h3]
          exact ⟨hg.bnd, hfull⟩
    · by_cases he : st.evals = []
      · obtain ⟨-, -, h⟩ := hi.first he
        rw [← h]
        exact hfull m hm
      · exact hi.start he m hm

/-- What a finished loop looks like. -/
structure StopOut (c : RunCfg K) (rules : Rules K) (st : RunState K) : Prop where
  mon : st.mon.length = st.evals.length
  started : st.started = decide (0 < c.maxSf)
  noBr : ∀ row ∈ st.mon, row.noBr < c.maxNb
  goes : ∀ row ∈ st.mon.dropLast, ¬ row.prBu < row.pfLow * c.pfBndWr ∧
    ∀ m, c.maxRules = some m → row.noRa < m
  start : st.evals ≠ [] → ∀ m, c.maxRules = some m → rules.s.length + rules.f.length < m
  flag : (st.outFlag = none ∧ c.maxSf = 0 ∧ st.evals = []) ∨
    (st.outFlag = some .maxSf ∧ st.evals.length = c.maxSf) ∨
    (st.evals.length < c.maxSf ∧ ∃ bs, st.brs = some bs ∧
      ((st.outFlag = some .complete ∧ NoUnknown bs) ∨
        (∃ x, UnknownEnd bs x) ∧
        ((st.outFlag = some .maxNb ∧ c.maxNb ≤ bs.length) ∨
          (st.outFlag = some .pfBnd ∧ ∃ row, st.mon.getLast? = some row ∧
            row.prBu < row.pfLow * c.pfBndWr) ∨
          (st.outFlag = some .maxRules ∧ ∃ m, c.maxRules = some m ∧
            m ≤ st.rules.s.length + st.rules.f.length))))

theorem stop_loop {c : RunCfg K} {rules : Rules K} {brs : Option (List (Branch K))}
    {st1 : RunState K} (h1 : runLoop c c.maxSf { brs := brs, rules := rules } = .ok st1) :
    StopOut c rules st1 := by
  refine runLoop_ind c (StopInv c rules) (StopOut c rules) ?_ ?_ ?_ ?_ _ _ _ ?_ h1
  · exact fun r st trunc bcs x st' hi _ _ hg hs => stopInv_step hi hg hs
  · intro st hi
    have hl := hi.left
    refine ⟨hi.mon, ?_, hi.noBr, hi.goes, hi.start, ?_⟩
    · rw [hi.started]
      congr 1
      rw [← hl, Nat.add_zero, List.length_pos_iff]
    · have hf := hi.flag
      by_cases he : st.evals = []
      · rw [he] at hl hf
        exact .inl ⟨by simpa using hf, by simpa using hl.symm, he⟩
      · exact .inr (.inl ⟨by simpa [he] using hf, by simpa using hl⟩)
  · intro r st trunc bcs hi hd hg
    have hl := hi.left
    exact ⟨hi.mon, by simp; omega, hi.noBr, hi.goes, hi.start,
      .inr (.inr ⟨by simp only; omega, _, rfl, .inl ⟨rfl, getCompSt_none.1 hg⟩⟩)⟩
  · intro r st trunc bcs x flag hi hd hg hf
    have hl := hi.left
    refine ⟨hi.mon, by simp; omega, hi.noBr, hi.goes, hi.start,
      .inr (.inr ⟨by simp only; omega, _, rfl, .inr ⟨⟨x, getCompSt_some hg⟩, ?_⟩⟩)⟩
    rcases hf with ⟨rfl, h⟩ | ⟨rfl, h⟩ | ⟨rfl, h⟩
    · exact .inl ⟨rfl, by simpa using h⟩
    · refine .inr (.inl ⟨rfl, ?_⟩)
      by_cases he : st.evals = []
      · obtain ⟨h1, h2, -⟩ := hi.first he
        rw [h1, h2] at h
        norm_num at h
      · obtain ⟨row, hr, h1, h2, -⟩ := hi.last he
        exact ⟨row, hr, by rw [h1, h2]; exact h⟩
    · exact .inr (.inr ⟨rfl, rulesFull_iff.1 h⟩)
  · exact ⟨by simp, rfl, by simp, by simp, fun _ => ⟨rfl, rfl, rfl⟩, fun h => absurd rfl h,
      by simp, by simp, fun h => absurd rfl h⟩

/-- Why a run stopped.  Without any allowed evaluation there is no flag.  `max_sf` says that the
allowed number of evaluations was used.  In every other case fewer were used, and: `complete` says
that no returned branch carries an unknown label; the other flags are given only when there is an
unknown label, and `max_nb` says that the number of returned branches reached the limit, `max_rules`
that the number of returned rules did, `pf_bnd` that after the last evaluation the unknown
probability had dropped below the given fraction of the lower bound. -/
theorem C60_flag {c : RunCfg K} {rules : Rules K} {brs : Option (List (Branch K))}
    {st : RunState K} (h : run c rules brs = .ok st) :
    (st.outFlag = none ∧ c.maxSf = 0 ∧ st.evals = [] ∧ st.mon = []) ∨
    (st.outFlag = some .maxSf ∧ st.evals.length = c.maxSf ∧ st.mon.length = c.maxSf + 1) ∨
    (st.evals.length < c.maxSf ∧ st.mon.length = st.evals.length + 1 ∧ ∃ bs, st.brs = some bs ∧
      ((st.outFlag = some .complete ∧ ∀ b ∈ bs, b.downState ≠ .u ∧ b.upState ≠ .u) ∨
        (∃ b ∈ bs, b.downState = .u ∨ b.upState = .u) ∧
        ((st.outFlag = some .maxNb ∧ c.maxNb ≤ bs.length) ∨
          (st.outFlag = some .pfBnd ∧ 0 < st.evals.length ∧
            ∃ row, st.mon[st.evals.length - 1]? = some row ∧
              row.prBu < row.pfLow * c.pfBndWr) ∨
          (st.outFlag = some .maxRules ∧ ∃ m, c.maxRules = some m ∧
            m ≤ st.rules.s.length + st.rules.f.length)))) := by
  obtain ⟨st1, h1, rfl⟩ := run_eq h
  have ho := stop_loop h1
  rcases ho.flag with ⟨hf, h0, he⟩ | ⟨hf, hl⟩ | ⟨hl, bs, hb, hrest⟩
  · left
    have hs : st1.started = false := by rw [ho.started, h0]; rfl
    have hm : st1.mon = [] := List.eq_nil_of_length_eq_zero (by rw [ho.mon, he]; rfl)
    rw [hs]
    exact ⟨hf, h0, he, hm⟩
  · by_cases h0 : c.maxSf = 0
    · have hs : st1.started = false := by rw [ho.started, h0]; rfl
      have hx : st1.evals = [] := List.eq_nil_of_length_eq_zero (by omega)
      rcases ho.flag with ⟨h1, -⟩ | ⟨-, -⟩ | ⟨h1, -⟩
      · rw [h1] at hf; cases hf
      · -- the flag is only set by an evaluation
        exfalso
        rw [h0] at h1
        unfold runLoop at h1
        cases h1
        cases hf
      · omega
    · right; left
      have hs : st1.started = true := by rw [ho.started]; simp; omega
      rw [hs]
      simp only [if_true]
      exact ⟨hf, hl, by rw [List.length_append, ho.mon, hl]; rfl⟩
  · right; right
    have hs : st1.started = true := by rw [ho.started]; simp; omega
    rw [hs]
    simp only [if_true]
    refine ⟨hl, by rw [List.length_append, ho.mon]; rfl, bs, hb, ?_⟩
    rcases hrest with ⟨hf, hn⟩ | ⟨⟨x, b, hbm, hx⟩, hrest⟩
    · exact .inl ⟨hf, hn⟩
    · refine .inr ⟨⟨b, hbm, hx.symm.imp And.right And.right⟩, ?_⟩
      refine hrest.imp id (Or.imp ?_ id)
      rintro ⟨hf, row, hrow, hlt⟩
      have hlen : 0 < st1.mon.length := by
        cases hm : st1.mon with
        | nil => rw [hm] at hrow; cases hrow
        | cons a l => simp
      rw [ho.mon] at hlen
      refine ⟨hf, hlen, row, ?_, hlt⟩
      rw [List.getElem?_append_left (by rw [ho.mon]; omega), ← hrow, List.getLast?_eq_getElem?,
        ho.mon]

/-- Why a run went on.  Before every evaluation the number of branches was below the limit; after
every evaluation but the last, the unknown probability had not dropped below the given fraction of
the lower bound and the number of rules was below the limit; so was the number of rules handed in,
if there was an evaluation at all. -/
theorem C60_goes_on {c : RunCfg K} {rules : Rules K} {brs : Option (List (Branch K))}
    {st : RunState K} (h : run c rules brs = .ok st) :
    st.evals.length ≤ c.maxSf ∧
    (∀ (i : ℕ) (row : MonRow), i < st.evals.length → st.mon[i]? = some row → row.noBr < c.maxNb) ∧
    (∀ (i : ℕ) (row : MonRow), i + 1 < st.evals.length → st.mon[i]? = some row →
      row.pfLow * c.pfBndWr ≤ row.prBu ∧ ∀ m, c.maxRules = some m → row.noRa < m) ∧
    (st.evals ≠ [] → ∀ m, c.maxRules = some m → rules.s.length + rules.f.length < m) := by
  obtain ⟨st1, h1, rfl⟩ := run_eq h
  have ho := stop_loop h1
  have he : (if st1.started = true then
      { st1 with mon := st1.mon ++ [monRow (st1.brs.getD []) st1.rules] } else st1).evals =
      st1.evals := by split <;> rfl
  have hm : ∀ (i : ℕ) row, i < st1.evals.length → (if st1.started = true then
      { st1 with mon := st1.mon ++ [monRow (st1.brs.getD []) st1.rules] } else st1).mon[i]? =
      some row → st1.mon[i]? = some row := by
    intro i row hi hrow
    split at hrow
    · rw [List.getElem?_append_left (by rw [ho.mon]; exact hi)] at hrow
      exact hrow
    · exact hrow
  rw [he]
  refine ⟨?_, ?_, ?_, ho.start⟩
  · rcases ho.flag with ⟨-, -, he⟩ | ⟨-, hl⟩ | ⟨hl, -⟩
    · rw [he]; simp
    · exact hl.le
    · exact hl.le
  · intro i row hi hrow
    exact ho.noBr row (List.mem_of_getElem? (hm i row hi hrow))
  · intro i row hi hrow
    have hrow := hm i row (by omega) hrow
    have : row ∈ st1.mon.dropLast := by
      refine List.mem_of_getElem? (i := i) ?_
      rw [List.getElem?_dropLast, if_pos (by rw [ho.mon]; omega)]
      exact hrow
    obtain ⟨h1, h2⟩ := ho.goes row this
    exact ⟨not_lt.1 h1, h2⟩

/-- **C60, accuracy.**  When the run stops because the bounds are close — with a limit on the branches
that does not cut the decomposition — the bounds it returns are that close: their width is below the
given fraction of the lower bound, so the lower bound misses the probability of failure by less than
that fraction of itself. -/
theorem C60_accuracy {Φ : (K → ℕ) → Bool} {c : RunCfg K} (hc : CfgOK c Φ)
    (hm : 2 * (c.vs.map Prod.snd).prod ≤ c.maxNb) (hw : 0 ≤ c.pfBndWr) {rules : Rules K}
    {brs : Option (List (Branch K))} (hs : StartOK c Φ rules brs) (hb : ResumeOK c rules brs)
    {st : RunState K} (h : run c rules brs = .ok st) (hf : st.outFlag = some .pfBnd) :
    ∃ row, st.mon.getLast? = some row ∧ row.pfUp - row.pfLow < row.pfLow * c.pfBndWr ∧
      row.pfLow ≤ pFail c.vs c.probs Φ ∧ pFail c.vs c.probs Φ ≤ row.pfUp ∧
      pFail c.vs c.probs Φ - row.pfLow < row.pfLow * c.pfBndWr := by
  have h1 := C27_bounds hc hs h
  have h2 := C30_monotone hc hm hs hb h
  have h3 := C30_counts hc hs h
  rcases C60_flag h with ⟨hn, -⟩ | ⟨hn, -⟩ | ⟨-, hlen, bs, -, hrest⟩
  · rw [hn] at hf; cases hf
  · rw [hn] at hf; cases hf
  rcases hrest with ⟨hn, -⟩ | ⟨-, ⟨hn, -⟩ | ⟨-, hpos, row', hr', hlt⟩ | ⟨hn, -⟩⟩
  · rw [hn] at hf; cases hf
  · rw [hn] at hf; cases hf
  · have hlast : st.evals.length < st.mon.length := by omega
    refine ⟨st.mon[st.evals.length], ?_, ?_⟩
    · rw [List.getLast?_eq_getElem?, hlen, Nat.add_sub_cancel]
      exact List.getElem?_eq_getElem hlast
    · have hmem : st.mon[st.evals.length] ∈ st.mon := List.getElem_mem hlast
      obtain ⟨hi, hr'2⟩ := List.getElem?_eq_some_iff.1 hr'
      have hp := List.pairwise_iff_getElem.1 h2 (st.evals.length - 1) st.evals.length hi hlast (by omega)
      rw [hr'2] at hp
      have e1 := (h3 row' (hr'2 ▸ List.getElem_mem hi)).1
      obtain ⟨e2, e3⟩ := h1.1 _ hmem
      have e4 : row'.pfLow * c.pfBndWr ≤ st.mon[st.evals.length].pfLow * c.pfBndWr :=
        mul_le_mul_of_nonneg_right hp.1 hw
      refine ⟨by linarith [hp.1, hp.2], e2, e3, by linarith [hp.1, hp.2]⟩
  · rw [hn] at hf; cases hf

/-- The hypotheses are met by the run that stops for this reason in the example below. -/
example : ∃ st row, run { Ex.cfg 20 100 with pfBndWr := 100 } { s := [], f := [[(0, 0)]] } none = .ok st ∧
    st.outFlag = some .pfBnd ∧ st.mon.getLast? = some row ∧
    pFail Ex.vs Ex.probs Ex.Φ - row.pfLow < row.pfLow * 100 := by
  have hc : CfgOK { Ex.cfg 20 100 with pfBndWr := 100 } Ex.Φ :=
    ⟨Ex.vs_ok, Ex.coherent, Ex.probs_ok, Ex.sysFun_ok⟩
  have hs : StartOK { Ex.cfg 20 100 with pfBndWr := 100 } Ex.Φ { s := [], f := [[(0, 0)]] } none :=
    ⟨fun r hr => ⟨by revert r; decide, by revert r; decide⟩,
      ⟨by simp, fun r hr x _ ha => by
        rw [List.mem_singleton] at hr
        subst hr
        have : x 0 ≤ 0 := ha (0, 0) (by simp)
        simp only [Ex.Φ, decide_eq_false_iff_not]
        omega⟩, by simp⟩
  obtain ⟨st, h1, h2⟩ := exists_ok (x := run { Ex.cfg 20 100 with pfBndWr := 100 }
    { s := [], f := [[(0, 0)]] } none) (P := fun st => st.outFlag = some .pfBnd) (by decide +kernel)
  obtain ⟨row, h3, -, -, -, h4⟩ := C60_accuracy hc (by decide) (by decide +kernel) hs (resume_none _ _) h1 h2
  exact ⟨st, row, h1, h2, h3, h4⟩

/-- Every reason occurs. -/
def Ex.stop (maxSf maxNb : ℕ) (wr : ℚ) (maxRules : Option ℕ) : RunCfg ℕ :=
  { Ex.cfg maxSf maxNb with pfBndWr := wr, maxRules := maxRules }

def Ex.stopFlag (c : RunCfg ℕ) : Option (Option OutFlag) :=
  (run c { s := [], f := [] } none).toOption.map fun st => st.outFlag

example : Ex.stopFlag (Ex.stop 0 100 0 none) = some none ∧
    Ex.stopFlag (Ex.stop 2 100 0 none) = some (some .maxSf) ∧
    Ex.stopFlag (Ex.stop 20 100 0 none) = some (some .complete) ∧
    Ex.stopFlag (Ex.stop 20 2 0 none) = some (some .maxNb) ∧
    (run { Ex.cfg 20 100 with pfBndWr := 100 } { s := [], f := [[(0, 0)]] } none).toOption.map
      (fun st => (st.outFlag, st.mon.map fun r => (r.pfLow, r.prBu, r.noBr))) =
      some (some .pfBnd, [(1 / 10, 9 / 10, 2), (1 / 10, 117 / 200, 4)]) ∧
    Ex.stopFlag (Ex.stop 20 100 0 (some 2)) = some (some .maxRules) := by
  decide +kernel

end BNS
