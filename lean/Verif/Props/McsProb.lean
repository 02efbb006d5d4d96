import Verif.Proofs.McsProb
import Verif.Props.BrcResume
import Verif.Props.Mcs

/-!
# C67: the Monte Carlo samples have the right distribution

`sampleProb` is the distribution of one sample: a branch in proportion to the branch probabilities,
then every component within the branch.  `C67_draw` ties it to the uniform numbers.
-/

namespace BNS

set_option linter.unusedSectionVars false

variable {K : Type} [DecidableEq K]

/-! ## One draw -/

/-- For every state the uniform numbers that give it form an interval whose length is the
probability of the state in the branch; for every unspecified branch the uniform numbers that select
it form an interval whose length is its share of the unspecified probability. -/
theorem C67_draw {c : McsCfg K} (hc : McsOK c) :
    (∀ b ∈ c.brs, Unspec b → ∀ e ∈ c.names, ∀ s, ∃ lo, ∀ u, 0 ≤ u → u < 1 →
      (drawComp c.probs b e u = .ok s ↔ lo ≤ u ∧ u < lo + drawProb c.probs b e s)) ∧
    (∀ i (hi : i < (c.brs.filter fun b => Unspec b).length), ∃ lo, ∀ u, 0 ≤ u → u < 1 →
      (npChoice (List.range c.brsU.length) (c.brsU.map fun b => b.p / c.pU) u = .ok i ↔
        lo ≤ u ∧ u < lo + (c.brs.filter fun b => Unspec b)[i].p / unkMass c.brs)) := by
  refine ⟨fun b hb hu e he s => drawComp_interval (hc.two b hb hu e he) s, fun i hi => ?_⟩
  obtain ⟨h1, h2, -⟩ := brs_probs_ok hc
  obtain ⟨lo, h⟩ := npChoice_interval (xs := List.range c.brsU.length) List.nodup_range
    (p := c.brsU.map fun b => b.p / c.pU) (by simp) h1 h2 (i := i) (by rw [List.length_range]; exact hi)
  refine ⟨lo, fun u h0 h1 => ?_⟩
  have := h u h0 h1
  simp only [List.getElem_range, List.getElem_map] at this
  rw [this, pU_eq]
  rfl

/-! ## Expected value -/

section
variable {vs : List (K × ℕ)} {probs : K → ℕ → ℚ} {Φ : (K → ℕ) → Bool} {brs : List (Branch K)}

/-- `sampleProb` is a probability distribution over the component vectors. -/
theorem C67_distribution (hv : VarisOK vs) (hp : ProbOK vs probs) (h2 : ∀ kn ∈ vs, kn.2 ≤ 2)
    (hb : ∀ b ∈ brs, BoxOK vs b) (hbp : ∀ b ∈ brs, b.p = probOf vs probs (InBox vs b))
    (hu : 0 < unkMass brs) :
    (∀ x, InSpace vs x → 0 ≤ sampleProb vs probs brs x) ∧
      sumOver vs (sampleProb vs probs brs) (fun _ => 0) = 1 := by
  constructor
  · intro x hx
    have h := sampleProb_mul hv hp h2 hb hbp hu.ne' hx
    have h0 : 0 ≤ (brs.map fun b => if Unspec b ∧ InBox vs b x then weight vs probs x else 0).sum := by
      refine List.sum_nonneg fun y hy => ?_
      obtain ⟨b, -, rfl⟩ := List.mem_map.1 hy
      split
      · exact weight_nonneg hp hx
      · exact le_rfl
    rw [← h] at h0
    exact nonneg_of_mul_nonneg_right h0 hu
  · have h := sampleProb_event hv hp h2 hb hbp hu.ne' (fun _ => True)
    simp only [if_true, true_and] at h
    have h3 : (brs.map fun b => if Unspec b then probOf vs probs (fun x => InBox vs b x) else 0) =
        brs.map fun b => if Unspec b then b.p else 0 :=
      List.map_congr_left fun b hbm => by
        split
        · exact (hbp b hbm).symm
        · rfl
    rw [h3] at h
    have h4 : (unkMass brs) * sumOver vs (fun x => sampleProb vs probs brs x) (fun _ => 0) =
      unkMass brs * 1 := by rw [h, mul_one]; rfl
    exact mul_left_cancel₀ hu.ne' h4

/-- The known failure probability plus the unspecified probability times the probability that a
sample fails: what the simulation estimates.  It is the failure probability less what fails in the
branches whose lower end is known to fail and whose upper end is known to survive. -/
theorem C67_expected (hv : VarisOK vs) (hp : ProbOK vs probs) (hcoh : Coherent vs Φ)
    (h2 : ∀ kn ∈ vs, kn.2 ≤ 2) (hpart : Partition vs brs)
    (hb : ∀ b ∈ brs, b.p = probOf vs probs (InBox vs b) ∧ LabelsOK Φ b ∧ MonoLab b)
    (hu : 0 < unkMass brs) :
    failMass brs + unkMass brs *
        sumOver vs (fun x => if Φ x = false then sampleProb vs probs brs x else 0) (fun _ => 0) =
      pFail vs probs Φ - (brs.map fun b => if b.downState = .f ∧ b.upState = .s then
        probOf vs probs (fun x => Φ x = false ∧ InBox vs b x) else 0).sum := by
  rw [sampleProb_event hv hp h2 hpart.1 (fun b h => (hb b h).1) hu.ne' (fun x => Φ x = false)]
  unfold failMass
  have hadd : ∀ (l : List (Branch K)) (f g : Branch K → ℚ),
      (l.map f).sum + (l.map g).sum = (l.map fun a => f a + g a).sum := by
    intro l f g
    induction l with
    | nil => simp
    | cons a l ih => simp only [List.map_cons, List.sum_cons, ← ih]; ring
  rw [hadd, eq_sub_iff_add_eq, hadd]
  unfold pFail
  rw [partition_split hv probs hpart]
  congr 1
  refine List.map_congr_left fun b hbm => ?_
  obtain ⟨hbp, hl, hm⟩ := hb b hbm
  have hbox := hpart.1 b hbm
  by_cases hf : b.upState = .f
  · have hd := hm.1 hf
    have hU : ¬ Unspec b := by simp [Unspec, hd, hf]
    rw [if_pos hf, if_neg hU, if_neg (by simp [hf]), hbp, add_zero, add_zero]
    refine probOf_congr hv probs _ _ fun x hx => ⟨fun h => ⟨?_, h⟩, fun h => h.2⟩
    by_contra hΦ
    have h1 := hcoh x b.up (fun kn hkn => (h kn hkn).2) (by simpa using hΦ)
    rw [hl.2.2 hf] at h1
    cases h1
  · rw [if_neg hf]
    by_cases hU : Unspec b
    · rw [if_pos hU, if_neg, zero_add, add_zero]
      rintro ⟨h1, h2⟩
      rcases hU with h | h
      · rw [h1] at h; cases h
      · rw [h2] at h; cases h
    · rw [if_neg hU]
      have hup : b.upState = .s := by
        cases h : b.upState with
        | s => rfl
        | f => exact absurd h hf
        | u => exact absurd (.inr h) hU
      by_cases hd : b.downState = .f
      · rw [if_pos ⟨hd, hup⟩]; ring
      · rw [if_neg (by simp [hd])]
        have hds : b.downState = .s := by
          cases h : b.downState with
          | s => rfl
          | f => exact absurd h hd
          | u => exact absurd (.inl h) hU
        have : probOf vs probs (fun x => Φ x = false ∧ InBox vs b x) =
            probOf vs probs (fun _ => False) := by
          refine probOf_congr hv probs _ _ fun x hx => ⟨fun h => ?_, fun h => h.elim⟩
          have h1 := hcoh b.down x (fun kn hkn => (h.2 kn hkn).1) (hl.1.1 hds)
          rw [h.1] at h1
          cases h1
        rw [this]
        simp [probOf, sumOver_zero]

end

/-! ## After `run` -/

variable {Φ : (K → ℕ) → Bool} {c : RunCfg K} {rules : Rules K} {brs : Option (List (Branch K))}
  {st : RunState K}

/-- The simulation applied to what `run` returned. -/
def mcsOf (c : RunCfg K) (bs : List (Branch K)) (covT : ℚ) : McsCfg K :=
  { names := c.vs.map Prod.fst, brs := bs, probs := c.probs, sysFun := c.sysFun, covT := covT }

/-- Two-state components, and a run that left some probability unspecified: the simulation accepts
the branches, its samples have the right distribution, and the expected value it estimates is the
failure probability, provided no branch runs from a known failure to a known survival. -/
theorem C67_unbiased_partial (hc : CfgOK c Φ) (h0 : 0 < c.maxSf) (h2 : ∀ kn ∈ c.vs, kn.2 ≤ 2)
    (hs : StartOK c Φ rules brs) (hb : ResumeOK c rules brs) (h : run c rules brs = .ok st)
    {bs : List (Branch K)} (hbs : st.brs = some bs) (hu : 0 < unkMass bs) (covT : ℚ) :
    McsOK (mcsOf c bs covT) ∧
    ((∀ b ∈ bs, ¬ (b.downState = .f ∧ b.upState = .s)) →
      failMass bs + unkMass bs * sumOver c.vs
        (fun x => if Φ x = false then sampleProb c.vs c.probs bs x else 0) (fun _ => 0) =
      pFail c.vs c.probs Φ) := by
  have hm := run_mono hc h0 hs hb h hbs
  obtain ⟨bs', row, hbs', hpart, hl, -⟩ := (C27_bounds hc hs h).2.2.2 h0
  rw [hbs] at hbs'
  cases hbs'
  refine ⟨⟨?_, ?_, ?_⟩, fun hn => ?_⟩
  · intro b hbm
    rw [(hl b hbm).1]
    exact probOf_nonneg hc.vs hc.probs _
  · by_contra hno
    push Not at hno
    have : unkMass bs ≤ 0 := by
      refine sum_nonpos' fun y hy => ?_
      obtain ⟨b, hbm, rfl⟩ := List.mem_map.1 hy
      split
      · exact hno b hbm (by assumption)
      · exact le_rfl
    linarith
  · intro b hbm _ e he
    obtain ⟨kn, hkn, rfl⟩ := List.mem_map.1 he
    obtain ⟨h3, h4⟩ := hpart.1 b hbm kn hkn
    have hk := h2 kn hkn
    have htot := hc.probs.total kn hkn
    by_cases heq : b.down kn.1 = b.up kn.1
    · exact .inl heq
    · right
      have hd : b.down kn.1 = 0 := by omega
      have hup : b.up kn.1 = 1 := by omega
      have hn : kn.2 = 2 := by omega
      rw [hn, Finset.sum_range_succ, Finset.sum_range_one] at htot
      have hnn := hc.probs.nonneg kn hkn
      refine ⟨by omega, hnn _ (by omega), hnn _ (by omega), ?_⟩
      rw [hd, hup]
      exact htot
  · rw [C67_expected hc.vs hc.probs hc.coh h2 hpart (fun b hbm =>
      ⟨(hl b hbm).1, (hl b hbm).2, (hm b hbm).2⟩) hu]
    have : (bs.map fun b => if b.downState = .f ∧ b.upState = .s then
        probOf c.vs c.probs (fun x => Φ x = false ∧ InBox c.vs b x) else 0) = bs.map fun _ => 0 :=
      List.map_congr_left fun b hbm => if_neg (hn b hbm)
    rw [this]
    simp

/-! ## Witnesses for C51 and C67 -/

namespace Ex

/-- Two components in series with a third one in parallel, two states each. -/
def mcsVs : List (ℕ × ℕ) := [(0, 2), (1, 2), (2, 2)]

def mcsProbs : ℕ → ℕ → ℚ := fun _ _ => 1 / 2

def mcsNet (maxSf maxNb : ℕ) : RunCfg ℕ :=
  { vs := mcsVs
    probs := mcsProbs
    sysFun := fun x => { val := 0, st := if 1 ≤ x 0 ∧ 1 ≤ x 1 ∨ 1 ≤ x 2 then .s else .f, min := [] }
    maxSf := maxSf
    maxNb := maxNb }

def mcsΦ (x : ℕ → ℕ) : Bool := decide (1 ≤ x 0 ∧ 1 ≤ x 1 ∨ 1 ≤ x 2)

def mcsRules : Rules ℕ := { s := [[(0, 1), (1, 1)]], f := [[(0, 0), (2, 0)], [(1, 0), (2, 0)]] }

theorem mcsNet_ok (m n : ℕ) : CfgOK (mcsNet m n) mcsΦ := by
  have h1 : VarisOK mcsVs := ⟨by decide, by decide⟩
  have h2 : ProbOK mcsVs mcsProbs := ⟨by decide +kernel, by decide +kernel⟩
  refine ⟨h1, ?_, h2, ?_⟩
  · show Coherent mcsVs mcsΦ
    intro x y h hx
    have h0 := h (0, 2) (by decide)
    have h1 := h (1, 2) (by decide)
    have h2 := h (2, 2) (by decide)
    simp only [mcsΦ, decide_eq_true_eq] at hx ⊢
    simp only at h0 h1 h2
    omega
  · refine ⟨fun x _ => ?_, fun _ _ h => absurd rfl h, fun _ _ h => absurd rfl h,
      fun _ _ h => absurd rfl h⟩
    simp [mcsNet, mcsΦ]

theorem mcsNet_start (m n : ℕ) : StartOK (mcsNet m n) mcsΦ mcsRules none := by
  refine ⟨?_, ⟨?_, ?_⟩, by simp⟩
  · show RulesDict mcsVs mcsRules
    intro r hr
    simp only [mcsRules, List.cons_append, List.nil_append, List.mem_cons,
      List.not_mem_nil, or_false] at hr
    rcases hr with rfl | rfl | rfl <;> exact ⟨by decide, by decide⟩
  · intro r hr x _ ha
    simp only [mcsRules, List.mem_singleton] at hr
    subst hr
    have h0 := ha (0, 1) (by decide)
    have h1 := ha (1, 1) (by decide)
    simp only at h0 h1
    simp only [mcsΦ, decide_eq_true_eq]
    omega
  · intro r hr x _ ha
    simp only [mcsRules, List.mem_cons, List.not_mem_nil, or_false] at hr
    rcases hr with rfl | rfl
    · have h0 := ha (0, 0) (by decide)
      have h1 := ha (2, 0) (by decide)
      simp only at h0 h1
      simp only [mcsΦ, decide_eq_false_iff_not]
      omega
    · have h0 := ha (1, 0) (by decide)
      have h1 := ha (2, 0) (by decide)
      simp only at h0 h1
      simp only [mcsΦ, decide_eq_false_iff_not]
      omega

/-- Uniform numbers: 1/8, 3/8, 5/8, 7/8 in turn. -/
def unif (i j : ℕ) : ℚ := (1 + 2 * ((i + 3 * j + i / 4) % 4 : ℕ)) / 8

theorem unif_ok : Uniform unif := by
  intro i j
  have : (i + 3 * j + i / 4) % 4 < 4 := Nat.mod_lt _ (by omega)
  unfold unif
  generalize (i + 3 * j + i / 4) % 4 = m at this
  have h : (m : ℚ) ≤ 3 := by exact_mod_cast (show m ≤ 3 by omega)
  constructor
  · positivity
  · linarith

/-- the hypotheses of the theorems are met: one run, then the simulation of what it left -/
example : CfgOK (mcsNet 1 4) mcsΦ ∧ StartOK (mcsNet 1 4) mcsΦ mcsRules none ∧
    ResumeOK (mcsNet 1 4) mcsRules none ∧ (∀ kn ∈ (mcsNet 1 4).vs, kn.2 ≤ 2) ∧ Uniform unif ∧
    ∃ st bs, run (mcsNet 1 4) mcsRules none = .ok st ∧ st.brs = some bs ∧ failMass bs = 1 / 4 ∧
      unkMass bs = 1 / 2 ∧ (∀ b ∈ bs, ¬ (b.downState = .f ∧ b.upState = .s)) ∧
      (∀ b ∈ bs, ∀ e ∈ mcsVs.map Prod.fst, b.down e ≤ b.up e) ∧
      mcsUnknownSimple (mcsOf (mcsNet 1 4) bs (1 / 2)) unif 20 =
        .ok (401 / 1002, 5275025 / 177202702, 10) := by
  refine ⟨mcsNet_ok 1 4, mcsNet_start 1 4, resume_none _ _, by decide, unif_ok, ?_⟩
  obtain ⟨st, hst, h⟩ := exists_ok (x := run (mcsNet 1 4) mcsRules none)
    (P := fun st => (st.brs.map failMass = some (1 / 4) ∧ st.brs.map unkMass = some (1 / 2)) ∧
      (∀ b ∈ st.brs.getD [], ¬ (b.downState = .f ∧ b.upState = .s)) ∧
      (∀ b ∈ st.brs.getD [], ∀ e ∈ mcsVs.map Prod.fst, b.down e ≤ b.up e) ∧
      mcsUnknownSimple (mcsOf (mcsNet 1 4) (st.brs.getD []) (1 / 2)) unif 20 =
        .ok (401 / 1002, 5275025 / 177202702, 10)) (by decide +kernel)
  obtain ⟨⟨h1, h2⟩, h3, h4, h5⟩ := h
  cases hb : st.brs with
  | none => rw [hb] at h1; cases h1
  | some bs =>
    rw [hb] at h1 h2 h3 h4 h5
    exact ⟨st, bs, hst, hb, Option.some.inj h1, Option.some.inj h2, h3, h4, h5⟩

end Ex

/-- The branches that run from a known failure to a known survival are neither counted nor sampled:
after this run every estimate, whatever the uniform numbers and the target, is below the failure
probability. -/
theorem C67_not_mixed : ∃ (c : RunCfg ℕ) (Φ : (ℕ → ℕ) → Bool) (rules : Rules ℕ) (st : RunState ℕ)
    (bs : List (Branch ℕ)), CfgOK c Φ ∧ (∀ kn ∈ c.vs, kn.2 ≤ 2) ∧ StartOK c Φ rules none ∧
    run c rules none = .ok st ∧ st.brs = some bs ∧ 0 < unkMass bs ∧
    ∀ r covT fuel pf cov2 n, mcsUnknownSimple (mcsOf c bs covT) r fuel = .ok (pf, cov2, n) →
      pf < pFail c.vs c.probs Φ := by
  obtain ⟨st, hst, h⟩ := exists_ok (x := run (Ex.mcsNet 3 6) Ex.mcsRules none)
    (P := fun st => (st.brs.map failMass = some (1 / 4) ∧ st.brs.map unkMass = some (1 / 8)) ∧
      (∀ b ∈ st.brs.getD [], ∀ e ∈ Ex.mcsVs.map Prod.fst, b.down e ≤ b.up e)) (by decide +kernel)
  obtain ⟨⟨h1, h2⟩, h3⟩ := h
  cases hb : st.brs with
  | none => rw [hb] at h1; cases h1
  | some bs =>
    rw [hb] at h1 h2 h3
    replace h1 : failMass bs = 1 / 4 := Option.some.inj h1
    replace h2 : unkMass bs = 1 / 8 := Option.some.inj h2
    refine ⟨Ex.mcsNet 3 6, Ex.mcsΦ, Ex.mcsRules, st, bs, Ex.mcsNet_ok 3 6, by decide, Ex.mcsNet_start 3 6,
      hst, hb, by rw [h2]; norm_num, fun r covT fuel pf cov2 n hr => ?_⟩
    obtain ⟨-, -, -, -, -, -, -, -, hlt, -⟩ := C51_estimate (c := mcsOf (Ex.mcsNet 3 6) bs covT) h3 hr
    have := (hlt (by rw [show (mcsOf (Ex.mcsNet 3 6) bs covT).brs = bs from rfl, h2]; norm_num)).2
    rw [show (mcsOf (Ex.mcsNet 3 6) bs covT).brs = bs from rfl, h1, h2] at this
    have hp : pFail (Ex.mcsNet 3 6).vs (Ex.mcsNet 3 6).probs Ex.mcsΦ = 3 / 8 := by decide +kernel
    rw [hp]
    linarith

end BNS
