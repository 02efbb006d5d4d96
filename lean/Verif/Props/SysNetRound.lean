import Verif.Proofs.SysNetRound
import Verif.Props.SysNet
import Verif.Props.CpmRound

/-!
# Property C104: from `run` to the system probabilities in floating-point arithmetic
-/

namespace BNS

set_option linter.unusedSectionVars false

open List

section
variable {K : Type} [LinearOrder K] {Φ : (K → ℕ) → Bool} {A A1 : Arith} {F : ℚ → Prop} {ε : ℚ}
  {sp : K → ℕ → ℚ}

/-- The branches of a run in whatever arithmetic `A1`, turned into an event matrix: the constructor
accepts the CPMs with the stored probabilities, eliminating the components with arithmetic `A` succeeds
in every order, and what `get_prob` answers for the three system states is, up to a number of relative
errors known from the network and the number of branches, the probability of the vectors in branches
labelled accordingly.  `R n x' x`: the number `x'` is `x` up to `n` errors.  The stored probabilities
`sp` need not be those the run was given. -/
theorem C104_counted {c : RunCfg K} (hc : SysCfgOK c Φ) (h0 : 0 < c.maxSf) {R : ℕ → ℚ → ℚ → Prop} (hR : Counted A R)
    {pr : K → ℕ → ℚ} (hn : ∀ kn ∈ c.vs, ∀ i < kn.2, R 1 (sp kn.1 i) (pr kn.1 i)) {rules : Rules K}
    {brs : Option (List (Branch K))} (hs : StartOKR c Φ (fun _ => True) rules brs)
    {st : RunState K} (h : runR A1 c rules brs = .ok st) {U : K → Variable K} {sys : K}
    (hU : SysVars U c.vs sys 3) {varis : K → Option (Variable K)}
    (hv : ∀ kn ∈ c.vs, varis kn.1 = some (U kn.1)) {lbl : St → Option ℕ}
    (hf : lbl .f = some 0) (hsv : lbl .s = some 1) (hu : lbl .u = some 2) :
    ∃ bs C, st.brs = some bs ∧ getCsys (c.vs.map Prod.fst) bs varis lbl = .ok (C, varis) ∧
      Cpm.mk' (sysCpm U c.vs sys C) = .ok (sysCpm U c.vs sys C) ∧
      (∀ kn ∈ c.vs, Cpm.mk' (compCpm U sp kn) = .ok (compCpm U sp kn)) ∧
      ∀ (cpms : List (Cpm K)) (ve : List (Variable K)),
        cpms.Perm (c.vs.map (compCpm U sp) ++ [sysCpm U c.vs sys C]) →
        ve.Perm (compVariables U c.vs) →
        ∃ P qf qs qu, variableElimR A cpms ve = .ok P ∧ P.vars = [U sys] ∧
          P.getProbR A [U sys] [0] true = .ok qf ∧ P.getProbR A [U sys] [1] true = .ok qs ∧
          P.getProbR A [U sys] [2] true = .ok qu ∧
          R (netRoundings c.vs bs.length) qf
            (probOf c.vs pr fun x => ∃ b ∈ bs, b.label = .f ∧ InBox c.vs b x) ∧
          R (netRoundings c.vs bs.length) qs
            (probOf c.vs pr fun x => ∃ b ∈ bs, b.label = .s ∧ InBox c.vs b x) ∧
          R (netRoundings c.vs bs.length) qu
            (probOf c.vs pr fun x => ∃ b ∈ bs, b.label = .u ∧ InBox c.vs b x) := by
  obtain ⟨-, -, hrun, -⟩ := C102_structure hc hs h
  obtain ⟨bs, hb, hpart, hlab⟩ := hrun h0
  have hl : ∀ l : St, ∃ j, lbl l = some j ∧ j < 3 := fun l => by cases l <;> simp [hf, hsv, hu]
  obtain ⟨C, e1, e2, e3⟩ := csys_events hU hpart hv fun b _ => hl b.label
  obtain ⟨C', e1', -, e4⟩ := csys_rows hU hpart hv fun b _ => hl b.label
  rw [e1] at e1'
  cases e1'
  have hlen : C.length = bs.length := e4.length_eq.symm
  refine ⟨bs, C, hb, e1, ?_, fun kn hkn => ?_, fun cpms ve hperm hve => ?_⟩
  · have hw := sysCpm_WF hU e2
    exact mk'_ok hw.rowLen hw.entry hw.child (.inr hw.pLen) rfl
  · have hw := compCpm_WF hU sp hkn
    exact mk'_ok hw.rowLen hw.entry hw.child (.inr hw.pLen) rfl
  · obtain ⟨P, f1, f2, f3⟩ := net_getProb hR hU hn e2 hperm hve
    rw [hlen] at f3
    obtain ⟨qf, g1, g2⟩ := f3 0 (by norm_num)
    obtain ⟨qs, k1, k2⟩ := f3 1 (by norm_num)
    obtain ⟨qu, m1, m2⟩ := f3 2 (by norm_num)
    have lab : ∀ (l l' : St), lbl l = lbl l' → l = l' := by
      intro l l' hll
      cases l <;> cases l' <;> simp_all
    have conv : ∀ (j : ℕ) (l : St), lbl l = some j →
        probOf c.vs pr (SysState U c.vs C j) =
          probOf c.vs pr fun x => ∃ b ∈ bs, b.label = l ∧ InBox c.vs b x := by
      intro j l hj
      refine probOf_congr hc.vs pr _ _ fun x _ => (e3 j x).trans ?_
      refine exists_congr fun b => and_congr_right fun _ => and_congr_left fun _ => ?_
      exact ⟨fun hb' => lab _ _ (hb'.trans hj.symm), fun hb' => by rw [hb', hj]⟩
    rw [conv 0 .f hf] at g2
    rw [conv 1 .s hsv] at k2
    rw [conv 2 .u hu] at m2
    exact ⟨P, qf, qs, qu, f1, f2, g1, k1, m1, g2, k2, m2⟩

/-- The branches of a run in whatever arithmetic `A1`, turned into an event matrix: the constructor
accepts the CPMs with the stored probabilities, eliminating the components with arithmetic `A` succeeds
in every order, and what `get_prob` answers for the three system states is, up to a number of relative
errors known from the network and the number of branches, the probability of the vectors in branches
labelled accordingly.  So the answers for failure and survival are, up to this, not more than the true
probabilities. -/
theorem C104_probabilities {c : RunCfg K} (hc : SysCfgOK c Φ) (h0 : 0 < c.maxSf) (hA : A.Within F ε 0)
    {pr : K → ℕ → ℚ} (hp : ProbOK c.vs pr) (hn : NearProbs F ε c.vs sp pr) {rules : Rules K}
    {brs : Option (List (Branch K))} (hs : StartOKR c Φ (fun _ => True) rules brs)
    {st : RunState K} (h : runR A1 c rules brs = .ok st) {U : K → Variable K} {sys : K}
    (hU : SysVars U c.vs sys 3) {varis : K → Option (Variable K)}
    (hv : ∀ kn ∈ c.vs, varis kn.1 = some (U kn.1)) {lbl : St → Option ℕ}
    (hf : lbl .f = some 0) (hsv : lbl .s = some 1) (hu : lbl .u = some 2) :
    ∃ bs C, st.brs = some bs ∧ getCsys (c.vs.map Prod.fst) bs varis lbl = .ok (C, varis) ∧
      Cpm.mk' (sysCpm U c.vs sys C) = .ok (sysCpm U c.vs sys C) ∧
      (∀ kn ∈ c.vs, Cpm.mk' (compCpm U sp kn) = .ok (compCpm U sp kn)) ∧
      ∀ (cpms : List (Cpm K)) (ve : List (Variable K)),
        cpms.Perm (c.vs.map (compCpm U sp) ++ [sysCpm U c.vs sys C]) →
        ve.Perm (compVariables U c.vs) →
        ∃ P qf qs qu, variableElimR A cpms ve = .ok P ∧ P.vars = [U sys] ∧
          P.getProbR A [U sys] [0] true = .ok qf ∧ P.getProbR A [U sys] [1] true = .ok qs ∧
          P.getProbR A [U sys] [2] true = .ok qu ∧
          NearP F ε (netRoundings c.vs bs.length) qf
            (probOf c.vs pr fun x => ∃ b ∈ bs, b.label = .f ∧ InBox c.vs b x) ∧
          NearP F ε (netRoundings c.vs bs.length) qs
            (probOf c.vs pr fun x => ∃ b ∈ bs, b.label = .s ∧ InBox c.vs b x) ∧
          NearP F ε (netRoundings c.vs bs.length) qu
            (probOf c.vs pr fun x => ∃ b ∈ bs, b.label = .u ∧ InBox c.vs b x) ∧
          qf ≤ (1 + ε) ^ netRoundings c.vs bs.length * pFail c.vs pr Φ ∧
          qs ≤ (1 + ε) ^ netRoundings c.vs bs.length * (1 - pFail c.vs pr Φ) := by
  obtain ⟨bs, C, e1, e2, e3, e4, e5⟩ := C104_counted hc h0 (counted_near hA) (hn.nearP hp) hs h hU hv hf hsv hu
  have hlab : ∀ b ∈ bs, LabelsOK Φ b := by
    obtain ⟨-, -, hrun, -⟩ := C102_structure hc hs h
    obtain ⟨bs', hb', -, hlab⟩ := hrun h0
    rw [e1] at hb'
    cases hb'
    exact hlab
  refine ⟨bs, C, e1, e2, e3, e4, fun cpms ve hperm hve => ?_⟩
  obtain ⟨P, qf, qs, qu, f1, f2, g1, k1, m1, g2, k2, m2⟩ := e5 cpms ve hperm hve
  have hpos : 0 ≤ (1 + ε) ^ netRoundings c.vs bs.length := by
    linarith [up_ge_one hA.eps (netRoundings c.vs bs.length)]
  refine ⟨P, qf, qs, qu, f1, f2, g1, k1, m1, g2, k2, m2, g2.up.trans ?_, k2.up.trans ?_⟩
  · refine mul_le_mul_of_nonneg_left (probOf_mono hc.vs hp _ _ ?_) hpos
    rintro x - ⟨b, hb', hl', hx⟩
    exact (label_sound hc.coh (hlab b hb') hx).1 hl'
  · refine mul_le_mul_of_nonneg_left ?_ hpos
    rw [← probOf_not hc.vs hp]
    refine probOf_mono hc.vs hp _ _ ?_
    rintro x - ⟨b, hb', hl', hx⟩
    rw [(label_sound hc.coh (hlab b hb') hx).2 hl']
    simp

/-- After a complete run with enough branches, the branches labelled failure are the failures and
those labelled survival the rest. -/
theorem complete_events {c : RunCfg K} (hc : SysCfgOK c Φ) (h0 : 0 < c.maxSf)
    {pr : K → ℕ → ℚ} (hp : ProbOK c.vs pr) {rules : Rules K}
    {brs : Option (List (Branch K))} (hs : StartOKR c Φ (fun _ => True) rules brs)
    (hb : ResumeOK c rules brs) (hm : 2 * (c.vs.map Prod.snd).prod ≤ c.maxNb)
    {st : RunState K} (h : runR A1 c rules brs = .ok st) (hcp : st.outFlag = some .complete)
    {bs : List (Branch K)} (e1 : st.brs = some bs) :
    probOf c.vs pr (fun x => ∃ b ∈ bs, b.label = .f ∧ InBox c.vs b x) = pFail c.vs pr Φ ∧
    probOf c.vs pr (fun x => ∃ b ∈ bs, b.label = .s ∧ InBox c.vs b x) = 1 - pFail c.vs pr Φ ∧
    probOf c.vs pr (fun x => ∃ b ∈ bs, b.label = .u ∧ InBox c.vs b x) = 0 := by
  obtain ⟨-, -, hrun, -⟩ := C102_structure hc hs h
  obtain ⟨bs', hb', hpart, hlab⟩ := hrun h0
  rw [e1] at hb'
  cases hb'
  have heq : ∀ b ∈ bs, b.label = .f ∨ b.label = .s := by
    obtain ⟨st1, h1, rfl⟩ := runR_eq h
    have hf1 : st1.outFlag = some .complete := by
      split at hcp <;> exact hcp
    obtain ⟨hst, bs2, hbs2, hno, heq⟩ := completeR hc (kept_true A1 c.vs c.probs) hs
      (fun ha bs hbs b hm => (hb ha bs hbs b hm).1) h1 hf1
    rw [if_pos hst, hbs2] at e1
    cases e1
    intro b hbm
    have e := heq hm b hbm
    unfold Branch.label
    rw [if_pos e]
    have := hno b hbm
    cases hd : b.downState with
    | s => exact .inr rfl
    | f => exact .inl rfl
    | u => exact absurd hd this.1
  have hF : probOf c.vs pr (fun x => ∃ b ∈ bs, b.label = .f ∧ InBox c.vs b x) = pFail c.vs pr Φ := by
    refine probOf_congr hc.vs pr _ _ fun x hx => ⟨?_, fun hx' => ?_⟩
    · rintro ⟨b, hb', hl', hx⟩
      exact (label_sound hc.coh (hlab b hb') hx).1 hl'
    · obtain ⟨b, hbm, hin⟩ := hpart.exists hx
      rcases heq b hbm with e | e
      · exact ⟨b, hbm, e, hin⟩
      · rw [(label_sound hc.coh (hlab b hbm) hin).2 e] at hx'
        cases hx'
  have hS : probOf c.vs pr (fun x => ∃ b ∈ bs, b.label = .s ∧ InBox c.vs b x) =
      1 - pFail c.vs pr Φ := by
    rw [← probOf_not hc.vs hp]
    refine probOf_congr hc.vs pr _ _ fun x hx => ⟨?_, fun hx' => ?_⟩
    · rintro ⟨b, hb', hl', hx⟩
      rw [(label_sound hc.coh (hlab b hb') hx).2 hl']
      simp
    · obtain ⟨b, hbm, hin⟩ := hpart.exists hx
      rcases heq b hbm with e | e
      · exact absurd ((label_sound hc.coh (hlab b hbm) hin).1 e) hx'
      · exact ⟨b, hbm, e, hin⟩
  have hN : probOf c.vs pr (fun x => ∃ b ∈ bs, b.label = .u ∧ InBox c.vs b x) = 0 := by
    have : probOf c.vs pr (fun x => ∃ b ∈ bs, b.label = .u ∧ InBox c.vs b x) =
        probOf c.vs pr (fun _ => False) := by
      refine probOf_congr hc.vs pr _ _ fun x hx => ⟨?_, fun h => h.elim⟩
      rintro ⟨b, hbm, hl', -⟩
      rcases heq b hbm with e | e <;> rw [e] at hl' <;> cases hl'
    rw [this]
    unfold probOf
    simp [sumOver_zero]
  exact ⟨hF, hS, hN⟩

/-- If the run ended `complete` and had enough branches, the answers are the failure probability and
its complement, up to these relative errors, and the answer for the unknown state is 0.  Missing for the
full claim: runs that report `complete` after a truncated decomposition (`C28_complete_not_exact`). -/
theorem C104_exact_partial {c : RunCfg K} (hc : SysCfgOK c Φ) (h0 : 0 < c.maxSf) (hA : A.Within F ε 0)
    {pr : K → ℕ → ℚ} (hp : ProbOK c.vs pr) (hn : NearProbs F ε c.vs sp pr) {rules : Rules K}
    {brs : Option (List (Branch K))} (hs : StartOKR c Φ (fun _ => True) rules brs)
    (hb : ResumeOK c rules brs) (hm : 2 * (c.vs.map Prod.snd).prod ≤ c.maxNb)
    {st : RunState K} (h : runR A1 c rules brs = .ok st) (hcp : st.outFlag = some .complete)
    {U : K → Variable K} {sys : K}
    (hU : SysVars U c.vs sys 3) {varis : K → Option (Variable K)}
    (hv : ∀ kn ∈ c.vs, varis kn.1 = some (U kn.1)) {lbl : St → Option ℕ}
    (hf : lbl .f = some 0) (hsv : lbl .s = some 1) (hu : lbl .u = some 2) :
    ∃ bs C, st.brs = some bs ∧ getCsys (c.vs.map Prod.fst) bs varis lbl = .ok (C, varis) ∧
      ∀ (cpms : List (Cpm K)) (ve : List (Variable K)),
        cpms.Perm (c.vs.map (compCpm U sp) ++ [sysCpm U c.vs sys C]) →
        ve.Perm (compVariables U c.vs) →
        ∃ P qf qs, variableElimR A cpms ve = .ok P ∧
          P.getProbR A [U sys] [0] true = .ok qf ∧ P.getProbR A [U sys] [1] true = .ok qs ∧
          P.getProbR A [U sys] [2] true = .ok 0 ∧
          NearP F ε (netRoundings c.vs bs.length) qf (pFail c.vs pr Φ) ∧
          NearP F ε (netRoundings c.vs bs.length) qs (1 - pFail c.vs pr Φ) := by
  obtain ⟨bs, C, e1, e2, -, -, e5⟩ := C104_probabilities hc h0 hA hp hn hs h hU hv hf hsv hu
  obtain ⟨hF, hS, hN⟩ := complete_events hc h0 hp hs hb hm h hcp e1
  refine ⟨bs, C, e1, e2, fun cpms ve hperm hve => ?_⟩
  obtain ⟨P, qf, qs, qu, g1, -, g3, g4, g5, g6, g7, g8, -⟩ := e5 cpms ve hperm hve
  rw [hF] at g6
  rw [hS] at g7
  rw [hN] at g8
  have hz : qu = 0 := by
    have h1 := g8.low
    have h2 := g8.up
    rw [mul_zero] at h1 h2
    exact le_antisymm h2 h1
  rw [hz] at g5
  exact ⟨P, qf, qs, g1, g3, g4, g5, g6, g7⟩

/-- In numbers, for double precision without underflow: the interval from the answer for failure to
one minus the answer for survival contains the failure probability up to `N / 2⁵²`, and a complete run
with enough branches gives it with a relative error of at most `N / 2⁵²`, for any `N` from
`netRoundings` to `2⁵²`.  The arithmetic of the run itself does not matter. -/
theorem C104_double_partial {c : RunCfg K} (hc : SysCfgOK c Φ) (h0 : 0 < c.maxSf)
    {pr : K → ℕ → ℚ} (hp : ProbOK c.vs pr)
    (hn : NearProbs (fun _ => True) ((2 : ℚ) ^ (-53 : ℤ)) c.vs sp pr) {rules : Rules K}
    {brs : Option (List (Branch K))} (hs : StartOKR c Φ (fun _ => True) rules brs)
    (hb : ResumeOK c rules brs)
    {st : RunState K} (h : runR A1 c rules brs = .ok st)
    {U : K → Variable K} {sys : K}
    (hU : SysVars U c.vs sys 3) {varis : K → Option (Variable K)}
    (hv : ∀ kn ∈ c.vs, varis kn.1 = some (U kn.1)) {lbl : St → Option ℕ}
    (hf : lbl .f = some 0) (hsv : lbl .s = some 1) (hu : lbl .u = some 2) :
    ∃ bs C, st.brs = some bs ∧ getCsys (c.vs.map Prod.fst) bs varis lbl = .ok (C, varis) ∧
      ∀ N, netRoundings c.vs bs.length ≤ N → N ≤ 2 ^ 52 →
      ∀ (cpms : List (Cpm K)) (ve : List (Variable K)),
        cpms.Perm (c.vs.map (compCpm U sp) ++ [sysCpm U c.vs sys C]) →
        ve.Perm (compVariables U c.vs) →
        ∃ P qf qs, variableElimR (Arith.ofRound float53) cpms ve = .ok P ∧
          P.getProbR (Arith.ofRound float53) [U sys] [0] true = .ok qf ∧
          P.getProbR (Arith.ofRound float53) [U sys] [1] true = .ok qs ∧
          qf - N * (2 : ℚ) ^ (-52 : ℤ) ≤ pFail c.vs pr Φ ∧
          pFail c.vs pr Φ ≤ 1 - qs + N * (2 : ℚ) ^ (-52 : ℤ) ∧
          (2 * (c.vs.map Prod.snd).prod ≤ c.maxNb → st.outFlag = some .complete →
            |qf - pFail c.vs pr Φ| ≤ N * (2 : ℚ) ^ (-52 : ℤ) * pFail c.vs pr Φ ∧
            |qs - (1 - pFail c.vs pr Φ)| ≤ N * (2 : ℚ) ^ (-52 : ℤ) * (1 - pFail c.vs pr Φ)) := by
  have hA := C103_float53.1
  obtain ⟨bs, C, e1, e2, -, -, e5⟩ := C104_probabilities hc h0 hA hp hn hs h hU hv hf hsv hu
  refine ⟨bs, C, e1, e2, fun N hN hN' cpms ve hperm hve => ?_⟩
  obtain ⟨P, qf, qs, qu, g1, -, g3, g4, -, g6, g7, -⟩ := e5 cpms ve hperm hve
  have hlab : ∀ b ∈ bs, LabelsOK Φ b := by
    obtain ⟨-, -, hrun, -⟩ := C102_structure hc hs h
    obtain ⟨bs', hb', -, hlab⟩ := hrun h0
    rw [e1] at hb'
    cases hb'
    exact hlab
  have hT : 0 ≤ (N : ℚ) * (2 : ℚ) ^ (-52 : ℤ) := mul_nonneg (Nat.cast_nonneg _) (two_zpow_pos _).le
  have r1 := C103_relative (g6.mono hA.eps hN) hN'
  have r2 := C103_relative (g7.mono hA.eps hN) hN'
  have m1 : probOf c.vs pr (fun x => ∃ b ∈ bs, b.label = .f ∧ InBox c.vs b x) ≤ pFail c.vs pr Φ := by
    refine probOf_mono hc.vs hp _ _ ?_
    rintro x - ⟨b, hb', hl', hx⟩
    exact (label_sound hc.coh (hlab b hb') hx).1 hl'
  have m2 : probOf c.vs pr (fun x => ∃ b ∈ bs, b.label = .s ∧ InBox c.vs b x) ≤
      1 - pFail c.vs pr Φ := by
    rw [← probOf_not hc.vs hp]
    refine probOf_mono hc.vs hp _ _ ?_
    rintro x - ⟨b, hb', hl', hx⟩
    rw [(label_sound hc.coh (hlab b hb') hx).2 hl']
    simp
  have n0 := probOf_nonneg hc.vs hp (fun x => Φ x = false)
  have n1 : pFail c.vs pr Φ ≤ 1 := by
    have := probOf_nonneg hc.vs hp (fun x => ¬ Φ x = false)
    rw [probOf_not hc.vs hp] at this
    linarith
  refine ⟨P, qf, qs, g1, g3, g4, ?_, ?_, fun hm hcp => ?_⟩
  · have := (abs_le.1 r1).2
    nlinarith [g6.nonneg]
  · have := (abs_le.1 r2).2
    nlinarith [g7.nonneg]
  · obtain ⟨bs', C', f1, f2, f3⟩ := C104_exact_partial hc h0 hA hp hn hs hb hm h hcp hU hv hf hsv hu
    rw [e1] at f1
    cases f1
    rw [e2] at f2
    cases f2
    obtain ⟨P', qf', qs', k1, k2, k3, -, k5, k6⟩ := f3 cpms ve hperm hve
    rw [g1] at k1
    cases k1
    rw [g3] at k2
    cases k2
    rw [g4] at k3
    cases k3
    exact ⟨C103_relative (k5.mono hA.eps hN) hN', C103_relative (k6.mono hA.eps hN) hN'⟩

end

/-- Variables of the series system: components 0 and 1, system 9. -/
def Ex.fserU (k : ℕ) : Variable ℕ :=
  Variable.mk' k (if k = 9 then [0, 1, 2] else [0, 1]) .dflt

theorem Ex.fserU_ok : SysVars Ex.fserU Ex.floatSeries.vs 9 3 :=
  ⟨Ex.floatSeries_ok.vs, by decide +kernel, by decide +kernel, by decide +kernel, by decide +kernel,
    by decide +kernel, by decide +kernel, by decide +kernel⟩

theorem Ex.tenths_near53 : NearProbs (fun _ => True) ((2 : ℚ) ^ (-53 : ℤ)) Ex.floatSeries.vs
    Ex.floatSeries.probs Ex.tenths :=
  fun kn hkn i hi => ⟨trivial, (Ex.tenths_near kn hkn i hi).2⟩

/-- The two system probabilities, computed with `A` from the branches of a run of the series system. -/
def Ex.fserProbs (A : Arith) : Except Err (Option OutFlag × ℚ × ℚ) := do
  let st ← runR A Ex.floatSeries { s := [], f := [] } none
  let r ← getCsys [0, 1] (st.brs.getD []) (some ∘ Ex.fserU) Ex.lbl
  let P ← variableElimR A (Ex.floatSeries.vs.map (compCpm Ex.fserU Ex.floatSeries.probs) ++
    [sysCpm Ex.fserU Ex.floatSeries.vs 9 r.1]) (compVariables Ex.fserU Ex.floatSeries.vs)
  let qf ← P.getProbR A [Ex.fserU 9] [0] true
  let qs ← P.getProbR A [Ex.fserU 9] [1] true
  return (st.outFlag, qf, qs)

/-- With doubles the probabilities of failure and survival taken from a complete run need not add up
to one: for components that fail with probabilities 0.1 and 0.2 they add up to more, and the survival
probability `get_prob` answers exceeds the true one. -/
theorem C104_not_one : ∃ (c : RunCfg ℕ) (Φ : (ℕ → ℕ) → Bool) (pr : ℕ → ℕ → ℚ) (U : ℕ → Variable ℕ)
    (lbl : St → Option ℕ) (st : RunState ℕ) (bs : List (Branch ℕ)) (C : List (List ℕ)) (P : Cpm ℕ)
    (qf qs : ℚ), SysCfgOK c Φ ∧ ProbOK c.vs pr ∧
      NearProbs Grid ((2 : ℚ) ^ (-53 : ℤ)) c.vs c.probs pr ∧ SysVars U c.vs 9 3 ∧
      2 * (c.vs.map Prod.snd).prod ≤ c.maxNb ∧
      runR (Arith.ofRound float64) c { s := [], f := [] } none = .ok st ∧
      st.outFlag = some .complete ∧ st.brs = some bs ∧
      getCsys (c.vs.map Prod.fst) bs (some ∘ U) lbl = .ok (C, some ∘ U) ∧
      variableElimR (Arith.ofRound float64) (c.vs.map (compCpm U c.probs) ++ [sysCpm U c.vs 9 C])
        (compVariables U c.vs) = .ok P ∧
      P.getProbR (Arith.ofRound float64) [U 9] [0] true = .ok qf ∧
      P.getProbR (Arith.ofRound float64) [U 9] [1] true = .ok qs ∧
      1 < qf + qs ∧ 1 - pFail c.vs pr Φ < qs := by
  obtain ⟨st, h⟩ := C102_returns (A := Arith.ofRound float64) Ex.floatSeries_ok rfl
    (Ex.startR_empty _ _)
  obtain ⟨-, -, hrun, -⟩ := C102_structure Ex.floatSeries_ok (Ex.startR_empty _ _) h
  obtain ⟨bs, hb, hpart, -⟩ := hrun (by decide)
  have hl : ∀ l : St, ∃ j, Ex.lbl l = some j ∧ j < 3 := fun l => by cases l <;> simp [Ex.lbl]
  obtain ⟨C, e1, -, -⟩ := csys_events (varis := some ∘ Ex.fserU) Ex.fserU_ok hpart (fun _ _ => rfl)
    fun b _ => hl b.label
  have key : (Ex.fserProbs (Arith.ofRound float64)).toOption.map (fun r =>
      (r.1, decide (1 < r.2.1 + r.2.2 ∧
        1 - pFail Ex.floatSeries.vs Ex.tenths Ex.seriesΦ < r.2.2))) =
      some (some .complete, true) := by decide +kernel
  have e1' : getCsys [0, 1] bs (some ∘ Ex.fserU) Ex.lbl = .ok (C, some ∘ Ex.fserU) := e1
  unfold Ex.fserProbs at key
  rw [h] at key
  simp only [ok_bind, hb, Option.getD_some, e1'] at key
  cases hP : variableElimR (Arith.ofRound float64)
      (Ex.floatSeries.vs.map (compCpm Ex.fserU Ex.floatSeries.probs) ++
        [sysCpm Ex.fserU Ex.floatSeries.vs 9 C]) (compVariables Ex.fserU Ex.floatSeries.vs) with
  | error e => rw [hP] at key; cases key
  | ok P =>
    rw [hP] at key
    simp only [ok_bind] at key
    cases hqf : P.getProbR (Arith.ofRound float64) [Ex.fserU 9] [0] true with
    | error e => rw [hqf] at key; cases key
    | ok qf =>
      rw [hqf] at key
      simp only [ok_bind] at key
      cases hqs : P.getProbR (Arith.ofRound float64) [Ex.fserU 9] [1] true with
      | error e => rw [hqs] at key; cases key
      | ok qs =>
        rw [hqs] at key
        simp only [ok_bind, pure_ok, Except.toOption, Option.map_some, Option.some.injEq,
          Prod.mk.injEq, decide_eq_true_eq] at key
        obtain ⟨k1, k2, k3⟩ := key
        exact ⟨Ex.floatSeries, Ex.seriesΦ, Ex.tenths, Ex.fserU, Ex.lbl, st, bs, C, P, qf, qs,
          Ex.floatSeries_ok, Ex.tenths_ok, Ex.tenths_near, Ex.fserU_ok, by decide, h, k1, hb, e1, hP,
          hqf, hqs, k2, k3⟩

/-- Non-vacuity: `C104_double_partial` applies to the series system, whose run is complete. -/
example : ∃ st bs C, runR (Arith.ofRound float64) Ex.floatSeries { s := [], f := [] } none = .ok st ∧
    st.outFlag = some .complete ∧ st.brs = some bs ∧
    getCsys [0, 1] bs (some ∘ Ex.fserU) Ex.lbl = .ok (C, some ∘ Ex.fserU) ∧ bs.length = 3 ∧
    ∃ P qf qs, variableElimR (Arith.ofRound float53)
        (Ex.floatSeries.vs.map (compCpm Ex.fserU Ex.floatSeries.probs) ++
          [sysCpm Ex.fserU Ex.floatSeries.vs 9 C]) (compVariables Ex.fserU Ex.floatSeries.vs) = .ok P ∧
      P.getProbR (Arith.ofRound float53) [Ex.fserU 9] [0] true = .ok qf ∧
      P.getProbR (Arith.ofRound float53) [Ex.fserU 9] [1] true = .ok qs ∧
      |qf - pFail Ex.floatSeries.vs Ex.tenths Ex.seriesΦ| ≤
        (42 : ℕ) * (2 : ℚ) ^ (-52 : ℤ) * pFail Ex.floatSeries.vs Ex.tenths Ex.seriesΦ := by
  obtain ⟨st, h⟩ := C102_returns (A := Arith.ofRound float64) Ex.floatSeries_ok rfl
    (Ex.startR_empty _ _)
  have hf : (runR (Arith.ofRound float64) Ex.floatSeries { s := [], f := [] } none).toOption.map
      (fun st => (st.outFlag, st.brs.map List.length)) = some (some .complete, some 3) := by
    decide +kernel
  rw [h] at hf
  simp only [Except.toOption, Option.map_some, Option.some.injEq, Prod.mk.injEq] at hf
  obtain ⟨bs, C, e1, e2, e3⟩ := C104_double_partial (varis := some ∘ Ex.fserU) Ex.floatSeries_ok
    (by decide) Ex.tenths_ok Ex.tenths_near53 (Ex.startR_empty _ _) (resume_none _ _) h Ex.fserU_ok
    (fun _ _ => rfl) (lbl := Ex.lbl) rfl rfl rfl
  rw [e1] at hf
  have hlen : bs.length = 3 := by simpa using hf.2
  obtain ⟨P, qf, qs, g1, g2, g3, -, -, g6⟩ := e3 42 (by rw [hlen]; decide) (by norm_num) _ _
    (Perm.refl _) (Perm.refl _)
  exact ⟨st, bs, C, h, hf.1, e1, e2, hlen, P, qf, qs, g1, g2, g3, (g6 (by decide) hf.1).1⟩

example : netRoundings Ex.floatSeries.vs 3 = 42 := by decide

end BNS
