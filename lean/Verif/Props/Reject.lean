import Verif.Model.Reject
import Verif.Proofs.CpmBasic

/-!
# C69: rejection sampling

The claim of the documentation — samples are added to the CPMs — is false for every input.
-/

namespace BNS

set_option linter.unusedSectionVars false

variable {K : Type} [DecidableEq K]

/-- An iteration never accepts a sample. -/
theorem rejIter_none {c : RejCfg K} {ms : List (K × Cpm K)} {compVars : List (Variable K)}
    {Crej : List (List ℕ)} {draws : List ℕ} {lb : List ℕ × Bool}
    (hlb : rejLoc ms (getSampleOrder (ms.map Prod.snd)) (compVars.map Variable.name) = .ok lb)
    {st st' : RejState} (h : rejIter c (ms.map Prod.snd) (getSampleOrder (ms.map Prod.snd)) compVars
      lb.1 Crej draws st = .ok st') : st' = st := by
  unfold rejLoc at hlb
  unfold rejIter at h
  obtain ⟨⟨s, ps⟩, h1, ha⟩ := bind_ok.1 h
  obtain ⟨comp, h2, hb⟩ := bind_ok.1 ha
  obtain ⟨cpt, h3, hd⟩ := bind_ok.1 hb
  clear h ha hb
  cases hm : (compVars.map Variable.name).mapM fun n =>
      pyIndex ((getSampleOrder (ms.map Prod.snd)).vars.map Variable.name) n with
  | error e =>
    rw [hm] at hlb
    cases hlb
    exfalso
    have hne : compVars ≠ [] := by
      rintro rfl
      simp at hm
      cases hm
    simp only [List.mapM_nil, pure_ok, Except.ok.injEq] at h2
    subst h2
    unfold isCompatible at h3
    obtain ⟨cv, -, h3⟩ := bind_ok.1 h3
    obtain ⟨cs, h4, -⟩ := bind_ok.1 h3
    unfold getValueGivenCondn at h4
    split at h4
    · rename_i hl
      obtain ⟨v, l, rfl⟩ := List.exists_cons_of_ne_nil hne
      simp [ismemberOn, List.filter_cons] at hl
    · cases h4
  | ok loc =>
    rw [hm] at hlb
    simp only at hlb
    split at hlb
    · rename_i hms
      cases hlb
      subst hms
      have hso : (getSampleOrder (([] : List (K × Cpm K)).map Prod.snd)).vars = [] := rfl
      have hss : singleSample (([] : List (K × Cpm K)).map Prod.snd) (getSampleOrder
          (([] : List (K × Cpm K)).map Prod.snd)) draws = .ok ([], []) := rfl
      rw [hss] at h1
      cases h1
      split at hd
      · rw [if_pos (by rw [hso]; simp)] at hd
        cases hd
      · cases hd
        rfl
    · cases hlb

theorem rejLoop_none {c : RejCfg K} {ms : List (K × Cpm K)} {compVars : List (Variable K)}
    {Crej : List (List ℕ)} {draws : ℕ → List ℕ} {lb : List ℕ × Bool}
    (hlb : rejLoc ms (getSampleOrder (ms.map Prod.snd)) (compVars.map Variable.name) = .ok lb)
    {fuel t : ℕ} {st st' : RejState} (h : rejLoop c (ms.map Prod.snd)
      (getSampleOrder (ms.map Prod.snd)) compVars lb.1 Crej draws fuel t st = .ok st') :
    st' = st ∧ rejGoOn c.target st = false := by
  induction fuel generalizing t with
  | zero =>
    unfold rejLoop at h
    split at h
    · cases h
    · cases h
      exact ⟨rfl, eq_false_of_ne_true ‹_›⟩
  | succ n ih =>
    unfold rejLoop at h
    split at h
    · obtain ⟨st1, h1, h⟩ := bind_ok.1 h
      rw [rejIter_none hlb h1] at h
      exact ih h
    · cases h
      exact ⟨rfl, eq_false_of_ne_true ‹_›⟩

/-- `rejection_sampling_sys` never draws a sample: whatever the CPMs, the system function, the target
and the random outcomes, it raises an exception or does not end, unless the target is a number of
samples that is not positive.  In that case, and then only if no CPM defines a component of the
system, it returns the CPMs as they were (old samples of the system's CPM removed), a failure
probability of zero and no samples. -/
theorem C69_not_samples (c : RejCfg K) (cpms : List (K × Cpm K)) (sys : K) (draws : ℕ → List ℕ)
    (fuel : ℕ) {cpms' : List (K × Cpm K)} {pf cov2 : ℚ} {n : ℕ} {vals : List ℕ}
    (h : rejectionSamplingSys c cpms sys draws fuel = .ok (cpms', pf, cov2, n, vals)) :
    (∃ k, c.target = .inl k ∧ k ≤ 0) ∧ n = 0 ∧ vals = [] ∧ pf = 0 ∧
      (∀ S, cpms.lookup sys = some S → ∀ km ∈ cpms, km.1 ≠ sys →
        ∀ v ∈ km.2.vars.take km.2.noChild, v.name ∉ S.vars.map Variable.name) ∧
      cpms'.map (fun km => (km.1, km.2.vars, km.2.noChild, km.2.C, km.2.p)) =
        cpms.map fun km => if km.1 = sys then (sys, ((cpms.lookup sys).map fun S =>
          (S.vars, S.noChild, S.C, S.p)).getD ([], 0, [], [])) else
          (km.1, km.2.vars, km.2.noChild, km.2.C, km.2.p) := by
  unfold rejectionSamplingSys at h
  cases hS : cpms.lookup sys with
  | none => rw [hS] at h; cases h
  | some S =>
    rw [hS] at h
    simp only at h
    obtain ⟨lb, hlb, h⟩ := bind_ok.1 h
    obtain ⟨st, hst, h⟩ := bind_ok.1 h
    obtain ⟨rfl, hg⟩ := rejLoop_none hlb hst
    split at h
    · cases h
    rename_i hms
    obtain ⟨M2, hM, h⟩ := bind_ok.1 h
    have := mk'_eq hM
    subst this
    simp only [pure_ok, Except.ok.injEq, Prod.mk.injEq] at h
    obtain ⟨rfl, rfl, rfl, rfl, rfl⟩ := h
    refine ⟨?_, rfl, rfl, rfl, ?_, ?_⟩
    · unfold rejGoOn at hg
      cases ht : c.target with
      | inl k =>
        rw [ht] at hg
        exact ⟨k, rfl, by simpa using hg⟩
      | inr t =>
        rw [ht] at hg
        simp at hg
    · intro S' hS' km hkm hne v hv hmem
      cases hS'
      push Not at hms
      have : km ∈ cpmsNoSys cpms sys S := by
        unfold cpmsNoSys
        rw [List.mem_filter]
        exact ⟨hkm, by simpa using ⟨hne, v, hv, by simpa using hmem⟩⟩
      rw [hms] at this
      cases this
    · rw [List.map_map]
      refine List.map_congr_left fun km _ => ?_
      simp only [Function.comp, Option.map_some, Option.getD_some]
      split <;> rfl

/-- For a positive number of samples, and for every target coefficient of variation, nothing is
returned. -/
theorem C69_not_returns (c : RejCfg K) (cpms : List (K × Cpm K)) (sys : K) (draws : ℕ → List ℕ)
    (fuel : ℕ) (ht : ∀ k, c.target = .inl k → 0 < k) :
    ∃ e, rejectionSamplingSys c cpms sys draws fuel = .error e := by
  cases h : rejectionSamplingSys c cpms sys draws fuel with
  | error e => exact ⟨e, rfl⟩
  | ok x =>
    obtain ⟨cpms', pf, cov2, n, vals⟩ := x
    obtain ⟨⟨k, hk, h0⟩, -⟩ := C69_not_samples c cpms sys draws fuel h
    have := ht k hk
    omega

/-- If the components of the system can be sampled — every one is a child of some CPM, listed in an
order in which parents come first — the exception is the missing function `get_var_ind`. -/
theorem C69_not_found (c : RejCfg K) (cpms : List (K × Cpm K)) (sys : K) (draws : ℕ → List ℕ)
    (fuel : ℕ) {S : Cpm K} (hS : cpms.lookup sys = some S)
    (hall : ∀ v ∈ S.vars.drop S.noChild,
      v.name ∈ (getSampleOrder ((cpmsNoSys cpms sys S).map Prod.snd)).vars.map Variable.name)
    (hne : S.vars.drop S.noChild ≠ []) :
    rejectionSamplingSys c cpms sys draws fuel = .error .unbound := by
  have hms : cpmsNoSys cpms sys S ≠ [] := by
    intro h
    obtain ⟨v, l, hv⟩ := List.exists_cons_of_ne_nil hne
    have := hall v (by rw [hv]; simp)
    rw [h] at this
    simp [getSampleOrder] at this
  have hloc : rejLoc (cpmsNoSys cpms sys S) (getSampleOrder ((cpmsNoSys cpms sys S).map Prod.snd))
      ((S.vars.drop S.noChild).map Variable.name) = .error .unbound := by
    unfold rejLoc
    have : ∃ loc, ((S.vars.drop S.noChild).map Variable.name).mapM (fun n => pyIndex
        ((getSampleOrder ((cpmsNoSys cpms sys S).map Prod.snd)).vars.map Variable.name) n) =
        .ok loc := by
      refine ⟨_, mapM_ok (g := fun n => ((getSampleOrder ((cpmsNoSys cpms sys S).map
        Prod.snd)).vars.map Variable.name).idxOf n) fun n hn => ?_⟩
      obtain ⟨v, hv, rfl⟩ := List.mem_map.1 hn
      unfold pyIndex
      rw [idxOf?_eq, if_pos (hall v hv)]
    obtain ⟨loc, hl⟩ := this
    rw [hl]
    simp only [if_neg hms]
  unfold rejectionSamplingSys
  rw [hS]
  simp only
  rw [hloc]
  rfl

/-- The sample drawn from `d` gives the components `comp`, and `mask` says which rows of `Crej` are
compatible with them. -/
def DrawnAs (ms : List (Cpm K)) (so : SampleOrder K) (compVars : List (Variable K)) (loc : List ℕ)
    (Crej : List (List ℕ)) (d : List ℕ) (sp : List ℕ × List ℚ) (comp : List ℕ) (mask : List Bool) :
    Prop :=
  singleSample ms so d = .ok sp ∧ (loc.mapM fun j => pyGet sp.1 j) = .ok comp ∧
  isCompatible Crej compVars ((compVars.map Variable.name).flatMap fun y =>
    compVars.filter fun v => v.name = y) comp = .ok mask

/-- After `T` draws the accepted samples, in the order of the draws, are `xs` (the sample and its
probabilities, the value and the state of the system): those no row of `Crej` is compatible with. -/
def AcceptedFrom (c : RejCfg K) (ms : List (Cpm K)) (so : SampleOrder K)
    (compVars : List (Variable K)) (loc : List ℕ) (Crej : List (List ℕ)) (draws : ℕ → List ℕ) (T : ℕ)
    (xs : List ((List ℕ × List ℚ) × (ℕ × ℕ))) : Prop :=
  ∃ ts : List ℕ, ts.Pairwise (· < ·) ∧ (∀ t ∈ ts, t < T) ∧
    List.Forall₂ (fun t x => ∃ comp mask, DrawnAs ms so compVars loc Crej (draws t) x.1 comp mask ∧
      (∀ b ∈ mask, b = false) ∧
      x.2 = c.sysFun fun k => comp.getD ((compVars.map Variable.name).idxOf k) 0) ts xs ∧
    ∀ t < T, t ∉ ts → ∃ sp comp mask, DrawnAs ms so compVars loc Crej (draws t) sp comp mask ∧
      true ∈ mask

/-- What the loop keeps: one value, state and row of probabilities for every accepted sample, which no
row of `Crej` is compatible with; and the estimate, from the tenth sample on. -/
structure RejInv (c : RejCfg K) (ms : List (Cpm K)) (so : SampleOrder K) (compVars : List (Variable K))
    (loc : List ℕ) (Crej : List (List ℕ)) (draws : ℕ → List ℕ) (T : ℕ)
    (st : RejState) : Prop where
  samples : st.samples.length = st.nsamp
  vals : st.vals.length = st.nsamp
  states : st.sysSt.length = st.nsamp
  probs : st.probs.length = st.nsamp
  each : AcceptedFrom c ms so compVars loc Crej draws T
    ((st.samples.zip st.probs).zip (st.vals.zip st.sysSt))
  count : ∀ n, c.target = .inl n → st.nsamp ≤ n.toNat ∧ st.pf = 0 ∧ st.cov2 = 1
  fails : ∀ t, c.target = .inr t → st.nfail = st.vals.countP fun v => some v = c.monitor
  few : ∀ t, c.target = .inr t → st.nsamp ≤ 9 → st.pf = 0 ∧ st.cov2 = 1
  estimate : ∀ t, c.target = .inr t → 10 ≤ st.nsamp →
    st.pf = c.sysStProb + (1 - c.knownProb) * ((1 / 100 + st.nfail) / (1 / 50 + st.nsamp)) ∧
    st.cov2 = (1 - c.knownProb) ^ 2 * ((1 / 100 + st.nfail) * (1 / 100 + (st.nsamp - st.nfail)) /
      (1 / 50 + st.nsamp) ^ 2 / (51 / 50 + st.nsamp)) / st.pf ^ 2

theorem rejAccept_inv {c : RejCfg K} {ms : List (Cpm K)} {so : SampleOrder K}
    {compVars : List (Variable K)} {loc : List ℕ} {Crej : List (List ℕ)} {draws : ℕ → List ℕ} {t : ℕ}
    {st : RejState} {s : List ℕ} {ps : List ℚ} {comp : List ℕ} {mask : List Bool}
    (hi : RejInv c ms so compVars loc Crej draws t st) (hg : rejGoOn c.target st = true)
    (h1 : singleSample ms so (draws t) = .ok (s, ps)) (h2 : (loc.mapM fun j => pyGet s j) = .ok comp)
    (h3 : isCompatible Crej compVars ((compVars.map Variable.name).flatMap fun y =>
      compVars.filter fun v => v.name = y) comp = .ok mask) (h4 : ∀ b ∈ mask, b = false) :
    RejInv c ms so compVars loc Crej draws (t + 1) (rejAccept c s ps
      (c.sysFun fun k => comp.getD ((compVars.map Variable.name).idxOf k) 0) st) := by
  obtain ⟨v, hv⟩ : ∃ v, v = c.sysFun fun k => comp.getD ((compVars.map Variable.name).idxOf k) 0 :=
    ⟨_, rfl⟩
  rw [← hv]
  have hz : AcceptedFrom c ms so compVars loc Crej draws (t + 1)
      (((st.samples ++ [s]).zip (st.probs ++ [ps])).zip
        ((st.vals ++ [v.1]).zip (st.sysSt ++ [v.2]))) := by
    rw [List.zip_append (hi.samples.trans hi.probs.symm), List.zip_append (hi.vals.trans hi.states.symm),
      List.zip_append (by simp [hi.samples, hi.probs, hi.vals, hi.states])]
    obtain ⟨ts, a1, a2, a3, a4⟩ := hi.each
    refine ⟨ts ++ [t], ?_, ?_, ?_, ?_⟩
    · refine List.pairwise_append.2 ⟨a1, by simp, fun x hx y hy => ?_⟩
      rw [List.mem_singleton.1 hy]
      exact a2 x hx
    · intro x hx
      rcases List.mem_append.1 hx with hx | hx
      · exact (a2 x hx).trans (Nat.lt_succ_self t)
      · rw [List.mem_singleton.1 hx]
        exact Nat.lt_succ_self t
    · refine List.rel_append a3 ?_
      simp only [List.zip_cons_cons, List.zip_nil_right]
      exact .cons ⟨comp, mask, ⟨h1, h2, h3⟩, h4, hv⟩ .nil
    · intro x hx hx'
      rw [List.mem_append, not_or, List.mem_singleton] at hx'
      exact a4 x (by omega) hx'.1
  rcases ht : c.target with n | r
  · have e : rejAccept c s ps v st =
        { st with nsamp := st.nsamp + 1, samples := st.samples ++ [s], sysSt := st.sysSt ++ [v.2]
                  probs := st.probs ++ [ps], vals := st.vals ++ [v.1] } := by
      simp [rejAccept, ht]
    rw [e]
    refine ⟨by simp [hi.samples], by simp [hi.vals], by simp [hi.states], by simp [hi.probs], hz, ?_,
      by simp [ht], by simp [ht], by simp [ht]⟩
    intro m hm
    rw [hm] at hg
    have hg : (st.nsamp : ℤ) < m := by simpa [rejGoOn] using hg
    exact ⟨by simp only; omega, (hi.count m hm).2⟩
  · have hf := hi.fails r ht
    have e1 : (rejAccept c s ps v st).nfail =
        (st.vals ++ [v.1]).countP fun x => some x = c.monitor := by
      rw [List.countP_append, ← hf]
      by_cases hm : some v.1 = c.monitor <;> by_cases hn : 9 < st.nsamp + 1 <;>
        simp [rejAccept, ht, hm, hn]
    have e2 : (rejAccept c s ps v st).nsamp = st.nsamp + 1 := by
      by_cases hn : 9 < st.nsamp + 1 <;> simp [rejAccept, ht, hn]
    have e3 : (rejAccept c s ps v st).samples = st.samples ++ [s] := by
      by_cases hn : 9 < st.nsamp + 1 <;> simp [rejAccept, ht, hn]
    have e4 : (rejAccept c s ps v st).vals = st.vals ++ [v.1] := by
      by_cases hn : 9 < st.nsamp + 1 <;> simp [rejAccept, ht, hn]
    have e5 : (rejAccept c s ps v st).sysSt = st.sysSt ++ [v.2] := by
      by_cases hn : 9 < st.nsamp + 1 <;> simp [rejAccept, ht, hn]
    have e6 : (rejAccept c s ps v st).probs = st.probs ++ [ps] := by
      by_cases hn : 9 < st.nsamp + 1 <;> simp [rejAccept, ht, hn]
    refine ⟨by simp [e2, e3, hi.samples], by simp [e2, e4, hi.vals], by simp [e2, e5, hi.states],
      by simp [e2, e6, hi.probs], by rw [e3, e4, e5, e6]; exact hz, by simp [ht], ?_, ?_, ?_⟩
    · intro _ _
      rw [e1, e4]
    · intro _ _ hn
      rw [e2] at hn
      have := hi.few r ht (by omega)
      simpa [rejAccept, ht, show ¬ 9 < st.nsamp + 1 by omega] using this
    · intro _ _ hn
      rw [e2] at hn
      obtain ⟨k, hk⟩ : ∃ k, k = (rejAccept c s ps v st).nfail := ⟨_, rfl⟩
      have hk' : k = if some v.1 = c.monitor then st.nfail + 1 else st.nfail := by
        rw [hk]
        simp [rejAccept, ht, show 9 < st.nsamp + 1 by omega]
      have hp : (rejAccept c s ps v st).pf = c.sysStProb + (1 - c.knownProb) *
          ((1 / 100 + (k : ℚ)) / (1 / 100 + k + (1 / 100 + (((st.nsamp + 1 : ℕ) : ℚ) - k)))) := by
        rw [hk']
        simp [rejAccept, ht, show 9 < st.nsamp + 1 by omega]
      have hc : (rejAccept c s ps v st).cov2 = (1 - c.knownProb) ^ 2 * ((1 / 100 + (k : ℚ)) *
          (1 / 100 + (((st.nsamp + 1 : ℕ) : ℚ) - k)) /
          (1 / 100 + k + (1 / 100 + (((st.nsamp + 1 : ℕ) : ℚ) - k))) ^ 2 /
          (1 / 100 + k + (1 / 100 + (((st.nsamp + 1 : ℕ) : ℚ) - k)) + 1)) /
          (rejAccept c s ps v st).pf ^ 2 := by
        rw [hp, hk']
        simp [rejAccept, ht, show 9 < st.nsamp + 1 by omega]
      have hs : (1 / 100 + (k : ℚ) + (1 / 100 + (((st.nsamp + 1 : ℕ) : ℚ) - k))) =
          1 / 50 + ((st.nsamp + 1 : ℕ) : ℚ) := by ring
      rw [hs] at hp hc
      rw [show (1 / 50 + ((st.nsamp + 1 : ℕ) : ℚ) + 1) = 51 / 50 + ((st.nsamp + 1 : ℕ) : ℚ) by ring]
        at hc
      rw [← hk, e2]
      exact ⟨hp, hc⟩

theorem rejIter_inv {c : RejCfg K} {ms : List (Cpm K)} {so : SampleOrder K}
    {compVars : List (Variable K)} {loc : List ℕ} {Crej : List (List ℕ)} {draws : ℕ → List ℕ} {t : ℕ}
    {st st' : RejState} (hi : RejInv c ms so compVars loc Crej draws t st)
    (hg : rejGoOn c.target st = true)
    (h : rejIter c ms so compVars loc Crej (draws t) st = .ok st') :
    RejInv c ms so compVars loc Crej draws (t + 1) st' := by
  unfold rejIter at h
  obtain ⟨⟨s, ps⟩, h1, h⟩ := bind_ok.1 h
  obtain ⟨comp, h2, h⟩ := bind_ok.1 h
  obtain ⟨mask, h3, h⟩ := bind_ok.1 h
  by_cases hmask : (mask.all fun b => !b) = true
  swap
  · rw [if_neg hmask] at h
    cases h
    obtain ⟨ts, a1, a2, a3, a4⟩ := hi.each
    refine { hi with each := ⟨ts, a1, fun x hx => (a2 x hx).trans (Nat.lt_succ_self t), a3, ?_⟩ }
    intro x hx hx'
    rcases Nat.lt_succ_iff_lt_or_eq.1 hx with hx | rfl
    · exact a4 x hx hx'
    · exact ⟨(s, ps), comp, mask, ⟨h1, h2, h3⟩, by simpa using hmask⟩
  rw [if_pos hmask] at h
  by_cases hlen : (if ps = [] then 1 else ps.length) ≠ so.vars.length
  · rw [if_pos hlen] at h
    cases h
  rw [if_neg hlen] at h
  cases h
  exact rejAccept_inv hi hg h1 h2 h3 (by simpa using hmask)

/-- **The loop of `rejection_sampling_sys`** (operation.py:320-367), were it ever reached: when it ends,
the accepted samples are those of the draws, in their order, that agree with no row of the known
instances, each with the value and state the system function gives.  With a number of samples as target, exactly that many were accepted.  With a coefficient of
variation as target, at least ten were accepted; the estimate is the known probability plus the unknown
mass times the mean of the Beta distribution with prior 0.01, and its coefficient of variation (here
squared) does not exceed the target. -/
theorem C69_loop_partial {c : RejCfg K} {ms : List (Cpm K)} {so : SampleOrder K}
    {compVars : List (Variable K)} {loc : List ℕ} {Crej : List (List ℕ)} {draws : ℕ → List ℕ}
    {fuel : ℕ} {st : RejState} (h : rejLoop c ms so compVars loc Crej draws fuel 0 {} = .ok st) :
    st.samples.length = st.nsamp ∧ st.vals.length = st.nsamp ∧ st.sysSt.length = st.nsamp ∧
    st.probs.length = st.nsamp ∧
    (∃ T, AcceptedFrom c ms so compVars loc Crej draws T
      ((st.samples.zip st.probs).zip (st.vals.zip st.sysSt))) ∧
    (∀ n, c.target = .inl n → st.nsamp = n.toNat ∧ st.pf = 0 ∧ st.cov2 = 1) ∧
    ∀ t, c.target = .inr t → 10 ≤ st.nsamp ∧ 0 ≤ t ∧ st.cov2 ≤ t ^ 2 ∧
      st.pf = c.sysStProb + (1 - c.knownProb) *
        ((1 / 100 + st.vals.countP fun v => some v = c.monitor) / (1 / 50 + st.nsamp)) ∧
      st.cov2 = (1 - c.knownProb) ^ 2 * ((1 / 100 + st.vals.countP fun v => some v = c.monitor) *
        (1 / 100 + (st.nsamp - st.vals.countP fun v => some v = c.monitor)) /
        (1 / 50 + st.nsamp) ^ 2 / (51 / 50 + st.nsamp)) / st.pf ^ 2 := by
  have key : ∀ (fuel t : ℕ) (st0 : RejState), RejInv c ms so compVars loc Crej draws t st0 →
      rejLoop c ms so compVars loc Crej draws fuel t st0 = .ok st →
      (∃ T, RejInv c ms so compVars loc Crej draws T st) ∧ rejGoOn c.target st = false := by
    intro fuel
    induction fuel with
    | zero =>
      intro t st0 hi h
      unfold rejLoop at h
      split at h
      · cases h
      · cases h
        exact ⟨⟨t, hi⟩, eq_false_of_ne_true ‹_›⟩
    | succ n ih =>
      intro t st0 hi h
      unfold rejLoop at h
      split at h
      · next hg =>
        obtain ⟨st1, h1, h⟩ := bind_ok.1 h
        exact ih _ _ (rejIter_inv hi hg h1) h
      · cases h
        exact ⟨⟨t, hi⟩, eq_false_of_ne_true ‹_›⟩
  obtain ⟨⟨T, hi⟩, hg⟩ := key fuel 0 {}
    ⟨rfl, rfl, rfl, rfl, ⟨[], by simp, by simp, .nil, by simp⟩, by simp, by simp, by simp, by simp⟩ h
  refine ⟨hi.samples, hi.vals, hi.states, hi.probs, ⟨T, hi.each⟩, fun n hn => ?_, fun t ht => ?_⟩
  · obtain ⟨e1, e2, e3⟩ := hi.count n hn
    rw [hn] at hg
    have hg : ¬ (st.nsamp : ℤ) < n := by simpa [rejGoOn] using hg
    exact ⟨by omega, e2, e3⟩
  · rw [ht] at hg
    have hg : ¬ (st.nsamp ≤ 9 ∨ t < 0 ∨ t ^ 2 < st.cov2) := by
      simpa [rejGoOn] using hg
    rw [not_or, not_or, not_le, not_lt, not_lt] at hg
    obtain ⟨e1, e2⟩ := hi.estimate t ht hg.1
    rw [hi.fails t ht] at e1 e2
    exact ⟨hg.1, hg.2.1, hg.2.2, e1, e2⟩

/-! ## Witnesses for C69 -/

namespace Ex

def rejV (k : ℕ) : Variable ℕ := { name := k, values := [0, 1], B := some (genB 2) }

def rejComp (k : ℕ) : Cpm ℕ := { vars := [rejV k], noChild := 1, C := [[0], [1]], p := [1 / 4, 3 / 4] }

/-- A component that depends on variable 9, as in the (skipped) test of the repository. -/
def rejHaz (k : ℕ) : Cpm ℕ :=
  { vars := [rejV k, rejV 9], noChild := 1, C := [[0, 0], [1, 0], [0, 1], [1, 1]]
    p := [1 / 10, 9 / 10, 1 / 5, 4 / 5] }

def rejSys : Cpm ℕ :=
  { vars := [rejV 7, rejV 0, rejV 1], noChild := 1, C := [[0, 0, 0], [1, 1, 1]], p := [1, 1] }

def rejCfg (t : ℤ ⊕ ℚ) : RejCfg ℕ :=
  { sysFun := fun x => (x 0, x 0), target := t, monitor := some 0 }

/-- independent components: the missing function -/
example : rejectionSamplingSys (rejCfg (.inr (1 / 20))) [(0, rejComp 0), (1, rejComp 1), (7, rejSys)] 7
    (fun _ => [0, 1]) 50 = .error .unbound :=
  C69_not_found _ _ _ _ _ (S := rejSys) (by decide +kernel) (by decide +kernel) (by decide +kernel)

/-- components with a common cause (the network of the repository's skipped test): they are not
sampled, and an assertion fails -/
example : rejectionSamplingSys (rejCfg (.inr (1 / 20)))
    [(9, rejComp 9), (0, rejHaz 0), (1, rejHaz 1), (7, rejSys)] 7 (fun _ => [0, 1]) 50 =
    .error .assertion := by decide +kernel

/-- the case in which it returns -/
example : rejectionSamplingSys (rejCfg (.inl 0)) [(7, rejSys)] 7 (fun _ => []) 50 =
    .ok ([(7, rejSys)], 0, 1, 0, []) := by decide +kernel

/-- The loop on two independent components: the second draw agrees with a known row and is rejected. -/
def rejRun (t : ℤ ⊕ ℚ) (draws : ℕ → List ℕ) (fuel : ℕ) : Except Err RejState :=
  rejLoop { rejCfg t with knownProb := 3 / 4, sysStProb := 1 / 16 } [rejComp 0, rejComp 1]
    (getSampleOrder [rejComp 0, rejComp 1]) [rejV 0, rejV 1] [0, 1] [[0, 0], [1, 1]] draws fuel 0 {}

example : (rejRun (.inl 2) (fun t => if t = 1 then [0, 0] else [t % 2, 1 - t % 2]) 20).map
    (fun st => (st.nsamp, st.samples, st.vals)) = .ok (2, [[0, 1], [0, 1]], [0, 0]) := by
  decide +kernel

example : (rejRun (.inr (1 / 2)) (fun t => if t = 1 then [0, 0] else [t % 2, 1 - t % 2]) 20).map
    (fun st => (st.nsamp, st.vals.countP (· = 0), st.pf)) =
    .ok (10, 6, 1 / 16 + (1 / 4) * (601 / 1002)) := by
  decide +kernel

end Ex

end BNS
