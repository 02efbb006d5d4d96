import Verif.Props.McsProb
import Verif.Examples.Cpm
import Verif.Proofs.CpmEdit

/-!
# C51: the samples written into the CPMs (`mcs_unknown_using_cpms`)
-/

namespace BNS

set_option linter.unusedSectionVars false

variable {K : Type} [DecidableEq K]

/-- Component `v` of a drawn vector. -/
abbrev compOf (names : List K) (v : K) (row : List ℕ) : ℕ := row.getD (names.idxOf v) 0

theorem setColumn_eq {M M' : Cpm K} {states : List ℕ} {q : List ℚ}
    (h : setColumn M states q = .ok M') :
    M' = { M with Cs := states.map fun s => [s], q := q, sampleIdx := List.range states.length } := by
  unfold setColumn at h
  simp only [bind_ok] at h
  obtain ⟨_, _, _, _, h⟩ := h
  cases h
  rfl

/-- Writing the samples of a component is the same as the three assignments to the attributes of its
CPM, with their checks: a state may be as large as the number of values, not larger. -/
theorem C51_column (M : Cpm K) (states : List ℕ) (q : List ℚ) :
    setColumn M states q =
      [.Cs (.vec states), .q q, .sampleIdx (List.range states.length)].foldlM Cpm.assign M ∧
    ((setColumn M states q).toOption.isSome ↔
      (∀ v ∈ M.vars, ∀ s ∈ states, s ≤ v.values.length) ∧
        (q = [] ∨ states = [] ∨ q.length = states.length)) := by
  have hflat : (states.map fun s => [s]).flatten = states := by
    induction states with
    | nil => rfl
    | cons a l ih => rw [List.map_cons, List.flatten_cons, ih]; rfl
  have hc : (states = [] ∨ ∀ v ∈ M.vars, ∀ s ∈ states, s ≤ v.values.length) ↔
      ∀ v ∈ M.vars, ∀ s ∈ states, s ≤ v.values.length :=
    ⟨fun h => h.elim (fun e => by simp [e]) id, .inr⟩
  have hc' : (∀ x ∈ states, ∀ w ∈ M.vars, x ≤ w.values.length) ↔
      ∀ v ∈ M.vars, ∀ s ∈ states, s ≤ v.values.length :=
    ⟨fun h v hv s hs => h s hs v hv, fun h s hs v hv => h v hv s hs⟩
  have hlen : ∀ l : List ℚ, (l = [] ∨ states = [] ∨ l.length = states.length) ↔
      (l = [] ∨ (states.map fun s => [s]).flatten = [] ∨
        l.length = (states.map fun s => [s]).length) := by
    intro l
    rw [hflat, List.length_map]
  unfold setColumn
  by_cases h1 : ∀ v ∈ M.vars, ∀ s ∈ states, s ≤ v.values.length
  · by_cases h2 : q = [] ∨ states = [] ∨ q.length = states.length
    · constructor
      · simp only [List.foldlM_cons, List.foldlM_nil, Cpm.assign, checkArrCs, checkVec, Arr.rows]
        rw [pyAssert_true (hc.2 h1), pyAssert_true (hc'.2 h1), pyAssert_true h2]
        simp only [ok_bind, pure_ok]
        rw [pyAssert_true ((hlen q).1 h2), ok_bind, ok_bind, pyAssert_true]
        · rfl
        · exact .inr (.inr (by simp))
      · rw [pyAssert_true (hc.2 h1), pyAssert_true h2]
        exact ⟨fun _ => ⟨h1, h2⟩, fun _ => rfl⟩
    · constructor
      · simp only [List.foldlM_cons, List.foldlM_nil, Cpm.assign, checkArrCs, checkVec, Arr.rows]
        rw [pyAssert_true (hc.2 h1), pyAssert_true (hc'.2 h1), pyAssert_false h2]
        simp only [ok_bind, pure_ok]
        rw [pyAssert_false (fun h => h2 ((hlen q).2 h))]
        rfl
      · rw [pyAssert_true (hc.2 h1), pyAssert_false h2]
        exact ⟨fun h => (by cases h), fun h => absurd h.2 h2⟩
  · constructor
    · simp only [List.foldlM_cons, List.foldlM_nil, Cpm.assign, checkArrCs, checkVec, Arr.rows]
      rw [pyAssert_false (fun h => h1 (hc.1 h)), pyAssert_false (fun h => h1 (hc'.1 h))]
      rfl
    · rw [pyAssert_false (fun h => h1 (hc.1 h))]
      exact ⟨fun h => (by cases h), fun h => absurd h.1 h1⟩

theorem allocLoop_ok {names : List K} {probs : K → ℕ → ℚ} {samples : List (List ℕ)} {np : ℕ}
    {rest : List K} (hn : rest.Nodup) {cpms cpms' : K → Option (Cpm K)} {cols cols' : List (List ℕ)}
    (h : allocLoop names probs samples np rest cpms cols = .ok (cpms', cols')) :
    cols' = cols ++ rest.map (fun v => samples.map (compOf names v)) ∧
    (∀ v ∈ rest, ∃ M, cpms v = some M ∧ cpms' v = some { M with
      Cs := samples.map fun s => [compOf names v s]
      q := samples.map fun s => probs v (compOf names v s)
      sampleIdx := List.range samples.length }) ∧
    (∀ v, v ∉ rest → cpms' v = cpms v) := by
  induction rest generalizing cpms cols with
  | nil =>
    cases h
    exact ⟨by simp, by simp, fun _ _ => rfl⟩
  | cons v rest ih =>
    obtain ⟨hv, hn'⟩ := List.nodup_cons.1 hn
    unfold allocLoop at h
    split at h
    · cases h
    cases hc : cpms v with
    | none => rw [hc] at h; cases h
    | some M =>
      rw [hc] at h
      simp only [bind_ok] at h
      obtain ⟨M', hM', h⟩ := h
      split at h
      · cases h
      obtain ⟨h1, h2, h3⟩ := ih hn' h
      have hM := setColumn_eq hM'
      refine ⟨?_, ?_, ?_⟩
      · rw [h1, List.map_cons, List.append_assoc]
        rfl
      · intro w hw
        rcases List.mem_cons.1 hw with rfl | hw
        · refine ⟨M, hc, ?_⟩
          rw [h3 _ hv, Function.update_self, hM, List.map_map, List.map_map, List.length_map]
          rfl
        · obtain ⟨N, hN, hN'⟩ := h2 w hw
          have hne : w ≠ v := fun e => hv (e ▸ hw)
          rw [Function.update_of_ne hne] at hN
          exact ⟨N, hN, hN'⟩
      · intro w hw
        rw [h3 w (fun h => hw (List.mem_cons_of_mem _ h)),
          Function.update_of_ne (by rintro rfl; exact hw (by simp))]

theorem csysRows_eq {names : List K} {comps : List K} {samples : List (List ℕ × Bool)} {np : ℕ} :
    csysRows (samples.map fun s => if s.2 then 0 else 1)
      (comps.map fun v => (samples.map Prod.fst).map (compOf names v)) np =
    samples.map fun s => (if s.2 then 0 else 1) :: (comps.map fun v => compOf names v s.1) ++
      List.replicate (np - comps.length) 0 := by
  unfold csysRows
  refine List.ext_getElem (by simp) fun i h1 h2 => ?_
  simp only [List.length_map, List.length_zipIdx] at h1
  simp [h1]

theorem checkCs_len {vs : List (Variable K)} {Cs : List (List ℕ)} (h : checkCs vs Cs = .ok ()) :
    ∀ r ∈ Cs, r ≠ [] → r.length = vs.length := by
  intro r hr hne
  unfold checkCs at h
  split at h
  · rename_i hf
    exact absurd (List.flatten_eq_nil_iff.1 hf r hr) hne
  split at h
  · cases h
  split at h
  · rename_i hc
    simp only [Bool.and_eq_true, List.all_eq_true, decide_eq_true_eq] at hc
    exact hc.1 r hr
  · cases h

/-- Whenever the function returns, its numbers are those of the simulation without CPMs on the same
uniform numbers; every component of the system's CPM has got one row per sample with the state drawn
and its probability; the system's CPM one row per sample with the state of the system (0 failure) and
the states of the components in the order of its variables; samples are numbered alike in all of
them.  Event matrices, probabilities and all other CPMs are as before. -/
theorem C51_cpms {c : McsCfg K} {r : ℕ → ℕ → ℚ} {fuel : ℕ} {cpms cpms' : K → Option (Cpm K)} {sys : K}
    {S : Cpm K} (hS : cpms sys = some S) {comps : List K}
    (hcomps : comps = (S.vars.drop 1).map Variable.name) (hn : comps.Nodup) (hsys : sys ∉ comps)
    (hle : ∀ b ∈ c.brs, ∀ e ∈ c.names, b.down e ≤ b.up e) {pf cov2 : ℚ} {n : ℕ}
    (h : mcsUnknownUsingCpms c r fuel cpms sys = .ok (cpms', pf, cov2, n)) :
    mcsUnknownSimple c r fuel = .ok (pf, cov2, n) ∧
    ∃ samples : List (List ℕ × Bool), samples.length = n ∧
      (∀ s ∈ samples, (∃ b ∈ c.brs, Unspec b ∧ InRow c.names b s.1) ∧
        (s.2 = true ↔ (c.sysFun fun e => s.1.getD (c.names.idxOf e) 0).st = .f)) ∧
      (∀ v ∈ comps, ∃ M, cpms v = some M ∧ cpms' v = some { M with
        Cs := samples.map fun s => [compOf c.names v s.1]
        q := samples.map fun s => c.probs v (compOf c.names v s.1)
        sampleIdx := List.range n }) ∧
      cpms' sys = some { S with
        Cs := samples.map fun s => (if s.2 then 0 else 1) :: comps.map fun v => compOf c.names v s.1
        q := List.replicate n 1
        sampleIdx := List.range n } ∧
      (∀ v, v ∉ comps → v ≠ sys → cpms' v = cpms v) := by
  unfold mcsUnknownUsingCpms at h
  rw [bind_ok] at h
  obtain ⟨st, hst, h⟩ := h
  rw [hS] at h
  simp only [bind_ok] at h
  obtain ⟨out, hout, h⟩ := h
  rw [← hcomps] at hout
  obtain ⟨h1, h2, h3⟩ := allocLoop_ok hn (cpms' := out.1) (cols' := out.2) hout
  rw [h3 sys hsys, hS] at h
  simp only [bind_ok] at h
  obtain ⟨_, hchk, h⟩ := h
  split at h
  · cases h
  rename_i h9
  cases h
  obtain ⟨hi, -, -⟩ := mcsLoop_inv (P := fun row => ∃ b ∈ c.brs, Unspec b ∧ InRow c.names b row)
    (fun i row hrow => drawSample_inside hle hrow) (mcsInv_zero _) hst
  refine ⟨?_, st.samples, hi.len.symm, hi.flag, ?_, ?_, ?_⟩
  · unfold mcsUnknownSimple mcsRun
    rw [hst, ok_bind, if_neg h9]
    rfl
  · intro v hv
    obtain ⟨M, hM, hM'⟩ := h2 v hv
    refine ⟨M, hM, ?_⟩
    rw [Function.update_of_ne (by rintro rfl; exact hsys hv), hM', List.map_map, List.map_map,
      List.length_map, ← hi.len]
    rfl
  · rw [h1, List.nil_append, csysRows_eq] at hchk
    have hpos : 0 < st.samples.length := by rw [← hi.len]; omega
    have hlen : comps.length = S.vars.length - 1 := by rw [hcomps]; simp
    obtain ⟨s0, hs0⟩ := List.exists_mem_of_length_pos hpos
    have hz := checkCs_len hchk _ (List.mem_map.2 ⟨s0, hs0, rfl⟩) (by simp)
    simp only [List.cons_append, List.length_cons, List.length_append, List.length_map,
      List.length_replicate] at hz
    have hnil : c.names.length - comps.length = 0 := by omega
    rw [Function.update_self, h1, List.nil_append, csysRows_eq, hnil]
    simp
  · intro v hv hvs
    rw [Function.update_of_ne hvs, h3 v hv]

/-- Nothing is returned if the system's CPM has a variable that is no component or has no CPM; for the
first of its variables it is a `KeyError`. -/
theorem C51_missing {c : McsCfg K} {r : ℕ → ℕ → ℚ} {fuel : ℕ} {cpms : K → Option (Cpm K)} {sys : K}
    {S : Cpm K} (hS : cpms sys = some S) {st : McsState} (hst : mcsLoop c r fuel {} = .ok st)
    {v0 v : Variable K} {vs : List (Variable K)} (hv : S.vars = v0 :: v :: vs)
    (h : v.name ∉ c.names ∨ cpms v.name = none) :
    mcsUnknownUsingCpms c r fuel cpms sys = .error .key := by
  unfold mcsUnknownUsingCpms
  rw [hst, ok_bind, hS]
  simp only [hv, List.drop_succ_cons, List.drop_zero, List.map_cons, allocLoop]
  by_cases hm : v.name ∉ c.names
  · rw [if_pos hm]
    rfl
  · rw [if_neg hm, h.resolve_left hm]
    rfl

/-! ## Witness -/

namespace Ex

/-- A two-state variable. -/
def bin (k : ℕ) : Variable ℕ := Variable.mk' k [0, 1] .dflt

/-- CPMs of three components (0, 1, 2) and of the system (3). -/
def mcsCpms (k : ℕ) : Option (Cpm ℕ) :=
  if k < 3 then some { vars := [bin k], noChild := 1, C := [[0], [1]], p := [1 / 2, 1 / 2] }
  else if k = 3 then some
    { vars := [bin 3, bin 1, bin 0, bin 2], noChild := 1, C := [[0, 2, 0, 0]], p := [1] }
  else none

/-- the function returns: ten samples in the four CPMs -/
example : ∃ st bs cpms' pf cov2 S, run (mcsNet 1 4) mcsRules none = .ok st ∧ st.brs = some bs ∧
    (∀ b ∈ bs, ∀ e ∈ mcsVs.map Prod.fst, b.down e ≤ b.up e) ∧ mcsCpms 3 = some S ∧
    ((S.vars.drop 1).map Variable.name).Nodup ∧ 3 ∉ (S.vars.drop 1).map Variable.name ∧
    mcsUnknownUsingCpms (mcsOf (mcsNet 1 4) bs (1 / 2)) unif 20 mcsCpms 3 = .ok (cpms', pf, cov2, 10) ∧
    (cpms' 3).map (fun M => M.Cs.length) = some 10 := by
  obtain ⟨st, hst, h⟩ := exists_ok (x := run (mcsNet 1 4) mcsRules none)
    (P := fun st => (∀ b ∈ st.brs.getD [], ∀ e ∈ mcsVs.map Prod.fst, b.down e ≤ b.up e) ∧
      st.brs.isSome = true ∧
      okAnd (mcsUnknownUsingCpms (mcsOf (mcsNet 1 4) (st.brs.getD []) (1 / 2)) unif 20 mcsCpms 3)
        (fun x => x.2.2.2 = 10 ∧ (x.1 3).map (fun M => M.Cs.length) = some 10) = true)
    (by decide +kernel)
  obtain ⟨h1, h2, h3⟩ := h
  obtain ⟨bs, hbs⟩ := Option.isSome_iff_exists.1 h2
  rw [hbs] at h1 h3
  obtain ⟨⟨cpms', pf, cov2, n⟩, hx, hn, hr⟩ := exists_ok h3
  simp only at hn hr
  subst hn
  exact ⟨st, bs, cpms', pf, cov2, _, hst, hbs, h1, rfl, by decide, by decide, hx, hr⟩

/-- the same without the CPM of component 1 -/
example : ∃ st bs st' S, run (mcsNet 1 4) mcsRules none = .ok st ∧ st.brs = some bs ∧
    mcsLoop (mcsOf (mcsNet 1 4) bs (1 / 2)) unif 20 {} = .ok st' ∧
    mcsCpms 3 = some S ∧ S.vars = [bin 3, bin 1, bin 0, bin 2] ∧
    mcsUnknownUsingCpms (mcsOf (mcsNet 1 4) bs (1 / 2)) unif 20 (Function.update mcsCpms 1 none) 3 =
      .error .key := by
  obtain ⟨st, hst, h⟩ := exists_ok (x := run (mcsNet 1 4) mcsRules none)
    (P := fun st => st.brs.isSome = true ∧
      okAnd (mcsLoop (mcsOf (mcsNet 1 4) (st.brs.getD []) (1 / 2)) unif 20 {})
        (fun _ => True) = true)
    (by decide +kernel)
  obtain ⟨h2, h3⟩ := h
  obtain ⟨bs, hbs⟩ := Option.isSome_iff_exists.1 h2
  rw [hbs] at h3
  obtain ⟨st', hx, -⟩ := exists_ok h3
  exact ⟨st, bs, st', _, hst, hbs, hx, rfl, rfl,
    C51_missing (S := (mcsCpms 3).get (by decide)) (v0 := bin 3) (v := bin 1) (vs := [bin 0, bin 2])
      rfl hx rfl (.inr rfl)⟩

end Ex

end BNS
