import Verif.Spec.Estimate
import Verif.Model.Estimate
import Verif.Proofs.Samples
import Mathlib.Algebra.Order.BigOperators.Group.List
import Mathlib.Tactic.Positivity
import Mathlib.Tactic.FieldSimp
import Mathlib.Tactic.Ring

/-! The estimators on well-formed samples. -/

namespace BNS

set_option linter.unusedSectionVars false

section
variable {K : Type} [DecidableEq K] {U : K → Variable K} {M : Cpm K} {cv : List (Variable K)}
  {cs : List ℕ} {flag : Bool}

theorem mem_rowRange {i n j : ℕ} : j ∈ rowRange i n ↔ i * n ≤ j ∧ j < (i + 1) * n := by
  unfold rowRange
  simp only [List.mem_map, List.mem_range]
  constructor
  · rintro ⟨a, ha, rfl⟩
    constructor
    · omega
    · rw [Nat.add_mul]; omega
  · rintro ⟨h1, h2⟩
    rw [Nat.add_mul] at h2
    exact ⟨j - i * n, by omega, by omega⟩

theorem rowRange_length (i n : ℕ) : (rowRange i n).length = n := by simp [rowRange]

theorem sum_rounds (f : ℕ → ℚ) (r n : ℕ) :
    ((List.range r).map fun i => ((rowRange i n).map f).sum).sum =
      ((List.range (r * n)).map f).sum := by
  induction r with
  | zero => simp
  | succ r ih =>
    rw [List.range_succ, List.map_append, List.sum_append, ih, Nat.add_mul, Nat.one_mul,
      List.range_add, List.map_append, List.sum_append]
    simp [rowRange]

/-- the compatibility test on samples -/
theorem sample_mask (h : WF U (noSamples M)) (he : EvidenceOK U M.getNames cv cs)
    (hn : (cv.map Variable.name).Nodup) {rows : List (List ℕ)}
    (hl : ∀ c ∈ rows, c.length = M.vars.length)
    (hb : ∀ c ∈ rows, ∀ vs ∈ M.vars.zip c, vs.2 < vs.1.values.length) :
    isCompatible rows M.vars cv cs = .ok (rows.map fun c =>
      decide (Consistent (M.vars.map Variable.name) cv cs (sampleState M.vars c))) := by
  let X : Cpm K := { vars := M.vars, noChild := 0, C := rows, p := List.replicate rows.length 0 }
  have hX : WF U X := ⟨h.env, h.table, h.nodup, hl, fun r hr vs hvs => basic_lt (hb r hr vs hvs),
    by simp [X], by simp [X], ⟨rfl, rfl, rfl, rfl⟩⟩
  have := isCompatible_ok hX (cv := cv) (cs := cs) he
  refine this.trans (congrArg _ (List.map_congr_left fun c hc => ?_))
  rw [Bool.eq_iff_iff, decide_eq_true_iff]
  refine (compatRow_iff hX he hn (r := c) hc).trans ?_
  have hm : ∀ x, RowMatches M.vars c x ↔ ∀ v ∈ M.vars, x v.name = sampleState M.vars c v.name := by
    intro x
    rw [rowMatches_iff (vs := M.vars) h.nodup (hl c hc)]
    refine forall_congr' fun v => imp_congr_right fun hv => ?_
    have hlt := (zip_forall_iff (vs := M.vars) h.nodup (hl c hc) (fun v s => s < v.values.length)).1 (hb c hc) v hv
    rw [stateSet_basic (h.table v hv) hlt, Finset.mem_singleton]
    rfl
  constructor
  · rintro ⟨x, h1, h2⟩ p hp hin
    obtain ⟨v, hv, hvn⟩ := List.mem_map.1 hin
    have := (hm x).1 h2 v hv
    rw [hvn] at this
    rw [← this]
    exact h1 p hp hin
  · intro h1
    exact ⟨_, h1, (hm _).2 fun _ _ => rfl⟩

/-- the weight of sample `j` if it answers the query -/
def hw (M : Cpm K) (cv : List (Variable K)) (cs : List ℕ) (flag : Bool) (j : ℕ) : ℚ :=
  if Hit M cv cs flag (M.Cs.getD j []) then wt M j else 0

theorem takeRows_nil {α : Type} {idx : List ℕ} (h : idx ≠ []) :
    takeRows ([] : List α) idx = .error .index := by
  cases idx with
  | nil => exact absurd rfl h
  | cons a l => simp [takeRows, pyGet, List.mapM_cons, error_bind]

theorem roundWeights_ok (hs : SamplesOK M) {i n : ℕ} (hn : 0 < n)
    (hin : (i + 1) * n ≤ M.Cs.length) (h1 : M.ps = [] → n = M.Cs.length) :
    roundWeights M i n = (rowRange i n).map (wt M) := by
  unfold roundWeights
  have hlt : ∀ j ∈ rowRange i n, j < M.Cs.length := fun j hj => by
    have := (mem_rowRange.1 hj).2; omega
  by_cases hp : M.ps = []
  · have hne : rowRange i n ≠ [] := by
      intro e
      have := rowRange_length i n
      rw [e] at this
      simp at this
      omega
    rw [hp, takeRows_nil hne]
    have : (fun j => wt M j) = fun _ => 1 := by funext j; simp [wt, hp]
    show List.replicate M.q.length (1 : ℚ) = (rowRange i n).map fun j => wt M j
    rw [this]
    simp [rowRange_length, hs.qLen, h1 hp]
  · have hpl := hs.psLen.resolve_left hp
    rw [takeRows_ok 0 (fun j hj => by rw [hpl]; exact hlt j hj),
      takeRows_ok 0 (fun j hj => by rw [hs.qLen]; exact hlt j hj)]
    simp only [List.zipWith_map_left, List.zipWith_map_right]
    have : (fun j => wt M j) = fun j => M.ps.getD j 0 / M.q.getD j 0 := by
      funext j; simp [wt, hp]
    rw [show wt M = fun j => wt M j from rfl, this]
    simp

theorem zeroAt_ok {l : List ℕ} {f : ℕ → ℚ} {m : ℕ → Bool} :
    zeroAt (l.map f) (l.map m) = .ok (l.map fun j => if m j then 0 else f j) := by
  unfold zeroAt
  rw [if_pos (by simp)]
  simp

theorem sampleRows_ok {i n : ℕ} (h0 : M.Cs ≠ [])
    (hin : (i + 1) * n ≤ M.Cs.length) :
    sampleRows M i n = .ok ((rowRange i n).map fun j => M.Cs.getD j []) := by
  unfold sampleRows
  rw [if_neg h0]
  exact takeRows_ok [] fun j hj => by have := (mem_rowRange.1 hj).2; omega

theorem sampleMask_ok (h : WF U (noSamples M)) (hs : SamplesOK M)
    (he : EvidenceOK U M.getNames cv cs) (hnd : (cv.map Variable.name).Nodup)
    {i n : ℕ} (hin : (i + 1) * n ≤ M.Cs.length) :
    isCompatible ((rowRange i n).map fun j => M.Cs.getD j []) M.vars cv cs =
      .ok ((rowRange i n).map fun j =>
        decide (Consistent (M.vars.map Variable.name) cv cs
          (sampleState M.vars (M.Cs.getD j [])))) := by
  have hmem : ∀ c ∈ (rowRange i n).map (fun j => M.Cs.getD j []), c ∈ M.Cs := by
    intro c hc
    obtain ⟨j, hj, rfl⟩ := List.mem_map.1 hc
    have : j < M.Cs.length := by have := (mem_rowRange.1 hj).2; omega
    rw [List.getD_eq_getElem _ _ this]
    exact List.getElem_mem _
  rw [sample_mask h he hnd (fun c hc => hs.rowLen c (hmem c hc))
    (fun c hc => hs.entry c (hmem c hc))]
  simp [Function.comp_def]

theorem estWeights_ok (h : WF U (noSamples M)) (hs : SamplesOK M)
    (he : EvidenceOK U M.getNames cv cs) (hnd : (cv.map Variable.name).Nodup)
    {i n : ℕ} (hn : 0 < n)
    (hin : (i + 1) * n ≤ M.Cs.length) (h1 : M.ps = [] → n = M.Cs.length) :
    estWeights M cv cs flag n i =
      .ok ((rowRange i n).map (wt M), (rowRange i n).map (hw M cv cs flag)) := by
  have h0 : M.Cs ≠ [] := by
    intro e; rw [e] at hin; rw [Nat.add_mul] at hin; simp at hin; omega
  unfold estWeights
  rw [sampleRows_ok h0 hin, ok_bind, sampleMask_ok h hs he hnd hin, ok_bind]
  simp only
  rw [roundWeights_ok hs hn hin h1]
  cases flag
  · rw [if_neg (by simp), zeroAt_ok, ok_bind]
    show Except.ok _ = _
    congr 3
    funext j
    unfold hw Hit
    by_cases hc : Consistent (M.vars.map Variable.name) cv cs
      (sampleState M.vars (M.Cs.getD j [])) <;> simp [hc]
  · rw [if_pos rfl, List.map_map, zeroAt_ok, ok_bind]
    show Except.ok _ = _
    congr 3
    funext j
    unfold hw Hit
    by_cases hc : Consistent (M.vars.map Variable.name) cv cs
      (sampleState M.vars (M.Cs.getD j [])) <;> simp [hc]

theorem hitWeight_eq : hitWeight M cv cs flag = ((List.range M.Cs.length).map (hw M cv cs flag)).sum :=
  rfl

theorem estRounds_ok {n nsr : ℕ} (h : nsr = 0 ∨ nsr ∣ n) :
    estRounds n nsr = .ok (if nsr = 0 then (1, n) else (n / nsr, nsr)) := by
  unfold estRounds
  split
  · rfl
  · rename_i h0
    rw [pyAssert_true (Nat.mod_eq_zero_of_dvd (h.resolve_left h0))]
    rfl

/-! ### The table -/

theorem maskRows_sum_nonneg {m : List Bool} {p : List ℚ} (hp : ∀ x ∈ p, 0 ≤ x) :
    0 ≤ (maskRows m p).sum := by
  apply List.sum_nonneg
  intro x hx
  unfold maskRows at hx
  obtain ⟨mx, h1, h2⟩ := List.mem_filterMap.1 hx
  split at h2
  · cases h2
    exact hp _ (List.of_mem_zip h1).2
  · cases h2

theorem maskRows_mono {α : Type} {f g : α → Bool} {C : List α} {p : List ℚ}
    (hfg : ∀ c ∈ C, f c = true → g c = true) (hp : ∀ x ∈ p, 0 ≤ x) :
    (maskRows (C.map f) p).sum ≤ (maskRows (C.map g) p).sum := by
  unfold maskRows
  induction C generalizing p with
  | nil => simp
  | cons c C ih =>
    cases p with
    | nil => simp
    | cons a p =>
      have h1 := ih (p := p) (fun c hc => hfg c (by simp [hc])) fun x hx => hp x (by simp [hx])
      have ha : 0 ≤ a := hp a (by simp)
      have hc := hfg c (by simp)
      rw [List.map_cons, List.map_cons, List.zip_cons_cons, List.zip_cons_cons,
        List.filterMap_cons, List.filterMap_cons]
      clear ih hfg hp
      cases hf : f c <;> cases hg : g c
      · simpa using h1
      · simp only [Bool.false_eq_true, if_true, if_false, List.sum_cons]
        linarith
      · simp [hf, hg] at hc
      · simpa using h1

theorem maskRows_compl {α : Type} {f : α → Bool} {C : List α} {p : List ℚ}
    (hl : p.length = C.length) :
    (maskRows (C.map f) p).sum + (maskRows (C.map fun c => !f c) p).sum = p.sum := by
  unfold maskRows
  induction C generalizing p with
  | nil => cases p <;> simp_all
  | cons c C ih =>
    cases p with
    | nil => simp at hl
    | cons a p =>
      have h1 := ih (p := p) (by simpa using hl)
      rw [List.map_cons, List.map_cons, List.zip_cons_cons, List.zip_cons_cons,
        List.filterMap_cons, List.filterMap_cons, List.sum_cons]
      clear ih
      cases hf : f c <;> simp <;> linarith

/-- what `get_prob` returns on a CPM with samples -/
theorem getProb_samples (h : WF U (noSamples M)) (hs : SamplesOK M)
    (hq : QueryOK U M.getNames cv cs) (flag : Bool) :
    M.getProb cv cs flag = .ok (maskRows (M.C.map fun r =>
      if flag then compatRow (noSamples M) cv cs r else !compatRow (noSamples M) cv cs r) M.p).sum :=
  getProb_attach hs.chk (getProb_ok h hq flag)

theorem getProb_bounds (h : WF U (noSamples M)) (hs : SamplesOK M) (hp : ∀ x ∈ M.p, 0 ≤ x)
    (hq : QueryOK U M.getNames cv cs) {a : ℚ} (ha : M.getProb cv cs flag = .ok a) :
    0 ≤ a ∧ a ≤ M.p.sum := by
  rw [getProb_samples h hs hq flag, Except.ok.injEq] at ha
  subst ha
  refine ⟨maskRows_sum_nonneg hp, ?_⟩
  have h1 := maskRows_compl (f := fun r => if flag then compatRow (noSamples M) cv cs r else
    !compatRow (noSamples M) cv cs r) (C := M.C) (p := M.p) h.pLen
  have h2 := maskRows_sum_nonneg (m := M.C.map fun c => !(if flag then compatRow (noSamples M) cv cs c
    else !compatRow (noSamples M) cv cs c)) hp
  linarith

theorem getProb_compl (h : WF U (noSamples M)) (hs : SamplesOK M)
    (hq : QueryOK U M.getNames cv cs) {a a' : ℚ} (ha : M.getProb cv cs true = .ok a)
    (ha' : M.getProb cv cs false = .ok a') : a + a' = M.p.sum := by
  rw [getProb_samples h hs hq, Except.ok.injEq] at ha ha'
  rw [← ha, ← ha', ← maskRows_compl (f := fun r => compatRow (noSamples M) cv cs r) (C := M.C)
      (p := M.p) h.pLen]
  rfl

/-! ### Maximum likelihood -/

/-- one round -/
def mleStep (M : Cpm K) (cv : List (Variable K)) (cs : List ℕ) (flag : Bool) (n : ℕ)
    (acc : ℚ × ℚ) (i : ℕ) : ℚ × ℚ :=
  let w := (rowRange i n).map (wt M)
  let w' := (rowRange i n).map (hw M cv cs flag)
  let mean := w'.sum / n
  let w0 := w.getD 0 0
  (acc.1 + mean, acc.2 + if allclose w w0 then w0 ^ 2 * (1 - mean) * mean / n
    else (w'.map fun x => ((x - mean) / n) ^ 2).sum)

theorem mleRound_ok (h : WF U (noSamples M)) (hs : SamplesOK M)
    (he : EvidenceOK U M.getNames cv cs) (hnd : (cv.map Variable.name).Nodup)
    {i n : ℕ} (hn : 0 < n)
    (hin : (i + 1) * n ≤ M.Cs.length) (h1 : M.ps = [] → n = M.Cs.length) (acc : ℚ × ℚ) :
    mleRound M cv cs flag n acc i = .ok (mleStep M cv cs flag n acc i) := by
  unfold mleRound
  rw [estWeights_ok h hs he hnd hn hin h1, ok_bind]
  simp only
  rw [pyGet_lt (by simp [rowRange_length, hn]) 0, ok_bind]
  rfl

theorem fold_mle_fst (n : ℕ) (l : List ℕ) (acc : ℚ × ℚ) :
    (l.foldl (mleStep M cv cs flag n) acc).1 =
      acc.1 + (l.map fun i => ((rowRange i n).map (hw M cv cs flag)).sum / n).sum := by
  induction l generalizing acc with
  | nil => simp
  | cons i l ih => rw [List.foldl_cons, ih]; simp [mleStep]; ring

theorem sum_div (l : List ℕ) (f : ℕ → ℚ) (c : ℚ) :
    (l.map fun i => f i / c).sum = (l.map f).sum / c := by
  induction l with
  | nil => simp
  | cons a l ih => simp [ih]; ring

theorem mle_ok (h : WF U (noSamples M)) (hs : SamplesOK M)
    (hq : QueryOK U M.getNames cv cs) {nsr : ℕ} (hd : nsr = 0 ∨ nsr ∣ M.Cs.length)
    (h0 : M.Cs ≠ []) (h1 : M.ps = [] → nsr = 0 ∨ nsr = M.Cs.length) {a : ℚ}
    (ha : M.getProb cv cs flag = .ok a) :
    M.estimateMle cv cs flag nsr = .ok
      (a + (1 - M.p.sum) * (hitWeight M cv cs flag /
          (if nsr = 0 then M.Cs.length else nsr : ℕ)),
        ((List.range (if nsr = 0 then 1 else M.Cs.length / nsr)).foldl
          (mleStep M cv cs flag (if nsr = 0 then M.Cs.length else nsr)) (0, 0)).2) := by
  have hlen : 0 < M.Cs.length := List.length_pos_iff.2 h0
  unfold Cpm.estimateMle
  rw [ha, ok_bind, estRounds_ok hd, ok_bind]
  set rn := (if nsr = 0 then (1, M.Cs.length) else (M.Cs.length / nsr, nsr)) with hrn
  have e1 : rn.1 = if nsr = 0 then 1 else M.Cs.length / nsr := by rw [hrn]; split <;> rfl
  have e2 : rn.2 = if nsr = 0 then M.Cs.length else nsr := by rw [hrn]; split <;> rfl
  have hmul : rn.1 * rn.2 = M.Cs.length := by
    rw [e1, e2]
    split
    · simp
    · exact Nat.div_mul_cancel (hd.resolve_left (by assumption))
  have hpos : 0 < rn.2 := by rw [e2]; split <;> omega
  have hfold := foldlM_ok (f := mleRound M cv cs flag rn.2) (g := mleStep M cv cs flag rn.2)
    (P := fun _ => True) (l := List.range rn.1) (b := (0, 0)) trivial (fun acc _ i hi => by
      refine ⟨mleRound_ok h hs hq.ev hq.nodup hpos ?_ ?_ acc, trivial⟩
      · rw [← hmul]
        exact Nat.mul_le_mul_right _ (List.mem_range.1 hi)
      · intro hp
        rw [e2]
        rcases h1 hp with e | e <;> simp [e])
  rw [hfold.1, ok_bind, pure_ok, ← e1, ← e2, fold_mle_fst,
    sum_div (List.range rn.1) (fun i => ((rowRange i rn.2).map (hw M cv cs flag)).sum), sum_rounds,
    hmul, hitWeight_eq]
  simp

theorem hitWeight_unit (hu : ∀ j < M.Cs.length, wt M j = 1) :
    hitWeight M cv cs flag = hitCount M cv cs flag := by
  unfold hitWeight hitCount
  have : (List.range M.Cs.length).map (fun j =>
      if Hit M cv cs flag (M.Cs.getD j []) then wt M j else 0) =
      M.Cs.map fun c => if Hit M cv cs flag c then (1 : ℚ) else 0 := by
    apply List.ext_getElem
    · simp
    · intro j h1 h2
      have hj : j < M.Cs.length := by simpa using h1
      simp only [List.getElem_map, List.getElem_range, hu j hj, List.getD_eq_getElem _ _ hj]
  rw [this]
  generalize M.Cs = l
  induction l with
  | nil => simp
  | cons c l ih =>
    rw [List.map_cons, List.sum_cons, ih, List.countP_cons]
    by_cases hc : Hit M cv cs flag c <;> simp [hc, add_comm]

theorem hitCount_compl (M : Cpm K) (cv : List (Variable K)) (cs : List ℕ) :
    hitCount M cv cs true + hitCount M cv cs false = M.Cs.length := by
  unfold hitCount
  generalize M.Cs = l
  induction l with
  | nil => rfl
  | cons c l ih =>
    rw [List.countP_cons, List.countP_cons, List.length_cons, ← ih]
    by_cases hc : Consistent (M.vars.map Variable.name) cv cs (sampleState M.vars c) <;>
      simp [Hit, hc] <;> omega

theorem hitCount_le : hitCount M cv cs flag ≤ M.Cs.length := List.countP_le_length

/-! ### Bayesian -/

theorem hw_bounds {j : ℕ} (hw0 : 0 ≤ wt M j) :
    0 ≤ hw M cv cs flag j ∧ hw M cv cs flag j ≤ wt M j := by
  unfold hw
  split
  · exact ⟨hw0, le_rfl⟩
  · exact ⟨le_rfl, hw0⟩

theorem nEff_nonneg (w : List ℚ) : 0 ≤ nEff w := by
  unfold nEff
  have : 0 ≤ (w.map (· ^ 2)).sum := List.sum_nonneg fun x hx => by
    obtain ⟨y, -, rfl⟩ := List.mem_map.1 hx
    positivity
  positivity

theorem nTrue_eq (w wo : List ℚ) : nTrue w wo = w.sum / wo.sum * nEff wo := by
  unfold nTrue
  generalize nEff wo = e
  generalize wo.sum = s
  induction w with
  | nil => simp
  | cons a l ih => simp [ih]; ring

theorem sum_le_sum' {l : List ℕ} {f g : ℕ → ℚ} (h : ∀ j ∈ l, f j ≤ g j) :
    (l.map f).sum ≤ (l.map g).sum := by
  induction l with
  | nil => simp
  | cons a l ih =>
    simp only [List.map_cons, List.sum_cons]
    have := h a (by simp)
    have := ih fun j hj => h j (by simp [hj])
    linarith

theorem sum_nonneg' {l : List ℕ} {f : ℕ → ℚ} (h : ∀ j ∈ l, 0 ≤ f j) : 0 ≤ (l.map f).sum :=
  List.sum_nonneg fun x hx => by
    obtain ⟨j, hj, rfl⟩ := List.mem_map.1 hx
    exact h j hj

theorem nTrue_bounds {l : List ℕ} {f g : ℕ → ℚ} (hf : ∀ j ∈ l, 0 ≤ f j)
    (hfg : ∀ j ∈ l, f j ≤ g j) :
    0 ≤ nTrue (l.map f) (l.map g) ∧ nTrue (l.map f) (l.map g) ≤ nEff (l.map g) := by
  rw [nTrue_eq]
  have h1 := sum_nonneg' hf
  have h2 := sum_le_sum' hfg
  have h3 := nEff_nonneg (l.map g)
  rcases (h1.trans h2).eq_or_lt with h4 | h4
  · rw [← h4]; simpa using h3
  · constructor
    · positivity
    · have : (l.map f).sum / (l.map g).sum ≤ 1 := (div_le_one h4).2 h2
      nlinarith

theorem nTrue_mono {l : List ℕ} {f f' g : ℕ → ℚ} (hf : ∀ j ∈ l, f j ≤ f' j)
    (hg : ∀ j ∈ l, 0 ≤ g j) : nTrue (l.map f) (l.map g) ≤ nTrue (l.map f') (l.map g) := by
  rw [nTrue_eq, nTrue_eq]
  have h1 := sum_le_sum' hf
  have h2 := sum_nonneg' hg
  have h3 := nEff_nonneg (l.map g)
  exact mul_le_mul_of_nonneg_right (div_le_div_of_nonneg_right h1 h2) h3

theorem bayesRound_ok (h : WF U (noSamples M)) (hs : SamplesOK M)
    (he : EvidenceOK U M.getNames cv cs) (hnd : (cv.map Variable.name).Nodup)
    {i n : ℕ} (hn : 0 < n)
    (hin : (i + 1) * n ≤ M.Cs.length) (h1 : M.ps = [] → n = M.Cs.length)
    (acc : Option (ℚ × ℚ)) :
    bayesRound M cv cs flag n acc i = .ok (some
      ((acc.getD (1 / 100, 1 / 100)).1 +
          nTrue ((rowRange i n).map (hw M cv cs flag)) ((rowRange i n).map (wt M)),
        (acc.getD (1 / 100, 1 / 100)).2 + (nEff ((rowRange i n).map (wt M)) -
          nTrue ((rowRange i n).map (hw M cv cs flag)) ((rowRange i n).map (wt M))))) := by
  unfold bayesRound
  rw [estWeights_ok h hs he hnd hn hin h1, ok_bind]
  rfl

end
end BNS
