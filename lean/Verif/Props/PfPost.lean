import Verif.Proofs.PfPost
import Verif.Props.PfMap
import Verif.Proofs.CpmEdit
import Verif.Proofs.Files
import Mathlib.Tactic.FieldSimp

/-!
# C93: failure probabilities of the nodes with dependent roads

The margins of the roads are jointly normal; the rows of the CPM of a node are events of decided roads.
-/

namespace BNS

open ProbabilityTheory (multivariateGaussian)
open MeasureTheory WithLp

set_option linter.unusedSectionVars false

section
variable {K : Type} [DecidableEq K]

/-- What `cal_prob_dep` computes for a row: the probability that the margins of the failed roads are not
positive and those of the surviving roads are at most twice their mean. -/
theorem C93_row {scope : List (Variable K)} {arcs : List K} {mean : List (K × ℝ)} {cov : List (List ℝ)}
    {c : List ℕ} {σ : ℕ → ℕ} {m : ℕ → ℝ} {S : ℕ → ℕ → ℝ} (hr : RoadRow scope arcs c σ)
    (hd : RoadData arcs mean cov m S) :
    depRow mvnCdf scope arcs mean cov c = .ok ((margins arcs.length m S).real
      {x | ∀ i : Fin arcs.length, (σ i = 0 → x i ≤ 0) ∧ (σ i = 1 → x i ≤ 2 * m i)}) := by
  rw [depRow_eq (depRow_of hr hd), mvnCdf_meaning hd.psd hr.state]

/-- It is the probability of the states of the row if failed and surviving roads of the row are
uncorrelated, in particular if all decided roads fail or all survive. -/
theorem C93_row_partial {scope : List (Variable K)} {arcs : List K} {mean : List (K × ℝ)}
    {cov : List (List ℝ)} {c : List ℕ} {σ : ℕ → ℕ} {m : ℕ → ℝ} {S : ℕ → ℕ → ℝ}
    (hr : RoadRow scope arcs c σ) (hd : RoadData arcs mean cov m S)
    (h0 : ∀ i < arcs.length, ∀ j < arcs.length, σ i = 0 → σ j = 1 → S i j = 0) :
    depRow mvnCdf scope arcs mean cov c =
      .ok ((margins arcs.length m S).real (roadEvent arcs.length σ)) := by
  have h := depRow_of hr hd
  rw [depRow_eq h, event_signed hd.psd hd.pos hr.state, signs_irrelevant hr.state h0 h.symm]

/-- A row in which one road fails and another survives, the others undecided: with a positive covariance
what is computed is too large. -/
theorem C93_not_opposite {scope : List (Variable K)} {arcs : List K} {mean : List (K × ℝ)}
    {cov : List (List ℝ)} {c : List ℕ} {σ : ℕ → ℕ} {m : ℕ → ℝ} {S : ℕ → ℕ → ℝ}
    (hr : RoadRow scope arcs c σ) (hd : RoadData arcs mean cov m S) {i j : ℕ} (hi : i < arcs.length)
    (hj : j < arcs.length) (hσi : σ i = 0) (hσj : σ j = 1)
    (ho : ∀ l < arcs.length, l ≠ i → l ≠ j → σ l = 2) (hc : 0 < S i j) :
    ∃ w, depRow mvnCdf scope arcs mean cov c = .ok w ∧
      (margins arcs.length m S).real (roadEvent arcs.length σ) < w := by
  refine ⟨_, C93_row hr hd, ?_⟩
  have h := opposite_lt (m := m) hd.psd ⟨i, hi⟩ ⟨j, hj⟩ hc
  have hij : i ≠ j := by
    rintro rfl
    omega
  have hev : ∀ (p : ℕ → ℝ → Prop), {x : EuclideanSpace ℝ (Fin arcs.length) |
      ∀ l : Fin arcs.length, (σ l = 0 → x l ≤ 0) ∧ (σ l = 1 → p l (x l))} =
      {x | x ⟨i, hi⟩ ≤ 0 ∧ p j (x ⟨j, hj⟩)} := by
    intro p
    ext x
    simp only [Set.mem_ofPred_eq]
    constructor
    · intro hx
      exact ⟨(hx ⟨i, hi⟩).1 hσi, (hx ⟨j, hj⟩).2 hσj⟩
    · rintro ⟨h1, h2⟩ l
      by_cases hli : (l : ℕ) = i
      · have : l = ⟨i, hi⟩ := Fin.ext hli
        subst this
        exact ⟨fun _ => h1, fun h => by simp only [hσi] at h; omega⟩
      · by_cases hlj : (l : ℕ) = j
        · have : l = ⟨j, hj⟩ := Fin.ext hlj
          subst this
          exact ⟨fun h => by simp only [hσj] at h; omega, fun _ => h2⟩
        · have := ho l l.2 hli hlj
          exact ⟨fun h => by omega, fun h => by omega⟩
  unfold roadEvent
  rw [hev fun _ y => 0 < y, hev fun l y => y ≤ 2 * m l]
  exact h

theorem sum_map_div (l : List ℝ) (c : ℝ) : (l.map (· / c)).sum = l.sum / c := by
  induction l with
  | nil => simp
  | cons a l ih => rw [List.map_cons, List.sum_cons, List.sum_cons, ih, add_div]

/-- The probabilities that are stored are proportional to those of the rows, and their sum is one unless
all of them are zero. -/
theorem C93_normalised {cdf : List ℝ → List (List ℝ) → ℝ} {M : Cpm K} {arcs : List K}
    {mean : List (K × ℝ)} {cov : List (List ℝ)} (hp : M.p.length = M.C.length) {w : List ℝ} :
    depWeights cdf M arcs mean cov = .ok w ↔
      ∃ ws, M.C.mapM (depRow cdf M.vars arcs mean cov) = .ok ws ∧ w = ws.map (· / ws.sum) ∧
        (ws.sum ≠ 0 → w.sum = 1) := by
  have hmap : (M.C.zipIdx.mapM fun c => do
      let w ← depRow cdf M.vars arcs mean cov c.1
      if c.2 < M.p.length then return w else (.error .index : Except Err ℝ)) =
      M.C.mapM (depRow cdf M.vars arcs mean cov) := by
    have aux : ∀ (l : List (List ℕ)) (b : ℕ), b + l.length ≤ M.p.length →
        ((l.zipIdx b).mapM fun c => do
          let w ← depRow cdf M.vars arcs mean cov c.1
          if c.2 < M.p.length then return w else (.error .index : Except Err ℝ)) =
        l.mapM (depRow cdf M.vars arcs mean cov) := by
      intro l
      induction l with
      | nil => intro b _; rfl
      | cons c l ih =>
        intro b hb
        rw [List.length_cons] at hb
        rw [List.zipIdx_cons, List.mapM_cons, List.mapM_cons, ih (b + 1) (by omega)]
        have : b < M.p.length := by omega
        simp only [this, if_true]
        cases depRow cdf M.vars arcs mean cov c <;> rfl
    exact aux M.C 0 (by omega)
  unfold depWeights
  rw [hmap]
  simp only [bind_ok, pure_ok, Except.ok.injEq]
  constructor
  · rintro ⟨ws, h, rfl⟩
    refine ⟨ws, h, rfl, fun hs => ?_⟩
    rw [sum_map_div, div_self hs]
  · rintro ⟨ws, h, rfl, -⟩
    exact ⟨ws, h, rfl⟩

/-- The margins computed by `cal_edge_dist_output` for a network of roads with distinct names meet the
hypotheses above, and all of them are positively correlated. -/
theorem C93_margins {bis : List ℝ → List ℝ → List ℝ → ℝ → ℝ → ℝ} {cdf : ℝ → ℝ → ℝ → ℝ}
    {c : RoadCfg K} {eqName : K} {out : RoadOut K} (hn : (c.edges.map Prod.fst).Nodup)
    (h : calEdgeDistOutput bis cdf c eqName = .ok out) :
    ∃ m, RoadData (c.edges.map Prod.fst) out.mean out.cov m (entry out.cov) ∧
      ∀ i < c.edges.length, ∀ j < c.edges.length, 0 < entry out.cov i j := by
  obtain ⟨h1, h2, h3, ⟨epi, Mw, -, h5, h6⟩, h7, h8⟩ := C85_covariance hn h
  obtain ⟨_, _, -, -, -, -, hkeys, -⟩ := C85_roads hn h
  have hstd : 0 < gmpeStdAl Mw ^ 2 := by
    unfold gmpeStdAl
    split <;> norm_num
  have hall : ∀ i < c.edges.length, ∀ j < c.edges.length, 0 < entry out.cov i j := by
    intro i hi j hj
    by_cases hij : i = j
    · subst hij
      exact hstd.trans_le (h5 i hi)
    · rw [h6 i hi j hj hij]
      exact hstd
  refine ⟨fun i => ((out.mean[i]?).map Prod.snd).getD 0, ⟨?_, ?_, ?_, ?_⟩, hall⟩
  · intro j k hj
    rw [← hkeys, List.getElem?_map] at hj
    cases hm : out.mean[j]? with
    | none => rw [hm] at hj; simp at hj
    | some km =>
      rw [hm] at hj
      simp only [Option.map_some, Option.some.injEq] at hj
      have hnd : (out.mean.map Prod.fst).Nodup := by rw [hkeys]; exact hn
      have hmem : km ∈ out.mean := List.mem_of_getElem? hm
      rw [← hj]
      simp only [Option.map_some, Option.getD_some]
      exact lookup_mem_nodup hnd hmem
  · intro i hi j hj
    rw [List.length_map] at hi hj
    have hi' : i < out.cov.length := by omega
    have hr := h2 _ (List.getElem_mem hi')
    refine ⟨out.cov[i], List.getElem?_eq_getElem hi', ?_⟩
    have hj' : j < out.cov[i].length := by omega
    simp [entry, hi', hj']
  · refine Matrix.PosSemidef.of_dotProduct_mulVec_nonneg ?_ ?_
    · ext i j
      simp only [Matrix.conjTranspose_apply, Matrix.of_apply, star_trivial]
      exact h7 _ (by simpa using j.2) _ (by simpa using i.2)
    · intro x
      have hw := h8 fun i => if hi : i < (c.edges.map Prod.fst).length then x ⟨i, hi⟩ else 0
      simp only [dotProduct, Matrix.mulVec, Matrix.of_apply, Pi.star_apply, star_trivial]
      rw [show c.edges.length = (c.edges.map Prod.fst).length by simp] at hw
      rw [Finset.sum_range] at hw
      refine hw.trans_eq (Eq.symm ?_)
      refine Finset.sum_congr rfl fun i _ => ?_
      rw [Finset.sum_range, Finset.mul_sum]
      refine Finset.sum_congr rfl fun j _ => ?_
      simp only [i.2, j.2, dif_pos]
      ring
  · intro i hi
    rw [List.length_map] at hi
    exact hall i hi i hi

/-- The probability that two roads with positively correlated margins both fail. -/
theorem both_fail_pos {m : ℕ → ℝ} {S : ℕ → ℕ → ℝ}
    (hS : (Matrix.of fun i j : Fin 2 => S i j).PosSemidef) (hc : 0 < S 0 1) :
    0 < (margins 2 m S).real {x | x 0 ≤ 0 ∧ x 1 ≤ 0} := by
  have h := orthant_lt (μ := toLp 2 fun i : Fin 2 => if i = 1 then -m 1 else m 0) hS hc
  have hsh := map_shift (toLp 2 fun i : Fin 2 => m i) (toLp 2 fun i : Fin 2 => if i = 1 then -2 * m 1 else 0)
    (Matrix.of fun i j : Fin 2 => S i j)
  have hadd : (toLp 2 fun i : Fin 2 => m i) + (toLp 2 fun i : Fin 2 => if i = 1 then -2 * m 1 else 0) =
      toLp 2 fun i : Fin 2 => if i = 1 then -m 1 else m 0 := by
    ext i
    fin_cases i
    · simp
    · simp
      ring
  rw [hadd] at hsh
  rw [← hsh] at h
  rw [map_measureReal_apply (by fun_prop)
      (ms_le_le (by fun_prop) (by fun_prop) (by fun_prop) (by fun_prop)), hsh] at h
  refine lt_of_le_of_lt measureReal_nonneg (h.trans_eq ?_)
  unfold margins
  congr 1
  ext x
  simp

/-- Two roads and all four combinations of their states: as the rows with one failed road are too large,
the normalisation makes the probability that both roads fail, and that both survive, too small. -/
theorem C93_not_two_roads {M : Cpm K} {v0 v1 v2 : Variable K} (hv : M.vars = [v0, v1, v2])
    (hn : (M.vars.map (·.name)).Nodup) {s1 s2 s3 s4 : ℕ}
    (hC : M.C = [[s1, 0, 0], [s2, 0, 1], [s3, 1, 0], [s4, 1, 1]]) (hp : M.p.length = M.C.length)
    {mean : List (K × ℝ)} {cov : List (List ℝ)} {m : ℕ → ℝ} {S : ℕ → ℕ → ℝ}
    (hd : RoadData [v1.name, v2.name] mean cov m S) (hc : 0 < S 0 1) :
    ∃ w1 w2 w3 w4, depWeights mvnCdf M [v1.name, v2.name] mean cov = .ok [w1, w2, w3, w4] ∧
      w1 < (margins 2 m S).real {x | x 0 ≤ 0 ∧ x 1 ≤ 0} ∧
      w4 < (margins 2 m S).real {x | 0 < x 0 ∧ 0 < x 1} := by
  have hrow : ∀ s a b, a ≤ 1 → b ≤ 1 →
      RoadRow M.vars [v1.name, v2.name] [s, a, b] (fun j => if j = 0 then a else b) := by
    intro s a b ha hb
    refine ⟨hn, ?_, ?_, ⟨0, by simp, by simp; omega⟩⟩
    · intro j k hj
      match j, hj with
      | 0, hj => exact ⟨1, v1, by rw [hv]; rfl, by simpa using hj, rfl⟩
      | 1, hj => exact ⟨2, v2, by rw [hv]; rfl, by simpa using hj, rfl⟩
    · intro j _
      by_cases h : j = 0 <;> simp [h] <;> omega
  have hsym : S 1 0 = S 0 1 := by simpa using hd.psd.1.apply 0 1
  set P := margins 2 m S with hP
  have hev : ∀ a b, roadEvent 2 (fun j => if j = 0 then a else b) =
      {x | ((a = 0 → x 0 ≤ 0) ∧ (a = 1 → 0 < x 0)) ∧ ((b = 0 → x 1 ≤ 0) ∧ (b = 1 → 0 < x 1))} := by
    intro a b
    ext x
    simp [roadEvent, Fin.forall_fin_two]
  have h1 := C93_row_partial (hrow s1 0 0 (by omega) (by omega)) hd (by
    intro i _ j _ _ h
    simp at h)
  have h4 := C93_row_partial (hrow s4 1 1 (by omega) (by omega)) hd (by
    intro i _ j _ h
    simp at h)
  obtain ⟨q2, h2, l2⟩ := C93_not_opposite (hrow s2 0 1 (by omega) (by omega)) hd (i := 0) (j := 1)
    (by simp) (by simp) rfl rfl (by
      intro l hl h0 h1
      simp at hl
      omega) hc
  obtain ⟨q3, h3, l3⟩ := C93_not_opposite (hrow s3 1 0 (by omega) (by omega)) hd (i := 1) (j := 0)
    (by simp) (by simp) rfl rfl (by
      intro l hl h0 h1
      simp at hl
      omega) (by rw [hsym]; exact hc)
  simp only [List.length_cons, List.length_nil, Nat.reduceAdd] at h1 h4 l2 l3
  rw [← hP] at h1 h4 l2 l3
  rw [hev] at h1 h4 l2 l3
  simp only [Nat.zero_ne_one, Nat.one_ne_zero, true_implies, false_implies, and_true, true_and] at h1 h4 l2 l3
  have hps : (multivariateGaussian (toLp 2 fun i : Fin 2 => m i)
      (Matrix.of fun i j : Fin 2 => S i j)).real Set.univ = 1 := by simp
  have hsum : P.real {x | x 0 ≤ 0 ∧ x 1 ≤ 0} + P.real {x | x 0 ≤ 0 ∧ 0 < x 1} +
      (P.real {x | 0 < x 0 ∧ x 1 ≤ 0} + P.real {x | 0 < x 0 ∧ 0 < x 1}) = 1 := by
    have hm1 : MeasurableSet {x : EuclideanSpace ℝ (Fin 2) | x 1 ≤ 0} :=
      measurableSet_le (by fun_prop) (by fun_prop)
    have hm0 : MeasurableSet {x : EuclideanSpace ℝ (Fin 2) | x 0 ≤ 0} :=
      measurableSet_le (by fun_prop) (by fun_prop)
    have : IsFiniteMeasure P := by rw [hP]; unfold margins; infer_instance
    have e1 := measureReal_inter_add_sdiff (μ := P) (s := {x : EuclideanSpace ℝ (Fin 2) | x 0 ≤ 0}) hm1
    have e2 := measureReal_inter_add_sdiff (μ := P) (s := {x : EuclideanSpace ℝ (Fin 2) | 0 < x 0}) hm1
    have e3 := measureReal_inter_add_sdiff (μ := P) (s := (Set.univ : Set (EuclideanSpace ℝ (Fin 2)))) hm0
    have s1 : {x : EuclideanSpace ℝ (Fin 2) | x 0 ≤ 0} \ {x | x 1 ≤ 0} = {x | x 0 ≤ 0 ∧ 0 < x 1} := by
      ext x; simp
    have s2 : {x : EuclideanSpace ℝ (Fin 2) | 0 < x 0} \ {x | x 1 ≤ 0} = {x | 0 < x 0 ∧ 0 < x 1} := by
      ext x; simp
    have s3 : (Set.univ : Set (EuclideanSpace ℝ (Fin 2))) \ {x | x 0 ≤ 0} = {x | 0 < x 0} := by
      ext x; simp
    rw [s1] at e1
    rw [s2] at e2
    rw [s3, Set.univ_inter] at e3
    have e4 : P.real Set.univ = 1 := hps
    rw [e4] at e3
    change P.real ({x | x 0 ≤ 0} ∩ {x | x 1 ≤ 0}) + _ + (P.real ({x | 0 < x 0} ∩ {x | x 1 ≤ 0}) + _) = 1
    linarith
  have hpos1 : 0 < P.real {x | x 0 ≤ 0 ∧ x 1 ≤ 0} := both_fail_pos hd.psd hc
  have hpos4 : 0 < P.real {x | 0 < x 0 ∧ 0 < x 1} := by
    have e := event_signed (m := m) hd.psd hd.pos (σ := fun _ => 1) (by simp)
    have e' := mvnCdf_meaning (m := fun i => - m i) hd.psd (σ := fun _ => 0) (by simp)
    have hf := both_fail_pos (m := fun i => - m i) hd.psd hc
    simp only [List.length_cons, List.length_nil, Nat.zero_add, Nat.reduceAdd, depSign, if_true,
      Nat.zero_ne_one, if_false, one_mul, neg_mul, mul_neg, neg_neg, ne_eq,
      OfNat.one_ne_ofNat, OfNat.zero_ne_ofNat, not_false_eq_true, decide_true] at e e' hf
    rw [e'] at e
    have hset : roadEvent 2 (fun _ => 1) = {x | 0 < x 0 ∧ 0 < x 1} := by
      ext x
      simp [roadEvent, Fin.forall_fin_two]
    rw [hset] at e
    rw [e]
    refine hf.trans_eq ?_
    congr 1
    ext x
    simp [Fin.forall_fin_two]
  set p1 := P.real {x | x 0 ≤ 0 ∧ x 1 ≤ 0}
  set p4 := P.real {x | 0 < x 0 ∧ 0 < x 1}
  have hT : 1 < p1 + (q2 + (q3 + (p4 + 0))) := by linarith
  refine ⟨p1 / (p1 + (q2 + (q3 + (p4 + 0)))), q2 / (p1 + (q2 + (q3 + (p4 + 0)))),
    q3 / (p1 + (q2 + (q3 + (p4 + 0)))), p4 / (p1 + (q2 + (q3 + (p4 + 0)))), ?_, ?_, ?_⟩
  · rw [C93_normalised hp]
    refine ⟨[p1, q2, q3, p4], ?_, by simp, ?_⟩
    · rw [hC]
      simp only [List.mapM_cons, List.mapM_nil, h1, h2, h3, h4, ok_bind, pure_ok]
    · intro _
      simp only [List.sum_cons, List.sum_nil]
      field_simp
      ring
  · exact div_lt_self hpos1 hT
  · exact div_lt_self hpos4 hT

/-- No call of `cal_prob_dep` returns: the functions it reads the result with do not exist. -/
theorem C93_not_returns {cdf : List ℝ → List (List ℝ) → ℝ} {cpms : List (K × Cpm K)} {arcs : List K}
    {mean : List (K × ℝ)} {cov : List (List ℝ)} {node : K} (r : ℝ × ℝ × ℝ) :
    calProbDep cdf cpms arcs mean cov node ≠ .ok r := by
  unfold calProbDep
  intro h
  obtain ⟨M, -, h⟩ := bind_ok.1 h
  obtain ⟨w, -, h⟩ := bind_ok.1 h
  obtain ⟨_, -, h⟩ := bind_ok.1 h
  split at h
  · cases h
  · obtain ⟨_, -, h⟩ := bind_ok.1 h
    obtain ⟨_, -, h⟩ := bind_ok.1 h
    cases h

/-- With a CPM of the node, probabilities and the margins of the roads at hand the call raises
`AttributeError`. -/
theorem C93_attribute {cpms : List (K × Cpm K)} {arcs : List K} {mean : List (K × ℝ)}
    {cov : List (List ℝ)} {node : K} {M : Cpm K} {m : ℕ → ℝ} {S : ℕ → ℕ → ℝ}
    (hM : cpms.lookup node = some M) (hp : M.p.length = M.C.length) (hs : M.Cs = [])
    (hrow : ∀ c ∈ M.C, ∃ σ, RoadRow M.vars arcs c σ) (hd : RoadData arcs mean cov m S) :
    calProbDep mvnCdf cpms arcs mean cov node = .error .attribute := by
  have hg : itemsGet cpms node = .ok M := by
    unfold itemsGet dictGet
    simp only [hM]
  have hws : ∃ ws, M.C.mapM (depRow mvnCdf M.vars arcs mean cov) = .ok ws ∧ ws.length = M.C.length := by
    have : ∀ l : List (List ℕ), (∀ c ∈ l, ∃ σ, RoadRow M.vars arcs c σ) →
        ∃ ws, l.mapM (depRow mvnCdf M.vars arcs mean cov) = .ok ws ∧ ws.length = l.length := by
      intro l
      induction l with
      | nil => exact fun _ => ⟨[], rfl, rfl⟩
      | cons c l ih =>
        intro h
        obtain ⟨σ, hσ⟩ := h c List.mem_cons_self
        obtain ⟨ws, h1, h2⟩ := ih fun c' hc' => h c' (List.mem_cons_of_mem _ hc')
        obtain ⟨w, hw⟩ : ∃ w, depRow mvnCdf M.vars arcs mean cov c = .ok w := ⟨_, C93_row hσ hd⟩
        refine ⟨w :: ws, ?_, by rw [List.length_cons, List.length_cons, h2]⟩
        rw [List.mapM_cons, hw, ok_bind, h1]
        rfl
    exact this M.C hrow
  obtain ⟨ws, h1, h2⟩ := hws
  have hw : depWeights mvnCdf M arcs mean cov = .ok (ws.map (· / ws.sum)) := by
    rw [C93_normalised hp]
    refine ⟨ws, h1, rfl, fun hne => ?_⟩
    rw [sum_map_div, div_self hne]
  unfold calProbDep
  rw [hg, ok_bind, hw, ok_bind, pyAssert_true (Or.inr (by rw [List.length_map, h2])), ok_bind, if_pos hs]
  rfl

/-- A road that is not among the variables of the CPM: `ValueError`. -/
theorem C93_unknown_road {cdf : List ℝ → List (List ℝ) → ℝ} {scope : List (Variable K)} {k : K}
    {arcs : List K} {mean : List (K × ℝ)} {cov : List (List ℝ)} {c : List ℕ}
    (hk : ∀ v ∈ scope, v.name ≠ k) :
    depRow cdf scope (k :: arcs) mean cov c = .error .value := by
  have : scope.findIdx? (fun v => decide (v.name = k)) = none := by
    rw [List.findIdx?_eq_none_iff]
    intro v hv
    simpa using hk v hv
  unfold depRow depArgs
  rw [List.zipIdx_cons, List.foldlM_cons]
  unfold depStep
  simp only [this]
  rfl

/-- `update_pf1` never returns either. -/
theorem C93_update_not_returns {cpms : List (K × Cpm K)} {arcs : List K} {varis : List (K × Variable K)}
    {newProbs : List (K × ℚ × ℚ)} {node : K} (r : ℚ × ℚ × ℚ) :
    updatePf1 cpms arcs varis newProbs node ≠ .ok r := by
  unfold updatePf1
  intro h
  obtain ⟨_, -, h⟩ := bind_ok.1 h
  obtain ⟨M, -, h⟩ := bind_ok.1 h
  split at h
  · cases h
  · split at h
    · cases h
    · obtain ⟨_, -, h⟩ := bind_ok.1 h
      obtain ⟨_, -, h⟩ := bind_ok.1 h
      obtain ⟨_, -, h⟩ := bind_ok.1 h
      obtain ⟨_, -, h⟩ := bind_ok.1 h
      cases h

/-- What it raises once the probabilities of the roads are replaced: `AttributeError` without samples;
with samples too, unless the last road has none; without roads the name of the last one has no value. -/
theorem C93_update_attribute {cpms out : List (K × Cpm K)} {arcs : List K} {varis : List (K × Variable K)}
    {newProbs : List (K × ℚ × ℚ)} {node : K} {M : Cpm K} (ho : updateArcs newProbs cpms arcs = .ok out)
    (hM : out.lookup node = some M) :
    (M.Cs = [] → updatePf1 cpms arcs varis newProbs node = .error .attribute) ∧
    (M.Cs ≠ [] → ∀ (k : K) (Mk : Cpm K), arcs.getLast? = some k → out.lookup k = some Mk → Mk.q ≠ [] →
      updatePf1 cpms arcs varis newProbs node = .error .attribute) ∧
    (M.Cs ≠ [] → arcs = [] → updatePf1 cpms arcs varis newProbs node = .error .unbound) := by
  unfold updatePf1
  rw [ho, ok_bind, itemsGet_some hM, ok_bind]
  refine ⟨fun h => ?_, fun h k Mk hk hMk hq => ?_, fun h ha => ?_⟩
  · rw [if_pos h]
    rfl
  · rw [if_neg h, hk]
    simp only
    rw [itemsGet_some hMk, ok_bind]
    obtain ⟨x, l, hl⟩ := List.exists_cons_of_ne_nil hq
    rw [hl, List.mapM_cons]
    rfl
  · rw [if_neg h, ha]
    rfl

/-- So `eval_pfs_dep` and `update_pfs` write a file only if there is no node but the epicentre and the
origins, whatever the order in which the nodes are completed. -/
theorem C93_map {R : Type} {f : K → Except Err R} (hf : ∀ n r, f n ≠ .ok r) {nodes : List K} {epi : K}
    {origins done : List K} (hdone : done.Perm (nodes.filter fun n => n ≠ epi ∧ n ∉ origins))
    (out : List (K × R)) :
    postMap f nodes epi origins done = .ok out ↔ out = [] ∧ ∀ n ∈ nodes, n = epi ∨ n ∈ origins := by
  have hnil : (nodes.filter fun n => n ≠ epi ∧ n ∉ origins) = [] ↔ ∀ n ∈ nodes, n = epi ∨ n ∈ origins := by
    rw [List.filter_eq_nil_iff]
    refine forall₂_congr fun n _ => ?_
    simp only [decide_eq_true_eq]
    tauto
  rw [← hnil]
  unfold postMap
  cases done with
  | nil =>
    have h0 := hdone.nil_eq
    rw [← h0]
    simp only [List.mapM_nil, pure_ok, ok_bind, Except.ok.injEq, and_true]
    exact eq_comm
  | cons n l =>
    constructor
    · intro h
      obtain ⟨rows, h1, -⟩ := bind_ok.1 h
      rw [List.mapM_cons] at h1
      obtain ⟨x, h2, -⟩ := bind_ok.1 h1
      obtain ⟨r, h3, -⟩ := bind_ok.1 h2
      exact absurd h3 (hf n r)
    · rintro ⟨-, h0⟩
      rw [h0] at hdone
      exact absurd hdone.eq_nil (by simp)

theorem depStep_len {scope : List (Variable K)} {c : List ℕ} {mean : List (K × ℝ)}
    {cov : List (List ℝ)} {st st' : DepArgs ℝ} {a : K × ℕ}
    (h : depStep scope c mean cov st a = .ok st') :
    st'.mean.length + st.idx.length ≤ st'.idx.length + st.mean.length ∧
    (st'.mean.length + st.idx.length = st'.idx.length + st.mean.length →
      ∃ (i s : ℕ) (v : Variable K), scope[i]? = some v ∧ v.name = a.1 ∧ c[i]? = some s ∧ s ≤ 2) := by
  unfold depStep at h
  cases hf : scope.findIdx? (fun v => v.name = a.1) with
  | none => rw [hf] at h; cases h
  | some i =>
    simp only [hf] at h
    obtain ⟨s, hs, h⟩ := bind_ok.1 h
    have hs' : c[i]? = some s := by
      unfold pyGet at hs
      cases e : c[i]? with
      | none => rw [e] at hs; cases hs
      | some x => rw [e] at hs; cases hs; rfl
    obtain ⟨hi, hn, -⟩ := List.findIdx?_eq_some_iff_getElem.1 hf
    have hcol : ∀ (_ : s ≤ 2), ∃ (i s : ℕ) (v : Variable K), scope[i]? = some v ∧ v.name = a.1 ∧
        c[i]? = some s ∧ s ≤ 2 := fun h2 =>
      ⟨i, s, scope[i], List.getElem?_eq_getElem hi, by simpa using hn, hs', h2⟩
    by_cases h2 : s = 2
    · rw [if_pos h2] at h
      cases h
      exact ⟨by omega, fun _ => hcol (by omega)⟩
    · rw [if_neg h2] at h
      obtain ⟨ms, hm, h⟩ := bind_ok.1 h
      obtain ⟨col, -, h⟩ := bind_ok.1 h
      obtain ⟨d, -, h⟩ := bind_ok.1 h
      cases h
      unfold depMean at hm
      simp only [List.length_append, List.length_singleton]
      split at hm
      · obtain ⟨m, -, hm⟩ := bind_ok.1 hm
        cases hm
        exact ⟨by simp; omega, fun _ => hcol (by omega)⟩
      · split at hm
        · obtain ⟨m, -, hm⟩ := bind_ok.1 hm
          cases hm
          exact ⟨by simp; omega, fun _ => hcol (by omega)⟩
        · cases hm
          exact ⟨by omega, fun e => by omega⟩

/-- A row gets a probability only if each road is failed, surviving or undecided in it: roads with more
than two states are refused. -/
theorem C93_two_states {cdf : List ℝ → List (List ℝ) → ℝ} {scope : List (Variable K)} {arcs : List K}
    {mean : List (K × ℝ)} {cov : List (List ℝ)} {c : List ℕ} {w : ℝ}
    (h : depRow cdf scope arcs mean cov c = .ok w) : ∀ k ∈ arcs,
      ∃ (i s : ℕ) (v : Variable K), scope[i]? = some v ∧ v.name = k ∧ c[i]? = some s ∧ s ≤ 2 := by
  unfold depRow at h
  obtain ⟨a, ha, h⟩ := bind_ok.1 h
  split at h
  · rename_i hl
    unfold depArgs at ha
    have key : ∀ (l : List (K × ℕ)) (st st' : DepArgs ℝ),
        l.foldlM (depStep scope c mean cov) st = .ok st' →
        st'.mean.length + st.idx.length ≤ st'.idx.length + st.mean.length ∧
        (st'.mean.length + st.idx.length = st'.idx.length + st.mean.length → ∀ x ∈ l,
          ∃ (i s : ℕ) (v : Variable K), scope[i]? = some v ∧ v.name = x.1 ∧ c[i]? = some s ∧ s ≤ 2) := by
      intro l
      induction l with
      | nil =>
        intro st st' h
        cases h
        exact ⟨by omega, by simp⟩
      | cons x l ih =>
        intro st st' h
        rw [List.foldlM_cons] at h
        obtain ⟨s1, h1, h2⟩ := bind_ok.1 h
        obtain ⟨a1, a2⟩ := depStep_len h1
        obtain ⟨b1, b2⟩ := ih s1 st' h2
        refine ⟨by omega, fun e y hy => ?_⟩
        rcases List.mem_cons.1 hy with rfl | hy
        · exact a2 (by omega)
        · exact b2 (by omega) y hy
    intro k hk
    obtain ⟨j, hj, rfl⟩ := List.mem_iff_getElem.1 hk
    exact (key _ _ _ ha).2 (by simpa using hl) (arcs[j], j) (List.mk_mem_zipIdx_iff_getElem?.2 (by simp))
  · cases h

/-- The new probabilities are those of failure and of survival, in this order, of the CPMs of the roads;
all else stays. -/
theorem C93_new_probabilities {newProbs : List (K × ℚ × ℚ)} {cpms out : List (K × Cpm K)}
    {arcs : List K} (hn : arcs.Nodup) (h : updateArcs newProbs cpms arcs = .ok out) :
    (∀ k ∈ arcs, ∃ p M, newProbs.lookup k = some p ∧ cpms.lookup k = some M ∧ M.C.length = 2 ∧
      out.lookup k = some { M with p := [p.1, p.2] }) ∧
    ∀ k, k ∉ arcs → out.lookup k = cpms.lookup k := by
  unfold updateArcs at h
  induction arcs generalizing cpms with
  | nil =>
    cases h
    simp
  | cons a arcs ih =>
    rw [List.foldlM_cons] at h
    obtain ⟨d, h1, h2⟩ := bind_ok.1 h
    obtain ⟨p, hp, h1⟩ := bind_ok.1 h1
    obtain ⟨M, hM, h1⟩ := bind_ok.1 h1
    obtain ⟨M', hM', h1⟩ := bind_ok.1 h1
    cases h1
    unfold Cpm.assign at hM'
    obtain ⟨_, hc, hM'⟩ := bind_ok.1 hM'
    cases hM'
    rw [pyAssert_iff] at hc
    have hget : ∀ {V : Type} {d : List (K × V)} {k : K} {v : V}, itemsGet d k = .ok v →
        d.lookup k = some v := by
      intro V d k v h
      unfold itemsGet dictGet at h
      cases e : d.lookup k with
      | none => simp only [e] at h; cases h
      | some x => simp only [e] at h; cases h; rfl
    rw [List.nodup_cons] at hn
    obtain ⟨i1, i2⟩ := ih hn.2 h2
    refine ⟨fun k hk => ?_, fun k hk => ?_⟩
    · rcases List.mem_cons.1 hk with rfl | hk
      · refine ⟨p, M, hget hp, hget hM, ?_, ?_⟩
        · exact (hc.resolve_left (by simp)).symm
        · rw [i2 k hn.1, lookup_itemSet, if_pos rfl]
      · obtain ⟨p', M1, e1, e2, e3, e4⟩ := i1 k hk
        have hne : k ≠ a := fun e => hn.1 (e ▸ hk)
        rw [lookup_itemSet, if_neg hne] at e2
        exact ⟨p', M1, e1, e2, e3, e4⟩
    · rw [List.mem_cons, not_or] at hk
      rw [i2 k hk.2, lookup_itemSet, if_neg hk.1]

end

/-- The four rows of a node that is cut off when both of two roads fail. -/
def twoRoadCpm : Cpm ℕ where
  vars := [.mk' 9 [0, 1, 2] .dflt, .mk' 1 [0, 1] .dflt, .mk' 2 [0, 1] .dflt]
  noChild := 1
  C := [[0, 0, 0], [1, 0, 1], [1, 1, 0], [1, 1, 1]]
  p := [1, 1, 1, 1]

/-- The failure probability of the node `9` of a small network with two parallel roads is too small for
the margins that the demo itself computes, and reading it raises `AttributeError`. -/
theorem C93_not_small (bis : List ℝ → List ℝ → List ℝ → ℝ → ℝ → ℝ) (cdf : ℝ → ℝ → ℝ → ℝ) :
    ∃ out m w1 w2 w3 w4, calEdgeDistOutput bis cdf smallRoads 5 = .ok out ∧
      RoadData [1, 2] out.mean out.cov m (entry out.cov) ∧
      depWeights mvnCdf twoRoadCpm [1, 2] out.mean out.cov = .ok [w1, w2, w3, w4] ∧
      w1 < (margins 2 m (entry out.cov)).real {x | x 0 ≤ 0 ∧ x 1 ≤ 0} ∧
      calProbDep mvnCdf [(9, twoRoadCpm)] [1, 2] out.mean out.cov 9 = .error .attribute := by
  have hn : (smallRoads.edges.map Prod.fst).Nodup := by simp [smallRoads]
  obtain ⟨out, h⟩ := C85_returns (bis := bis) (cdf := cdf) (c := smallRoads) (eqName := 5) hn
    (x0 := 3) (y0 := 4) (Mw := 7) rfl (by norm_num) (by norm_num) (by
      intro k e h
      simp only [smallRoads, List.mem_cons, Prod.mk.injEq, List.not_mem_nil, or_false] at h
      rcases h with ⟨rfl, rfl⟩ | ⟨rfl, rfl⟩
      · exact ⟨0, 0, 10, 0, [0.1, 0.2, 0.4], 0.6, rfl, rfl, Or.inl (by norm_num), rfl, le_refl _⟩
      · exact ⟨10, 0, 10, 20, [0.1, 0.2, 0.4], 0.6, rfl, rfl, Or.inr (by norm_num), rfl, le_refl _⟩)
  obtain ⟨m, hd, hpos⟩ := C93_margins hn h
  have hd' : RoadData [1, 2] out.mean out.cov m (entry out.cov) := hd
  have hc : 0 < entry out.cov 0 1 := hpos 0 (by simp [smallRoads]) 1 (by simp [smallRoads])
  obtain ⟨w1, w2, w3, w4, hw, hl, -⟩ := C93_not_two_roads (M := twoRoadCpm) rfl
    (by simp [twoRoadCpm, Variable.mk']) rfl rfl hd' hc
  refine ⟨out, m, w1, w2, w3, w4, h, hd', hw, hl, C93_attribute (M := twoRoadCpm) rfl rfl rfl ?_ hd'⟩
  intro c hc
  have hcol : ∀ a b, a ≤ 1 → b ≤ 1 → ∀ s, RoadRow twoRoadCpm.vars [1, 2] [s, a, b]
      (fun j => if j = 0 then a else b) := by
    intro a b ha hb s
    refine ⟨by simp [twoRoadCpm, Variable.mk'], ?_, ?_, ⟨0, by simp, by simp; omega⟩⟩
    · intro j k hj
      match j, hj with
      | 0, hj => exact ⟨1, .mk' 1 [0, 1] .dflt, rfl, by simpa [Variable.mk'] using hj, rfl⟩
      | 1, hj => exact ⟨2, .mk' 2 [0, 1] .dflt, rfl, by simpa [Variable.mk'] using hj, rfl⟩
    · intro j _
      by_cases h : j = 0 <;> simp [h] <;> omega
  simp only [twoRoadCpm, List.mem_cons, List.not_mem_nil, or_false] at hc
  rcases hc with rfl | rfl | rfl | rfl
  · exact ⟨_, hcol 0 0 (by omega) (by omega) 0⟩
  · exact ⟨_, hcol 0 1 (by omega) (by omega) 1⟩
  · exact ⟨_, hcol 1 0 (by omega) (by omega) 1⟩
  · exact ⟨_, hcol 1 1 (by omega) (by omega) 1⟩

/-- The hypothesis of `C93_new_probabilities` is met: the probabilities of one road are replaced. -/
example : ∃ out, updateArcs [(1, ((1 / 5 : ℚ), (4 / 5 : ℚ)))]
    [(1, { vars := [Variable.mk' 1 [0, 1] .dflt], noChild := 1, C := [[0], [1]], p := [1 / 2, 1 / 2] })]
    [1] = .ok out := ⟨_, rfl⟩

/-- A node (2) without samples, and one (3) with samples while the only road has probabilities of samples. -/
example :
    let v := fun k : ℕ => Variable.mk' k [0, 1] .dflt
    let cpms : List (ℕ × Cpm ℕ) :=
      [(1, { vars := [v 1], noChild := 1, C := [[0], [1]], p := [1 / 2, 1 / 2], q := [1 / 2] }),
       (2, { vars := [v 2, v 1], noChild := 1, C := [[0, 0], [1, 1]], p := [1, 1] }),
       (3, { vars := [v 3, v 1], noChild := 1, C := [[0, 0], [1, 1]], p := [1, 1], Cs := [[0, 0]], q := [1] })]
    let np : List (ℕ × ℚ × ℚ) := [(1, 1 / 5, 4 / 5)]
    updatePf1 cpms [1] [] np 2 = .error .attribute ∧ updatePf1 cpms [1] [] np 3 = .error .attribute ∧
      updatePf1 cpms [] [] np 3 = .error .unbound := ⟨rfl, rfl, rfl⟩

end BNS
