import Verif.Model.PfPost
import Verif.Spec.PfPost
import Verif.Proofs.Gauss
import Verif.Proofs.Monad
import Verif.Proofs.PfMap

/-! # Lemmas about the post-processing of the pf_map demo -/

namespace BNS

open ProbabilityTheory MeasureTheory WithLp

set_option linter.unusedSectionVars false

section
variable {K : Type} [DecidableEq K] {F : Type} [Field F]

/-- The sign with which the mean of a decided road is used. -/
def depSign (s : ℕ) : F := if s = 1 then -1 else 1

theorem depCov_map {S : ℕ → ℕ → F} {J : List ℕ} {j : ℕ} (hS : ∀ i ∈ J, S i j = S j i) :
    depCov (J.map fun i => J.map (S i)) (J.map fun i => S i j) (S j j) =
      (J ++ [j]).map fun i => (J ++ [j]).map (S i) := by
  unfold depCov
  rw [List.zipWith_map, List.zipWith_self]
  simp only [List.map_append, List.map_cons, List.map_nil]
  congr 3
  exact List.map_congr_left hS

/-- What the loop is given for one row. -/
structure DepRow (scope : List (Variable K)) (arcs : List K) (mean : List (K × F)) (cov : List (List F))
    (c : List ℕ) (σ : ℕ → ℕ) (m : ℕ → F) (S : ℕ → ℕ → F) : Prop where
  col : ∀ j k, arcs[j]? = some k → ∃ i, scope.findIdx? (fun v => v.name = k) = some i ∧ c[i]? = some (σ j)
  state : ∀ j < arcs.length, σ j ≤ 2
  mean : ∀ j k, arcs[j]? = some k → mean.lookup k = some (m j)
  cov : ∀ i < arcs.length, ∀ j < arcs.length, covGet cov i j = .ok (S i j)
  symm : ∀ i < arcs.length, ∀ j < arcs.length, S i j = S j i

theorem depFold {scope : List (Variable K)} {arcs : List K} {mean : List (K × F)} {cov : List (List F)}
    {c : List ℕ} {σ : ℕ → ℕ} {m : ℕ → F} {S : ℕ → ℕ → F} (h : DepRow scope arcs mean cov c σ m S)
    (l : List K) (b : ℕ) (hl : ∀ i k, l[i]? = some k → arcs[b + i]? = some k) (J : List ℕ)
    (hJ : ∀ i ∈ J, i < arcs.length) :
    (l.zipIdx b).foldlM (depStep scope c mean cov)
        { mean := J.map fun j => depSign (σ j) * m j, cov := J.map fun i => J.map (S i), idx := J } =
      .ok { mean := (J ++ (List.range' b l.length).filter (σ · ≠ 2)).map fun j => depSign (σ j) * m j
            cov := (J ++ (List.range' b l.length).filter (σ · ≠ 2)).map fun i =>
              (J ++ (List.range' b l.length).filter (σ · ≠ 2)).map (S i)
            idx := J ++ (List.range' b l.length).filter (σ · ≠ 2) } := by
  induction l generalizing b J with
  | nil => simp [pure_ok]
  | cons k l ih =>
    have h0 : arcs[b]? = some k := by simpa using hl 0 k rfl
    have hb : b < arcs.length := (List.getElem?_eq_some_iff.1 h0).1
    have hl' : ∀ i k', l[i]? = some k' → arcs[b + 1 + i]? = some k' := by
      intro i k' hi
      have := hl (i + 1) k' (by simpa using hi)
      rwa [show b + 1 + i = b + (i + 1) by omega]
    obtain ⟨ci, hf, hc⟩ := h.col b k h0
    rw [List.zipIdx_cons, List.foldlM_cons]
    have hstep : depStep scope c mean cov
        { mean := J.map fun j => depSign (σ j) * m j, cov := J.map fun i => J.map (S i), idx := J } (k, b) =
        .ok { mean := (J ++ [b].filter (σ · ≠ 2)).map fun j => depSign (σ j) * m j
              cov := (J ++ [b].filter (σ · ≠ 2)).map fun i => (J ++ [b].filter (σ · ≠ 2)).map (S i)
              idx := J ++ [b].filter (σ · ≠ 2) } := by
      unfold depStep
      simp only [hf]
      have hp : pyGet c ci = .ok (σ b) := by unfold pyGet; simp only [hc]
      rw [hp, ok_bind]
      by_cases h2 : σ b = 2
      · simp [h2, pure_ok]
      · have hm : depMean mean k (σ b) (J.map fun j => depSign (σ j) * m j) =
            .ok ((J ++ [b]).map fun j => depSign (σ j) * m j) := by
          unfold depMean
          have hg : itemsGet mean k = .ok (m b) := by
            unfold itemsGet dictGet
            simp only [h.mean b k h0]
          have := h.state b hb
          by_cases h1 : σ b = 1
          · simp [h1, hg, ok_bind, pure_ok, depSign]
          · have h00 : σ b = 0 := by omega
            simp [h00, hg, ok_bind, pure_ok, depSign]
        have hcol : (J.mapM fun i => covGet cov i b) = .ok (J.map fun i => S i b) :=
          mapM_ok fun i hi => h.cov i (hJ i hi) b hb
        have hfil : [b].filter (σ · ≠ 2) = [b] := by simp [h2]
        simp only [h2, if_false, hm, hcol, h.cov b hb b hb, ok_bind, pure_ok]
        rw [hfil, depCov_map fun i hi => h.symm i (hJ i hi) b hb]
    rw [hstep, ok_bind, ih (b + 1) hl' _ ?_]
    · simp only [List.append_assoc, ← List.filter_append, List.length_cons, List.range'_succ,
        List.singleton_append]
    · intro i hi
      rcases List.mem_append.1 hi with hi | hi
      · exact hJ i hi
      · rw [List.mem_filter, List.mem_singleton] at hi
        rw [hi.1]
        exact hb

theorem depArgs_eq {scope : List (Variable K)} {arcs : List K} {mean : List (K × F)} {cov : List (List F)}
    {c : List ℕ} {σ : ℕ → ℕ} {m : ℕ → F} {S : ℕ → ℕ → F} (h : DepRow scope arcs mean cov c σ m S) :
    depArgs scope arcs mean cov c =
      .ok { mean := ((List.range arcs.length).filter (σ · ≠ 2)).map fun j => depSign (σ j) * m j
            cov := ((List.range arcs.length).filter (σ · ≠ 2)).map fun i =>
              ((List.range arcs.length).filter (σ · ≠ 2)).map (S i)
            idx := (List.range arcs.length).filter (σ · ≠ 2) } := by
  have := depFold h arcs 0 (fun i k hi => by simpa using hi) [] (by simp)
  simpa [depArgs, List.range_eq_range'] using this

theorem depRow_eq {cdf : List F → List (List F) → F} {scope : List (Variable K)} {arcs : List K}
    {mean : List (K × F)} {cov : List (List F)} {c : List ℕ} {σ : ℕ → ℕ} {m : ℕ → F} {S : ℕ → ℕ → F}
    (h : DepRow scope arcs mean cov c σ m S) :
    depRow cdf scope arcs mean cov c =
      .ok (cdf (((List.range arcs.length).filter (σ · ≠ 2)).map fun j => depSign (σ j) * m j)
        (((List.range arcs.length).filter (σ · ≠ 2)).map fun i =>
          ((List.range arcs.length).filter (σ · ≠ 2)).map (S i))) := by
  unfold depRow
  rw [depArgs_eq h, ok_bind]
  simp [pure_ok]

end

/-- `mvnCdf` for lists indexed by the coordinates `I` of a larger vector. -/
theorem mvnCdf_list (I : List ℕ) (m : ℕ → ℝ) (S : ℕ → ℕ → ℝ) :
    mvnCdf (I.map m) (I.map fun i => I.map (S i)) =
      (multivariateGaussian (toLp 2 fun i : Fin I.length => m I[i])
        (Matrix.of fun i j : Fin I.length => S I[i] I[j])).real {y | ∀ i, y i ≤ 0} := by
  have aux : ∀ (n : ℕ) (ms : List ℝ) (c : List (List ℝ)), ms.length = n → mvnCdf ms c =
      (multivariateGaussian (toLp 2 fun i : Fin n => ms.getD i 0)
        (Matrix.of fun i j : Fin n => (c.getD i []).getD j 0)).real {y | ∀ i, y i ≤ 0} := by
    rintro n ms c rfl
    rfl
  rw [aux I.length _ _ (by simp)]
  congr 3
  · ext i
    simp
  · ext i j
    simp

/-- The probability computed for the means with signs and the covariances with signs is that of the
event. -/
theorem event_signed {n : ℕ} {m : ℕ → ℝ} {S : ℕ → ℕ → ℝ}
    (hS : (Matrix.of fun i j : Fin n => S i j).PosSemidef) (hd : ∀ i < n, 0 < S i i) {σ : ℕ → ℕ}
    (hσ : ∀ i < n, σ i ≤ 2) :
    (margins n m S).real (roadEvent n σ) =
      mvnCdf (((List.range n).filter (σ · ≠ 2)).map fun j => depSign (σ j) * m j)
        (((List.range n).filter (σ · ≠ 2)).map fun i =>
          ((List.range n).filter (σ · ≠ 2)).map fun j =>
            depSign (σ i) * depSign (σ j) * S i j) := by
  set I := (List.range n).filter (σ · ≠ 2) with hI
  have hlt : ∀ k : Fin I.length, I[k] < n := fun k => by
    have : I[k] ∈ (List.range n).filter (σ · ≠ 2) := List.getElem_mem _
    rw [List.mem_filter, List.mem_range] at this
    exact this.1
  have hne : ∀ k : Fin I.length, σ I[k] ≠ 2 := fun k => by
    have : I[k] ∈ (List.range n).filter (σ · ≠ 2) := List.getElem_mem _
    rw [List.mem_filter] at this
    simpa using this.2
  rw [mvnCdf_list I (fun j => depSign (σ j) * m j) fun i j => depSign (σ i) * depSign (σ j) * S i j]
  let e : Fin I.length → Fin n := fun k => ⟨I[k], hlt k⟩
  let s : Fin I.length → ℝ := fun k => depSign (σ I[k])
  have hmap := map_signedCoords (μ := toLp 2 fun i : Fin n => m i) hS e s
  have hmean : signedCoords e s (toLp 2 fun i : Fin n => m i) =
      toLp 2 fun k : Fin I.length => depSign (σ I[k]) * m I[k] := by
    ext k
    rw [signedCoords_apply]
  rw [hmean] at hmap
  have hcov : (Matrix.of fun k l => s k * s l * (Matrix.of fun i j : Fin n => S i j) (e k) (e l)) =
      Matrix.of fun i j : Fin I.length => depSign (σ I[i]) * depSign (σ I[j]) * S I[i] I[j] := rfl
  rw [hcov] at hmap
  rw [← hmap, map_measureReal_apply (by fun_prop)
    (by
      rw [Set.ofPred_forall]
      exact MeasurableSet.iInter fun i => measurableSet_le (by fun_prop) (by fun_prop))]
  refine measureReal_congr ?_
  have hnull : ∀ i : Fin n, ∀ᵐ x ∂(margins n m S), x i ≠ 0 := by
    intro i
    have hp := measurePreserving_eval_multivariateGaussian (μ := toLp 2 fun i : Fin n => m i) hS (i := i)
    have hv : ((Matrix.of fun i j : Fin n => S i j) i i).toNNReal ≠ 0 := by
      simpa using hd i i.2
    have h0 := nullSingletonClass_gaussianReal (μ := (toLp 2 fun i : Fin n => m i) i) hv
    have h1 : ∀ᵐ y ∂(gaussianReal ((toLp 2 fun i : Fin n => m i) i)
        ((Matrix.of fun i j : Fin n => S i j) i i).toNNReal), y ≠ (0 : ℝ) := by
      rw [ae_iff]
      simp only [ne_eq, not_not]
      exact measure_singleton _
    exact hp.quasiMeasurePreserving.ae h1
  have hall : ∀ᵐ x ∂(margins n m S), ∀ i : Fin n, x i ≠ 0 := by
    rw [ae_all_iff]
    exact hnull
  filter_upwards [hall] with x hx
  apply propext
  change x ∈ roadEvent n σ ↔ ∀ k, signedCoords e s x k ≤ 0
  constructor
  · intro h k
    rw [signedCoords_apply]
    have hk := h (e k)
    have h2 : σ I[k] ≤ 2 := hσ _ (hlt k)
    have h3 := hne k
    change depSign (σ I[k]) * x (e k) ≤ 0
    unfold depSign
    by_cases h1 : σ I[k] = 1
    · have := hk.2 h1
      simp only [h1, if_true]
      linarith
    · have := hk.1 (by change σ I[k] = 0; omega)
      simp only [h1, if_false]
      linarith
  · intro h i
    have hi : ∀ (h2 : σ i ≠ 2), ∃ k : Fin I.length, e k = i := by
      intro h2
      have : (i : ℕ) ∈ I := by
        rw [hI, List.mem_filter, List.mem_range]
        exact ⟨i.2, by simpa using h2⟩
      obtain ⟨k, hk, he⟩ := List.getElem_of_mem this
      exact ⟨⟨k, hk⟩, Fin.ext he⟩
    constructor
    · intro h0
      obtain ⟨k, hk⟩ := hi (by omega)
      have := h k
      rw [signedCoords_apply, hk] at this
      have hs : s k = 1 := by
        change depSign (σ (e k : Fin n)) = 1
        rw [hk, h0]
        simp [depSign]
      rw [hs] at this
      linarith
    · intro h1
      obtain ⟨k, hk⟩ := hi (by omega)
      have := h k
      rw [signedCoords_apply, hk] at this
      have hs : s k = -1 := by
        change depSign (σ (e k : Fin n)) = -1
        rw [hk, h1]
        simp [depSign]
      rw [hs] at this
      have h4 : 0 ≤ x i := by linarith
      exact lt_of_le_of_ne h4 (Ne.symm (hx i))

section
variable {K : Type} [DecidableEq K]

theorem depRow_of {scope : List (Variable K)} {arcs : List K} {mean : List (K × ℝ)} {cov : List (List ℝ)}
    {c : List ℕ} {σ : ℕ → ℕ} {m : ℕ → ℝ} {S : ℕ → ℕ → ℝ} (hr : RoadRow scope arcs c σ)
    (hd : RoadData arcs mean cov m S) : DepRow scope arcs mean cov c σ m S := by
  refine ⟨fun j k hj => ?_, hr.state, hd.mean, fun i hi j hj => ?_, fun i hi j hj => ?_⟩
  · obtain ⟨i, v, hi, hv, hc⟩ := hr.col j k hj
    refine ⟨i, ?_, hc⟩
    obtain ⟨hlt, hg⟩ := List.getElem?_eq_some_iff.1 hi
    rw [List.findIdx?_eq_some_iff_getElem]
    refine ⟨hlt, by simp [hg, hv], fun i' hi' => ?_⟩
    have hlt' : i' < scope.length := hi'.trans hlt
    have hne : scope[i'].name ≠ scope[i].name := by
      intro he
      have h1 : (scope.map (·.name))[i']'(by simpa using hlt') = (scope.map (·.name))[i]'(by simpa using hlt) := by
        simpa using he
      have := (List.Nodup.getElem_inj_iff hr.nodup).1 h1
      omega
    rw [hg, hv] at hne
    simpa using hne
  · obtain ⟨r, h1, h2⟩ := hd.cov i hi j hj
    unfold covGet pyGet
    simp only [h1, ok_bind, h2]
  · have := hd.psd.1.apply ⟨j, hj⟩ ⟨i, hi⟩
    simpa using this

end

/-- A normal vector moved by a constant. -/
theorem map_shift {n : ℕ} (μ a : EuclideanSpace ℝ (Fin n)) (S : Matrix (Fin n) (Fin n) ℝ) :
    (multivariateGaussian μ S).map (fun x => x + a) = multivariateGaussian (μ + a) S := by
  unfold multivariateGaussian
  rw [Measure.map_map (by fun_prop) (by fun_prop)]
  congr 1
  ext x i
  simp only [Function.comp_apply, PiLp.add_apply]
  ring

/-- What is computed with the signs in the means only: survivors are at most twice their mean. -/
theorem mvnCdf_meaning {n : ℕ} {m : ℕ → ℝ} {S : ℕ → ℕ → ℝ}
    (hS : (Matrix.of fun i j : Fin n => S i j).PosSemidef) {σ : ℕ → ℕ} (hσ : ∀ i < n, σ i ≤ 2) :
    mvnCdf (((List.range n).filter (σ · ≠ 2)).map fun j => depSign (σ j) * m j)
        (((List.range n).filter (σ · ≠ 2)).map fun i =>
          ((List.range n).filter (σ · ≠ 2)).map (S i)) =
      (margins n m S).real
        {x | ∀ i : Fin n, (σ i = 0 → x i ≤ 0) ∧ (σ i = 1 → x i ≤ 2 * m i)} := by
  set I := (List.range n).filter (σ · ≠ 2) with hI
  have hlt : ∀ k : Fin I.length, I[k] < n := fun k => by
    have : I[k] ∈ (List.range n).filter (σ · ≠ 2) := List.getElem_mem _
    rw [List.mem_filter, List.mem_range] at this
    exact this.1
  have hne : ∀ k : Fin I.length, σ I[k] ≠ 2 := fun k => by
    have : I[k] ∈ (List.range n).filter (σ · ≠ 2) := List.getElem_mem _
    rw [List.mem_filter] at this
    simpa using this.2
  rw [mvnCdf_list I (fun j => depSign (σ j) * m j) S]
  let e : Fin I.length → Fin n := fun k => ⟨I[k], hlt k⟩
  have hmap := map_signedCoords (μ := toLp 2 fun i : Fin n => m i) hS e fun _ => 1
  have hmean : signedCoords e (fun _ => 1) (toLp 2 fun i : Fin n => m i) =
      toLp 2 fun k : Fin I.length => m I[k] := by
    ext k
    rw [signedCoords_apply, one_mul]
  have hcov : (Matrix.of fun k l => (1 : ℝ) * 1 * (Matrix.of fun i j : Fin n => S i j) (e k) (e l)) =
      Matrix.of fun i j : Fin I.length => S I[i] I[j] := by
    ext k l
    simp [e]
  rw [hmean, hcov] at hmap
  let a : EuclideanSpace ℝ (Fin I.length) :=
    toLp 2 fun k => depSign (σ I[k]) * m I[k] - m I[k]
  have hsh := map_shift (toLp 2 fun k : Fin I.length => m I[k]) a
    (Matrix.of fun i j : Fin I.length => S I[i] I[j])
  have hadd : (toLp 2 fun k : Fin I.length => m I[k]) + a =
      toLp 2 fun k : Fin I.length => depSign (σ I[k]) * m I[k] := by
    ext k
    simp [a]
  have hms : MeasurableSet {y : EuclideanSpace ℝ (Fin I.length) | ∀ i, y i ≤ 0} := by
    rw [Set.ofPred_forall]
    exact MeasurableSet.iInter fun i => measurableSet_le (by fun_prop) (by fun_prop)
  rw [← hadd, ← hsh, ← hmap, Measure.map_map (by fun_prop) (by fun_prop),
    map_measureReal_apply (by fun_prop) hms]
  congr 1
  ext x
  simp only [Set.mem_preimage, Set.mem_ofPred_eq, Function.comp_apply, PiLp.add_apply,
    signedCoords_apply, one_mul]
  constructor
  · intro h i
    have hi : ∀ (h2 : σ i ≠ 2), ∃ k : Fin I.length, e k = i := by
      intro h2
      have : (i : ℕ) ∈ I := by
        rw [hI, List.mem_filter, List.mem_range]
        exact ⟨i.2, by simpa using h2⟩
      obtain ⟨k, hk, he⟩ := List.getElem_of_mem this
      exact ⟨⟨k, hk⟩, Fin.ext he⟩
    constructor
    · intro h0
      obtain ⟨k, hk⟩ := hi (by omega)
      have hk' : I[k] = i := congrArg Fin.val hk
      have := h k
      rw [hk] at this
      change x i + (depSign (σ I[k]) * m I[k] - m I[k]) ≤ 0 at this
      rw [hk', h0] at this
      simp [depSign] at this
      exact this
    · intro h1
      obtain ⟨k, hk⟩ := hi (by omega)
      have hk' : I[k] = i := congrArg Fin.val hk
      have := h k
      rw [hk] at this
      change x i + (depSign (σ I[k]) * m I[k] - m I[k]) ≤ 0 at this
      rw [hk', h1] at this
      simp [depSign] at this
      linarith
  · intro h k
    have hk := h (e k)
    have h2 : σ I[k] ≤ 2 := hσ _ (hlt k)
    have h3 := hne k
    change x (e k) + (depSign (σ I[k]) * m I[k] - m I[k]) ≤ 0
    unfold depSign
    by_cases h1 : σ I[k] = 1
    · have h4 : x (e k) ≤ 2 * m I[k] := hk.2 h1
      simp only [h1, if_true]
      linarith
    · have := hk.1 (by change σ I[k] = 0; omega)
      simp only [h1, if_false]
      linarith

/-- Signs do not matter where roads in opposite states are uncorrelated. -/
theorem signs_irrelevant {n : ℕ} {S : ℕ → ℕ → ℝ} {σ : ℕ → ℕ} (hσ : ∀ i < n, σ i ≤ 2)
    (h0 : ∀ i < n, ∀ j < n, σ i = 0 → σ j = 1 → S i j = 0) (hsym : ∀ i < n, ∀ j < n, S i j = S j i) :
    (((List.range n).filter (σ · ≠ 2)).map fun i => ((List.range n).filter (σ · ≠ 2)).map fun j =>
        (depSign (σ i) * depSign (σ j) * S i j : ℝ)) =
      ((List.range n).filter (σ · ≠ 2)).map fun i => ((List.range n).filter (σ · ≠ 2)).map (S i) := by
  refine List.map_congr_left fun i hi => List.map_congr_left fun j hj => ?_
  rw [List.mem_filter, List.mem_range] at hi hj
  have hi2 : σ i ≠ 2 := by simpa using hi.2
  have hj2 : σ j ≠ 2 := by simpa using hj.2
  have h1 := hσ i hi.1
  have h2 := hσ j hj.1
  unfold depSign
  by_cases hi1 : σ i = 1 <;> by_cases hj1 : σ j = 1
  · simp [hi1, hj1]
  · rw [hsym i hi.1 j hj.1, h0 j hj.1 i hi.1 (by omega) hi1, mul_zero]
  · rw [h0 i hi.1 j hj.1 (by omega) hj1, mul_zero]
  · simp [hi1, hj1]

/-- Two roads of several: the law of their margins. -/
theorem margins_pair {n : ℕ} {m : ℕ → ℝ} {S : ℕ → ℕ → ℝ}
    (hS : (Matrix.of fun i j : Fin n => S i j).PosSemidef) (i j : Fin n) :
    (margins n m S).map (signedCoords ![i, j] fun _ => 1) =
      multivariateGaussian (toLp 2 ![m i, m j]) !![S i i, S i j; S j i, S j j] := by
  unfold margins
  rw [map_signedCoords hS]
  congr 1
  · ext k
    rw [signedCoords_apply]
    fin_cases k <;> simp
  · ext k l
    fin_cases k <;> fin_cases l <;> simp

theorem pair_posSemidef {n : ℕ} {S : ℕ → ℕ → ℝ}
    (hS : (Matrix.of fun i j : Fin n => S i j).PosSemidef) (i j : Fin n) :
    (!![S i i, S i j; S j i, S j j]).PosSemidef := by
  have := hS.submatrix ![i, j]
  convert this using 1
  ext k l
  fin_cases k <;> fin_cases l <;> simp

/-- A failed and a surviving road with positive covariance: less probable than what is computed. -/
theorem opposite_lt {n : ℕ} {m : ℕ → ℝ} {S : ℕ → ℕ → ℝ}
    (hS : (Matrix.of fun i j : Fin n => S i j).PosSemidef) (i j : Fin n) (hc : 0 < S i j) :
    (margins n m S).real {x | x i ≤ 0 ∧ 0 < x j} <
      (margins n m S).real {x | x i ≤ 0 ∧ x j ≤ 2 * m j} := by
  have h := orthant_lt (μ := toLp 2 ![m i, m j]) (pair_posSemidef hS i j) (by simpa using hc)
  rw [← margins_pair hS i j, map_measureReal_apply (by fun_prop)
      (ms_le_lt (by fun_prop) (by fun_prop) (by fun_prop) (by fun_prop)),
    map_measureReal_apply (by fun_prop)
      (ms_le_le (by fun_prop) (by fun_prop) (by fun_prop) (by fun_prop))] at h
  simpa [signedCoords_apply] using h

end BNS
