import Verif.Spec.RoadDist
import Verif.Proofs.PfMap

/-!
# Properties C83 to C85: distance to the epicentre, ground motion, failure of roads (`demos/pf_map`)
-/

namespace BNS

set_option linter.unusedSectionVars false

/-! ## C83: the distance of a point from a road -/

/-- For every road of positive length and every point, the computed number is the distance of the
nearest point of the road. -/
theorem C83_distance {x1 y1 x2 y2 : ℝ} (x0 y0 : ℝ) (h : x1 ≠ x2 ∨ y1 ≠ y2) :
    ∃ d, shortestDistance Real.sqrt [x1, y1] [x2, y2] [x0, y0] = .ok d ∧
      IsLeast (roadDists x1 y1 x2 y2 x0 y0) d := by
  have hL : 0 < (x2 - x1) ^ 2 + (y2 - y1) ^ 2 := by
    rcases h with h | h
    · have : x2 - x1 ≠ 0 := sub_ne_zero.2 (Ne.symm h)
      positivity
    · have : y2 - y1 ≠ 0 := sub_ne_zero.2 (Ne.symm h)
      positivity
  have hL' : (x1 - x2) ^ 2 + (y1 - y2) ^ 2 = (x2 - x1) ^ 2 + (y2 - y1) ^ 2 := by ring
  have hdot : (x0 - x2) * (x1 - x2) + (y0 - y2) * (y1 - y2) =
      ((x2 - x1) ^ 2 + (y2 - y1) ^ 2) - ((x0 - x1) * (x2 - x1) + (y0 - y1) * (y2 - y1)) := by ring
  have hnum : ((y2 - y1) * x0 - (x2 - x1) * y0 + x2 * y1 - y2 * x1) ^ 2 =
      ((x0 - x1) ^ 2 + (y0 - y1) ^ 2) * ((x2 - x1) ^ 2 + (y2 - y1) ^ 2) -
        ((x0 - x1) * (x2 - x1) + (y0 - y1) * (y2 - y1)) ^ 2 := by ring
  have hone : (x0 - x2) ^ 2 + (y0 - y2) ^ 2 = ((x0 - x1) ^ 2 + (y0 - y1) ^ 2) -
      2 * 1 * ((x0 - x1) * (x2 - x1) + (y0 - y1) * (y2 - y1)) +
        1 ^ 2 * ((x2 - x1) ^ 2 + (y2 - y1) ^ 2) := by ring
  have hden : (y2 - y1) ^ 2 + (x2 - x1) ^ 2 = (x2 - x1) ^ 2 + (y2 - y1) ^ 2 := by ring
  unfold shortestDistance
  simp only
  rw [if_neg hL.ne', hL', hdot, hden]
  unfold roadDists
  simp only [dist_line, hone]
  have hnum' : ∀ a : ℝ, (if a < 0 then -a else a) = √(a ^ 2) := by
    intro a
    rw [Real.sqrt_sq_eq_abs]
    split
    · rename_i h; rw [abs_of_neg h]
    · rename_i h; rw [abs_of_nonneg (not_lt.1 h)]
  rw [hnum', hnum]
  generalize (x0 - x1) * (x2 - x1) + (y0 - y1) * (y2 - y1) = s
  generalize (x2 - x1) ^ 2 + (y2 - y1) ^ 2 = L at *
  generalize (x0 - x1) ^ 2 + (y0 - y1) ^ 2 = a
  by_cases h1 : s / L < 0
  · rw [if_pos h1]
    have hs : s < 0 := by
      by_contra hc
      exact absurd h1 (not_lt.2 (div_nonneg (not_lt.1 hc) hL.le))
    refine ⟨_, rfl, ⟨0, le_rfl, zero_le_one, by ring_nf⟩, ?_⟩
    rintro d ⟨t, ht0, -, rfl⟩
    exact Real.sqrt_le_sqrt (dist_before hL hs ht0)
  · rw [if_neg h1]
    have hs : 0 ≤ s := by
      by_contra hc
      exact h1 (div_neg_of_neg_of_pos (not_le.1 hc) hL)
    by_cases h2 : (L - s) / L < 0
    · rw [if_pos h2]
      have hs' : L < s := by
        by_contra hc
        exact absurd h2 (not_lt.2 (div_nonneg (sub_nonneg.2 (not_lt.1 hc)) hL.le))
      refine ⟨_, rfl, ⟨1, zero_le_one, le_rfl, rfl⟩, ?_⟩
      rintro d ⟨t, -, ht1, rfl⟩
      exact Real.sqrt_le_sqrt (dist_behind hL hs' ht1)
    · rw [if_neg h2]
      have hs' : s ≤ L := by
        by_contra hc
        exact h2 (div_neg_of_neg_of_pos (sub_neg.2 (not_le.1 hc)) hL)
      have e : √(a * L - s ^ 2) / √L = √(a - s ^ 2 / L) := by
        rw [← Real.sqrt_div' _ hL.le]
        congr 1
        field_simp
      rw [e]
      refine ⟨_, rfl, ⟨s / L, div_nonneg hs hL.le, (div_le_one hL).2 hs', ?_⟩, ?_⟩
      · congr 1
        field_simp
        ring
      · rintro d ⟨t, -, -, rfl⟩
        exact Real.sqrt_le_sqrt (dist_at hL)

/-- The direction in which the road is given does not matter. -/
theorem C83_direction {x1 y1 x2 y2 : ℝ} (x0 y0 : ℝ) (h : x1 ≠ x2 ∨ y1 ≠ y2) :
    shortestDistance Real.sqrt [x1, y1] [x2, y2] [x0, y0] =
      shortestDistance Real.sqrt [x2, y2] [x1, y1] [x0, y0] := by
  obtain ⟨d, e1, h1⟩ := C83_distance x0 y0 h
  obtain ⟨d', e2, h2⟩ := C83_distance x0 y0 (h.imp Ne.symm Ne.symm)
  have hset : ∀ a1 b1 a2 b2 : ℝ, roadDists a1 b1 a2 b2 x0 y0 ⊆ roadDists a2 b2 a1 b1 x0 y0 := by
    rintro a1 b1 a2 b2 d ⟨t, ht0, ht1, rfl⟩
    refine ⟨1 - t, by linarith, by linarith, ?_⟩
    congr 1
    ring
  rw [Set.Subset.antisymm (hset x1 y1 x2 y2) (hset x2 y2 x1 y1)] at h1
  rw [e1, e2, h1.unique h2]

/-- A road from a node to itself, or to a node at the same place, raises instead of giving the
distance of that place. -/
theorem C83_not_loop (x y x0 y0 : ℝ) :
    shortestDistance Real.sqrt [x, y] [x, y] [x0, y0] = .error .value := by
  simp [shortestDistance]

/-- Coordinates in space are refused. -/
theorem C83_not_space (p1 p2 pt : List ℝ) (h : p1.length ≠ 2 ∨ p2.length ≠ 2 ∨ pt.length ≠ 2) :
    shortestDistance Real.sqrt p1 p2 pt = .error .value := by
  unfold shortestDistance
  split
  · simp at h
  · rfl

/-- The nearest point is inside the road (distance 1), before it, and behind it (distance 5). -/
example : shortestDistance Real.sqrt [0, 0] [2, 0] [1, 1] = .ok 1 ∧
    shortestDistance Real.sqrt [0, 0] [2, 0] [-3, 4] = .ok 5 ∧
    shortestDistance Real.sqrt [0, 0] [2, 0] [5, 4] = .ok 5 := by
  have e1 : √(25 : ℝ) = 5 := by rw [show (25 : ℝ) = 5 ^ 2 by norm_num]; exact Real.sqrt_sq (by norm_num)
  have e2 : √(4 : ℝ) = 2 := by rw [show (4 : ℝ) = 2 ^ 2 by norm_num]; exact Real.sqrt_sq (by norm_num)
  refine ⟨?_, ?_, ?_⟩ <;> norm_num [shortestDistance, e1, e2]

/-! ## C84: the ground motion -/

/-- For every accepted magnitude (and for smaller ones) the mean decreases with the distance, across the limits of
the near, middle and far field. -/
theorem C84_decreasing {Mw : ℝ} (h2 : Mw ≤ 8.5) :
    StrictAntiOn (gmpeLnSa Mw) (Set.Ici 0) := by
  intro r hr r' hr' hlt
  have hr0 : 0 ≤ r := hr
  have hsat := sat_le h2
  have hH : 0 < (0.299 * Real.exp (0.503 * Mw)) ^ 2 := by
    have := Real.exp_pos (0.503 * Mw)
    positivity
  unfold gmpeLnSa
  simp only [far_term]
  generalize (0.299 * Real.exp (0.503 * Mw)) ^ 2 = H at hsat hH ⊢
  have e : ∀ x : ℝ, Real.log √(x ^ 2 + H) = Real.log (x ^ 2 + H) / 2 := fun x =>
    Real.log_sqrt (by positivity)
  rw [e, e]
  have g1 := log_grow_max (θ := 0.713) (a := 70) hr0 hlt.le (by norm_num) hH.le (by positivity)
    (by norm_num) (by nlinarith)
  have g2 := log_grow_max (θ := 0.895) (a := 130) hr0 hlt.le (by norm_num) hH.le (by positivity)
    (by norm_num) (by nlinarith)
  have g3 : 0 ≤ Real.log (r' ^ 2 + H) - Real.log (r ^ 2 + H) := by
    have : Real.log (r ^ 2 + H) ≤ Real.log (r' ^ 2 + H) := by
      refine Real.log_le_log (by positivity) ?_
      have := pow_le_pow_left₀ hr0 hlt.le 2
      linarith
    linarith
  have g4 : 0 < (0.00255 - 0.000141 * Mw) * (r' - r) :=
    mul_pos (by linarith) (by linarith)
  nlinarith

/-- Up to magnitude 8.18 the mean grows with the magnitude, at every distance. -/
theorem C84_increasing_partial {r : ℝ} (hr : 0 ≤ r) :
    StrictMonoOn (fun Mw => gmpeLnSa Mw r) (Set.Iic 8.18) := by
  intro m _ m' hm' hlt
  have hm2 : m' ≤ 8.18 := hm'
  have hd : 0 < m' - m := sub_pos.2 hlt
  have key : Real.log √(r ^ 2 + (0.299 * Real.exp (0.503 * m')) ^ 2) ≤
      Real.log √(r ^ 2 + (0.299 * Real.exp (0.503 * m)) ^ 2) + 0.503 * (m' - m) := by
    have hE : 0 < Real.exp (0.503 * m) := Real.exp_pos _
    have hS : 0 < r ^ 2 + (0.299 * Real.exp (0.503 * m)) ^ 2 := by positivity
    have hg : 1 ≤ Real.exp (0.503 * (m' - m)) := Real.one_le_exp (by positivity)
    have e : Real.exp (0.503 * m') = Real.exp (0.503 * m) * Real.exp (0.503 * (m' - m)) := by
      rw [← Real.exp_add]
      congr 1
      ring
    have h1 : √(r ^ 2 + (0.299 * Real.exp (0.503 * m')) ^ 2) ≤
        √(r ^ 2 + (0.299 * Real.exp (0.503 * m)) ^ 2) * Real.exp (0.503 * (m' - m)) := by
      rw [Real.sqrt_le_left (by positivity), mul_pow (√_), Real.sq_sqrt hS.le, e]
      have h2 : 1 ≤ Real.exp (0.503 * (m' - m)) ^ 2 := one_le_pow₀ hg
      nlinarith [mul_le_mul_of_nonneg_left h2 (sq_nonneg r)]
    have h3 : 0 < √(r ^ 2 + (0.299 * Real.exp (0.503 * m)) ^ 2) := Real.sqrt_pos.2 hS
    have h4 : 0 < √(r ^ 2 + (0.299 * Real.exp (0.503 * m')) ^ 2) := by
      have : 0 < Real.exp (0.503 * m') := Real.exp_pos _
      positivity
    have h5 := Real.log_le_log h4 h1
    rwa [Real.log_mul h3.ne' (Real.exp_pos _).ne', Real.log_exp] at h5
  change gmpeLnSa m r < gmpeLnSa m' r
  unfold gmpeLnSa
  have h6 : 0 ≤ 0.000141 * (m' - m) * r := by positivity
  have h7 : (m' - m) * 0.58476 ≤ (m' - m) * (0.451 + 0.2090 * (17 - m - m')) :=
    mul_le_mul_of_nonneg_left (by linarith) hd.le
  simp only
  nlinarith

/-- Not up to 8.5, the largest magnitude accepted: at the source the mean of magnitude 8.4 is larger. -/
theorem C84_not_increasing : gmpeLnSa 8.5 0 < gmpeLnSa 8.4 0 := by
  have e : ∀ m : ℝ, Real.log √((0 : ℝ) ^ 2 + (0.299 * Real.exp (0.503 * m)) ^ 2) =
      Real.log 0.299 + 0.503 * m := by
    intro m
    have : 0 < Real.exp (0.503 * m) := Real.exp_pos _
    rw [show (0 : ℝ) ^ 2 + (0.299 * Real.exp (0.503 * m)) ^ 2 = (0.299 * Real.exp (0.503 * m)) ^ 2 by ring,
      Real.sqrt_sq (by positivity), Real.log_mul (by norm_num) this.ne', Real.log_exp]
  unfold gmpeLnSa
  simp only
  rw [e, e]
  norm_num
  linarith

section
variable {K : Type} [DecidableEq K]

/-- The standard deviation within an event is interpolated only in the area of the table, magnitudes
5 to 8.2 and distances 1 to 70: at the magnitude and the distance of the area nearest to those of the
road. -/
theorem C84_clip {bis : List ℝ → List ℝ → List ℝ → ℝ → ℝ → ℝ} {Mw sd : ℝ} {rrup ls ep : List (K × ℝ)}
    (h : gmpeCam03 bis Mw rrup = .ok (ls, sd, ep)) (i : ℕ) {k : K} {r : ℝ}
    (hi : rrup[i]? = some (k, r)) :
    ∃ m d : ℝ, ep[i]? = some (k, epsStd bis m d) ∧ 5 ≤ m ∧ m ≤ 8.2 ∧ 1 ≤ d ∧ d ≤ 70 ∧
      (∀ z : ℝ, 5 ≤ z → z ≤ 8.2 → |Mw - m| ≤ |Mw - z|) ∧
      ∀ z : ℝ, 1 ≤ z → z ≤ 70 → |r - d| ≤ |r - z| := by
  have clip : ∀ x a b : ℝ, a ≤ b → a ≤ npClip x a b ∧ npClip x a b ≤ b ∧
      ∀ z, a ≤ z → z ≤ b → |x - npClip x a b| ≤ |x - z| := by
    intro x a b hab
    unfold npClip
    refine ⟨le_min (le_max_right _ _) hab, min_le_right _ _, fun z h1 h2 => ?_⟩
    rcases le_total x a with hx | hx
    · rw [max_eq_right hx, min_eq_left hab, abs_of_nonpos (by linarith), abs_of_nonpos (by linarith)]
      linarith
    · rw [max_eq_left hx]
      rcases le_total x b with hb | hb
      · rw [min_eq_left hb, sub_self, abs_zero]
        exact abs_nonneg _
      · rw [min_eq_right hb, abs_of_nonneg (by linarith), abs_of_nonneg (by linarith)]
        linarith
  unfold gmpeCam03 at h
  split at h
  · cases h
    obtain ⟨m1, m2, m3⟩ := clip Mw 5 8.2 (by norm_num)
    obtain ⟨d1, d2, d3⟩ := clip r 1 70 (by norm_num)
    exact ⟨npClip Mw 5 8.2, npClip r 1 70, by rw [List.getElem?_map, hi]; rfl, m1, m2, d1, d2, m3, d3⟩
  · cases h

/-- Other magnitudes are refused, and for the accepted ones every road gets a mean and two standard
deviations, in the order of the roads. -/
theorem C84_range (bis : List ℝ → List ℝ → List ℝ → ℝ → ℝ → ℝ) (Mw : ℝ) (rrup : List (K × ℝ)) :
    (6 ≤ Mw ∧ Mw ≤ 8.5 → ∃ ls ep, gmpeCam03 bis Mw rrup = .ok (ls, gmpeStdAl Mw, ep) ∧
      ls.map Prod.fst = rrup.map Prod.fst ∧ ep.map Prod.fst = rrup.map Prod.fst ∧
      0 < gmpeStdAl Mw) ∧
    (¬ (6 ≤ Mw ∧ Mw ≤ 8.5) → gmpeCam03 bis Mw rrup = .error .assertion) := by
  refine ⟨fun h => ⟨rrup.map fun e => (e.1, gmpeLnSa Mw e.2),
    rrup.map fun e => (e.1, epsStd bis (npClip Mw 5 8.2) (npClip e.2 1 70)), ?_, ?_, ?_, ?_⟩,
    fun h => ?_⟩
  · unfold gmpeCam03
    rw [if_pos h]
  · simp
  · simp
  · unfold gmpeStdAl
    split <;> norm_num
  · unfold gmpeCam03
    rw [if_neg h]

end

/-- What the library promises for `s=0`: the surface goes through the given points. -/
def Interpolates (bis : List ℝ → List ℝ → List ℝ → ℝ → ℝ → ℝ) : Prop :=
  ∀ (xs ys zs : List ℝ) (i : ℕ) (x y z : ℝ), xs.length = ys.length → ys.length = zs.length →
    (List.zip xs ys).Nodup → xs[i]? = some x → ys[i]? = some y → zs[i]? = some z → bis xs ys zs x y = z

/-- Defect: the table has a row for each magnitude, the grid a row for each distance.  The tabulated
value for magnitude 6.2 and distance 1 is 0.15, the surface has 0.21 there, which is the value for
magnitude 5 and distance 5. -/
theorem C84_not_table {bis : List ℝ → List ℝ → List ℝ → ℝ → ℝ → ℝ} (h : Interpolates bis) :
    epsStd bis (31 / 5) 1 = 21 / 100 ∧ epsMw[3]? = some (31 / 5) ∧ epsRrup[0]? = some 1 ∧
      (epsVal[3]?.bind (·[0]?)) = some 15 ∧ (epsVal[0]?.bind (·[3]?)) = some 21 := by
  refine ⟨?_, by decide +kernel, by decide +kernel, by decide, by decide⟩
  have hz : (epsVal.flatten.map fun v : ℕ => (v : ℝ) / 100)[3]? = some (21 / 100) := by
    norm_num [epsVal]
  have hx : (epsGrid.map fun g => (g.1 : ℝ))[3]? = some (31 / 5) := by
    norm_num [epsGrid, epsMw, epsRrup]
  have hy : (epsGrid.map fun g => (g.2 : ℝ))[3]? = some 1 := by
    norm_num [epsGrid, epsMw, epsRrup]
  refine h _ _ _ 3 _ _ _ (by simp) ?_ ?_ hx hy hz
  · simp only [List.length_map]
    decide +kernel
  · have e : List.zip (epsGrid.map fun g => (g.1 : ℝ)) (epsGrid.map fun g => (g.2 : ℝ)) =
        epsGrid.map fun g => ((g.1 : ℝ), (g.2 : ℝ)) := by
      rw [List.zip_map']
    rw [e]
    refine List.Nodup.map ?_ (by decide +kernel)
    rintro ⟨a, b⟩ ⟨a', b'⟩ heq
    simpa using heq

/-- The table of deviations in hundredths as it is printed, line after line. -/
def epsPrinted : List ℕ :=
  [24, 25, 25, 21, 18, 13, 6, 10, 14, 17, 23, 22, 23, 23, 22, 19, 16, 10, 11, 14, 18, 23,
    19, 20, 21, 20, 19, 17, 14, 15, 18, 21, 27, 15, 15, 16, 16, 17, 16, 14, 15, 18, 21, 27,
    12, 13, 13, 13, 14, 14, 13, 15, 18, 21, 27, 13, 13, 13, 13, 14, 14, 14, 15, 17, 20, 27,
    14, 13, 13, 14, 15, 16, 16, 16, 18, 21, 27, 15, 15, 14, 15, 15, 17, 18, 18, 20, 22, 28,
    17, 17, 16, 16, 17, 18, 20, 21, 22, 23, 29]

/-- The surface at the points of the grid, magnitudes 5, 5.4, ..., 8.2 and the eleven distances: the
values of the table one after the other, magnitude after magnitude, are given to the points one after the
other, distance after distance. -/
theorem C84_surface {bis : List ℝ → List ℝ → List ℝ → ℝ → ℝ → ℝ} (h : Interpolates bis) {i j : ℕ} {r : ℚ}
    {v : ℕ} (hi : i < 9) (hj : ([1, 2, 3, 5, 7, 10, 20, 30, 40, 50, 70] : List ℚ)[j]? = some r)
    (hv : epsPrinted[9 * j + i]? = some v) :
    epsStd bis (5 + 2 / 5 * i) r = v / 100 := by
  have hg : ∀ i : ℕ, i < 9 → ∀ j : ℕ, j < 11 → epsGrid[9 * j + i]? =
      ([1, 2, 3, 5, 7, 10, 20, 30, 40, 50, 70] : List ℚ)[j]?.map fun r => (5 + 2 / 5 * (i : ℚ), r) := by
    decide +kernel
  have hj11 : j < 11 := (List.getElem?_eq_some_iff.1 hj).1
  have hp := hg i hi j hj11
  rw [hj] at hp
  have hx : (epsGrid.map fun g => (g.1 : ℝ))[9 * j + i]? = some (5 + 2 / 5 * (i : ℝ)) := by
    rw [List.getElem?_map, hp]
    simp
  have hy : (epsGrid.map fun g => (g.2 : ℝ))[9 * j + i]? = some (r : ℝ) := by
    rw [List.getElem?_map, hp]
    simp
  have hz : (epsVal.flatten.map fun v : ℕ => (v : ℝ) / 100)[9 * j + i]? = some ((v : ℝ) / 100) := by
    have : epsVal.flatten[9 * j + i]? = some v := hv
    rw [List.getElem?_map, this]
    rfl
  refine h _ _ _ (9 * j + i) _ _ _ (by simp) ?_ ?_ hx hy hz
  · simp only [List.length_map]
    decide +kernel
  · have e : List.zip (epsGrid.map fun g => (g.1 : ℝ)) (epsGrid.map fun g => (g.2 : ℝ)) =
        epsGrid.map fun g => ((g.1 : ℝ), (g.2 : ℝ)) := by
      rw [List.zip_map']
    rw [e]
    refine List.Nodup.map ?_ (by decide +kernel)
    rintro ⟨a, b⟩ ⟨a', b'⟩ heq
    simpa using heq

/-- Defect: below magnitude 7.16 the aleatory deviation does not depend on the magnitude and is
nearly twice the one above, so it jumps down there. -/
theorem C84_not_std_al : (∀ Mw : ℝ, Mw < 7.16 → gmpeStdAl Mw = 1.0307) ∧
    ∀ Mw : ℝ, 7.16 ≤ Mw → gmpeStdAl Mw = 0.543 := by
  refine ⟨fun Mw h => ?_, fun Mw h => ?_⟩
  · unfold gmpeStdAl
    rw [if_pos h]
    norm_num
  · unfold gmpeStdAl
    rw [if_neg (not_lt.2 h)]

/-! ## C85: the failure of the roads -/

section
variable {K : Type} [DecidableEq K]

private theorem itemsGet_eq {V : Type} {d : List (K × V)} {k : K} {v : V}
    (h : itemsGet d k = .ok v) : d.lookup k = some v := by
  unfold itemsGet dictGet at h
  cases hl : d.lookup k with
  | none => simp only [hl] at h; cases h
  | some w => simp only [hl] at h; cases h; rfl

private theorem road_dist {p1 p2 pt : List ℝ} {d : ℝ}
    (h : shortestDistance Real.sqrt p1 p2 pt = .ok d) :
    ∃ x1 y1 x2 y2 x0 y0, p1 = [x1, y1] ∧ p2 = [x2, y2] ∧ pt = [x0, y0] ∧ (x1 ≠ x2 ∨ y1 ≠ y2) ∧
      IsLeast (roadDists x1 y1 x2 y2 x0 y0) d := by
  have hl : p1.length = 2 ∧ p2.length = 2 ∧ pt.length = 2 := by
    by_contra hc
    rw [C83_not_space _ _ _ (by tauto)] at h
    cases h
  obtain ⟨h1, h2, h3⟩ := hl
  obtain ⟨x1, y1, rfl⟩ := List.length_eq_two.1 h1
  obtain ⟨x2, y2, rfl⟩ := List.length_eq_two.1 h2
  obtain ⟨x0, y0, rfl⟩ := List.length_eq_two.1 h3
  have hne : x1 ≠ x2 ∨ y1 ≠ y2 := by
    by_contra hc
    push Not at hc
    rw [hc.1, hc.2, C83_not_loop] at h
    cases h
  obtain ⟨d', e, hd⟩ := C83_distance x0 y0 hne
  rw [h] at e
  cases e
  exact ⟨x1, y1, x2, y2, x0, y0, rfl, rfl, rfl, hne, hd⟩

theorem lookup_mem_nodup {V : Type} {d : List (K × V)} (hn : (d.map Prod.fst).Nodup) {k : K}
    {v : V} (h : (k, v) ∈ d) : d.lookup k = some v := by
  induction d with
  | nil => cases h
  | cons a l ih =>
    rw [List.map_cons, List.nodup_cons] at hn
    rw [List.lookup_cons]
    rcases List.mem_cons.1 h with rfl | h
    · simp
    · have : k ≠ a.1 := fun hk => hn.1 (hk ▸ List.mem_map_of_mem (f := Prod.fst) h)
      rw [beq_false_of_ne this]
      exact ih hn.2 h

private theorem forall₂_fst {V W : Type} {l : List (K × V)} {m : List (K × W)}
    (h : List.Forall₂ (fun e d => d.1 = e.1) l m) : m.map Prod.fst = l.map Prod.fst := by
  induction h with
  | nil => rfl
  | cons hxy _ ih => rw [List.map_cons, List.map_cons, hxy, ih]

/-- What was computed on the way to a result. -/
private theorem edge_out {bis : List ℝ → List ℝ → List ℝ → ℝ → ℝ → ℝ} {cdf : ℝ → ℝ → ℝ → ℝ}
    {c : RoadCfg K} {eqName : K} {out : RoadOut K} (hn : (c.edges.map Prod.fst).Nodup)
    (h : calEdgeDistOutput bis cdf c eqName = .ok out) :
    ∃ epi Mw, c.eq.lookup eqName = some (epi, Mw) ∧ 6 ≤ Mw ∧ Mw ≤ 8.5 ∧
      ∃ ds : List (K × ℝ × ℝ × ℝ),
        out.pf = ds.map (fun d => (d.1, d.2.2.2)) ∧ out.mean = ds.map (fun d => (d.1, d.2.2.1)) ∧
        out.cov = roadCov (gmpeStdAl Mw) (ds.map fun d => d.2.1) ∧
        List.Forall₂ (fun (e : K × RoadEdge K) (d : K × ℝ × ℝ × ℝ) => d.1 = e.1 ∧
          ∃ x1 y1 x2 y2 x0 y0 r meds disp med, c.nodes.lookup e.2.origin = some [x1, y1] ∧
            c.nodes.lookup e.2.dest = some [x2, y2] ∧ epi = [x0, y0] ∧ (x1 ≠ x2 ∨ y1 ≠ y2) ∧
            IsLeast (roadDists x1 y1 x2 y2 x0 y0) r ∧ c.frag.lookup e.2.frag = some (meds, disp) ∧
            meds[2]? = some med ∧
            d.2.1 = gmpeStdAl Mw ^ 2 + epsStd bis (npClip Mw 5 8.2) (npClip r 1 70) ^ 2 + disp ^ 2 ∧
            d.2.2.1 = Real.log med - gmpeLnSa Mw r ∧ d.2.2.2 = cdf 0 d.2.2.1 (√d.2.1)) c.edges ds := by
  unfold calEdgeDistOutput at h
  obtain ⟨eq, h1, h⟩ := bind_ok.1 h
  obtain ⟨rrup, h2, h⟩ := bind_ok.1 h
  obtain ⟨g, h3, h⟩ := bind_ok.1 h
  obtain ⟨ds, h4, h⟩ := bind_ok.1 h
  cases h
  have hMw : 6 ≤ eq.2 ∧ eq.2 ≤ 8.5 := by
    by_contra hc
    rw [(C84_range bis eq.2 rrup).2 hc] at h3
    cases h3
  unfold gmpeCam03 at h3
  rw [if_pos hMw] at h3
  cases h3
  have f2 := mapM_ok_forall₂ h2
  have f4 := mapM_ok_forall₂ h4
  have hnames : rrup.map Prod.fst = c.edges.map Prod.fst := by
    refine forall₂_fst (f2.imp fun e d hxy => ?_)
    obtain ⟨_, _, hxy⟩ := bind_ok.1 hxy
    obtain ⟨_, _, hxy⟩ := bind_ok.1 hxy
    obtain ⟨_, _, hxy⟩ := bind_ok.1 hxy
    cases hxy
    rfl
  refine ⟨eq.1, eq.2, itemsGet_eq h1, hMw.1, hMw.2, ds, rfl, rfl, rfl, ?_⟩
  refine List.forall₂_iff_get.2 ⟨f4.length_eq, fun i hi hi' => ?_⟩
  have e4 := (List.forall₂_iff_get.1 f4).2 i hi hi'
  obtain ⟨v, e4, e5⟩ := bind_ok.1 e4
  have hi2 : i < rrup.length := by rw [← f2.length_eq]; exact hi
  have e2 := (List.forall₂_iff_get.1 f2).2 i hi hi2
  obtain ⟨org, o1, e2⟩ := bind_ok.1 e2
  obtain ⟨dest, o2, e2⟩ := bind_ok.1 e2
  obtain ⟨r, o3, e2⟩ := bind_ok.1 e2
  have e6 := Except.ok.inj e2
  obtain ⟨x1, y1, x2, y2, x0, y0, rfl, rfl, ep, hne, hd⟩ := road_dist o3
  unfold roadDist at e4
  obtain ⟨fr, q1, e4⟩ := bind_ok.1 e4
  obtain ⟨med, q2, e4⟩ := bind_ok.1 e4
  obtain ⟨sep, q3, e4⟩ := bind_ok.1 e4
  obtain ⟨ls, q4, e4⟩ := bind_ok.1 e4
  have hr : (c.edges.get ⟨i, hi⟩).1 = (rrup.get ⟨i, hi2⟩).1 ∧ r = (rrup.get ⟨i, hi2⟩).2 := by
    have : ((c.edges.get ⟨i, hi⟩).1, r) = rrup.get ⟨i, hi2⟩ := e6
    rw [← this]
    exact ⟨rfl, rfl⟩
  have hmem : ∀ f : ℝ → ℝ, ∀ w,
      (rrup.map fun e => (e.1, f e.2)).lookup (c.edges.get ⟨i, hi⟩).1 = some w → w = f r := by
    intro f w hw
    have hm := lookup_mem_nodup (d := rrup.map fun e => (e.1, f e.2)) (by
      rw [List.map_map]
      show (rrup.map Prod.fst).Nodup
      rw [hnames]
      exact hn) (List.mem_map_of_mem (f := fun e => (e.1, f e.2)) (List.get_mem rrup ⟨i, hi2⟩))
    rw [← hr.1, hw] at hm
    rw [hr.2]
    exact Option.some.inj hm
  have hls := hmem (gmpeLnSa eq.2) ls (itemsGet_eq q4)
  have hsep := hmem (fun x => epsStd bis (npClip eq.2 5 8.2) (npClip x 1 70)) sep (itemsGet_eq q3)
  have hd1 : ds.get ⟨i, hi'⟩ = ((c.edges.get ⟨i, hi⟩).1, v) := (Except.ok.inj e5).symm
  have hv : v = (gmpeStdAl eq.2 ^ 2 + sep ^ 2 + fr.2 ^ 2, Real.log med - ls,
      cdf 0 (Real.log med - ls) (√(gmpeStdAl eq.2 ^ 2 + sep ^ 2 + fr.2 ^ 2))) :=
    (Except.ok.inj e4).symm
  refine ⟨by rw [hd1], x1, y1, x2, y2, x0, y0, r, fr.1, fr.2, med, itemsGet_eq o1, itemsGet_eq o2,
    ep, hne, hd, itemsGet_eq q1, ?_, ?_, ?_, ?_⟩
  · unfold pyGet at q2
    split at q2
    · rename_i a ha
      cases q2
      exact ha
    · cases q2
  · rw [hd1, hv, hsep]
  · rw [hd1, hv, hls]
  · rw [hd1, hv]

/-- Whenever the call returns: the magnitude is in the range, and every road gets the probability that
a normal variable with mean log(median of its type) minus the ground motion at its true distance from
the epicentre, and the sum of the three variances, is at most zero. -/
theorem C85_roads {bis : List ℝ → List ℝ → List ℝ → ℝ → ℝ → ℝ} {cdf : ℝ → ℝ → ℝ → ℝ}
    {c : RoadCfg K} {eqName : K} {out : RoadOut K} (hn : (c.edges.map Prod.fst).Nodup)
    (h : calEdgeDistOutput bis cdf c eqName = .ok out) :
    ∃ epi Mw, c.eq.lookup eqName = some (epi, Mw) ∧ 6 ≤ Mw ∧ Mw ≤ 8.5 ∧
      out.pf.map Prod.fst = c.edges.map Prod.fst ∧ out.mean.map Prod.fst = c.edges.map Prod.fst ∧
      ∀ k e, (k, e) ∈ c.edges → ∃ x1 y1 x2 y2 x0 y0 r meds disp med,
        c.nodes.lookup e.origin = some [x1, y1] ∧ c.nodes.lookup e.dest = some [x2, y2] ∧
        epi = [x0, y0] ∧ (x1 ≠ x2 ∨ y1 ≠ y2) ∧ IsLeast (roadDists x1 y1 x2 y2 x0 y0) r ∧
        c.frag.lookup e.frag = some (meds, disp) ∧ meds[2]? = some med ∧
        out.mean.lookup k = some (Real.log med - gmpeLnSa Mw r) ∧
        out.pf.lookup k = some (cdf 0 (Real.log med - gmpeLnSa Mw r)
          (√(gmpeStdAl Mw ^ 2 + epsStd bis (npClip Mw 5 8.2) (npClip r 1 70) ^ 2 + disp ^ 2))) := by
  obtain ⟨epi, Mw, h1, h2, h3, ds, hp, hm, -, hf⟩ := edge_out hn h
  have hds : ds.map Prod.fst = c.edges.map Prod.fst := by
    exact forall₂_fst (hf.imp fun _ _ hxy => hxy.1)
  have hfst : ∀ g : ℝ × ℝ × ℝ → ℝ, (ds.map fun d => (d.1, g d.2)).map Prod.fst =
      c.edges.map Prod.fst := by
    intro g
    rw [List.map_map, ← hds]
    rfl
  refine ⟨epi, Mw, h1, h2, h3, by rw [hp]; exact hfst (·.2.2), by rw [hm]; exact hfst (·.2.1), ?_⟩
  intro k e hke
  obtain ⟨i, hi, hie⟩ := List.getElem_of_mem hke
  have hi' : i < ds.length := by rw [← hf.length_eq]; exact hi
  obtain ⟨hd, x1, y1, x2, y2, x0, y0, r, meds, disp, med, q1, q2, q3, q4, q5, q6, q7, q8, q9, q10⟩ :=
    (List.forall₂_iff_get.1 hf).2 i hi hi'
  simp only [List.get_eq_getElem, hie] at hd q1 q2 q6 q8 q9 q10
  have hmem : ∀ g : ℝ × ℝ × ℝ → ℝ, (ds.map fun d => (d.1, g d.2)).lookup k = some (g ds[i].2) := by
    intro g
    refine lookup_mem_nodup (by rw [hfst g]; exact hn) ?_
    rw [← hd]
    exact List.mem_map_of_mem (f := fun d => (d.1, g d.2)) (List.getElem_mem hi')
  refine ⟨x1, y1, x2, y2, x0, y0, r, meds, disp, med, q1, q2, q3, q4, q5, q6, q7, ?_, ?_⟩
  · rw [hm, hmem (·.2.1), q9]
  · rw [hp, hmem (·.2.2), q10, q9, q8]

/-- Hence a network with a road between two nodes at the same place cannot be analysed. -/
theorem C85_loop_raises {bis : List ℝ → List ℝ → List ℝ → ℝ → ℝ → ℝ} {cdf : ℝ → ℝ → ℝ → ℝ}
    {c : RoadCfg K} {eqName : K} (hn : (c.edges.map Prod.fst).Nodup) {k : K} {e : RoadEdge K}
    (he : (k, e) ∈ c.edges) (hp : c.nodes.lookup e.origin = c.nodes.lookup e.dest) (out : RoadOut K) :
    calEdgeDistOutput bis cdf c eqName ≠ .ok out := by
  intro h
  obtain ⟨_, _, -, -, -, -, -, hr⟩ := C85_roads hn h
  obtain ⟨x1, y1, x2, y2, _, _, _, _, _, _, q1, q2, -, hne, -⟩ := hr k e he
  rw [q1, q2] at hp
  simp only [Option.some.injEq, List.cons.injEq, and_true] at hp
  rcases hne with hne | hne
  · exact hne hp.1
  · exact hne hp.2

private theorem exists_mapM {A B : Type} {f : A → Except Err B} {l : List A}
    (h : ∀ a ∈ l, ∃ b, f a = .ok b) : ∃ bs, l.mapM f = .ok bs := by
  induction l with
  | nil => exact ⟨[], rfl⟩
  | cons a l ih =>
    obtain ⟨b, hb⟩ := h a List.mem_cons_self
    obtain ⟨bs, hbs⟩ := ih fun x hx => h x (List.mem_cons_of_mem _ hx)
    exact ⟨b :: bs, by rw [List.mapM_cons, hb, hbs]; rfl⟩

/-- It does return when the earthquake is known and its magnitude is in the range, the nodes have two
coordinates, the ends of a road are apart, and every road has a type with at least three medians. -/
theorem C85_returns {bis : List ℝ → List ℝ → List ℝ → ℝ → ℝ → ℝ} {cdf : ℝ → ℝ → ℝ → ℝ}
    {c : RoadCfg K} {eqName : K} (hn : (c.edges.map Prod.fst).Nodup) {x0 y0 Mw : ℝ}
    (heq : c.eq.lookup eqName = some ([x0, y0], Mw)) (h6 : 6 ≤ Mw) (h8 : Mw ≤ 8.5)
    (he : ∀ k e, (k, e) ∈ c.edges → ∃ x1 y1 x2 y2 meds disp,
      c.nodes.lookup e.origin = some [x1, y1] ∧ c.nodes.lookup e.dest = some [x2, y2] ∧
      (x1 ≠ x2 ∨ y1 ≠ y2) ∧ c.frag.lookup e.frag = some (meds, disp) ∧ 3 ≤ meds.length) :
    ∃ out, calEdgeDistOutput bis cdf c eqName = .ok out := by
  have hg : ∀ {V : Type} {d : List (K × V)} {k : K} {v : V}, d.lookup k = some v →
      itemsGet d k = .ok v := by
    intro V d k v h
    unfold itemsGet dictGet
    simp only [h]
  have hr : ∃ rrup, roadRrup c [x0, y0] = .ok rrup := by
    refine exists_mapM fun e hm => ?_
    obtain ⟨x1, y1, x2, y2, -, -, q1, q2, q3, -⟩ := he e.1 e.2 hm
    obtain ⟨d, hd, -⟩ := C83_distance x0 y0 q3
    exact ⟨(e.1, d), by rw [hg q1, ok_bind, hg q2, ok_bind, hd]; rfl⟩
  obtain ⟨rrup, hr⟩ := hr
  have hnames : rrup.map Prod.fst = c.edges.map Prod.fst := by
    refine forall₂_fst ((mapM_ok_forall₂ hr).imp fun e d hxy => ?_)
    obtain ⟨_, _, hxy⟩ := bind_ok.1 hxy
    obtain ⟨_, _, hxy⟩ := bind_ok.1 hxy
    obtain ⟨_, _, hxy⟩ := bind_ok.1 hxy
    cases hxy
    rfl
  have hlk : ∀ f : ℝ → ℝ, ∀ e ∈ c.edges, ∃ w, itemsGet (rrup.map fun e => (e.1, f e.2)) e.1 = .ok w := by
    intro f e hm
    have : e.1 ∈ rrup.map Prod.fst := by
      rw [hnames]
      exact List.mem_map_of_mem (f := Prod.fst) hm
    obtain ⟨q, hq, hqe⟩ := List.mem_map.1 this
    refine ⟨f q.2, hg (lookup_mem_nodup ?_ ?_)⟩
    · rw [List.map_map]
      show (rrup.map Prod.fst).Nodup
      rw [hnames]
      exact hn
    · rw [← hqe]
      exact List.mem_map_of_mem (f := fun e => (e.1, f e.2)) hq
  have hds : ∃ ds, (c.edges.mapM fun e => do
      let d ← roadDist cdf c (rrup.map fun e => (e.1, gmpeLnSa Mw e.2)) (gmpeStdAl Mw)
        (rrup.map fun e => (e.1, epsStd bis (npClip Mw 5 8.2) (npClip e.2 1 70))) e
      return (e.1, d) : Except Err _) = .ok ds := by
    refine exists_mapM fun e hm => ?_
    obtain ⟨-, -, -, -, meds, disp, -, -, -, q4, q5⟩ := he e.1 e.2 hm
    obtain ⟨ls, w1⟩ := hlk (gmpeLnSa Mw) e hm
    obtain ⟨ep, w2⟩ := hlk (fun x => epsStd bis (npClip Mw 5 8.2) (npClip x 1 70)) e hm
    obtain ⟨med, hmed⟩ : ∃ med, pyGet meds 2 = .ok med := ⟨meds[2], by
      unfold pyGet
      rw [List.getElem?_eq_getElem (by omega)]⟩
    unfold roadDist
    rw [hg q4, ok_bind, hmed, ok_bind, w2, ok_bind, w1, ok_bind]
    exact ⟨_, rfl⟩
  obtain ⟨ds, hds⟩ := hds
  unfold calEdgeDistOutput
  rw [hg heq, ok_bind, hr, ok_bind]
  unfold gmpeCam03
  rw [if_pos ⟨h6, h8⟩, ok_bind, hds, ok_bind]
  exact ⟨_, rfl⟩

/-- Entry of a matrix given as a list of rows. -/
def entry (A : List (List ℝ)) (i j : ℕ) : ℝ := (A.getD i []).getD j 0

/-- The covariance matrix has a row and a column for each road, it is symmetric and positive
semidefinite, its diagonal has the variances with which the failure probabilities were computed, and
all its other entries are the common (aleatory) variance, which no variance is below. -/
theorem C85_covariance {bis : List ℝ → List ℝ → List ℝ → ℝ → ℝ → ℝ} {cdf : ℝ → ℝ → ℝ → ℝ}
    {c : RoadCfg K} {eqName : K} {out : RoadOut K} (hn : (c.edges.map Prod.fst).Nodup)
    (h : calEdgeDistOutput bis cdf c eqName = .ok out) :
    out.cov.length = c.edges.length ∧ (∀ row ∈ out.cov, row.length = c.edges.length) ∧
    (∀ i < c.edges.length, ∃ k m p, out.mean[i]? = some (k, m) ∧ out.pf[i]? = some (k, p) ∧
      p = cdf 0 m (√(entry out.cov i i))) ∧
    (∃ epi Mw, c.eq.lookup eqName = some (epi, Mw) ∧
      (∀ i < c.edges.length, gmpeStdAl Mw ^ 2 ≤ entry out.cov i i) ∧
      ∀ i < c.edges.length, ∀ j < c.edges.length, i ≠ j → entry out.cov i j = gmpeStdAl Mw ^ 2) ∧
    (∀ i < c.edges.length, ∀ j < c.edges.length, entry out.cov i j = entry out.cov j i) ∧
    ∀ w : ℕ → ℝ, 0 ≤ ∑ i ∈ Finset.range c.edges.length, ∑ j ∈ Finset.range c.edges.length,
      w i * w j * entry out.cov i j := by
  obtain ⟨epi, Mw, h1, -, -, ds, hp, hm, hcov, hf⟩ := edge_out hn h
  have hlen := hf.length_eq
  have hat : ∀ i (hi : i < c.edges.length), ∃ d, ds[i]? = some d ∧
      (ds.map fun d => d.2.1).getD i 0 = d.2.1 ∧ gmpeStdAl Mw ^ 2 ≤ d.2.1 ∧
      d.2.2.2 = cdf 0 d.2.2.1 (√d.2.1) := by
    intro i hi
    have hi' : i < ds.length := by rw [← hlen]; exact hi
    obtain ⟨-, x1, y1, x2, y2, x0, y0, r, meds, disp, med, -, -, -, -, -, -, -, q8, -, q10⟩ :=
      (List.forall₂_iff_get.1 hf).2 i hi hi'
    refine ⟨ds[i], List.getElem?_eq_getElem hi', ?_, ?_, q10⟩
    · simp [hi']
    · simp only [List.get_eq_getElem] at q8
      rw [q8]
      nlinarith [sq_nonneg disp, sq_nonneg (epsStd bis (npClip Mw 5 8.2) (npClip r 1 70))]
  set vars := ds.map fun d => d.2.1 with hvars
  have hvl : vars.length = c.edges.length := by rw [hvars, List.length_map, hlen]
  have hent : ∀ i < c.edges.length, ∀ j < c.edges.length, entry out.cov i j =
      if i = j then vars.getD i 0 else gmpeStdAl Mw ^ 2 := by
    intro i hi j hj
    rw [← hvl] at hi hj
    rw [hcov]
    simp only [entry, roadCov, List.getD_eq_getElem?_getD, List.getElem?_map, List.getElem?_zipIdx,
      List.getElem?_eq_getElem hi, List.getElem?_eq_getElem hj, Option.map_some, Option.getD_some,
      Nat.zero_add]
  refine ⟨by simp [hcov, roadCov, hvl], ?_, ?_, ⟨epi, Mw, h1, ?_, ?_⟩, ?_, ?_⟩
  · intro row hrow
    rw [hcov, roadCov] at hrow
    obtain ⟨_, _, rfl⟩ := List.mem_map.1 hrow
    simp [hvl]
  · intro i hi
    obtain ⟨d, hd, hv, -, hpd⟩ := hat i hi
    refine ⟨d.1, d.2.2.1, d.2.2.2, ?_, ?_, ?_⟩
    · rw [hm, List.getElem?_map, hd]; rfl
    · rw [hp, List.getElem?_map, hd]; rfl
    · rw [hent i hi i hi, if_pos rfl, hv, hpd]
  · intro i hi
    obtain ⟨d, -, hv, hle, -⟩ := hat i hi
    rw [hent i hi i hi, if_pos rfl, hv]
    exact hle
  · intro i hi j hj hij
    rw [hent i hi j hj, if_neg hij]
  · intro i hi j hj
    rw [hent i hi j hj, hent j hj i hi]
    by_cases hij : i = j
    · rw [hij]
    · rw [if_neg hij, if_neg (Ne.symm hij)]
  · intro w
    have e1 : ∑ i ∈ Finset.range c.edges.length, ∑ j ∈ Finset.range c.edges.length,
        w i * w j * entry out.cov i j =
        gmpeStdAl Mw ^ 2 * (∑ i ∈ Finset.range c.edges.length, w i) ^ 2 +
          ∑ i ∈ Finset.range c.edges.length, w i ^ 2 * (vars.getD i 0 - gmpeStdAl Mw ^ 2) := by
      rw [sq (∑ i ∈ _, w i), Finset.sum_mul_sum, Finset.mul_sum, ← Finset.sum_add_distrib]
      refine Finset.sum_congr rfl fun i hi => ?_
      have hi := Finset.mem_range.1 hi
      rw [Finset.mul_sum]
      have : ∀ j ∈ Finset.range c.edges.length, w i * w j * entry out.cov i j =
          gmpeStdAl Mw ^ 2 * (w i * w j) +
            if j = i then w i ^ 2 * (vars.getD i 0 - gmpeStdAl Mw ^ 2) else 0 := by
        intro j hj
        rw [hent i hi j (Finset.mem_range.1 hj)]
        by_cases hij : i = j
        · subst hij
          rw [if_pos rfl, if_pos rfl]
          ring
        · rw [if_neg hij, if_neg (Ne.symm hij)]
          ring
      rw [Finset.sum_congr rfl this, Finset.sum_add_distrib, Finset.sum_ite_eq',
        if_pos (Finset.mem_range.2 hi)]
    rw [e1]
    refine add_nonneg (mul_nonneg (sq_nonneg _) (sq_nonneg _)) (Finset.sum_nonneg fun i hi => ?_)
    obtain ⟨d, -, hv, hle, -⟩ := hat i (Finset.mem_range.1 hi)
    rw [hv]
    exact mul_nonneg (sq_nonneg _) (by linarith)

end

/-- Two roads of a small network, for the hypotheses above. -/
noncomputable def smallRoads : RoadCfg ℕ where
  edges := [(1, ⟨1, 2, 7⟩), (2, ⟨2, 3, 7⟩)]
  nodes := [(1, [0, 0]), (2, [10, 0]), (3, [10, 20])]
  frag := [(7, [0.1, 0.2, 0.4], 0.6)]
  eq := [(5, [3, 4], 7)]

example (bis : List ℝ → List ℝ → List ℝ → ℝ → ℝ → ℝ) (cdf : ℝ → ℝ → ℝ → ℝ) :
    ∃ out, calEdgeDistOutput bis cdf smallRoads 5 = .ok out ∧ out.cov.length = 2 ∧
      (smallRoads.edges.map Prod.fst).Nodup := by
  have hn : (smallRoads.edges.map Prod.fst).Nodup := by simp [smallRoads]
  obtain ⟨out, h⟩ := C85_returns (bis := bis) (cdf := cdf) (c := smallRoads) (eqName := 5) hn
    (x0 := 3) (y0 := 4) (Mw := 7) rfl (by norm_num) (by norm_num) (by
      intro k e h
      simp only [smallRoads, List.mem_cons, Prod.mk.injEq, List.not_mem_nil, or_false] at h
      rcases h with ⟨rfl, rfl⟩ | ⟨rfl, rfl⟩
      · exact ⟨0, 0, 10, 0, [0.1, 0.2, 0.4], 0.6, rfl, rfl, Or.inl (by norm_num), rfl, le_refl _⟩
      · exact ⟨10, 0, 10, 20, [0.1, 0.2, 0.4], 0.6, rfl, rfl, Or.inr (by norm_num), rfl, le_refl _⟩)
  exact ⟨out, h, (C85_covariance hn h).1, hn⟩

end BNS
