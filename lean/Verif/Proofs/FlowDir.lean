import Verif.Spec.FlowDir
import Verif.Model.MaxFlowDemo
import Verif.Proofs.Flow

/-!
# Lemmas on flows in networks whose edges have one or two directions
-/

namespace BNS

set_option linter.unusedSectionVars false

section
variable {K N : Type} [DecidableEq K] [DecidableEq N]

/-! ## A library -/

theorem capIn_true (G : CapGraph N) (u v : N) : capIn true G u v = capOf G u v := rfl

theorem capIn_nonneg (bi : Bool) {G : CapGraph N} (h : ∀ e ∈ G, 0 ≤ e.2.2) (u v : N) :
    0 ≤ capIn bi G u v := by
  cases bi with
  | true => exact capOf_nonneg h u v
  | false =>
    simp only [capIn, Bool.false_eq_true, if_false]
    cases hf : G.find? fun e => decide (e.1 = u ∧ e.2.1 = v) with
    | none => exact le_refl _
    | some e => exact h e (List.mem_of_find?_eq_some hf)

theorem capIn_outside (bi : Bool) (G : CapGraph N) (u v : N) (h : u ∉ nodesOf G ∨ v ∉ nodesOf G) :
    capIn bi G u v = 0 := by
  cases bi with
  | true => exact capOf_outside G u v h
  | false =>
    simp only [capIn, Bool.false_eq_true, if_false]
    cases hf : G.find? fun e => decide (e.1 = u ∧ e.2.1 = v) with
    | none => rfl
    | some e =>
      exfalso
      have he := List.mem_of_find?_eq_some hf
      have hj : e.1 = u ∧ e.2.1 = v := by simpa using List.find?_some hf
      rcases h with h | h
      · exact h (mem_nodesOf.2 ⟨e, he, .inl hj.1⟩)
      · exact h (mem_nodesOf.2 ⟨e, he, .inr hj.2⟩)

open Classical in
/-- Some maximum flow, where there is one. -/
noncomputable def bestDirLib : Bool → FlowLib N := fun bi G s t =>
  if h : (∃ r : (N → N → ℚ) × ℚ, IsFlow (nodesOf G) (capIn bi G) s t r.1 r.2 ∧
      ∀ g' val', IsFlow (nodesOf G) (capIn bi G) s t g' val' → val' ≤ r.2) ∧
      s ∈ nodesOf G ∧ t ∈ nodesOf G ∧ s ≠ t
  then .ok (h.1.choose.2, fun u v => max (h.1.choose.1 u v) 0)
  else .error .graph

theorem bestDirLib_ok : FlowDirLibOK (bestDirLib : Bool → FlowLib N) where
  best bi G s t hG hs ht hst := by
    obtain ⟨g, val, h1, h2⟩ := exists_max_flow (capIn_nonneg bi hG) (capIn_outside bi G) hs hst
    have h : (∃ r : (N → N → ℚ) × ℚ, IsFlow (nodesOf G) (capIn bi G) s t r.1 r.2 ∧
      ∀ g' val', IsFlow (nodesOf G) (capIn bi G) s t g' val' → val' ≤ r.2) ∧
      s ∈ nodesOf G ∧ t ∈ nodesOf G ∧ s ≠ t := ⟨⟨(g, val), h1, h2⟩, hs, ht, hst⟩
    refine ⟨h.1.choose.2, h.1.choose.1, ?_, h.1.choose_spec.1, h.1.choose_spec.2⟩
    unfold bestDirLib
    rw [dif_pos h]
  raises bi G s t h := by
    unfold bestDirLib
    rw [dif_neg]
    rintro ⟨-, h1, h2, h3⟩
    rcases h with h | h | h
    · exact h h1
    · exact h h2
    · exact h3 h

/-! ## Sums over the components of one direction -/

/-- What the components from `u` to `v` carry. -/
def arcSum (ks : List K) (ends : K → N × N) (φ : K → ℚ) (u v : N) : ℚ :=
  (ks.map fun k => if (ends k).1 = u ∧ (ends k).2 = v then φ k else 0).sum

theorem between_arcSum (ks : List K) (ends : K → N × N) (φ : K → ℚ) (u v : N) :
    between ks ends φ u v = arcSum ks ends φ u v - arcSum ks ends φ v u := by
  unfold between arcSum
  induction ks with
  | nil => simp
  | cons k ks ih =>
    simp only [List.map_cons, List.sum_cons]
    rw [ih]
    simp only [and_comm (a := (ends k).2 = u)]
    ring

theorem arcSum_none (ks : List K) (ends : K → N × N) (φ : K → ℚ) (u v : N)
    (h : ∀ k ∈ ks, ends k ≠ (u, v)) : arcSum ks ends φ u v = 0 := by
  unfold arcSum
  induction ks with
  | nil => rfl
  | cons k ks ih =>
    rw [List.map_cons, List.sum_cons, ih fun k' hk' => h k' (by simp [hk']), if_neg, add_zero]
    intro hh
    exact h k (by simp) (Prod.ext_iff.2 hh)

theorem arcSum_one (ks : List K) (ends : K → N × N) (φ : K → ℚ)
    (hs : ks.Pairwise fun a b => ends a ≠ ends b) {k : K} (hk : k ∈ ks) {u v : N}
    (he : ends k = (u, v)) : arcSum ks ends φ u v = φ k := by
  induction ks with
  | nil => cases hk
  | cons a ks ih =>
    rw [List.pairwise_cons] at hs
    have hcons : arcSum (a :: ks) ends φ u v =
        (if (ends a).1 = u ∧ (ends a).2 = v then φ a else 0) + arcSum ks ends φ u v := rfl
    rw [hcons]
    rcases List.mem_cons.1 hk with rfl | hk
    · rw [if_pos (Prod.ext_iff.1 he), arcSum_none ks ends φ u v fun k' hk' hh =>
        hs.1 k' hk' (he.trans hh.symm), add_zero]
    · rw [if_neg (fun hh => hs.1 k hk ((Prod.ext_iff.2 hh).trans he.symm)), ih hs.2 hk, zero_add]

theorem arcSum_nonneg (ks : List K) (ends : K → N × N) (φ : K → ℚ) (h : ∀ k ∈ ks, 0 ≤ φ k) (u v : N) :
    0 ≤ arcSum ks ends φ u v := by
  unfold arcSum
  refine List.sum_nonneg fun a ha => ?_
  obtain ⟨k, hk, rfl⟩ := List.mem_map.1 ha
  split
  · exact h k hk
  · exact le_refl _

/-! ## The directed graph -/

variable {ks : List K} {ends : K → N × N} {cap : K → ℚ} {o d newT : N} {target : ℚ}

/-- The conditions on a network with directions, for a list of components. -/
structure DNetOK (ks : List K) (ends : K → N × N) (o d newT : N) : Prop where
  single : ks.Pairwise fun a b => ends a ≠ ends b
  fresh : ∀ k ∈ ks, (ends k).1 ≠ newT ∧ (ends k).2 ≠ newT
  origin : ∃ k ∈ ks, (ends k).1 = o ∨ (ends k).2 = o
  od : o ≠ d
  dest : d ≠ newT

theorem DNetOK.originNew (h : DNetOK ks ends o d newT) : o ≠ newT := by
  obtain ⟨k, hk, h1⟩ := h.origin
  rintro rfl
  exact h1.elim (h.fresh k hk).1 (h.fresh k hk).2

theorem DNetOK.notEnds (h : DNetOK ks ends o d newT) {u v : N} (huv : u = newT ∨ v = newT) :
    ∀ k ∈ ks, ends k ≠ (u, v) := by
  intro k hk he
  have h2 := h.fresh k hk
  rw [he] at h2
  rcases huv with rfl | rfl
  · exact h2.1 rfl
  · exact h2.2 rfl

theorem capDir_component (hs : ks.Pairwise fun a b => ends a ≠ ends b) {k : K} (hk : k ∈ ks) {u v : N}
    (he : ends k = (u, v)) : capIn false (netGraph ks ends cap d newT target) u v = cap k := by
  simp only [capIn, Bool.false_eq_true, if_false, netGraph]
  induction ks with
  | nil => cases hk
  | cons a ks ih =>
    rw [List.pairwise_cons] at hs
    rw [List.map_cons, List.cons_append, List.find?_cons]
    by_cases ha : (ends a).1 = u ∧ (ends a).2 = v
    · rw [decide_eq_true ha]
      rcases List.mem_cons.1 hk with rfl | hk
      · rfl
      · exact absurd ((Prod.ext_iff.2 ha).trans he.symm) (hs.1 k hk)
    · rw [decide_eq_false ha]
      rcases List.mem_cons.1 hk with rfl | hk
      · exact absurd (Prod.ext_iff.1 he) ha
      · exact ih hs.2 hk

theorem capDir_rest {u v : N} (h : ∀ k ∈ ks, ends k ≠ (u, v)) :
    capIn false (netGraph ks ends cap d newT target) u v =
      if d = u ∧ newT = v then target else 0 := by
  simp only [capIn, Bool.false_eq_true, if_false, netGraph]
  rw [List.find?_append]
  have h1 : (ks.map fun k => ((ends k).1, (ends k).2, cap k)).find?
      (fun e => decide (e.1 = u ∧ e.2.1 = v)) = none := by
    rw [List.find?_eq_none]
    intro e he
    obtain ⟨k, hk, rfl⟩ := List.mem_map.1 he
    simpa using fun h1 h2 => h k hk (Prod.ext_iff.2 ⟨h1, h2⟩)
  rw [h1]
  simp only [Option.none_or, List.find?_cons, List.find?_nil]
  by_cases hh : d = u ∧ newT = v
  · rw [decide_eq_true hh, if_pos hh]
  · rw [decide_eq_false hh, if_neg hh]

section FromGraph
variable {g : N → N → ℚ} {val : ℚ}

/-- What the components from `u` to `v` carry is what the flow reports. -/
theorem arcSum_flow (hn : DNetOK ks ends o d newT)
    (hf : IsFlow (nodesOf (netGraph ks ends cap d newT target))
      (capIn false (netGraph ks ends cap d newT target)) o newT g val) {u v : N}
    (h : ¬ (d = u ∧ newT = v)) :
    arcSum ks ends (fun k => max (g (ends k).1 (ends k).2) 0) u v = max (g u v) 0 := by
  by_cases hk : ∃ k ∈ ks, ends k = (u, v)
  · obtain ⟨k, hk, he⟩ := hk
    rw [arcSum_one ks ends _ hn.single hk he, he]
  · have hk : ∀ k ∈ ks, ends k ≠ (u, v) := fun k h1 h2 => hk ⟨k, h1, h2⟩
    have hc := hf.cap u v
    rw [capDir_rest hk, if_neg h] at hc
    rw [arcSum_none ks ends _ u v hk, max_eq_right hc]

theorem flow_out_dir (hn : DNetOK ks ends o d newT)
    (hf : IsFlow (nodesOf (netGraph ks ends cap d newT target))
      (capIn false (netGraph ks ends cap d newT target)) o newT g val) {n : N} (hne : n ≠ newT) :
    ∑ v ∈ nodesOf (netGraph ks ends cap d newT target), g n v =
      netOut ks ends (fun k => max (g (ends k).1 (ends k).2) 0) n + if n = d then g d newT else 0 := by
  rw [← between_sum ks ends _ _ ends_mem n]
  have hnew : newT ∈ nodesOf (netGraph ks ends cap d newT target) :=
    mem_netGraph_nodes.2 (.inr (.inr rfl))
  have : (if n = d then g d newT else 0) = ∑ v ∈ nodesOf (netGraph ks ends cap d newT target),
      (if n = d ∧ newT = v then g d newT else 0) := (sum_ite_and _ _ hnew _).symm
  rw [this, ← Finset.sum_add_distrib]
  refine Finset.sum_congr rfl fun v _ => ?_
  rw [between_arcSum]
  by_cases h : n = d ∧ newT = v
  · rw [if_pos h, arcSum_none ks ends _ n v (hn.notEnds (.inr h.2.symm)),
      arcSum_none ks ends _ v n (hn.notEnds (.inl h.2.symm)), h.1, h.2]
    simp
  · rw [if_neg h, arcSum_flow hn hf fun hh => h ⟨hh.1.symm, hh.2⟩,
      arcSum_flow hn hf fun hh => hne hh.2.symm, hf.anti v n]
    rcases le_total 0 (g n v) with h0 | h0
    · rw [max_eq_left h0, max_eq_right (show -g n v ≤ 0 by linarith)]; ring
    · rw [max_eq_right h0, max_eq_left (show 0 ≤ -g n v by linarith)]; ring

theorem flow_supports_dir (hn : DNetOK ks ends o d newT) (hc : ∀ k ∈ ks, 0 ≤ cap k)
    (hf : IsFlow (nodesOf (netGraph ks ends cap d newT target))
      (capIn false (netGraph ks ends cap d newT target)) o newT g val) (ht : 0 ≤ target) :
    (∀ k ∈ ks, 0 ≤ max (g (ends k).1 (ends k).2) 0 ∧ max (g (ends k).1 (ends k).2) 0 ≤ cap k) ∧
    (∀ n, n ≠ o → n ≠ d → netOut ks ends (fun k => max (g (ends k).1 (ends k).2) 0) n = 0) ∧
    netOut ks ends (fun k => max (g (ends k).1 (ends k).2) 0) o = val ∧ val ≤ target := by
  refine ⟨fun k hk => ⟨le_max_right _ _, ?_⟩, fun n h1 h2 => ?_, ?_, ?_⟩
  · have ha := hf.cap (ends k).1 (ends k).2
    rw [capDir_component hn.single hk rfl] at ha
    exact max_le ha (hc k hk)
  · by_cases hnt : n = newT
    · exact netOut_notEnd ks ends _ n fun k hk => hnt ▸ hn.fresh k hk
    · by_cases hmem : n ∈ nodesOf (netGraph ks ends cap d newT target)
      · have h3 := hf.cons n hmem h1 hnt
        rw [flow_out_dir hn hf hnt, if_neg h2, add_zero] at h3
        exact h3
      · refine netOut_notEnd ks ends _ n fun k hk => ?_
        constructor <;> rintro rfl
        · exact hmem (ends_mem k hk).1
        · exact hmem (ends_mem k hk).2
  · have h3 := hf.out
    rw [flow_out_dir hn hf hn.originNew, if_neg hn.od, add_zero] at h3
    exact h3
  · have hnew : newT ∈ nodesOf (netGraph ks ends cap d newT target) :=
      mem_netGraph_nodes.2 (.inr (.inr rfl))
    have hdm : d ∈ nodesOf (netGraph ks ends cap d newT target) :=
      mem_netGraph_nodes.2 (.inr (.inl rfl))
    have hom : o ∈ nodesOf (netGraph ks ends cap d newT target) :=
      mem_netGraph_nodes.2 (.inl hn.origin)
    have hcut := hf.cut ((nodesOf (netGraph ks ends cap d newT target)).erase newT)
      (Finset.erase_subset _ _) (Finset.mem_erase.2 ⟨hn.originNew, hom⟩) (by simp)
    rw [Finset.sdiff_erase_self hnew] at hcut
    simp only [Finset.sum_singleton] at hcut
    rw [hcut]
    have hle : ∀ u ∈ (nodesOf (netGraph ks ends cap d newT target)).erase newT,
        g u newT ≤ if u = d then target else 0 := by
      intro u _
      have h4 := hf.cap u newT
      rw [capDir_rest (hn.notEnds (.inr rfl))] at h4
      by_cases hu : u = d
      · rw [if_pos ⟨hu.symm, rfl⟩] at h4; rw [if_pos hu]; exact h4
      · rw [if_neg (fun hh => hu hh.1.symm)] at h4; rw [if_neg hu]; exact h4
    refine (Finset.sum_le_sum hle).trans ?_
    rw [Finset.sum_ite_eq']
    split
    · exact le_refl _
    · exact ht

end FromGraph

theorem supports_flow_dir (hn : DNetOK ks ends o d newT) {φ : K → ℚ}
    (hcap : ∀ k ∈ ks, 0 ≤ φ k ∧ φ k ≤ cap k) (hcons : ∀ n, n ≠ o → n ≠ d → netOut ks ends φ n = 0)
    (h0 : 0 ≤ netOut ks ends φ o) (ht : netOut ks ends φ o ≤ target) :
    ∃ g, IsFlow (nodesOf (netGraph ks ends cap d newT target))
      (capIn false (netGraph ks ends cap d newT target)) o newT g (netOut ks ends φ o) := by
  set F := netOut ks ends φ o with hF
  have hnew : newT ∈ nodesOf (netGraph ks ends cap d newT target) :=
    mem_netGraph_nodes.2 (.inr (.inr rfl))
  have hdm : d ∈ nodesOf (netGraph ks ends cap d newT target) :=
    mem_netGraph_nodes.2 (.inr (.inl rfl))
  have hom : o ∈ nodesOf (netGraph ks ends cap d newT target) :=
    mem_netGraph_nodes.2 (.inl hn.origin)
  have hd : netOut ks ends φ d = - F := by
    have h1 := netOut_total ks ends φ (nodesOf (netGraph ks ends cap d newT target)) ends_mem
    have h2 : ∑ n ∈ nodesOf (netGraph ks ends cap d newT target), netOut ks ends φ n
        = ∑ n ∈ ({o, d} : Finset N), netOut ks ends φ n := by
      symm
      refine Finset.sum_subset ?_ ?_
      · intro n hn'
        rcases Finset.mem_insert.1 hn' with rfl | hn'
        · exact hom
        · rw [Finset.mem_singleton.1 hn']; exact hdm
      · intro n _ hn'
        simp only [Finset.mem_insert, Finset.mem_singleton, not_or] at hn'
        exact hcons n hn'.1 hn'.2
    rw [h2, Finset.sum_pair hn.od] at h1
    linarith
  have hout : ∀ u, u ≠ newT → ∑ v ∈ nodesOf (netGraph ks ends cap d newT target),
      (between ks ends φ u v + ((if d = u ∧ newT = v then F else 0) - if newT = u ∧ d = v then F else 0))
      = netOut ks ends φ u + if d = u then F else 0 := by
    intro u hu
    rw [Finset.sum_add_distrib, Finset.sum_sub_distrib, between_sum ks ends φ _ ends_mem,
      sum_ite_and _ _ hnew, sum_ite_and _ _ hdm, if_neg (Ne.symm hu)]
    simp
  refine ⟨fun u v => between ks ends φ u v + ((if d = u ∧ newT = v then F else 0)
    - if newT = u ∧ d = v then F else 0), ?_, ?_, ?_, ?_⟩
  · intro u v
    rw [between_anti ks ends φ u v]
    simp only [and_comm (a := d = v), and_comm (a := newT = v)]
    ring
  · intro u v
    rw [between_arcSum]
    have hback := arcSum_nonneg ks ends φ (fun k hk => (hcap k hk).1) v u
    by_cases hj : ∃ k ∈ ks, ends k = (u, v)
    · obtain ⟨k, hk, he⟩ := hj
      have hu : u ≠ newT := fun h => hn.notEnds (.inl h) k hk he
      have hv : v ≠ newT := fun h => hn.notEnds (.inr h) k hk he
      rw [capDir_component hn.single hk he, arcSum_one ks ends φ hn.single hk he,
        if_neg (show ¬ (d = u ∧ newT = v) from fun h => hv h.2.symm),
        if_neg (show ¬ (newT = u ∧ d = v) from fun h => hu h.1.symm)]
      have := (hcap k hk).2
      linarith
    · have hj : ∀ k ∈ ks, ends k ≠ (u, v) := fun k h1 h2 => hj ⟨k, h1, h2⟩
      rw [arcSum_none ks ends φ u v hj, capDir_rest hj]
      by_cases h1 : d = u ∧ newT = v
      · have h2 : ¬ (newT = u ∧ d = v) := fun h => hn.dest (h1.1.trans h.1.symm)
        rw [if_pos h1, if_neg h2, if_pos h1]
        linarith
      · rw [if_neg h1, if_neg h1]
        by_cases h2 : newT = u ∧ d = v
        · rw [if_pos h2]; linarith
        · rw [if_neg h2]; linarith
  · intro u _ h1 h2
    rw [hout u h2]
    by_cases hud : d = u
    · rw [if_pos hud, ← hud, hd]; ring
    · rw [if_neg hud, hcons u h1 (Ne.symm hud)]; simp
  · rw [hout o hn.originNew, if_neg hn.od.symm, add_zero]

/-- Less can be sent whenever more can. -/
theorem SupportsIn.down {bi : Bool} {F F' : ℚ} (h : SupportsIn bi ks ends cap o d F) (h0 : 0 ≤ F')
    (hle : F' ≤ F) :
    ∃ φ : K → ℚ, (∀ k ∈ ks, Fits bi (φ k) (cap k)) ∧
      (∀ n, n ≠ o → n ≠ d → netOut ks ends φ n = 0) ∧ netOut ks ends φ o = F' := by
  obtain ⟨φ, h1, h2, h3⟩ := h
  have hx0 : 0 ≤ netOut ks ends φ o := h0.trans (hle.trans h3)
  have ha0 : 0 ≤ F' / netOut ks ends φ o := div_nonneg h0 hx0
  have ha1 : F' / netOut ks ends φ o ≤ 1 := div_le_one_of_le₀ (hle.trans h3) hx0
  refine ⟨fun k => F' / netOut ks ends φ o * φ k, fun k hk => ?_, fun n hn1 hn2 => ?_, ?_⟩
  · have h4 := h1 k hk
    cases bi with
    | true =>
      simp only [Fits, if_true] at h4 ⊢
      rw [abs_mul, abs_of_nonneg ha0]
      exact (mul_le_of_le_one_left (abs_nonneg (φ k)) ha1).trans h4
    | false =>
      simp only [Fits, Bool.false_eq_true, if_false] at h4 ⊢
      exact ⟨mul_nonneg ha0 h4.1, (mul_le_of_le_one_left h4.1 ha1).trans h4.2⟩
  · rw [netOut_scale, h2 n hn1 hn2, mul_zero]
  · rw [netOut_scale]
    by_cases hz : netOut ks ends φ o = 0
    · have : F' = 0 := le_antisymm ((hle.trans h3).trans hz.le) h0
      rw [hz, this]; simp
    · exact div_mul_cancel₀ _ hz

end

end BNS
