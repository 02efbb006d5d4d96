import Verif.Proofs.FlowLib
import Verif.Proofs.Trans

/-!
# Lemmas on `max_flow`
-/

namespace BNS

set_option linter.unusedSectionVars false

section
variable {K N : Type} [DecidableEq K] [DecidableEq N]

/-! ## Sums over components -/

theorem sum_swap {A : Type} (nodes : Finset N) (l : List A) (f : N → A → ℚ) :
    ∑ v ∈ nodes, (l.map (f v)).sum = (l.map fun k => ∑ v ∈ nodes, f v k).sum := by
  induction l with
  | nil => simp
  | cons a l ih => simp only [List.map_cons, List.sum_cons, Finset.sum_add_distrib, ih]

theorem sum_ite_and (nodes : Finset N) (P : Prop) [Decidable P] {b : N} (hb : b ∈ nodes) (a : ℚ) :
    ∑ v ∈ nodes, (if P ∧ b = v then a else 0) = if P then a else 0 := by
  by_cases hP : P
  · simp [hP, hb]
  · simp [hP]

/-- Net flow between two nodes when component `k` carries `φ k`. -/
def between (ks : List K) (ends : K → N × N) (φ : K → ℚ) (u v : N) : ℚ :=
  (ks.map fun k => (if (ends k).1 = u ∧ (ends k).2 = v then φ k else 0)
    - (if (ends k).2 = u ∧ (ends k).1 = v then φ k else 0)).sum

theorem between_anti (ks : List K) (ends : K → N × N) (φ : K → ℚ) (u v : N) :
    between ks ends φ u v = - between ks ends φ v u := by
  unfold between
  induction ks with
  | nil => simp
  | cons k ks ih =>
    simp only [List.map_cons, List.sum_cons]
    rw [ih]
    simp only [and_comm (a := (ends k).1 = v), and_comm (a := (ends k).2 = v)]
    ring

theorem between_sum (ks : List K) (ends : K → N × N) (φ : K → ℚ) (nodes : Finset N)
    (h : ∀ k ∈ ks, (ends k).1 ∈ nodes ∧ (ends k).2 ∈ nodes) (u : N) :
    ∑ v ∈ nodes, between ks ends φ u v = netOut ks ends φ u := by
  unfold between netOut
  rw [sum_swap]
  congr 1
  refine List.map_congr_left fun k hk => ?_
  rw [Finset.sum_sub_distrib, sum_ite_and nodes _ (h k hk).2, sum_ite_and nodes _ (h k hk).1]

/-- The component joins the two nodes. -/
def JoinsK (ends : K → N × N) (k : K) (u v : N) : Prop := ends k = (u, v) ∨ ends k = (v, u)

instance (ends : K → N × N) (k : K) (u v : N) : Decidable (JoinsK ends k u v) := by
  unfold JoinsK; infer_instance

theorem between_none (ks : List K) (ends : K → N × N) (φ : K → ℚ) (u v : N)
    (h : ∀ k ∈ ks, ¬ JoinsK ends k u v) : between ks ends φ u v = 0 := by
  unfold between
  induction ks with
  | nil => rfl
  | cons k ks ih =>
    have hk := h k (by simp)
    simp only [JoinsK, Prod.ext_iff, not_or] at hk
    rw [List.map_cons, List.sum_cons, ih fun k' hk' => h k' (by simp [hk']), if_neg hk.1,
      if_neg (fun hh => hk.2 ⟨hh.2, hh.1⟩)]
    simp

/-- No two components of the list join the same nodes. -/
def SingleK (ks : List K) (ends : K → N × N) : Prop :=
  ks.Pairwise fun a b => ¬ (ends a = ends b ∨ ends a = (ends b).swap)

theorem SingleK.joins {ks : List K} {ends : K → N × N} {k : K} (h : SingleK (k :: ks) ends) {u v : N}
    (hj : JoinsK ends k u v) : ∀ k' ∈ ks, ¬ JoinsK ends k' u v := by
  intro k' hk' hj'
  refine (List.pairwise_cons.1 h).1 k' hk' ?_
  rcases hj with h1 | h1 <;> rcases hj' with h2 | h2 <;> simp [h1, h2]

/-- Between the ends of a component flows what it carries, up to the direction. -/
theorem between_one (ks : List K) (ends : K → N × N) (φ : K → ℚ) (hs : SingleK ks ends) {k : K}
    (hk : k ∈ ks) {u v : N} (hj : JoinsK ends k u v) :
    between ks ends φ u v = (if ends k = (u, v) then φ k else 0) - (if ends k = (v, u) then φ k else 0) := by
  induction ks with
  | nil => cases hk
  | cons a ks ih =>
    have hcons : between (a :: ks) ends φ u v
        = ((if ends a = (u, v) then φ a else 0) - (if ends a = (v, u) then φ a else 0))
          + between ks ends φ u v := by
      unfold between
      rw [List.map_cons, List.sum_cons]
      simp only [Prod.ext_iff, and_comm (a := (ends a).2 = u)]
    rw [hcons]
    rcases List.mem_cons.1 hk with rfl | hk
    · rw [between_none ks ends φ u v (hs.joins hj), add_zero]
    · have ha : ¬ JoinsK ends a u v := fun h => hs.joins h k hk hj
      simp only [JoinsK, not_or] at ha
      rw [if_neg ha.1, if_neg ha.2, ih (List.pairwise_cons.1 hs).2 hk]
      simp

theorem netOut_total (ks : List K) (ends : K → N × N) (φ : K → ℚ) (nodes : Finset N)
    (h : ∀ k ∈ ks, (ends k).1 ∈ nodes ∧ (ends k).2 ∈ nodes) :
    ∑ n ∈ nodes, netOut ks ends φ n = 0 := by
  have h1 : ∑ n ∈ nodes, netOut ks ends φ n = ∑ n ∈ nodes, ∑ v ∈ nodes, between ks ends φ n v :=
    Finset.sum_congr rfl fun n _ => (between_sum ks ends φ nodes h n).symm
  rw [h1]
  exact sum_anti nodes _ (between_anti ks ends φ)

theorem netOut_scale (ks : List K) (ends : K → N × N) (φ : K → ℚ) (a : ℚ) (n : N) :
    netOut ks ends (fun k => a * φ k) n = a * netOut ks ends φ n := by
  unfold netOut
  rw [← List.sum_map_mul_left]
  congr 1
  refine List.map_congr_left fun k _ => ?_
  split <;> split <;> ring

theorem netOut_notEnd (ks : List K) (ends : K → N × N) (φ : K → ℚ) (n : N)
    (h : ∀ k ∈ ks, (ends k).1 ≠ n ∧ (ends k).2 ≠ n) : netOut ks ends φ n = 0 := by
  unfold netOut
  induction ks with
  | nil => rfl
  | cons k ks ih =>
    rw [List.map_cons, List.sum_cons, ih fun k' hk' => h k' (by simp [hk']),
      if_neg (h k (by simp)).1, if_neg (h k (by simp)).2]
    simp

/-! ## The graph -/

/-- The edges of the components, and the edge to the added node. -/
def netGraph (ks : List K) (ends : K → N × N) (cap : K → ℚ) (d newT : N) (target : ℚ) : CapGraph N :=
  (ks.map fun k => ((ends k).1, (ends k).2, cap k)) ++ [(d, newT, target)]

variable {ks : List K} {ends : K → N × N} {cap : K → ℚ} {o d newT : N} {target : ℚ}

theorem mem_netGraph_nodes {n : N} : n ∈ nodesOf (netGraph ks ends cap d newT target) ↔
    (∃ k ∈ ks, (ends k).1 = n ∨ (ends k).2 = n) ∨ d = n ∨ newT = n := by
  rw [mem_nodesOf]
  simp only [netGraph, List.mem_append, List.mem_map, List.mem_singleton]
  constructor
  · rintro ⟨e, ⟨k, hk, rfl⟩ | rfl, h⟩
    · exact .inl ⟨k, hk, h⟩
    · exact .inr h
  · rintro (⟨k, hk, h⟩ | h)
    · exact ⟨_, .inl ⟨k, hk, rfl⟩, h⟩
    · exact ⟨_, .inr rfl, h⟩

theorem joins_iff {a b u v : N} {c : ℚ} : Joins (a, b, c) u v ↔ (a, b) = (u, v) ∨ (a, b) = (v, u) := by
  simp [Joins]

theorem joins_netGraph {k : K} {c : ℚ} {u v : N} :
    Joins ((ends k).1, (ends k).2, c) u v ↔ JoinsK ends k u v := by
  rw [joins_iff]; rfl

theorem capOf_component (hs : SingleK ks ends) {k : K} (hk : k ∈ ks) {u v : N}
    (hj : JoinsK ends k u v) : capOf (netGraph ks ends cap d newT target) u v = cap k := by
  unfold capOf netGraph
  induction ks with
  | nil => cases hk
  | cons a ks ih =>
    rw [List.map_cons, List.cons_append, List.find?_cons]
    by_cases ha : JoinsK ends a u v
    · rw [decide_eq_true (joins_netGraph.2 ha)]
      rcases List.mem_cons.1 hk with rfl | hk
      · rfl
      · exact absurd hj (hs.joins ha k hk)
    · rw [decide_eq_false (fun h => ha (joins_netGraph.1 h))]
      rcases List.mem_cons.1 hk with rfl | hk
      · exact absurd hj ha
      · exact ih (List.pairwise_cons.1 hs).2 hk

theorem capOf_rest {u v : N} (h : ∀ k ∈ ks, ¬ JoinsK ends k u v) :
    capOf (netGraph ks ends cap d newT target) u v =
      if (d, newT) = (u, v) ∨ (d, newT) = (v, u) then target else 0 := by
  unfold capOf netGraph
  rw [List.find?_append]
  have h1 : (ks.map fun k => ((ends k).1, (ends k).2, cap k)).find? (fun e => decide (Joins e u v))
      = none := by
    rw [List.find?_eq_none]
    intro e he
    obtain ⟨k, hk, rfl⟩ := List.mem_map.1 he
    simpa using fun hh => h k hk (joins_netGraph.1 hh)
  rw [h1]
  simp only [Option.none_or, List.find?_cons, List.find?_nil]
  by_cases hh : (d, newT) = (u, v) ∨ (d, newT) = (v, u)
  · rw [decide_eq_true (joins_iff.2 hh), if_pos hh]
  · rw [decide_eq_false (fun h => hh (joins_iff.1 h)), if_neg hh]

/-- The conditions on the network, for a list of components. -/
structure KNetOK (ks : List K) (ends : K → N × N) (o d newT : N) : Prop where
  single : SingleK ks ends
  fresh : ∀ k ∈ ks, (ends k).1 ≠ newT ∧ (ends k).2 ≠ newT
  origin : ∃ k ∈ ks, (ends k).1 = o ∨ (ends k).2 = o
  od : o ≠ d
  dest : d ≠ newT

theorem KNetOK.originNew (h : KNetOK ks ends o d newT) : o ≠ newT := by
  obtain ⟨k, hk, h1⟩ := h.origin
  rintro rfl
  exact h1.elim (h.fresh k hk).1 (h.fresh k hk).2

theorem KNetOK.notJoins (h : KNetOK ks ends o d newT) {u v : N} (huv : u = newT ∨ v = newT) :
    ∀ k ∈ ks, ¬ JoinsK ends k u v := by
  intro k hk hj
  have h2 := h.fresh k hk
  rcases hj with h1 | h1 <;> rcases huv with rfl | rfl <;> simp [h1] at h2

theorem ends_mem : ∀ k ∈ ks, (ends k).1 ∈ nodesOf (netGraph ks ends cap d newT target) ∧
    (ends k).2 ∈ nodesOf (netGraph ks ends cap d newT target) := fun k hk =>
  ⟨mem_netGraph_nodes.2 (.inl ⟨k, hk, .inl rfl⟩), mem_netGraph_nodes.2 (.inl ⟨k, hk, .inr rfl⟩)⟩

section FromGraph
variable {g : N → N → ℚ} {val : ℚ}

theorem flow_zero (hf : IsFlow (nodesOf (netGraph ks ends cap d newT target))
      (capOf (netGraph ks ends cap d newT target)) o newT g val) {u v : N}
    (h : ∀ k ∈ ks, ¬ JoinsK ends k u v) (h2 : ¬ ((d, newT) = (u, v) ∨ (d, newT) = (v, u))) :
    g u v = 0 := by
  have h1 := hf.cap u v
  have h1' := hf.cap v u
  rw [capOf_rest h, if_neg h2] at h1
  rw [capOf_rest (fun k hk hj => h k hk hj.symm), if_neg (fun hh => h2 hh.symm)] at h1'
  have := hf.anti u v
  linarith

/-- What leaves a node in the graph leaves it over its components, or over the added edge. -/
theorem flow_out (hn : KNetOK ks ends o d newT)
    (hf : IsFlow (nodesOf (netGraph ks ends cap d newT target))
      (capOf (netGraph ks ends cap d newT target)) o newT g val) {n : N} (hne : n ≠ newT) :
    ∑ v ∈ nodesOf (netGraph ks ends cap d newT target), g n v =
      netOut ks ends (fun k => g (ends k).1 (ends k).2) n + if n = d then g d newT else 0 := by
  rw [← between_sum ks ends _ _ ends_mem n]
  have hnew : newT ∈ nodesOf (netGraph ks ends cap d newT target) :=
    mem_netGraph_nodes.2 (.inr (.inr rfl))
  have : (if n = d then g d newT else 0) = ∑ v ∈ nodesOf (netGraph ks ends cap d newT target),
      (if n = d ∧ newT = v then g d newT else 0) := (sum_ite_and _ _ hnew _).symm
  rw [this, ← Finset.sum_add_distrib]
  refine Finset.sum_congr rfl fun v _ => ?_
  have hself : ∀ w, g w w = 0 := fun w => by have := hf.anti w w; linarith
  by_cases hj : ∃ k ∈ ks, JoinsK ends k n v
  · obtain ⟨k, hk, hj⟩ := hj
    have hv : ¬ (n = d ∧ newT = v) := fun hh => hn.notJoins (.inr hh.2.symm) k hk hj
    rw [between_one ks ends _ hn.single hk hj, if_neg hv, add_zero]
    rcases hj with h1 | h1
    · by_cases h2 : ends k = (v, n)
      · have : n = v := by rw [h1] at h2; exact (Prod.ext_iff.1 h2).1
        subst this
        rw [if_pos h1, hself, sub_self]
      · rw [if_pos h1, if_neg h2, h1]; simp
    · by_cases h2 : ends k = (n, v)
      · have : n = v := by rw [h1] at h2; exact (Prod.ext_iff.1 h2).2
        subst this
        rw [if_pos h1, hself, sub_self]
      · rw [if_neg h2, if_pos h1, h1, hf.anti n v]; simp
  · have hj : ∀ k ∈ ks, ¬ JoinsK ends k n v := fun k hk h => hj ⟨k, hk, h⟩
    rw [between_none ks ends _ n v hj, zero_add]
    by_cases h : n = d ∧ newT = v
    · rw [if_pos h, h.1, h.2]
    · rw [if_neg h]
      refine flow_zero hf hj ?_
      rintro (hh | hh)
      · obtain ⟨h1, h2⟩ := Prod.ext_iff.1 hh
        exact h ⟨h1.symm, h2⟩
      · exact hne (Prod.ext_iff.1 hh).2.symm

/-- A flow to the added node is a flow to the destination. -/
theorem flow_supports (hn : KNetOK ks ends o d newT)
    (hf : IsFlow (nodesOf (netGraph ks ends cap d newT target))
      (capOf (netGraph ks ends cap d newT target)) o newT g val) :
    (∀ k ∈ ks, |g (ends k).1 (ends k).2| ≤ cap k) ∧
    (∀ n, n ≠ o → n ≠ d → netOut ks ends (fun k => g (ends k).1 (ends k).2) n = 0) ∧
    netOut ks ends (fun k => g (ends k).1 (ends k).2) o = val ∧ val ≤ target := by
  refine ⟨fun k hk => ?_, fun n h1 h2 => ?_, ?_, ?_⟩
  · have ha := hf.cap (ends k).1 (ends k).2
    have hb := hf.cap (ends k).2 (ends k).1
    rw [capOf_component hn.single hk (.inl rfl)] at ha
    rw [capOf_component hn.single hk (.inr rfl)] at hb
    rw [hf.anti] at hb
    exact abs_le.2 ⟨by linarith, ha⟩
  · by_cases hnt : n = newT
    · exact netOut_notEnd ks ends _ n fun k hk => hnt ▸ hn.fresh k hk
    · by_cases hmem : n ∈ nodesOf (netGraph ks ends cap d newT target)
      · have h3 := hf.cons n hmem h1 hnt
        rw [flow_out hn hf hnt, if_neg h2, add_zero] at h3
        exact h3
      · refine netOut_notEnd ks ends _ n fun k hk => ?_
        constructor <;> rintro rfl
        · exact hmem (ends_mem k hk).1
        · exact hmem (ends_mem k hk).2
  · have h3 := hf.out
    rw [flow_out hn hf hn.originNew, if_neg hn.od, add_zero] at h3
    exact h3
  · have hnew : newT ∈ nodesOf (netGraph ks ends cap d newT target) :=
      mem_netGraph_nodes.2 (.inr (.inr rfl))
    have hdm : d ∈ nodesOf (netGraph ks ends cap d newT target) :=
      mem_netGraph_nodes.2 (.inr (.inl rfl))
    have hom : o ∈ nodesOf (netGraph ks ends cap d newT target) :=
      mem_netGraph_nodes.2 (.inl hn.origin)
    have hcut := hf.cut ((nodesOf (netGraph ks ends cap d newT target)).erase newT)
      (Finset.erase_subset _ _) (Finset.mem_erase.2 ⟨hn.originNew, hom⟩) (by simp)
    rw [Finset.sdiff_erase_self hnew] at hcut
    simp only [Finset.sum_singleton] at hcut
    rw [Finset.sum_eq_single d] at hcut
    · have h4 := hf.cap d newT
      rw [capOf_rest (hn.notJoins (.inr rfl)), if_pos (.inl rfl)] at h4
      linarith
    · intro u hu hud
      refine flow_zero hf (hn.notJoins (.inr rfl)) ?_
      rintro (hh | hh)
      · exact hud (Prod.ext_iff.1 hh).1.symm
      · exact (Finset.mem_erase.1 hu).1 (Prod.ext_iff.1 hh).2.symm
    · intro hh; exact absurd (Finset.mem_erase.2 ⟨hn.dest, hdm⟩) hh

end FromGraph

/-- A flow to the destination, not above the target, is a flow to the added node. -/
theorem supports_flow (hn : KNetOK ks ends o d newT) {φ : K → ℚ}
    (hcap : ∀ k ∈ ks, |φ k| ≤ cap k) (hcons : ∀ n, n ≠ o → n ≠ d → netOut ks ends φ n = 0)
    (h0 : 0 ≤ netOut ks ends φ o) (ht : netOut ks ends φ o ≤ target) :
    ∃ g, IsFlow (nodesOf (netGraph ks ends cap d newT target))
      (capOf (netGraph ks ends cap d newT target)) o newT g (netOut ks ends φ o) := by
  set F := netOut ks ends φ o with hF
  have hnew : newT ∈ nodesOf (netGraph ks ends cap d newT target) :=
    mem_netGraph_nodes.2 (.inr (.inr rfl))
  have hdm : d ∈ nodesOf (netGraph ks ends cap d newT target) :=
    mem_netGraph_nodes.2 (.inr (.inl rfl))
  have hom : o ∈ nodesOf (netGraph ks ends cap d newT target) :=
    mem_netGraph_nodes.2 (.inl hn.origin)
  have hd : netOut ks ends φ d = - F := by
    have h1 := netOut_total ks ends φ (nodesOf (netGraph ks ends cap d newT target)) ends_mem
    have h2 : ∑ n ∈ nodesOf (netGraph ks ends cap d newT target), netOut ks ends φ n
        = ∑ n ∈ ({o, d} : Finset N), netOut ks ends φ n := by
      symm
      refine Finset.sum_subset ?_ ?_
      · intro n hn'
        rcases Finset.mem_insert.1 hn' with rfl | hn'
        · exact hom
        · rw [Finset.mem_singleton.1 hn']; exact hdm
      · intro n _ hn'
        simp only [Finset.mem_insert, Finset.mem_singleton, not_or] at hn'
        exact hcons n hn'.1 hn'.2
    rw [h2, Finset.sum_pair hn.od] at h1
    linarith
  have hout : ∀ u, u ≠ newT → ∑ v ∈ nodesOf (netGraph ks ends cap d newT target),
      (between ks ends φ u v + ((if d = u ∧ newT = v then F else 0) - if newT = u ∧ d = v then F else 0))
      = netOut ks ends φ u + if d = u then F else 0 := by
    intro u hu
    rw [Finset.sum_add_distrib, Finset.sum_sub_distrib, between_sum ks ends φ _ ends_mem,
      sum_ite_and _ _ hnew, sum_ite_and _ _ hdm, if_neg (Ne.symm hu)]
    simp
  refine ⟨fun u v => between ks ends φ u v + ((if d = u ∧ newT = v then F else 0)
    - if newT = u ∧ d = v then F else 0), ?_, ?_, ?_, ?_⟩
  · intro u v
    rw [between_anti ks ends φ u v]
    simp only [and_comm (a := d = v), and_comm (a := newT = v)]
    ring
  · intro u v
    by_cases hj : ∃ k ∈ ks, JoinsK ends k u v
    · obtain ⟨k, hk, hj⟩ := hj
      have hu : u ≠ newT := fun h => hn.notJoins (.inl h) k hk hj
      have hv : v ≠ newT := fun h => hn.notJoins (.inr h) k hk hj
      rw [capOf_component hn.single hk hj, between_one ks ends φ hn.single hk hj,
        if_neg (show ¬ (d = u ∧ newT = v) from fun h => hv h.2.symm),
        if_neg (show ¬ (newT = u ∧ d = v) from fun h => hu h.1.symm)]
      have h3 := abs_le.1 (hcap k hk)
      have h4 := (abs_nonneg _).trans (hcap k hk)
      split <;> split <;> linarith
    · have hj : ∀ k ∈ ks, ¬ JoinsK ends k u v := fun k hk h => hj ⟨k, hk, h⟩
      rw [between_none ks ends φ u v hj, capOf_rest hj]
      by_cases h1 : d = u ∧ newT = v
      · have h2 : ¬ (newT = u ∧ d = v) := fun h => hn.dest (h1.1.trans h.1.symm)
        rw [if_pos h1, if_neg h2, if_pos (.inl (by rw [h1.1, h1.2]))]
        linarith
      · rw [if_neg h1]
        by_cases h2 : newT = u ∧ d = v
        · rw [if_pos h2, if_pos (.inr (by rw [h2.1, h2.2]))]
          linarith
        · rw [if_neg h2, if_neg]
          · linarith
          · rintro (h | h)
            · exact h1 (Prod.ext_iff.1 h)
            · exact h2 (Prod.ext_iff.1 h).symm
  · intro u _ h1 h2
    rw [hout u h2]
    by_cases hud : d = u
    · rw [if_pos hud, ← hud, hd]; ring
    · rw [if_neg hud, hcons u h1 (Ne.symm hud)]; simp
  · rw [hout o hn.originNew, if_neg hn.od.symm, add_zero]

/-- Less can be sent whenever more can. -/
theorem Supports.down {F F' : ℚ} (h : Supports ks ends cap o d F) (h0 : 0 ≤ F') (hle : F' ≤ F) :
    ∃ φ : K → ℚ, (∀ k ∈ ks, |φ k| ≤ cap k) ∧
      (∀ n, n ≠ o → n ≠ d → netOut ks ends φ n = 0) ∧ netOut ks ends φ o = F' := by
  obtain ⟨φ, h1, h2, h3⟩ := h
  have hx0 : 0 ≤ netOut ks ends φ o := h0.trans (hle.trans h3)
  have ha0 : 0 ≤ F' / netOut ks ends φ o := div_nonneg h0 hx0
  have ha1 : F' / netOut ks ends φ o ≤ 1 := div_le_one_of_le₀ (hle.trans h3) hx0
  refine ⟨fun k => F' / netOut ks ends φ o * φ k, fun k hk => ?_, fun n hn1 hn2 => ?_, ?_⟩
  · rw [abs_mul, abs_of_nonneg ha0]
    have := abs_nonneg (φ k)
    exact (mul_le_of_le_one_left this ha1).trans (h1 k hk)
  · rw [netOut_scale, h2 n hn1 hn2, mul_zero]
  · rw [netOut_scale]
    by_cases hz : netOut ks ends φ o = 0
    · have : F' = 0 := le_antisymm ((hle.trans h3).trans hz.le) h0
      rw [hz, this]; simp
    · exact div_mul_cancel₀ _ hz

end

end BNS
