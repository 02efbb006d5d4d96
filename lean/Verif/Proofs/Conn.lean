import Verif.Spec.Conn
import Verif.Model.Conn
import Verif.Proofs.Flow

/-!
# Lemmas on `conn`
-/

namespace BNS

set_option linter.unusedSectionVars false

section
variable {K N : Type} [DecidableEq K] [DecidableEq N]

/-! ## Graphs with capacities one -/

/-- All capacities are one. -/
def UnitG (G : CapGraph N) : Prop := ∀ e ∈ G, e.2.2 = 1

theorem JoinedIn.symm {G : CapGraph N} {u v : N} (h : JoinedIn G u v) : JoinedIn G v u := by
  obtain ⟨e, he, hj⟩ := h
  exact ⟨e, he, hj.symm⟩

theorem mem_nodes_joined {G : CapGraph N} {n : N} : n ∈ nodesOf G ↔ ∃ v, JoinedIn G n v := by
  rw [mem_nodesOf]
  constructor
  · rintro ⟨e, he, rfl | rfl⟩
    · exact ⟨e.2.1, e, he, .inl ⟨rfl, rfl⟩⟩
    · exact ⟨e.1, e, he, .inr ⟨rfl, rfl⟩⟩
  · rintro ⟨v, e, he, hj | hj⟩
    · exact ⟨e, he, .inl hj.1⟩
    · exact ⟨e, he, .inr hj.2⟩

theorem capOf_unit {G : CapGraph N} (h : UnitG G) {u v : N} (hj : JoinedIn G u v) : capOf G u v = 1 := by
  obtain ⟨e, he, hj⟩ := hj
  unfold capOf
  cases hf : G.find? fun e => decide (Joins e u v) with
  | some e' => exact h e' (List.mem_of_find?_eq_some hf)
  | none =>
    rw [List.find?_eq_none] at hf
    exact absurd (by simpa using hj) (hf e he)

theorem capOf_unjoined {G : CapGraph N} {u v : N} (hj : ¬ JoinedIn G u v) : capOf G u v = 0 := by
  unfold capOf
  cases hf : G.find? fun e => decide (Joins e u v) with
  | some e' =>
    exact absurd ⟨e', List.mem_of_find?_eq_some hf, by simpa using List.find?_some hf⟩ hj
  | none => rfl

/-- Adding an edge of capacity one. -/
theorem addEdge_unit {G : CapGraph N} (h : UnitG G) (a b : N) :
    UnitG (addEdge G a b 1) ∧ ∀ u v, JoinedIn (addEdge G a b 1) u v ↔
      JoinedIn G u v ∨ ((a, b) = (u, v) ∨ (a, b) = (v, u)) := by
  unfold addEdge
  by_cases hex : ∃ e ∈ G, Joins e a b
  · rw [if_pos (by simpa using hex)]
    have hid : (G.map fun e => if Joins e a b then (e.1, e.2.1, (1 : ℚ)) else e) = G := by
      refine List.ext_getElem (by simp) fun i h1 h2 => ?_
      rw [List.getElem_map]
      split
      · have := h _ (List.getElem_mem h2)
        exact Prod.ext rfl (Prod.ext rfl this.symm)
      · rfl
    rw [hid]
    refine ⟨h, fun u v => ⟨.inl, ?_⟩⟩
    rintro (hj | hj)
    · exact hj
    · obtain ⟨e, he, hj'⟩ := hex
      refine ⟨e, he, ?_⟩
      rcases hj with hj | hj <;> obtain ⟨rfl, rfl⟩ := Prod.ext_iff.1 hj
      · exact hj'
      · exact hj'.symm
  · rw [if_neg (by simpa using hex)]
    refine ⟨?_, fun u v => ?_⟩
    · intro e he
      rcases List.mem_append.1 he with he | he
      · exact h e he
      · rw [List.mem_singleton.1 he]
    · unfold JoinedIn
      simp only [List.mem_append, List.mem_singleton, or_and_right, exists_or, exists_eq_left, joins_iff]

/-- The graph that `conn` builds. -/
theorem connGraph_ok {vs : List (K × ℕ)} {ends : K → N × N} {arcs : List (K × N × N)}
    (harcs : ∀ kn ∈ vs, arcs.lookup kn.1 = some (ends kn.1)) (x : K → ℕ) :
    ∃ G, (compsOf vs x).foldlM (connAddEdge arcs) [] = .ok G ∧ UnitG G ∧
      ∀ u v, JoinedIn G u v ↔ UsableArc vs ends x u v := by
  have main : ∀ (l : List (K × ℕ)) (G : CapGraph N), (∀ kn ∈ l, kn ∈ vs) → UnitG G →
      ∃ G', (compsOf l x).foldlM (connAddEdge arcs) G = .ok G' ∧ UnitG G' ∧
        ∀ u v, JoinedIn G' u v ↔ JoinedIn G u v ∨ UsableArc l ends x u v := by
    intro l
    induction l with
    | nil =>
      intro G _ hG
      exact ⟨G, rfl, hG, fun u v => ⟨.inl, fun h => h.elim id fun ⟨kn, h, _⟩ => by cases h⟩⟩
    | cons kn l ih =>
      intro G hl hG
      have hc : compsOf (kn :: l) x = (kn.1, x kn.1) :: compsOf l x := rfl
      rw [hc, List.foldlM_cons]
      have hus : ∀ u v, UsableArc (kn :: l) ends x u v ↔
          (0 < x kn.1 ∧ (ends kn.1 = (u, v) ∨ ends kn.1 = (v, u))) ∨ UsableArc l ends x u v := by
        intro u v
        simp [UsableArc]
      by_cases hx : 0 < x kn.1
      · have h1 : connAddEdge arcs G (kn.1, x kn.1) =
            .ok (addEdge G (ends kn.1).1 (ends kn.1).2 1) := by
          simp only [connAddEdge]
          rw [if_pos hx]
          simp only [itemsGet, dictGet, harcs kn (hl kn (by simp))]
          rfl
        obtain ⟨h2, h3⟩ := addEdge_unit hG (ends kn.1).1 (ends kn.1).2
        obtain ⟨G', h4, h5, h6⟩ := ih _ (fun k hk => hl k (by simp [hk])) h2
        refine ⟨G', by rw [h1, ok_bind, h4], h5, fun u v => ?_⟩
        rw [h6, h3, hus]
        simp only [hx, true_and, Prod.eta]
        tauto
      · have h1 : connAddEdge arcs G (kn.1, x kn.1) = .ok G := by
          simp only [connAddEdge]
          rw [if_neg hx]
        obtain ⟨G', h4, h5, h6⟩ := ih _ (fun k hk => hl k (by simp [hk])) hG
        refine ⟨G', by rw [h1, ok_bind, h4], h5, fun u v => ?_⟩
        rw [h6, hus]
        simp [hx]
  obtain ⟨G, h1, h2, h3⟩ := main vs [] (fun _ h => h) (by intro e he; cases he)
  refine ⟨G, h1, h2, fun u v => ?_⟩
  rw [h3]
  exact ⟨fun h => h.elim (fun ⟨e, he, _⟩ => by cases he) id, .inr⟩

/-! ## Flow and connection -/

theorem linked_rpath {R : N → N → Prop} {s t : N} (h : Relation.ReflTransGen R s t) :
    ∃ p, RPath R s t p := by
  induction h with
  | refl => exact ⟨_, .nil⟩
  | tail _ h2 ih =>
    obtain ⟨p, hp⟩ := ih
    exact hp.step h2

/-- A connection carries a unit. -/
theorem linked_flow {G : CapGraph N} (hG : UnitG G) {s t : N} (hs : s ∈ nodesOf G) (hst : s ≠ t)
    (h : Relation.ReflTransGen (JoinedIn G) s t) :
    ∃ g, IsFlow (nodesOf G) (capOf G) s t g 1 := by
  obtain ⟨p, hp⟩ := linked_rpath h
  have hmem := hp.nodes hs fun u v huv => mem_nodes_joined.2 ⟨u, huv.symm⟩
  refine ⟨fun u v => (unitFlow p u v : ℚ), fun u v => ?_, fun u v => ?_, fun u _ h1 h2 => ?_, ?_⟩
  · rw [unitFlow_anti p u v]; push_cast; ring
  · rcases unitFlow_le hp u v with h | ⟨h, hR⟩
    · have : (unitFlow p u v : ℚ) ≤ 0 := by exact_mod_cast h
      exact this.trans (capOf_nonneg (fun e he => by rw [hG e he]; exact zero_le_one) u v)
    · rw [h, capOf_unit hG hR]; norm_num
  · have := unitFlow_sum hp (nodesOf G) hmem u
    rw [if_neg h1, if_neg h2] at this
    have h3 : ((∑ v ∈ nodesOf G, unitFlow p u v : ℤ) : ℚ) = 0 := by rw [this]; simp
    push_cast at h3
    exact h3
  · have := unitFlow_sum hp (nodesOf G) hmem s
    rw [if_pos rfl, if_neg hst] at this
    have h3 : ((∑ v ∈ nodesOf G, unitFlow p s v : ℤ) : ℚ) = 1 := by rw [this]; simp
    push_cast at h3
    exact h3

/-- A flow needs a connection. -/
theorem flow_linked {G : CapGraph N} {s t : N} (hs : s ∈ nodesOf G) {g : N → N → ℚ}
    {val : ℚ} (hf : IsFlow (nodesOf G) (capOf G) s t g val) (hv : 0 < val) :
    Relation.ReflTransGen (JoinedIn G) s t := by
  classical
  by_contra hn
  have hcut := hf.cut ((nodesOf G).filter fun n => Relation.ReflTransGen (JoinedIn G) s n)
    (Finset.filter_subset _ _) (Finset.mem_filter.2 ⟨hs, .refl⟩)
    (fun h => hn (Finset.mem_filter.1 h).2)
  have hle : val ≤ 0 := by
    rw [hcut]
    refine Finset.sum_nonpos fun u hu => Finset.sum_nonpos fun v hv => ?_
    have h1 := (Finset.mem_filter.1 hu).2
    obtain ⟨h2, h3⟩ := Finset.mem_sdiff.1 hv
    have h4 : ¬ JoinedIn G u v := fun hj => h3 (Finset.mem_filter.2 ⟨h2, h1.tail hj⟩)
    exact (hf.cap u v).trans (capOf_unjoined h4).le
  exact absurd hv (not_lt.2 hle)

/-! ## Walks -/

theorem chain_linked {R : N → N → Prop} : ∀ {p : List N} {s t : N}, p.head? = some s →
    p.getLast? = some t → p.IsChain R → Relation.ReflTransGen R s t
  | [], _, _, h, _, _ => by cases h
  | [a], s, t, h1, h2, _ => by
    simp only [List.head?_cons, Option.some.injEq, List.getLast?_singleton] at h1 h2
    rw [← h1, ← h2]
  | a :: b :: p, s, t, h1, h2, h3 => by
    simp only [List.head?_cons, Option.some.injEq] at h1
    rw [List.isChain_cons_cons] at h3
    subst h1
    rw [List.getLast?_cons_cons] at h2
    exact Relation.ReflTransGen.head h3.1 (chain_linked rfl h2 h3.2)

theorem linked_chain {R : N → N → Prop} {s t : N} (h : Relation.ReflTransGen R s t) :
    ∃ p : List N, p.head? = some s ∧ p.getLast? = some t ∧ p.IsChain R := by
  induction h using Relation.ReflTransGen.head_induction_on with
  | refl => exact ⟨[t], rfl, rfl, .singleton _⟩
  | head h1 _ ih =>
    obtain ⟨p, hp1, hp2, hp3⟩ := ih
    rename_i a c _
    cases p with
    | nil => cases hp1
    | cons b q =>
      simp only [List.head?_cons, Option.some.injEq] at hp1
      subst hp1
      exact ⟨a :: b :: q, rfl, by rw [List.getLast?_cons_cons]; exact hp2,
        List.isChain_cons_cons.2 ⟨h1, hp3⟩⟩

theorem chain_zip {R : N → N → Prop} : ∀ {p : List N}, p.IsChain R ↔ ∀ uv ∈ p.zip p.tail, R uv.1 uv.2
  | [] => by simp
  | [a] => by simp
  | a :: b :: p => by
    rw [List.isChain_cons_cons, chain_zip (p := b :: p)]
    simp only [List.tail_cons, List.zip_cons_cons, List.mem_cons, forall_eq_or_imp]

/-! ## The rule -/

theorem arcOf_spec {arcs : List (K × N × N)} {uv : N × N}
    (h : ∃ e ∈ arcs, e.2 = uv ∨ e.2 = (uv.2, uv.1)) :
    ∃ e ∈ arcs, arcOf true arcs uv = .ok e.1 ∧ (e.2 = uv ∨ e.2 = (uv.2, uv.1)) := by
  unfold arcOf
  rw [if_pos rfl]
  cases h1 : arcs.find? fun e => decide (e.2 = uv) with
  | some e => exact ⟨e, List.mem_of_find?_eq_some h1, rfl, .inl (by simpa using List.find?_some h1)⟩
  | none =>
    cases h2 : arcs.find? fun e => decide (e.2 = (uv.2, uv.1)) with
    | some e =>
      exact ⟨e, List.mem_of_find?_eq_some h2, rfl, .inr (by simpa using List.find?_some h2)⟩
    | none =>
      exfalso
      obtain ⟨e, he, h | h⟩ := h
      · exact (List.find?_eq_none.1 h1) e he (by simpa using h)
      · exact (List.find?_eq_none.1 h2) e he (by simpa using h)

theorem connRule_spec (ks : List K) : let r := ks.foldl connInsert []
    (r.map Prod.fst).Nodup ∧ (∀ k i, (k, i) ∈ r ↔ k ∈ ks ∧ i = 1) ∧ r.length ≤ ks.length := by
  have main : ∀ (ks : List K) (r : Rule K), (r.map Prod.fst).Nodup → (∀ kv ∈ r, kv.2 = 1) →
      ((ks.foldl connInsert r).map Prod.fst).Nodup ∧
      (∀ k i, (k, i) ∈ ks.foldl connInsert r ↔ (k, i) ∈ r ∨ (k ∈ ks ∧ i = 1)) ∧
      (ks.foldl connInsert r).length ≤ r.length + ks.length := by
    intro ks
    induction ks with
    | nil => intro r h _; exact ⟨h, by simp, by simp⟩
    | cons a ks ih =>
      intro r h1 h2
      rw [List.foldl_cons]
      by_cases ha : a ∈ r.map Prod.fst
      · rw [show connInsert r a = r from if_pos ha]
        obtain ⟨i1, i2, i3⟩ := ih r h1 h2
        refine ⟨i1, fun k i => ?_, by simp only [List.length_cons]; omega⟩
        rw [i2]
        constructor
        · rintro (h | h)
          · exact .inl h
          · exact .inr ⟨by simp [h.1], h.2⟩
        · rintro (h | ⟨h, rfl⟩)
          · exact .inl h
          · rcases List.mem_cons.1 h with rfl | h
            · obtain ⟨⟨k', i'⟩, h3, h4⟩ := List.mem_map.1 ha
              have h5 : i' = 1 := h2 (k', i') h3
              have h4 : k' = k := h4
              subst h4; subst h5
              exact .inl h3
            · exact .inr ⟨h, rfl⟩
      · rw [show connInsert r a = r ++ [(a, 1)] from if_neg ha]
        obtain ⟨i1, i2, i3⟩ := ih (r ++ [(a, 1)])
          (by
            rw [List.map_append]
            exact List.Nodup.append h1 (by simp) (by simpa using ha))
          (by
            intro kv hkv
            rcases List.mem_append.1 hkv with h | h
            · exact h2 kv h
            · rw [List.mem_singleton.1 h])
        refine ⟨i1, fun k i => ?_, ?_⟩
        rotate_left
        · simp only [List.length_append, List.length_cons, List.length_nil] at i3 ⊢
          omega
        rw [i2]
        simp only [List.mem_append, Prod.mk.injEq, List.mem_cons, List.not_mem_nil, or_false]
        constructor
        · rintro ((h | ⟨rfl, rfl⟩) | ⟨h, rfl⟩)
          · exact .inl h
          · exact .inr ⟨.inl rfl, rfl⟩
          · exact .inr ⟨.inr h, rfl⟩
        · rintro (h | ⟨rfl | h, rfl⟩)
          · exact .inl (.inl h)
          · exact .inl (.inr ⟨rfl, rfl⟩)
          · exact .inr ⟨h, rfl⟩
  obtain ⟨h1, h2, h3⟩ := main ks [] (by simp) (by simp)
  exact ⟨h1, by simpa using h2, by simpa using h3⟩

/-! ## The value without parallel arcs -/

section Value
variable {ks : List K} {ends : K → N × N} {G : CapGraph N} {o d : N}

theorem flow_plain (hs : SingleK ks ends) (hG : UnitG G)
    (hj : ∀ u v, JoinedIn G u v ↔ ∃ k ∈ ks, JoinsK ends k u v) {g : N → N → ℚ} {val : ℚ}
    (hf : IsFlow (nodesOf G) (capOf G) o d g val) :
    (∀ k ∈ ks, |g (ends k).1 (ends k).2| ≤ 1) ∧
    (∀ n, n ≠ o → n ≠ d → netOut ks ends (fun k => g (ends k).1 (ends k).2) n = 0) ∧
    netOut ks ends (fun k => g (ends k).1 (ends k).2) o = val := by
  have hends : ∀ k ∈ ks, (ends k).1 ∈ nodesOf G ∧ (ends k).2 ∈ nodesOf G := by
    intro k hk
    exact ⟨mem_nodes_joined.2 ⟨_, (hj _ _).2 ⟨k, hk, .inl rfl⟩⟩,
      mem_nodes_joined.2 ⟨_, (hj _ _).2 ⟨k, hk, .inr rfl⟩⟩⟩
  have hzero : ∀ u v, ¬ JoinedIn G u v → g u v = 0 := by
    intro u v h
    have h1 := hf.cap u v
    have h2 := hf.cap v u
    rw [capOf_unjoined h] at h1
    rw [capOf_unjoined fun h' => h h'.symm] at h2
    have := hf.anti u v
    linarith
  have hout : ∀ n, netOut ks ends (fun k => g (ends k).1 (ends k).2) n = ∑ v ∈ nodesOf G, g n v := by
    intro n
    rw [← between_sum ks ends _ _ hends n]
    refine Finset.sum_congr rfl fun v _ => ?_
    by_cases h : ∃ k ∈ ks, JoinsK ends k n v
    · obtain ⟨k, hk, hjk⟩ := h
      rw [between_one ks ends _ hs hk hjk]
      rcases hjk with h | h
      · rw [h]
        by_cases huv : n = v
        · subst huv
          have := hf.anti n n
          simp
          linarith
        · rw [if_pos rfl, if_neg (fun hh => huv (Prod.ext_iff.1 hh).1)]
          ring
      · rw [h]
        by_cases huv : n = v
        · subst huv
          have := hf.anti n n
          simp
          linarith
        · rw [if_neg (fun hh => huv (Prod.ext_iff.1 hh).1.symm), if_pos rfl, hf.anti v n]
          ring
    · rw [between_none ks ends _ n v fun k hk hh => h ⟨k, hk, hh⟩,
        hzero n v fun hh => h ((hj n v).1 hh)]
  refine ⟨fun k hk => ?_, fun n h1 h2 => ?_, (hout o).trans hf.out⟩
  · have h1 := hf.cap (ends k).1 (ends k).2
    have h2 := hf.cap (ends k).2 (ends k).1
    have h3 : JoinedIn G (ends k).1 (ends k).2 := (hj _ _).2 ⟨k, hk, .inl rfl⟩
    rw [capOf_unit hG h3] at h1
    rw [capOf_unit hG h3.symm, hf.anti] at h2
    exact abs_le.2 ⟨by linarith, h1⟩
  · by_cases hmem : n ∈ nodesOf G
    · rw [hout]
      exact hf.cons n hmem h1 h2
    · refine netOut_notEnd ks ends _ n fun k hk => ?_
      constructor <;> rintro rfl
      · exact hmem (hends k hk).1
      · exact hmem (hends k hk).2

theorem plain_flow (hs : SingleK ks ends) (hG : UnitG G)
    (hj : ∀ u v, JoinedIn G u v ↔ ∃ k ∈ ks, JoinsK ends k u v) {φ : K → ℚ}
    (hcap : ∀ k ∈ ks, |φ k| ≤ 1) (hcons : ∀ n, n ≠ o → n ≠ d → netOut ks ends φ n = 0) :
    ∃ g, IsFlow (nodesOf G) (capOf G) o d g (netOut ks ends φ o) := by
  have hends : ∀ k ∈ ks, (ends k).1 ∈ nodesOf G ∧ (ends k).2 ∈ nodesOf G := by
    intro k hk
    exact ⟨mem_nodes_joined.2 ⟨_, (hj _ _).2 ⟨k, hk, .inl rfl⟩⟩,
      mem_nodes_joined.2 ⟨_, (hj _ _).2 ⟨k, hk, .inr rfl⟩⟩⟩
  refine ⟨between ks ends φ, between_anti ks ends φ, fun u v => ?_, fun u _ h1 h2 => ?_, ?_⟩
  · by_cases h : ∃ k ∈ ks, JoinsK ends k u v
    · obtain ⟨k, hk, hjk⟩ := h
      rw [between_one ks ends φ hs hk hjk, capOf_unit hG ((hj u v).2 ⟨k, hk, hjk⟩)]
      have := abs_le.1 (hcap k hk)
      split <;> split <;> linarith
    · rw [between_none ks ends _ u v fun k hk hh => h ⟨k, hk, hh⟩]
      exact capOf_nonneg (fun e he => by rw [hG e he]; exact zero_le_one) u v
  · rw [between_sum ks ends φ _ hends]
    exact hcons u h1 h2
  · rw [between_sum ks ends φ _ hends]

/-- Components that carry nothing may be left out. -/
theorem netOut_filter (ks : List K) (ends : K → N × N) (φ : K → ℚ) (P : K → Bool)
    (h : ∀ k ∈ ks, P k = false → φ k = 0) (n : N) :
    netOut (ks.filter P) ends φ n = netOut ks ends φ n := by
  unfold netOut
  induction ks with
  | nil => rfl
  | cons a ks ih =>
    have ih := ih fun k hk => h k (by simp [hk])
    rw [List.filter_cons]
    cases hP : P a with
    | true => simp only [if_true, List.map_cons, List.sum_cons]; rw [ih]
    | false =>
      have h0 := h a (by simp) hP
      simp only [Bool.false_eq_true, if_false, List.map_cons, List.sum_cons]
      rw [ih, h0]
      simp

end Value

/-! ## The function -/

variable {vs : List (K × ℕ)} {ends : K → N × N} {o d : N}

theorem connMapM {A : Type} {f : A → Except Err K} {P : A → K × N × N → Prop} {M : List (K × N × N)}
    {l : List A} (h : ∀ a ∈ l, ∃ e ∈ M, f a = .ok e.1 ∧ P a e) :
    ∃ ks, l.mapM f = .ok ks ∧ List.Forall₂ (fun a k => ∃ e ∈ M, k = e.1 ∧ P a e) l ks := by
  induction l with
  | nil => exact ⟨[], rfl, .nil⟩
  | cons a l ih =>
    obtain ⟨e, he, h1, h2⟩ := h a (by simp)
    obtain ⟨ks, h3, h4⟩ := ih fun b hb => h b (by simp [hb])
    refine ⟨e.1 :: ks, ?_, .cons ⟨e, he, rfl, h2⟩ h4⟩
    rw [List.mapM_cons, h1, ok_bind, h3, ok_bind]
    rfl

theorem forall₂_mem_right {A B : Type} {R : A → B → Prop} {l : List A} {m : List B}
    (h : List.Forall₂ R l m) {b : B} (hb : b ∈ m) : ∃ a ∈ l, R a b := by
  induction h with
  | nil => cases hb
  | cons h1 _ ih =>
    rcases List.mem_cons.1 hb with rfl | hb
    · exact ⟨_, by simp, h1⟩
    · obtain ⟨a, ha, h2⟩ := ih hb
      exact ⟨a, by simp [ha], h2⟩

theorem forall₂_mem_left {A B : Type} {R : A → B → Prop} {l : List A} {m : List B}
    (h : List.Forall₂ R l m) {a : A} (ha : a ∈ l) : ∃ b ∈ m, R a b := by
  induction h with
  | nil => cases ha
  | cons h1 _ ih =>
    rcases List.mem_cons.1 ha with rfl | ha
    · exact ⟨_, by simp, h1⟩
    · obtain ⟨b, hb, h2⟩ := ih ha
      exact ⟨b, by simp [hb], h2⟩

theorem zeroFlow {G : CapGraph N} (hG : UnitG G) (s t : N) :
    IsFlow (nodesOf G) (capOf G) s t (fun _ _ => 0) 0 :=
  ⟨by simp, capOf_nonneg fun e he => by rw [hG e he]; exact zero_le_one, by simp, by simp⟩

theorem usable_congr {G : CapGraph N} {x : K → ℕ}
    (hj : ∀ u v, JoinedIn G u v ↔ UsableArc vs ends x u v) : JoinedIn G = UsableArc vs ends x := by
  funext u v
  exact propext (hj u v)

/-- What `conn` does. -/
theorem lookup_absent {V : Type} {l : List (K × V)} {k : K} (h : k ∉ l.map Prod.fst) :
    l.lookup k = none := by
  induction l with
  | nil => rfl
  | cons a l ih =>
    rw [List.map_cons, List.mem_cons, not_or] at h
    rw [List.lookup_cons, show (k == a.1) = false by simpa using h.1]
    exact ih h.2

theorem lookup_ends (vs : List (K × ℕ)) (ends : K → N × N) : ∀ kn ∈ vs,
    (vs.map fun kn => (kn.1, ends kn.1)).lookup kn.1 = some (ends kn.1) := by
  induction vs with
  | nil => intro kn h; cases h
  | cons a l ih =>
    intro kn hkn
    rw [List.map_cons, List.lookup_cons]
    by_cases ha : kn.1 = a.1
    · rw [ha]; simp
    · rw [show (kn.1 == a.1) = false by simpa using ha]
      rcases List.mem_cons.1 hkn with rfl | h
      · exact absurd rfl ha
      · exact ih kn h

theorem connCore {lib : FlowLib N} (hlib : FlowLibOK lib)
    {sp : CapGraph N → N → N → Except Err (List N)} (hsp : WalkLibOK sp) (hod : o ≠ d) (x : K → ℕ) :
    ∃ G : CapGraph N, UnitG G ∧ JoinedIn G = UsableArc vs ends x ∧
      ((∃ val g p ks, LinkedBy vs ends o d x ∧ 1 ≤ val ∧ IsFlow (nodesOf G) (capOf G) o d g val ∧
          (∀ g' val', IsFlow (nodesOf G) (capOf G) o d g' val' → val' ≤ val) ∧ WalkIn G o d p ∧
          (∀ q, WalkIn G o d q → p.length ≤ q.length) ∧
          List.Forall₂ (fun uv k => ∃ e ∈ vs.map (fun kn => (kn.1, ends kn.1)), k = e.1 ∧
            (e.2 = uv ∨ e.2 = (uv.2, uv.1))) (p.zip p.tail) ks ∧
          connFun lib sp true (compsOf vs x) o d (vs.map fun kn => (kn.1, ends kn.1)) =
            .ok (val, .s, some (ks.foldl connInsert []))) ∨
       (¬ LinkedBy vs ends o d x ∧
          connFun lib sp true (compsOf vs x) o d (vs.map fun kn => (kn.1, ends kn.1)) =
            .ok (0, .f, none) ∧
          ((o ∈ nodesOf G ∧ d ∈ nodesOf G ∧
            ∀ g' val', IsFlow (nodesOf G) (capOf G) o d g' val' → val' ≤ 0) ∨
            ¬ (o ∈ nodesOf G ∧ d ∈ nodesOf G)))) := by
  have harcs := lookup_ends vs ends
  obtain ⟨G, hG, hU, hj⟩ := connGraph_ok harcs x
  have hJ := usable_congr hj
  refine ⟨G, hU, hJ, ?_⟩
  have hlink : LinkedBy vs ends o d x ↔ Relation.ReflTransGen (JoinedIn G) o d := by rw [hJ]; rfl
  by_cases hmem : o ∈ nodesOf G ∧ d ∈ nodesOf G
  · obtain ⟨val, g, h1, h2, h3⟩ := hlib.best G o d (fun e he => by rw [hU e he]; exact zero_le_one)
      hmem.1 hmem.2 hod
    have hrun : connFun lib sp true (compsOf vs x) o d (vs.map fun kn => (kn.1, ends kn.1)) =
        if 0 < val then (sp G o d >>= fun p => (p.zip p.tail).mapM
          (arcOf true (vs.map fun kn => (kn.1, ends kn.1))) >>= fun ks =>
            .ok (val, .s, some (ks.foldl connInsert []))) else .ok (val, .f, none) := by
      simp only [connFun]
      rw [hG, ok_bind, if_pos hmem, h1]
      rfl
    by_cases hL : LinkedBy vs ends o d x
    · obtain ⟨g', hg'⟩ := linked_flow hU hmem.1 hod (hlink.1 hL)
      have hval := h3 g' 1 hg'
      obtain ⟨q, q1, q2, q3⟩ := linked_chain (hlink.1 hL)
      obtain ⟨p, p1, p2, p3⟩ := hsp.least G o d hmem.1 hmem.2 ⟨q, q1, q2, q3⟩
      have hch := chain_zip.1 p2.2.2
      have hks : ∀ uv ∈ p.zip p.tail, ∃ e ∈ vs.map (fun kn => (kn.1, ends kn.1)),
          arcOf true (vs.map fun kn => (kn.1, ends kn.1)) uv = .ok e.1 ∧
            (e.2 = uv ∨ e.2 = (uv.2, uv.1)) := by
        intro uv huv
        obtain ⟨kn, hkn, -, he⟩ := (hj _ _).1 (hch uv huv)
        exact arcOf_spec ⟨(kn.1, ends kn.1), List.mem_map_of_mem hkn, he⟩
      obtain ⟨ks, hks1, hks2⟩ := connMapM (P := fun uv e => e.2 = uv ∨ e.2 = (uv.2, uv.1)) hks
      refine .inl ⟨val, g, p, ks, hL, hval, h2, h3, p2, p3, hks2, ?_⟩
      rw [hrun, if_pos (by linarith), p1, ok_bind, hks1, ok_bind]
    · have hval : val = 0 := by
        refine le_antisymm (not_lt.1 fun h => hL (hlink.2 (flow_linked hmem.1 h2 h))) ?_
        exact h3 _ _ (zeroFlow hU o d)
      subst hval
      refine .inr ⟨hL, ?_, .inl ⟨hmem.1, hmem.2, h3⟩⟩
      rw [hrun, if_neg (lt_irrefl _)]
  · have hL : ¬ LinkedBy vs ends o d x := by
      rw [hlink]
      intro h
      refine hmem ⟨?_, ?_⟩
      · rcases Relation.ReflTransGen.cases_head h with h | ⟨c, h1, -⟩
        · exact absurd h hod
        · exact mem_nodes_joined.2 ⟨c, h1⟩
      · rcases Relation.ReflTransGen.cases_tail h with h | ⟨c, -, h1⟩
        · exact absurd h.symm hod
        · exact mem_nodes_joined.2 ⟨c, h1.symm⟩
    refine .inr ⟨hL, ?_, .inr hmem⟩
    simp only [connFun]
    rw [hG, ok_bind, if_neg hmem, ok_bind, if_neg (lt_irrefl _)]
    rfl

theorem NoParallelArcs.eq_of {l : List (K × ℕ)} (hp : NoParallelArcs l ends) {a b : K × ℕ} (ha : a ∈ l)
    (hb : b ∈ l) (h : ends a.1 = ends b.1 ∨ ends a.1 = (ends b.1).swap) : a = b := by
  unfold NoParallelArcs at hp
  induction l with
  | nil => cases ha
  | cons c l ih =>
    rw [List.pairwise_cons] at hp
    rcases List.mem_cons.1 ha with rfl | ha' <;> rcases List.mem_cons.1 hb with rfl | hb'
    · rfl
    · exact absurd h (hp.1 b hb')
    · refine absurd (h.imp (·.symm) fun h => ?_) (hp.1 a ha')
      rw [h, Prod.swap_swap]
    · exact ih hp.2 ha' hb'

theorem single_filter {x : K → ℕ} (hp : NoParallelArcs vs ends) :
    SingleK ((vs.map Prod.fst).filter fun k => decide (0 < x k)) ends := by
  refine List.Pairwise.filter _ ?_
  rw [List.pairwise_map]
  exact hp

/-- Working arcs with unit capacities. -/
theorem joined_working {G : CapGraph N} {x : K → ℕ} (hJ : JoinedIn G = UsableArc vs ends x) (u v : N) :
    JoinedIn G u v ↔ ∃ k ∈ (vs.map Prod.fst).filter (fun k => decide (0 < x k)), JoinsK ends k u v := by
  rw [hJ]
  constructor
  · rintro ⟨kn, hkn, h1, h2⟩
    exact ⟨kn.1, List.mem_filter.2 ⟨List.mem_map_of_mem hkn, by simpa using h1⟩, h2⟩
  · rintro ⟨k, hk, h2⟩
    obtain ⟨h3, h4⟩ := List.mem_filter.1 hk
    obtain ⟨kn, hkn, rfl⟩ := List.mem_map.1 h3
    exact ⟨kn, hkn, by simpa using h4, h2⟩

theorem supports_working {x : K → ℕ} {φ : K → ℚ}
    (hcap : ∀ k ∈ vs.map Prod.fst, |φ k| ≤ unitCap x k) (n : N) :
    netOut ((vs.map Prod.fst).filter fun k => decide (0 < x k)) ends φ n =
      netOut (vs.map Prod.fst) ends φ n := by
  refine netOut_filter _ _ _ _ (fun k hk hP => ?_) n
  have := hcap k hk
  rw [unitCap, if_neg (by simpa using hP)] at this
  exact abs_nonpos_iff.1 this

theorem working_cap {x : K → ℕ} {φ : K → ℚ} (hcap : ∀ k ∈ vs.map Prod.fst, |φ k| ≤ unitCap x k) :
    ∀ k ∈ (vs.map Prod.fst).filter (fun k => decide (0 < x k)), |φ k| ≤ 1 := by
  intro k hk
  obtain ⟨h1, h2⟩ := List.mem_filter.1 hk
  have := hcap k h1
  rwa [unitCap, if_pos (by simpa using h2)] at this

theorem working_supports {x : K → ℕ} {φ : K → ℚ} {F : ℚ}
    (h1 : ∀ k ∈ (vs.map Prod.fst).filter (fun k => decide (0 < x k)), |φ k| ≤ 1)
    (h2 : ∀ n, n ≠ o → n ≠ d →
      netOut ((vs.map Prod.fst).filter fun k => decide (0 < x k)) ends φ n = 0)
    (h3 : netOut ((vs.map Prod.fst).filter fun k => decide (0 < x k)) ends φ o = F) :
    Supports (vs.map Prod.fst) ends (unitCap x) o d F := by
  have hcap : ∀ k ∈ vs.map Prod.fst, |(if 0 < x k then φ k else 0)| ≤ unitCap x k := by
    intro k hk
    unfold unitCap
    by_cases hx : 0 < x k
    · rw [if_pos hx, if_pos hx]
      exact h1 k (List.mem_filter.2 ⟨hk, by simpa using hx⟩)
    · rw [if_neg hx, if_neg hx, abs_zero]
  have hout : ∀ n, netOut (vs.map Prod.fst) ends (fun k => if 0 < x k then φ k else 0) n =
      netOut ((vs.map Prod.fst).filter fun k => decide (0 < x k)) ends φ n := by
    intro n
    rw [← supports_working hcap]
    unfold netOut
    congr 1
    refine List.map_congr_left fun k hk => ?_
    have : 0 < x k := by simpa using (List.mem_filter.1 hk).2
    simp only [this, if_true]
  exact ⟨_, hcap, fun n hn1 hn2 => (hout n).trans (h2 n hn1 hn2), ((hout o).trans h3).ge⟩

theorem netOut_unreached {ks : List K} {S : Finset N} {φ : K → ℚ}
    (hS : ∀ k ∈ ks, (ends k).1 ∈ S ∧ (ends k).2 ∈ S)
    (hcons : ∀ n, n ≠ o → n ≠ d → netOut ks ends φ n = 0) (h : ¬ (o ∈ S ∧ d ∈ S)) :
    netOut ks ends φ o = 0 := by
  by_cases ho : o ∈ S
  · have hd : d ∉ S := fun hd => h ⟨ho, hd⟩
    have h1 := netOut_total ks ends φ S hS
    rw [Finset.sum_eq_single o (fun n hn hno => hcons n hno fun hnd => hd (hnd ▸ hn))
      (fun h => absurd ho h)] at h1
    exact h1
  · refine netOut_notEnd _ _ _ _ fun k hk => ?_
    constructor <;> rintro rfl
    · exact ho (hS k hk).1
    · exact ho (hS k hk).2

end

theorem connFun_tuple [DecidableEq K] [DecidableEq N] {lib : FlowLib N} {sp : CapGraph N → N → N → Except Err (List N)}
    {comps : List (K × ℕ)} {o d : N} {arcs : List (K × N × N)} {val : ℚ} {st : St} {rule : Rule K}
    (h : connFun lib sp true comps o d arcs = .ok (val, st, some rule)) (hne : rule ≠ []) :
    connFun lib sp false comps o d arcs = .error .value := by
  unfold connFun at h ⊢
  obtain ⟨G, hG, h⟩ := bind_ok.1 h
  obtain ⟨f, hf, h⟩ := bind_ok.1 h
  rw [hG, ok_bind, hf, ok_bind]
  by_cases h0 : 0 < f
  · rw [if_pos h0] at h ⊢
    obtain ⟨p, hp, h⟩ := bind_ok.1 h
    obtain ⟨ks, hks, h⟩ := bind_ok.1 h
    rw [hp, ok_bind]
    cases hz : p.zip p.tail with
    | nil =>
      rw [hz] at hks
      cases hks
      cases h
      exact absurd rfl hne
    | cons a l => rfl
  · rw [if_neg h0] at h
    cases h

theorem connFun_tuple_f [DecidableEq K] [DecidableEq N] {lib : FlowLib N} {sp : CapGraph N → N → N → Except Err (List N)}
    {comps : List (K × ℕ)} {o d : N} {arcs : List (K × N × N)} {val : ℚ} {st : St}
    (h : connFun lib sp true comps o d arcs = .ok (val, st, none)) :
    connFun lib sp false comps o d arcs = .ok (val, st, none) := by
  unfold connFun at h ⊢
  obtain ⟨G, hG, h⟩ := bind_ok.1 h
  obtain ⟨f, hf, h⟩ := bind_ok.1 h
  rw [hG, ok_bind, hf, ok_bind]
  by_cases h0 : 0 < f
  · rw [if_pos h0] at h
    obtain ⟨p, hp, h⟩ := bind_ok.1 h
    obtain ⟨ks, hks, h⟩ := bind_ok.1 h
    cases h
  · rw [if_neg h0] at h ⊢
    exact h

end BNS
