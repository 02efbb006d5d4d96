import Verif.Proofs.Paths

/-! Reading a model file: helper lemmas. -/

namespace BNS

set_option linter.unusedSectionVars false

section
variable {K : Type} [DecidableEq K]

/-- An implementation of `all_simple_paths`: it satisfies the contract. -/
def enumSimple : SimplePathLib K := fun G o d =>
  if o ∉ G.nodes then .error .graph
  else .ok ((walksFrom G G.nodes.length o).filter fun p =>
    decide (p.getLast? = some d ∧ p.Nodup)).dedup

theorem enumSimple_ok : SimplePathLibOK (enumSimple : SimplePathLib K) where
  source G o d h := by unfold enumSimple; rw [if_pos h]
  paths G o d ho hd hne := by
    refine ⟨_, by unfold enumSimple; rw [if_neg (not_not.2 ho)], fun _ => List.nodup_dedup _, fun p => ?_⟩
    rw [List.mem_dedup, List.mem_filter, mem_walksFrom _ _ _ ho, decide_eq_true_eq]
    unfold IsWalk
    constructor
    · rintro ⟨⟨h1, h2, h3, -⟩, h5, h6⟩
      exact ⟨⟨h1, h5, h2, h3⟩, h6⟩
    · rintro ⟨⟨h1, h5, h2, h3⟩, h6⟩
      exact ⟨⟨h1, h2, h3, (nodup_length_le h6 h2).trans (by omega)⟩, h5, h6⟩

/-- The edge of a connection. -/
def connEdge (multi : Bool) (c : K × K × K × ℚ) : NEdge K :=
  { src := c.2.1, dst := c.2.2.1, key := if multi then .inr c.1 else .inl 0
    label := c.1, weight := c.2.2.2 }

theorem links_connEdge (b m : Bool) (c : K × K × K × ℚ) (u v : K) :
    Links b (connEdge m c) u v ↔ ConnLinks b c u v := Iff.rfl

theorem mem_addNode (nodes : List K) (k n : K) : n ∈ addNode nodes k ↔ n ∈ nodes ∨ n = k := by
  unfold addNode
  split
  · rename_i h
    exact ⟨.inl, fun h' => h'.elim id fun e => e ▸ h⟩
  · simp

theorem mem_addNodes (ks nodes : List K) (n : K) :
    n ∈ ks.foldl addNode nodes ↔ n ∈ nodes ∨ n ∈ ks := by
  induction ks generalizing nodes with
  | nil => simp
  | cons k ks ih => rw [List.foldl_cons, ih, mem_addNode, List.mem_cons]; tauto

theorem addNode_nodup {nodes : List K} (h : nodes.Nodup) (k : K) : (addNode nodes k).Nodup := by
  unfold addNode
  split
  · exact h
  · rename_i hk
    exact List.nodup_append.2 ⟨h, by simp, fun a ha b hb => by
      simp only [List.mem_singleton] at hb
      subst hb
      exact fun e => hk (e ▸ ha)⟩

theorem addNodes_nodup {nodes : List K} (h : nodes.Nodup) (ks : List K) :
    (ks.foldl addNode nodes).Nodup := by
  induction ks generalizing nodes with
  | nil => exact h
  | cons k ks ih => exact ih (addNode_nodup h k)

/-- Two ends determine which edges link them. -/
theorem links_of_conn {b : Bool} {e : NEdge K} {c : K × K × K × ℚ} {u v : K}
    (h : ConnLinks b c u v) : Links b e u v ↔ Links b e c.2.1 c.2.2.1 := by
  rcases h with ⟨rfl, rfl⟩ | ⟨hb, rfl, rfl⟩
  · exact Iff.rfl
  · unfold Links
    tauto

theorem addEdge_directed (G : NGraph K) (c : K × K × K × ℚ) : (addConn G c).directed = G.directed := rfl
theorem addEdge_multi (G : NGraph K) (c : K × K × K × ℚ) : (addConn G c).multi = G.multi := rfl

theorem addEdges_flags (G : NGraph K) (cs : List (K × K × K × ℚ)) :
    (cs.foldl addConn G).directed = G.directed ∧ (cs.foldl addConn G).multi = G.multi := by
  induction cs generalizing G with
  | nil => exact ⟨rfl, rfl⟩
  | cons c cs ih => exact ih (addConn G c)

theorem mem_nodes_addEdges (G : NGraph K) (cs : List (K × K × K × ℚ)) (n : K) :
    n ∈ (cs.foldl addConn G).nodes ↔ n ∈ G.nodes ∨ ∃ c ∈ cs, n = c.2.1 ∨ n = c.2.2.1 := by
  induction cs generalizing G with
  | nil => simp
  | cons c cs ih =>
    rw [List.foldl_cons, ih]
    show n ∈ addNode (addNode G.nodes c.2.1) c.2.2.1 ∨ _ ↔ _
    rw [mem_addNode, mem_addNode]
    simp only [List.mem_cons, exists_eq_or_imp, or_assoc]

theorem nodes_addEdges_nodup {G : NGraph K} (h : G.nodes.Nodup) (cs : List (K × K × K × ℚ)) :
    (cs.foldl addConn G).nodes.Nodup := by
  induction cs generalizing G with
  | nil => exact h
  | cons c cs ih => exact ih (addNode_nodup (addNode_nodup h _) _)

/-- An edge that is not there yet is added at the end. -/
theorem addConn_new {G : NGraph K} {c : K × K × K × ℚ}
    (h : ∀ e ∈ G.edges, Links G.directed e c.2.1 c.2.2.1 → G.multi = true ∧ e.key ≠ .inr c.1) :
    (addConn G c).edges = G.edges ++ [connEdge G.multi c] := by
  unfold addConn
  have hany : (G.edges.any fun e : NEdge K =>
      decide (Links G.directed e c.2.1 c.2.2.1) && (!G.multi || decide (e.key = .inr c.1))) = false := by
    rw [List.any_eq_false]
    intro e he hh
    simp only [Bool.and_eq_true, decide_eq_true_eq, Bool.or_eq_true, Bool.not_eq_true'] at hh
    obtain ⟨h1, h2⟩ := h e he hh.1
    rcases hh.2 with h3 | h3
    · rw [h1] at h3; cases h3
    · exact h2 h3
  simp only [hany]
  rfl

/-- Without parallel connections, or in a multigraph, every connection is an edge. -/
theorem edges_addEdges {G : NGraph K} {cs : List (K × K × K × ℚ)}
    (hp : (G.multi = false ∧ NoParallel G.directed cs) ∨ (G.multi = true ∧ (cs.map Prod.fst).Nodup))
    (h0 : G.edges = []) : (cs.foldl addConn G).edges = cs.map (connEdge G.multi) := by
  induction cs using List.reverseRecOn with
  | nil => exact h0
  | append_singleton cs c ih =>
    have hp' : (G.multi = false ∧ NoParallel G.directed cs) ∨
        (G.multi = true ∧ (cs.map Prod.fst).Nodup) := by
      rcases hp with ⟨h1, h2⟩ | ⟨h1, h2⟩
      · exact .inl ⟨h1, (List.pairwise_append.1 h2).1⟩
      · rw [List.map_append] at h2
        exact .inr ⟨h1, (List.nodup_append.1 h2).1⟩
    have ih := ih hp'
    obtain ⟨hd, hm⟩ := addEdges_flags G cs
    rw [List.foldl_append, List.foldl_cons, List.foldl_nil, addConn_new, ih, hm, List.map_append]
    · rfl
    · intro e he hl
      rw [ih] at he
      obtain ⟨c', hc', rfl⟩ := List.mem_map.1 he
      rw [hd] at hl
      rcases hp with ⟨h1, h2⟩ | ⟨h1, h2⟩
      · exact absurd (.inl ⟨rfl, rfl⟩) ((List.pairwise_append.1 h2).2.2 c' hc' c (by simp) _ _ hl)
      · refine ⟨hm.trans h1, ?_⟩
        unfold connEdge
        rw [h1]
        simp only [if_true, ne_eq, Sum.inr.injEq]
        rw [List.map_append] at h2
        exact (List.nodup_append.1 h2).2.2 c'.1 (List.mem_map_of_mem hc') c.1 (by simp)

/-- The graph stays a graph. -/
theorem addEdge_graphOK {G : NGraph K} (hG : GraphOK G) (c : K × K × K × ℚ)
    : GraphOK (addConn G c) := by
  have hends : ∀ e ∈ (addConn G c).edges, e.src ∈ (addConn G c).nodes ∧ e.dst ∈ (addConn G c).nodes := by
    intro e he
    show e.src ∈ addNode (addNode G.nodes c.2.1) c.2.2.1 ∧ e.dst ∈ addNode (addNode G.nodes c.2.1) c.2.2.1
    simp only [mem_addNode]
    unfold addConn at he
    simp only at he
    split at he
    · obtain ⟨e', he', rfl⟩ := List.mem_map.1 he
      have := hG.ends e' he'
      split <;> exact ⟨.inl (.inl this.1), .inl (.inl this.2)⟩
    · rcases List.mem_append.1 he with he | he
      · have := hG.ends e he
        exact ⟨.inl (.inl this.1), .inl (.inl this.2)⟩
      · simp only [List.mem_singleton] at he
        subst he
        exact ⟨.inl (.inr rfl), .inr rfl⟩
  have hlk : ∀ (P : Prop) [Decidable P] (e : NEdge K) (u v : K),
      Links G.directed (if P then { e with label := c.1, weight := c.2.2.2 } else e) u v ↔
        Links G.directed e u v := by
    intro P _ e u v
    split <;> exact Iff.rfl
  have hkey : ∀ (P : Prop) [Decidable P] (e : NEdge K),
      (if P then { e with label := c.1, weight := c.2.2.2 } else e).key = e.key := by
    intro P _ e
    split <;> rfl
  refine ⟨hends, fun hm => ?_, fun hm => ?_⟩
  · rw [addEdge_multi] at hm
    rw [addEdge_directed]
    unfold addConn
    simp only
    split
    · rw [List.pairwise_map]
      refine (hG.simple hm).imp fun {a b} hab u v h1 h2 => ?_
      rw [hlk] at h1 h2
      exact hab u v h1 h2
    · rename_i hany
      rw [List.pairwise_append]
      refine ⟨hG.simple hm, by simp, fun e he e' he' u v h1 h2 => hany ?_⟩
      simp only [List.mem_singleton] at he'
      subst he'
      rw [List.any_eq_true]
      refine ⟨e, he, ?_⟩
      rw [hm]
      simpa using (links_of_conn (c := c) h2).1 h1
  · rw [addEdge_multi] at hm
    rw [addEdge_directed]
    unfold addConn
    simp only
    split
    · rw [List.pairwise_map]
      refine (hG.keys hm).imp fun {a b} hab u v h1 h2 => ?_
      rw [hlk] at h1 h2
      rw [hkey, hkey]
      exact hab u v h1 h2
    · rename_i hany
      rw [List.pairwise_append]
      refine ⟨hG.keys hm, by simp, fun e he e' he' u v h1 h2 hk => hany ?_⟩
      simp only [List.mem_singleton] at he'
      subst he'
      rw [List.any_eq_true]
      refine ⟨e, he, ?_⟩
      have h3 := (links_of_conn (c := c) h2).1 h1
      have hk : e.key = .inr c.1 := hk
      simp [hk, h3]

theorem addEdges_graphOK {G : NGraph K} (hG : GraphOK G) (cs : List (K × K × K × ℚ)) :
    GraphOK (cs.foldl addConn G) := by
  induction cs generalizing G with
  | nil => exact hG
  | cons c cs ih => exact ih (addEdge_graphOK hG c)

/-- In a graph that is not a multigraph, two nodes are linked by the last of their connections. -/
theorem addEdges_last {G : NGraph K} (hm : G.multi = false) (h0 : G.edges = [])
    (cs : List (K × K × K × ℚ)) (u v k : K) (w : ℚ) :
    (∃ e ∈ (cs.foldl addConn G).edges, Links G.directed e u v ∧ e.label = k ∧ e.weight = w) ↔
      ∃ c, (cs.filter fun c => decide (ConnLinks G.directed c u v)).getLast? = some c ∧ c.1 = k ∧
        c.2.2.2 = w := by
  induction cs using List.reverseRecOn with
  | nil => simp [h0]
  | append_singleton cs c ih =>
    obtain ⟨hd, hm'⟩ := addEdges_flags G cs
    rw [List.foldl_append, List.foldl_cons, List.foldl_nil, List.filter_append]
    generalize cs.foldl addConn G = H at *
    by_cases hc : ConnLinks G.directed c u v
    · have hr : (∃ c_1, ((cs.filter fun c => decide (ConnLinks G.directed c u v)) ++
          [c].filter fun c => decide (ConnLinks G.directed c u v)).getLast? = some c_1 ∧ c_1.1 = k ∧
          c_1.2.2.2 = w) ↔ c.1 = k ∧ c.2.2.2 = w := by
        rw [List.filter_cons_of_pos (by simpa using hc)]
        simp
      rw [hr]
      unfold addConn
      simp only [hm', hm, hd, Bool.not_false, Bool.true_or, Bool.and_true]
      constructor
      · rintro ⟨e, he, hl, h1, h2⟩
        split at he
        · obtain ⟨e', he', rfl⟩ := List.mem_map.1 he
          have hl' : Links G.directed e' u v := by
            revert hl
            split <;> exact id
          rw [if_pos (by simpa using (links_of_conn hc).1 hl')] at h1 h2
          exact ⟨h1, h2⟩
        · rename_i hany
          rcases List.mem_append.1 he with he | he
          · refine absurd ?_ hany
            rw [List.any_eq_true]
            exact ⟨e, he, by simpa using (links_of_conn hc).1 hl⟩
          · simp only [List.mem_singleton] at he
            subst he
            exact ⟨h1, h2⟩
      · rintro ⟨rfl, rfl⟩
        split
        · rename_i hany
          rw [List.any_eq_true] at hany
          obtain ⟨e, he, hl⟩ := hany
          refine ⟨_, List.mem_map_of_mem he, ?_⟩
          rw [if_pos hl]
          have h4 : Links G.directed e u v := (links_of_conn hc).2 (by simpa using hl)
          exact ⟨h4, rfl, rfl⟩
        · refine ⟨_, List.mem_append_right _ (List.mem_singleton.2 rfl), ?_, rfl, rfl⟩
          exact hc
    · rw [List.filter_cons_of_neg (by simpa using hc), List.filter_nil, List.append_nil, ← ih]
      unfold addConn
      simp only [hm', hm, hd, Bool.not_false, Bool.true_or, Bool.and_true]
      have hnl : ∀ e : NEdge K, Links G.directed e u v → ¬ Links G.directed e c.2.1 c.2.2.1 := by
        intro e h1 h2
        apply hc
        unfold Links ConnLinks at *
        rcases h1 with ⟨a, b⟩ | ⟨x, a, b⟩ <;> rcases h2 with ⟨a', b'⟩ | ⟨y, a', b'⟩
        · exact .inl ⟨a'.symm.trans a, b'.symm.trans b⟩
        · exact .inr ⟨y, b'.symm.trans b, a'.symm.trans a⟩
        · exact .inr ⟨x, a'.symm.trans a, b'.symm.trans b⟩
        · exact .inl ⟨b'.symm.trans b, a'.symm.trans a⟩
      split
      · constructor
        · rintro ⟨e, he, hl, h1, h2⟩
          obtain ⟨e', he', rfl⟩ := List.mem_map.1 he
          have hl' : Links G.directed e' u v := by
            revert hl
            split <;> exact id
          rw [if_neg (by simpa using hnl e' hl')] at h1 h2
          exact ⟨e', he', hl', h1, h2⟩
        · rintro ⟨e, he, hl, h1, h2⟩
          refine ⟨_, List.mem_map_of_mem he, ?_⟩
          rw [if_neg (by simpa using hnl e hl)]
          exact ⟨hl, h1, h2⟩
      · constructor
        · rintro ⟨e, he, hl, h1, h2⟩
          rcases List.mem_append.1 he with he | he
          · exact ⟨e, he, hl, h1, h2⟩
          · simp only [List.mem_singleton] at he
            subst he
            exact absurd hl hc
        · rintro ⟨e, he, hl, h1, h2⟩
          exact ⟨e, List.mem_append_left _ he, hl, h1, h2⟩

end
end BNS
