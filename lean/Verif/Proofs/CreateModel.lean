import Verif.Model.CreateModel
import Verif.Spec.CreateModel
import Verif.Proofs.EmaMain
import Verif.Props.Files

/-! Helper lemmas: the commands that write the files of the EMA, SF and road demos. -/

namespace BNS

set_option linter.unusedSectionVars false

section
variable {K : Type} [DecidableEq K]

theorem nodeTable_eq {nd : ℕ → K} (hnd : nd.Injective) {rows : List (ℕ × ℚ × ℚ)}
    (h : (rows.map Prod.fst).Nodup) : nodeTable nd rows = rows.map fun r => (nd r.1, r.2) := by
  have h1 : nodeTable nd rows = jsonItems id (rows.map fun r => (nd r.1, r.2)) := by
    unfold nodeTable jsonItems
    rw [List.foldl_map]
    rfl
  rw [h1, jsonItems_same]
  · rw [List.map_map]
    have : (Prod.fst ∘ fun r : ℕ × ℚ × ℚ => (nd r.1, r.2)) = nd ∘ Prod.fst := rfl
    rw [this, ← List.map_map]
    exact h.map hnd
  · intro kv _
    rfl

theorem nodeTable_keys (nd : ℕ → K) (rows : List (ℕ × ℚ × ℚ)) (k : K) :
    (nodeTable nd rows).lookup k = none ↔ k ∉ rows.map fun r => nd r.1 := by
  have : ∀ (rows : List (ℕ × ℚ × ℚ)) (acc : List (K × ℚ × ℚ)),
      (rows.foldl (fun acc r => itemSet acc (nd r.1) r.2) acc).lookup k = none ↔
        acc.lookup k = none ∧ k ∉ rows.map fun r => nd r.1 := by
    intro rows
    induction rows with
    | nil => simp
    | cons r rows ih =>
      intro acc
      rw [List.foldl_cons, ih, lookup_itemSet, List.map_cons, List.mem_cons]
      by_cases h : k = nd r.1
      · simp [h]
      · simp [h]
  have := this rows []
  simpa [nodeTable] using this

theorem arcTable_fst {nd eg : ℕ → K} (heg : eg.Injective) (rows : List (ℕ × ℕ)) :
    ((arcTable nd eg rows).map Prod.fst).Nodup := by
  unfold arcTable
  rw [List.map_map]
  have h1 : (Prod.fst ∘ fun r : (ℕ × ℕ) × ℕ => (eg (r.2 + 1), nd r.1.1, nd r.1.2)) =
      (fun i => eg (i + 1)) ∘ Prod.snd := rfl
  rw [h1, ← List.map_map]
  refine List.Nodup.map (fun a b h => ?_) ?_
  · have := heg h
    omega
  · rw [List.zipIdx_map_snd]
    exact List.nodup_range'

theorem arcTable_getElem (nd eg : ℕ → K) (rows : List (ℕ × ℕ)) (i : ℕ) :
    (arcTable nd eg rows)[i]? = (rows[i]?).map fun r => (eg (i + 1), nd r.1, nd r.2) := by
  unfold arcTable
  rw [List.getElem?_map, List.getElem?_zipIdx, Option.map_map]
  simp [Function.comp_def]

/-- What the second half of the commands writes. -/
theorem delayCreate_ok (sqrt : ℚ → ℚ) {arcs : List (K × K × K)} {coords : List (K × ℚ × ℚ)}
    {speed : List (K × ℚ)} {ods : List (K × K × K)} (s1 pm ps : K) (disk : Disk K)
    (hn : (arcs.map Prod.fst).Nodup) (hnc : (coords.map Prod.fst).Nodup) (hno : (ods.map Prod.fst).Nodup)
    (he : ∀ a ∈ arcs, ∃ p q v, coords.lookup a.2.1 = some p ∧ coords.lookup a.2.2 = some q ∧
      speed.lookup a.1 = some v) (hps : pm ≠ ps) :
    ∃ m scen disk', delayCreate sqrt arcs coords speed ods s1 pm ps disk = .ok disk' ∧
      DelayFiles disk disk' pm ps s1 m scen ∧ m.comps = coords ∧ m.ods = ods ∧ m.gtype = none ∧
      List.Forall₂ (fun a c => c.1 = a.1 ∧ c.2.1 = a.2.1 ∧ c.2.2.1 = a.2.2 ∧
          ∃ p q v, coords.lookup a.2.1 = some p ∧ coords.lookup a.2.2 = some q ∧
            speed.lookup a.1 = some v ∧
            c.2.2.2 = sqrt ((p.1 - q.1) ^ 2 + (p.2 - q.2) ^ 2) / v) arcs m.conns := by
  obtain ⟨f, hf, ho, hc, hall⟩ := (C75_file sqrt arcs coords speed ods hn).1 he
  have hstrip : f.conns.map (fun c => (c.1, c.2.1, c.2.2.1)) = arcs := by
    clear hf
    generalize f.conns = cs at hall
    clear hn he
    induction hall with
    | nil => rfl
    | cons h _ ih =>
      rw [List.map_cons, ih, h.1, h.2.1, h.2.2.1]
  have hfst : f.conns.map Prod.fst = arcs.map Prod.fst := by
    rw [← hstrip, List.map_map]
    rfl
  have hload : loadNet id f = { comps := coords, conns := f.conns, ods := ods, gtype := none } := by
    unfold loadNet
    rw [jsonItems_same (hc ▸ hnc) fun _ _ => rfl, jsonItems_same (hfst ▸ hn) fun _ _ => rfl,
      jsonItems_same (ho ▸ hno) fun _ _ => rfl, hc, ho]
  let g : K × K × K → K × List ℚ := fun a =>
    (a.1, ((f.conns.lookup a.1).map fun c => delayRate.map fun x => x * c.2.2).getD [])
  have htimes : (arcs.mapM fun a => do
      let c ← itemsGet f.conns a.1
      return (a.1, delayRate.map fun x => x * c.2.2) : Except Err _) = .ok (arcs.map g) := by
    refine mapM_ok fun a ha => ?_
    rw [← hstrip] at ha
    obtain ⟨c, hc', rfl⟩ := List.mem_map.1 ha
    have hl := lookup_mem_items (hfst ▸ hn) hc'
    rw [itemsGet_some hl, ok_bind]
    show _ = Except.ok (g _)
    simp only [g, hl]
    rfl
  have hg : arcs.map g = f.conns.map fun c => (c.1, [10 * c.2.2.2, 2 * c.2.2.2, c.2.2.2]) := by
    rw [← hstrip, List.map_map]
    refine List.map_congr_left fun c hc' => ?_
    have hl := lookup_mem_items (hfst ▸ hn) hc'
    simp [g, hl, delayRate]
  have hgn : ((arcs.map g).map Prod.fst).Nodup := by
    rw [List.map_map]
    exact hn
  refine ⟨{ comps := coords, conns := f.conns, ods := ods, gtype := none }, arcs.map g,
    (disk.put pm (.model (loadNet id f))).put ps (.scen (scenarioTrans [1, 2, 3] [(s1, arcs.map g)])),
    ?_, ⟨rfl, ?_, ?_, ?_, hg⟩, rfl, rfl, rfl, hall⟩
  · unfold delayCreate
    rw [hf, ok_bind]
    simp only []
    rw [htimes, ok_bind]
    rfl
  · intro k h1 h2
    simp [Disk.put, h1, h2]
  · simp [Disk.put, hps, hload]
  · refine ⟨scenarioTrans [1, 2, 3] [(s1, arcs.map g)], [1, 2, 3], ?_, rfl, rfl, ?_⟩
    · simp [Disk.put]
    · show jsonItems id [(s1, jsonItems id (arcs.map g))] = _
      rw [jsonItems_same hgn fun _ _ => rfl]
      rfl

/-- The model of the tables, for any speeds by arc. -/
theorem tables_create (sqrt : ℚ → ℚ) {nd eg : ℕ → K} (hnd : nd.Injective) (heg : eg.Injective)
    {nodes : List (ℕ × ℚ × ℚ)} {edges : List (ℕ × ℕ)} (ht : TablesOKFor nodes edges) {speed : List (K × ℚ)}
    {sp : ℕ → ℚ} (hsp : ∀ i < edges.length, speed.lookup (eg (i + 1)) = some (sp (i + 1)))
    (od o d : K) {s1 pm ps : K} (disk : Disk K) (hps : pm ≠ ps) :
    ∃ m scen disk', delayCreate sqrt (arcTable nd eg edges) (nodeTable nd nodes) speed [(od, o, d)]
        s1 pm ps disk = .ok disk' ∧
      DelayFiles disk disk' pm ps s1 m scen ∧ ModelOf sqrt nd eg nodes edges sp [(od, o, d)] m := by
  have hnt := nodeTable_eq hnd ht.once
  have hnn : ((nodes.map fun r => (nd r.1, r.2)).map Prod.fst).Nodup := by
    rw [List.map_map]
    have : (Prod.fst ∘ fun r : ℕ × ℚ × ℚ => (nd r.1, r.2)) = nd ∘ Prod.fst := rfl
    rw [this, ← List.map_map]
    exact ht.once.map hnd
  have hlook : ∀ n p, (n, p) ∈ nodes → (nodeTable nd nodes).lookup (nd n) = some p := by
    intro n p hp
    rw [hnt]
    exact lookup_mem_items hnn (kv := (nd n, p)) (List.mem_map.2 ⟨(n, p), hp, rfl⟩)
  have hends : ∀ (i : ℕ) (e : ℕ × ℕ), edges[i]? = some e → ∃ p q, (e.1, p) ∈ nodes ∧ (e.2, q) ∈ nodes := by
    intro i e hi
    obtain ⟨h1, h2⟩ := ht.ends e (List.mem_of_getElem? hi)
    obtain ⟨a, ha, ha'⟩ := List.mem_map.1 h1
    obtain ⟨b, hb, hb'⟩ := List.mem_map.1 h2
    exact ⟨a.2, b.2, ha' ▸ ha, hb' ▸ hb⟩
  obtain ⟨m, scen, disk', e1, e2, e3, e4, e5, e6⟩ := delayCreate_ok sqrt (arcs := arcTable nd eg edges)
    (coords := nodeTable nd nodes) (speed := speed) (ods := [(od, o, d)]) s1 pm ps disk
    (arcTable_fst heg edges) (hnt ▸ hnn) (by simp) (by
      intro a ha
      obtain ⟨i, hi, hia⟩ := List.getElem_of_mem ha
      have hi' := List.getElem?_eq_some_iff.2 ⟨hi, hia⟩
      rw [arcTable_getElem] at hi'
      obtain ⟨e, he, rfl⟩ := Option.map_eq_some_iff.1 hi'
      obtain ⟨p, q, h1, h2⟩ := hends i e he
      exact ⟨p, q, sp (i + 1), hlook _ _ h1, hlook _ _ h2, hsp i (List.getElem?_eq_some_iff.1 he).1⟩) hps
  refine ⟨m, scen, disk', e1, e2, e3.trans hnt, ?_, ?_, e4, e5⟩
  · rw [← e6.length_eq]
    simp [arcTable]
  · intro i u v hi
    obtain ⟨p, q, h1, h2⟩ := hends i _ hi
    refine ⟨p, q, h1, h2, ?_⟩
    have hi' : (arcTable nd eg edges)[i]? = some (eg (i + 1), nd u, nd v) := by
      rw [arcTable_getElem, hi]
      rfl
    obtain ⟨hlt, hia⟩ := List.getElem?_eq_some_iff.1 hi'
    obtain ⟨hlen, hall⟩ := List.forall₂_iff_get.1 e6
    have hlt' : i < m.conns.length := hlen ▸ hlt
    obtain ⟨k1, k2, k3, p', q', v', k4, k5, k6, k7⟩ := hall i hlt hlt'
    simp only [List.get_eq_getElem, hia] at k1 k2 k3 k4 k5 k6 k7
    rw [hlook _ _ h1] at k4
    rw [hlook _ _ h2] at k5
    rw [hsp i (List.getElem?_eq_some_iff.1 hi).1] at k6
    cases k4
    cases k5
    cases k6
    rw [List.getElem?_eq_some_iff]
    refine ⟨hlt', ?_⟩

    exact Prod.ext k1 (Prod.ext k2 (Prod.ext k3 k7))

variable {sqrt : ℚ → ℚ} {nd eg : ℕ → K} {nodes : List (ℕ × ℚ × ℚ)} {edges : List (ℕ × ℕ)} {speed : ℕ → ℚ}
  {ods : List (K × K × K)} {m : NetJson K} {scen : List (K × List ℚ)}

/-- Every connection of the model is an arc of the tables. -/
theorem ModelOf.conn (h : ModelOf sqrt nd eg nodes edges speed ods m) {i : ℕ} (hi : i < m.conns.length) :
    ∃ o d p q, edges[i]? = some (o, d) ∧ (o, p) ∈ nodes ∧ (d, q) ∈ nodes ∧
      m.conns[i] = (eg (i + 1), nd o, nd d, sqrt ((p.1 - q.1) ^ 2 + (p.2 - q.2) ^ 2) / speed (i + 1)) := by
  have hi' : i < edges.length := h.number ▸ hi
  obtain ⟨p, q, h1, h2, h3⟩ := h.conns i edges[i].1 edges[i].2 (List.getElem?_eq_some_iff.2 ⟨hi', rfl⟩)
  exact ⟨_, _, p, q, List.getElem?_eq_some_iff.2 ⟨hi', rfl⟩, h1, h2, (List.getElem?_eq_some_iff.1 h3).2⟩

theorem ModelOf.names (h : ModelOf sqrt nd eg nodes edges speed ods m) (heg : eg.Injective) :
    (m.conns.map Prod.fst).Nodup := by
  rw [List.nodup_iff_injective_getElem]
  rintro ⟨i, hi⟩ ⟨j, hj⟩ hij
  simp only [List.length_map] at hi hj
  simp only [List.getElem_map] at hij
  obtain ⟨_, _, _, _, _, _, _, e1⟩ := h.conn hi
  obtain ⟨_, _, _, _, _, _, _, e2⟩ := h.conn hj
  rw [e1, e2] at hij
  have := heg hij
  exact Fin.ext (by simpa using this)

theorem times_lookup (hn : (m.conns.map Prod.fst).Nodup)
    (ht : scen = m.conns.map fun c => (c.1, [10 * c.2.2.2, 2 * c.2.2.2, c.2.2.2])) {c : K × K × K × ℚ}
    (hc : c ∈ m.conns) : scen.lookup c.1 = some [10 * c.2.2.2, 2 * c.2.2.2, c.2.2.2] := by
  rw [ht]
  refine lookup_mem_items (kv := (c.1, [10 * c.2.2.2, 2 * c.2.2.2, c.2.2.2])) ?_
    (List.mem_map.2 ⟨c, hc, rfl⟩)
  rw [List.map_map]
  exact hn

/-- A way over the arcs is a route of the model. -/
theorem ModelOf.route (h : ModelOf sqrt nd eg nodes edges speed ods m) {o d : ℕ} (hod : o ≠ d)
    (hj : Joined edges o d) : ∃ es ns, Route (fileGraph m) (nd o) es ns (nd d) := by
  have hdir : (fileGraph m).directed = false := by
    show decide (m.gtype = some .digraph) = false
    rw [h.gtype]
    rfl
  have hstep : ∀ u v, ((u, v) ∈ edges ∨ (v, u) ∈ edges) → ∃ e ∈ (fileGraph m).edges,
      Links (fileGraph m).directed e (nd u) (nd v) ∧ nd u ∈ (fileGraph m).nodes ∧
      nd v ∈ (fileGraph m).nodes := by
    have hone : ∀ u v, (u, v) ∈ edges → ∃ c ∈ m.conns, c.2.1 = nd u ∧ c.2.2.1 = nd v := by
      intro u v hm
      obtain ⟨i, hi, hie⟩ := List.getElem_of_mem hm
      obtain ⟨p, q, -, -, h3⟩ := h.conns i u v (List.getElem?_eq_some_iff.2 ⟨hi, hie⟩)
      exact ⟨_, List.mem_of_getElem? h3, rfl, rfl⟩
    have hends : ∀ c ∈ m.conns, c.2.1 ∈ (fileGraph m).nodes ∧ c.2.2.1 ∈ (fileGraph m).nodes := by
      intro c hc
      unfold fileGraph
      simp only [List.mem_dedup, List.mem_append, List.mem_flatMap]
      exact ⟨.inr ⟨c, hc, by simp⟩, .inr ⟨c, hc, by simp⟩⟩
    rintro u v (hm | hm)
    · obtain ⟨c, hc, h1, h2⟩ := hone _ _ hm
      refine ⟨_, List.mem_map.2 ⟨c, hc, rfl⟩, .inl ⟨h1, h2⟩, h1 ▸ (hends c hc).1, h2 ▸ (hends c hc).2⟩
    · obtain ⟨c, hc, h1, h2⟩ := hone _ _ hm
      refine ⟨_, List.mem_map.2 ⟨c, hc, rfl⟩, .inr ⟨hdir, h1, h2⟩, h2 ▸ (hends c hc).2, h1 ▸ (hends c hc).1⟩
  have hd : nd d ∈ (fileGraph m).nodes := by
    rcases Relation.ReflTransGen.cases_tail hj with rfl | ⟨u, -, hu⟩
    · exact absurd rfl hod
    · obtain ⟨-, -, -, -, h4⟩ := hstep u d hu
      exact h4
  clear hod
  induction hj using Relation.ReflTransGen.head_induction_on with
  | refl => exact ⟨_, _, .nil hd⟩
  | head hu _ ih =>
    obtain ⟨e, h1, h2, h3, -⟩ := hstep _ _ hu
    obtain ⟨es, ns, hr⟩ := ih
    exact ⟨_, _, .cons h3 h1 h2 hr⟩

/-- Positive square roots and speeds give positive weights. -/
theorem ModelOf.pos (h : ModelOf sqrt nd eg nodes edges speed ods m) (ht : RoadTables nodes edges)
    (hsq : ∀ x, 0 < x → 0 < sqrt x) (hsp : ∀ i, i < edges.length → 0 < speed (i + 1)) {c : K × K × K × ℚ}
    (hc : c ∈ m.conns) : 0 < c.2.2.2 := by
  obtain ⟨i, hi, rfl⟩ := List.getElem_of_mem hc
  obtain ⟨o, d, p, q, h1, h2, h3, h4⟩ := h.conn hi
  rw [h4]
  refine div_pos (hsq _ ?_) (hsp i (h.number ▸ hi))
  have hpq := ht.apart (o, d) (List.mem_of_getElem? h1) p q h2 h3
  by_contra hle
  have h5 := sq_nonneg (p.1 - q.1)
  have h6 := sq_nonneg (p.2 - q.2)
  have h7 : (p.1 - q.1) ^ 2 = 0 := by linarith
  have h8 : (p.2 - q.2) ^ 2 = 0 := by linarith
  exact hpq (Prod.ext (sub_eq_zero.1 (pow_eq_zero_iff two_ne_zero |>.1 h7))
    (sub_eq_zero.1 (pow_eq_zero_iff two_ne_zero |>.1 h8)))

/-- The written files are fit for `get_branches_by_od`. -/
theorem ModelOf.delayOK {od : K} {o d : ℕ}
    (h : ModelOf sqrt nd eg nodes edges speed [(od, nd o, nd d)] m) (hnd : nd.Injective) (heg : eg.Injective)
    (ht : RoadTables nodes edges) (hsq : ∀ x, 0 < x → 0 < sqrt x)
    (hsp : ∀ i, i < edges.length → 0 < speed (i + 1)) (hod : o ≠ d) (hj : Joined edges o d)
    (hs : scen = m.conns.map fun c => (c.1, [10 * c.2.2.2, 2 * c.2.2.2, c.2.2.2])) :
    DelayModelOK m scen ∧ ∀ c ∈ m.conns, ((scen.lookup c.1).getD []).length = 3 := by
  have hn := h.names heg
  constructor
  · refine ⟨by rw [h.gtype]; simp, by rw [h.gtype]; simp, ?_, hn, ?_, ?_⟩
    · unfold NoParallel
      rw [List.pairwise_iff_getElem]
      intro i j hi hj' hij u v h1 h2
      obtain ⟨o1, d1, _, _, a1, _, _, a2⟩ := h.conn hi
      obtain ⟨o2, d2, _, _, b1, _, _, b2⟩ := h.conn hj'
      have hp := List.pairwise_iff_getElem.1 ht.single i j (h.number ▸ hi) (h.number ▸ hj') hij
      rw [(List.getElem?_eq_some_iff.1 a1).2, (List.getElem?_eq_some_iff.1 b1).2] at hp
      rw [a2] at h1
      rw [b2] at h2
      unfold ConnLinks at h1 h2
      simp only at h1 h2
      apply hp
      rcases h1 with ⟨a1, a2⟩ | ⟨-, a1, a2⟩ <;> rcases h2 with ⟨b1, b2⟩ | ⟨-, b1, b2⟩
      · exact .inl (Prod.ext (hnd (a1.trans b1.symm)) (hnd (a2.trans b2.symm)))
      · exact .inr (Prod.ext (hnd (a1.trans b2.symm)) (hnd (a2.trans b1.symm)))
      · exact .inr (Prod.ext (hnd (a1.trans b2.symm)) (hnd (a2.trans b1.symm)))
      · exact .inl (Prod.ext (hnd (a1.trans b1.symm)) (hnd (a2.trans b2.symm)))
    · intro c hc
      have hp := h.pos ht hsq hsp hc
      refine ⟨_, times_lookup hn hs hc, by simp, by simp, ?_, ?_⟩
      · intro t ht
        simp only [List.mem_cons, List.not_mem_nil, or_false] at ht
        rcases ht with rfl | rfl | rfl <;> linarith
      · simp only [List.pairwise_cons, List.mem_cons, List.not_mem_nil, or_false, ge_iff_le]
        refine ⟨?_, ?_, by simp⟩
        · rintro t (rfl | rfl) <;> linarith
        · rintro t rfl
          linarith
    · intro x hx
      rw [h.ods, List.mem_singleton] at hx
      subst hx
      exact ⟨fun e => hod (hnd e), h.route hod hj⟩
  · intro c hc
    rw [times_lookup hn hs hc]
    rfl

end

end BNS
