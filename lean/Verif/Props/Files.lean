import Verif.Spec.Files
import Verif.Proofs.Files
import Verif.Props.Paths

/-!
# Properties C75, C76 and C77: files written for models, scenarios and tables
-/

namespace BNS

set_option linter.unusedSectionVars false

section
variable {K F : Type} [DecidableEq K] [Field F]

/-- `create_model_json_for_tranportation_network`, for any function in place of the square root: if
both ends of every arc have coordinates and every arc has a speed, the dictionary lists the given ODs,
the given coordinates, and for every arc, in order, its name, ends and the travel time, which is the
length over the speed; an arc without one of these raises `KeyError`. -/
theorem C75_file (sqrt : F → F) (arcs : List (K × K × K)) (coords : List (K × F × F))
    (speed : List (K × F)) (ods : List (K × K × K)) (hn : (arcs.map Prod.fst).Nodup) :
    ((∀ a ∈ arcs, ∃ p q v, coords.lookup a.2.1 = some p ∧ coords.lookup a.2.2 = some q ∧
        speed.lookup a.1 = some v) →
      ∃ f, createTransport sqrt arcs coords speed ods = .ok f ∧ f.ods = ods ∧ f.comps = coords ∧
        List.Forall₂ (fun a c => c.1 = a.1 ∧ c.2.1 = a.2.1 ∧ c.2.2.1 = a.2.2 ∧
          ∃ p q v, coords.lookup a.2.1 = some p ∧ coords.lookup a.2.2 = some q ∧
            speed.lookup a.1 = some v ∧
            c.2.2.2 = sqrt ((p.1 - q.1) ^ 2 + (p.2 - q.2) ^ 2) / v) arcs f.conns) ∧
    ((∃ a ∈ arcs, coords.lookup a.2.1 = none ∨ coords.lookup a.2.2 = none ∨
        speed.lookup a.1 = none) →
      createTransport sqrt arcs coords speed ods = .error .key) := by
  have hlen : (∀ a ∈ arcs, ∃ p q, coords.lookup a.2.1 = some p ∧ coords.lookup a.2.2 = some q) →
      ∃ g : K × K × K → F, arcsLength sqrt arcs coords = .ok (arcs.map fun a => (a.1, g a)) ∧
        ∀ a ∈ arcs, ∃ p q, coords.lookup a.2.1 = some p ∧ coords.lookup a.2.2 = some q ∧
          g a = sqrt ((p.1 - q.1) ^ 2 + (p.2 - q.2) ^ 2) := by
    intro h
    have : ∀ a, ∃ x : F, a ∈ arcs → ∃ p q, coords.lookup a.2.1 = some p ∧
        coords.lookup a.2.2 = some q ∧ x = sqrt ((p.1 - q.1) ^ 2 + (p.2 - q.2) ^ 2) := by
      intro a
      by_cases ha : a ∈ arcs
      · obtain ⟨p, q, h1, h2⟩ := h a ha
        exact ⟨_, fun _ => ⟨p, q, h1, h2, rfl⟩⟩
      · exact ⟨0, fun h => absurd h ha⟩
    choose g hg using this
    refine ⟨g, mapM_ok fun a ha => ?_, hg⟩
    obtain ⟨p, q, h1, h2, h3⟩ := hg a ha
    rw [itemsGet_some h1, ok_bind, itemsGet_some h2, ok_bind, h3]
    rfl
  have hlook : ∀ (g : K × K × K → F), ∀ a ∈ arcs,
      (arcs.map fun a => (a.1, g a)).lookup a.1 = some (g a) := by
    intro g
    clear hlen
    induction arcs with
    | nil => simp
    | cons b l ih =>
      rw [List.map_cons, List.nodup_cons] at hn
      intro a ha
      rw [List.map_cons, List.lookup_cons]
      rcases List.mem_cons.1 ha with rfl | ha
      · simp
      · have : (a.1 == b.1) = false := beq_false_of_ne fun e => hn.1 (e ▸ List.mem_map_of_mem ha)
        simp only [this]
        exact ih hn.2 a ha
  constructor
  · intro h
    obtain ⟨g, hg, hg'⟩ := hlen fun a ha => by
      obtain ⟨p, q, v, h1, h2, _⟩ := h a ha
      exact ⟨p, q, h1, h2⟩
    have : ∀ a, ∃ x : F, a ∈ arcs → speed.lookup a.1 = some x := by
      intro a
      by_cases ha : a ∈ arcs
      · obtain ⟨p, q, v, _, _, h3⟩ := h a ha
        exact ⟨v, fun _ => h3⟩
      · exact ⟨0, fun h => absurd h ha⟩
    choose s hs using this
    have hc : nodeConn sqrt arcs coords speed =
        .ok (arcs.map fun a => (a.1, a.2.1, a.2.2, g a / s a)) := by
      unfold nodeConn
      rw [hg, ok_bind]
      refine mapM_ok fun a ha => ?_
      rw [itemsGet_some (hlook g a ha), ok_bind, itemsGet_some (hs a ha), ok_bind]
      rfl
    refine ⟨_, by unfold createTransport; rw [hc, ok_bind]; rfl, rfl, rfl, ?_⟩
    show List.Forall₂ _ arcs (arcs.map _)
    rw [List.forall₂_map_right_iff, List.forall₂_same]
    intro a ha
    obtain ⟨p, q, h1, h2, h3⟩ := hg' a ha
    exact ⟨rfl, rfl, rfl, p, q, s a, h1, h2, hs a ha, by rw [h3]⟩
  · rintro ⟨a, ha, h⟩
    unfold createTransport nodeConn
    by_cases hl : ∀ a ∈ arcs, ∃ p q, coords.lookup a.2.1 = some p ∧ coords.lookup a.2.2 = some q
    · obtain ⟨g, hg, -⟩ := hlen hl
      obtain ⟨p, q, h1, h2⟩ := hl a ha
      have h3 : speed.lookup a.1 = none := by
        rcases h with h | h | h
        · rw [h1] at h; cases h
        · rw [h2] at h; cases h
        · exact h
      rw [hg, ok_bind, mapM_error (e := .key)]
      · rfl
      · refine ⟨a, ha, ?_⟩
        rw [itemsGet_some (hlook g a ha), ok_bind, itemsGet_none h3]
        rfl
      · intro b hb e' he
        rw [itemsGet_some (hlook g b hb), ok_bind] at he
        cases hs : speed.lookup b.1 with
        | none => rw [itemsGet_none hs] at he; cases he; rfl
        | some v => rw [itemsGet_some hs] at he; cases he
    · have : arcsLength sqrt arcs coords = .error .key := by
        push Not at hl
        obtain ⟨b, hb, hl⟩ := hl
        refine mapM_error ⟨b, hb, ?_⟩ fun c hc e' he => ?_
        · cases h1 : coords.lookup b.2.1 with
          | none => rw [itemsGet_none h1]; rfl
          | some p =>
            cases h2 : coords.lookup b.2.2 with
            | none => rw [itemsGet_some h1, ok_bind, itemsGet_none h2]; rfl
            | some q => exact absurd h2 (hl p q h1)
        · cases h1 : coords.lookup c.2.1 with
          | none => rw [itemsGet_none h1] at he; cases he; rfl
          | some p =>
            rw [itemsGet_some h1, ok_bind] at he
            cases h2 : coords.lookup c.2.2 with
            | none => rw [itemsGet_none h2] at he; cases he; rfl
            | some q => rw [itemsGet_some h2] at he; cases he
      rw [this]
      rfl

end

section
variable {K : Type} [DecidableEq K]

/-- With the real square root and speeds that are positive and at most `vmax`: every connection takes a
time of at least zero, and no drive is faster than the straight line at the greatest speed. -/
theorem C75_straight_line {arcs : List (K × K × K)} {coords : List (K × ℝ × ℝ)}
    {speed : List (K × ℝ)} {ods : List (K × K × K)} {f : NetDict K ℝ} {vmax : ℝ}
    (hn : (arcs.map Prod.fst).Nodup)
    (h : createTransport Real.sqrt arcs coords speed ods = .ok f)
    (hv : ∀ k v, speed.lookup k = some v → 0 < v ∧ v ≤ vmax) :
    (∀ c ∈ f.conns, 0 ≤ c.2.2.2) ∧
    ∀ (o d : K) (ws : List ℝ) (p q : ℝ × ℝ), Drive f.conns o ws d → coords.lookup o = some p →
      coords.lookup d = some q → √((p.1 - q.1) ^ 2 + (p.2 - q.2) ^ 2) ≤ vmax * ws.sum := by
  have hall : ∀ a ∈ arcs, ∃ p q v, coords.lookup a.2.1 = some p ∧ coords.lookup a.2.2 = some q ∧
      speed.lookup a.1 = some v := by
    by_contra hc
    push Not at hc
    obtain ⟨a, ha, hc⟩ := hc
    have := (C75_file Real.sqrt arcs coords speed ods hn).2 ⟨a, ha, by
      cases h1 : coords.lookup a.2.1 with
      | none => exact .inl rfl
      | some p =>
        cases h2 : coords.lookup a.2.2 with
        | none => exact .inr (.inl rfl)
        | some q =>
          cases h3 : speed.lookup a.1 with
          | none => exact .inr (.inr rfl)
          | some v => exact absurd h3 (hc p q v h1 h2)⟩
    rw [h] at this
    cases this
  obtain ⟨f', e, -, -, hf⟩ := (C75_file Real.sqrt arcs coords speed ods hn).1 hall
  rw [h] at e
  cases e
  have hconn : ∀ c ∈ f.conns, ∃ p q v, coords.lookup c.2.1 = some p ∧
      coords.lookup c.2.2.1 = some q ∧ 0 < v ∧ v ≤ vmax ∧ c.2.2.2 = arcLength Real.sqrt p q / v := by
    intro c hc
    clear h hall
    generalize f.conns = cs at hf hc
    induction hf with
    | nil => cases hc
    | cons hr _ ih =>
      rcases List.mem_cons.1 hc with rfl | hc
      · obtain ⟨-, e1, e2, p, q, v, h1, h2, h3, h4⟩ := hr
        exact ⟨p, q, v, e1 ▸ h1, e2 ▸ h2, (hv _ v h3).1, (hv _ v h3).2, h4⟩
      · exact ih (List.nodup_cons.1 hn).2 hc
  constructor
  · intro c hc
    obtain ⟨p, q, v, -, -, h3, -, h5⟩ := hconn c hc
    rw [h5]
    exact div_nonneg (Real.sqrt_nonneg _) h3.le
  · intro o d ws p q hd
    induction hd generalizing p with
    | nil =>
      intro h1 h2
      rw [h1] at h2
      cases h2
      simp
    | cons hc hl _ ih =>
      rename_i u m w c ws _
      intro h1 h2
      obtain ⟨a, b, v, e1, e2, hp, hm, e3⟩ := hconn c hc
      have hstep : arcLength Real.sqrt a b ≤ vmax * c.2.2.2 := by
        rw [e3]
        have : arcLength Real.sqrt a b = v * (arcLength Real.sqrt a b / v) := by field_simp
        conv_lhs => rw [this]
        exact mul_le_mul_of_nonneg_right hm (div_nonneg (Real.sqrt_nonneg _) hp.le)
      rw [List.sum_cons, mul_add]
      rcases hl with ⟨l1, l2⟩ | ⟨l1, l2⟩
      · rw [l1, h1] at e1
        rw [l2] at e2
        cases e1
        exact (arcLength_triangle p b q).trans (add_le_add hstep (ih b e2 h2))
      · rw [l2, h1] at e2
        rw [l1] at e1
        cases e2
        refine (arcLength_triangle p a q).trans (add_le_add ?_ (ih a e1 h2))
        rw [arcLength_comm]
        exact hstep

/-- `read_nodes`: for a table in which no node is repeated and every row has the columns `x` and `y`, the
nodes in the order of the table, each with its `x` and its `y`; a repeated node is a `ValueError`, a missing
column a `KeyError`. -/
theorem C75_read_nodes {F : Type} [Field F] (cx cy : K) (rows : List (K × List (K × F))) :
    ((rows.map Prod.fst).Nodup → (∀ r ∈ rows, ∃ a b, r.2.lookup cx = some a ∧ r.2.lookup cy = some b) →
      ∃ coords, readNodes cx cy rows = .ok coords ∧ coords.map Prod.fst = rows.map Prod.fst ∧
        ∀ r ∈ rows, ∀ a b, r.2.lookup cx = some a → r.2.lookup cy = some b →
          coords.lookup r.1 = some (a, b)) ∧
    (¬ (rows.map Prod.fst).Nodup → readNodes cx cy rows = .error .value) ∧
    ((rows.map Prod.fst).Nodup → (∃ r ∈ rows, r.2.lookup cx = none ∨ r.2.lookup cy = none) →
      readNodes cx cy rows = .error .key) := by
  refine ⟨fun hn h => ?_, fun hn => ?_, fun hn h => ?_⟩
  · let g : K × List (K × F) → K × F × F := fun r => (r.1, (r.2.lookup cx).getD 0, (r.2.lookup cy).getD 0)
    have hg : readNodes cx cy rows = .ok (rows.map g) := by
      unfold readNodes
      rw [if_pos hn]
      refine mapM_ok fun r hr => ?_
      obtain ⟨a, b, h1, h2⟩ := h r hr
      rw [itemsGet_some h1, ok_bind, itemsGet_some h2, ok_bind]
      simp only [g, h1, h2]
      rfl
    have hf : (rows.map g).map Prod.fst = rows.map Prod.fst := by
      rw [List.map_map]
      rfl
    refine ⟨_, hg, hf, fun r hr a b h1 h2 => ?_⟩
    have := lookup_mem_items (hf ▸ hn) (List.mem_map_of_mem (f := g) hr)
    rw [show (g r).1 = r.1 from rfl] at this
    rw [this]
    simp [g, h1, h2]
  · unfold readNodes
    rw [if_neg hn]
  · unfold readNodes
    rw [if_pos hn]
    obtain ⟨r, hr, h⟩ := h
    refine mapM_error ⟨r, hr, ?_⟩ fun c hc e' he => ?_
    · cases h1 : r.2.lookup cx with
      | none => rw [itemsGet_none h1]; rfl
      | some a =>
        have h2 : r.2.lookup cy = none := by
          rcases h with h | h
          · rw [h1] at h; cases h
          · exact h
        rw [itemsGet_some h1, ok_bind, itemsGet_none h2]
        rfl
    · cases h1 : c.2.lookup cx with
      | none => rw [itemsGet_none h1] at he; cases he; rfl
      | some a =>
        rw [itemsGet_some h1, ok_bind] at he
        cases h2 : c.2.lookup cy with
        | none => rw [itemsGet_none h2] at he; cases he; rfl
        | some b => rw [itemsGet_some h2] at he; cases he

/-- A table with another column; the same with a node twice. -/
example : readNodes (K := ℕ) (F := ℚ) 1 2 [(10, [(1, 3), (3, 0), (2, 4)]), (11, [(1, 5), (2, 6)])] =
      .ok [(10, 3, 4), (11, 5, 6)] ∧
    readNodes (K := ℕ) (F := ℚ) 1 2 [(10, [(1, 3), (2, 4)]), (10, [(1, 5), (2, 6)])] = .error .value := by
  decide +kernel

/-- Writing a model file and reading it with `read_model_from_json`: for names that are texts and no
two arcs between the same nodes, the graph has the given nodes, an undirected edge for every arc with
its name, ends and travel time (the number in the file), and the ODs are the given ones.  The same for
`create_model_json_for_graph_network`, with weight 1.  Missing for the full claim: names that are
numbers (`C75_not_int_names`) and parallel arcs (`C75_not_parallel`). -/
theorem C75_read_back_partial (sqrt : ℚ → ℚ) (key : K → K) (arcs : List (K × K × K))
    (coords : List (K × ℚ × ℚ)) (speed : List (K × ℚ)) (ods : List (K × K × K))
    (hkey : ∀ k, k ∈ arcs.map Prod.fst ∨ k ∈ coords.map Prod.fst ∨ k ∈ ods.map Prod.fst → key k = k)
    (hn : (arcs.map Prod.fst).Nodup) (hnc : (coords.map Prod.fst).Nodup)
    (hno : (ods.map Prod.fst).Nodup) (hp : OneRoad arcs) :
    (∀ f, createTransport sqrt arcs coords speed ods = .ok f →
      f.conns.map (fun c => (c.1, c.2.1, c.2.2.1)) = arcs ∧
      ∃ inf, readModel (loadNet key f) = .ok inf ∧ inf.ods = ods ∧ inf.comps = coords ∧
        inf.conns = f.conns ∧ GraphOK inf.G ∧
        Describes false false (coords.map Prod.fst) f.conns inf.G) ∧
    ∃ inf, readModel (loadNet key (createGraph arcs coords ods)) = .ok inf ∧ inf.ods = ods ∧
      inf.comps = coords ∧ GraphOK inf.G ∧
      Describes false false (coords.map Prod.fst) (arcs.map fun a => (a.1, a.2.1, a.2.2, 1)) inf.G := by
  have main : ∀ f : NetDict K ℚ, f.ods = ods → f.comps = coords →
      f.conns.map (fun c => (c.1, c.2.1, c.2.2.1)) = arcs →
      ∃ inf, readModel (loadNet key f) = .ok inf ∧ inf.ods = ods ∧ inf.comps = coords ∧
        inf.conns = f.conns ∧ GraphOK inf.G ∧
        Describes false false (coords.map Prod.fst) f.conns inf.G := by
    rintro ⟨fc, fn, fo⟩ rfl rfl hf
    simp only at hf hkey hnc hno ⊢
    have hfst : fn.map Prod.fst = arcs.map Prod.fst := by
      rw [← hf, List.map_map]
      rfl
    have hload : loadNet key ⟨fc, fn, fo⟩ = { comps := fc, conns := fn, ods := fo, gtype := none } := by
      unfold loadNet
      rw [jsonItems_same hnc fun kv h => hkey _ (.inr (.inl (List.mem_map_of_mem h))),
        jsonItems_same (hfst ▸ hn) fun kv h => hkey _ (.inl (hfst ▸ List.mem_map_of_mem h)),
        jsonItems_same hno fun kv h => hkey _ (.inr (.inr (List.mem_map_of_mem h)))]
    have hnp : NoParallel false fn := by
      unfold OneRoad at hp
      rw [← hf, List.pairwise_map] at hp
      refine hp.imp fun {c c'} h u v h1 h2 => h ?_
      rcases h1 with ⟨a1, a2⟩ | ⟨-, a1, a2⟩ <;> rcases h2 with ⟨b1, b2⟩ | ⟨-, b1, b2⟩ <;>
        simp [a1, a2, b1, b2]
    obtain ⟨inf, g1, g2, g3, g4, g5, g6⟩ := (C72_read_partial
      { comps := fc, conns := fn, ods := fo, gtype := none } (hfst ▸ hn)).2 false false
      (.inl ⟨rfl, rfl, rfl⟩) fun _ => hnp
    exact ⟨inf, by rw [hload]; exact g1, g2, g4, g3, g5, g6⟩
  constructor
  · intro f hf
    have hshape : f.ods = ods ∧ f.comps = coords ∧
        f.conns.map (fun c => (c.1, c.2.1, c.2.2.1)) = arcs := by
      unfold createTransport nodeConn at hf
      simp only [bind_ok] at hf
      obtain ⟨conns, ⟨len, -, hm⟩, he⟩ := hf
      cases he
      refine ⟨rfl, rfl, ?_⟩
      have := mapM_ok_forall₂ hm
      show conns.map _ = arcs
      clear hm hkey hn hp main
      induction this with
      | nil => rfl
      | cons hr _ ih =>
        simp only [bind_ok] at hr
        obtain ⟨l, -, v, -, hr⟩ := hr
        cases hr
        rw [List.map_cons, ih]
    exact ⟨hshape.2.2, main f hshape.1 hshape.2.1 hshape.2.2⟩
  · obtain ⟨inf, g1, g2, g3, -, g5, g6⟩ := main (createGraph arcs coords ods) rfl rfl (by
      show (arcs.map _).map _ = arcs
      rw [List.map_map]
      conv_rhs => rw [← List.map_id arcs]
      rfl)
    exact ⟨inf, g1, g2, g3, g5, g6⟩

end

/-! ## Scenario files -/

section
variable {K F T : Type} [DecidableEq K] [DecidableEq T] [Field F] [LinearOrder F]
  [IsStrictOrderedRing F]

/-- `create_scenario_json_for_tranportation_network`, for any function with values from 0 to 1 in place
of the lognormal distribution function: every arc, in order, gets the probability of failure for the
observation of the arc and the parameters of its type, and the complement; both are from 0 to 1 and
their sum is 1.  A missing type, parameter or observation raises `KeyError`. -/
theorem C76_scenario (cdf : F → F → F → F) (hcdf : ∀ x s m, 0 ≤ cdf x s m ∧ cdf x s m ≤ 1)
    (arcs : List (K × K × K)) (typ : List (K × T)) (frag : List (T × F × F)) (obs : List (K × F)) :
    ((∀ a ∈ arcs, ∃ t o sm, typ.lookup a.1 = some t ∧ obs.lookup a.1 = some o ∧
        frag.lookup t = some sm) →
      ∃ sc, createScenario cdf arcs typ frag obs = .ok sc ∧
        List.Forall₂ (fun a kp => kp.1 = a.1 ∧ ∃ t o std med pf ps, typ.lookup a.1 = some t ∧
          obs.lookup a.1 = some o ∧ frag.lookup t = some (std, med) ∧ kp.2 = [pf, ps] ∧
          pf = cdf o std med ∧ 0 ≤ pf ∧ 0 ≤ ps ∧ pf + ps = 1) arcs sc) ∧
    ((∃ a ∈ arcs, typ.lookup a.1 = none ∨ obs.lookup a.1 = none ∨
        ∃ t, typ.lookup a.1 = some t ∧ frag.lookup t = none) →
      createScenario cdf arcs typ frag obs = .error .key) := by
  constructor
  · intro h
    have : ∀ a, ∃ y : K × List F, a ∈ arcs → (do
        let t ← itemsGet typ a.1
        let o ← itemsGet obs a.1
        let f ← itemsGet frag t
        return (a.1, [cdf o f.1 f.2, 1 - cdf o f.1 f.2]) : Except Err _) = .ok y ∧
        (y.1 = a.1 ∧ ∃ t o std med pf ps, typ.lookup a.1 = some t ∧
          obs.lookup a.1 = some o ∧ frag.lookup t = some (std, med) ∧ y.2 = [pf, ps] ∧
          pf = cdf o std med ∧ 0 ≤ pf ∧ 0 ≤ ps ∧ pf + ps = 1) := by
      intro a
      by_cases ha : a ∈ arcs
      · obtain ⟨t, o, ⟨std, med⟩, h1, h2, h3⟩ := h a ha
        refine ⟨(a.1, [cdf o std med, 1 - cdf o std med]), fun _ => ⟨?_, rfl, t, o, std, med, _, _,
          h1, h2, h3, rfl, rfl, (hcdf _ _ _).1, sub_nonneg.2 (hcdf _ _ _).2, add_sub_cancel _ _⟩⟩
        rw [itemsGet_some h1, ok_bind, itemsGet_some h2, ok_bind, itemsGet_some h3, ok_bind]
        rfl
      · exact ⟨(a.1, []), fun h => absurd h ha⟩
    choose g hg using this
    refine ⟨arcs.map g, mapM_ok fun a ha => (hg a ha).1, ?_⟩
    rw [List.forall₂_map_right_iff, List.forall₂_same]
    exact fun a ha => (hg a ha).2
  · rintro ⟨a, ha, h⟩
    refine mapM_error ⟨a, ha, ?_⟩ fun b hb e' he => ?_
    · cases h1 : typ.lookup a.1 with
      | none => rw [itemsGet_none h1]; rfl
      | some t =>
        rw [itemsGet_some h1, ok_bind]
        cases h2 : obs.lookup a.1 with
        | none => rw [itemsGet_none h2]; rfl
        | some o =>
          rw [itemsGet_some h2, ok_bind]
          rcases h with h | h | ⟨t', h, h'⟩
          · rw [h1] at h; cases h
          · rw [h2] at h; cases h
          · rw [h1] at h
            cases h
            rw [itemsGet_none h']
            rfl
    · cases h1 : typ.lookup b.1 with
      | none => rw [itemsGet_none h1] at he; cases he; rfl
      | some t =>
        rw [itemsGet_some h1, ok_bind] at he
        cases h2 : obs.lookup b.1 with
        | none => rw [itemsGet_none h2] at he; cases he; rfl
        | some o =>
          rw [itemsGet_some h2, ok_bind] at he
          cases h3 : frag.lookup t with
          | none => rw [itemsGet_none h3] at he; cases he; rfl
          | some f => rw [itemsGet_some h3] at he; cases he

/-- `dict_to_json`, if every component has the same number of scenarios, the names are different texts
and rounding is off by at most `ε`: the file has that many scenarios, numbered from 1, and scenario
`i` lists for every component, in order, two numbers within `ε` of the given probability of failure and
of its complement, hence with a sum within `2 ε` of 1.  Without components, or if a component has fewer
scenarios than the first, the call raises. -/
theorem C76_file_partial (key : K → K) (rnd : F → F) (ε : F) (hr : ∀ x, |rnd x - x| ≤ ε)
    (pf : List (K × List F)) :
    (pf = [] → dictToJson key rnd pf = .error .value) ∧
    ((∃ a b, pf.head? = some a ∧ b ∈ pf ∧ b.2.length < a.2.length) →
      dictToJson key rnd pf = .error .index) ∧
    ∀ n, pf ≠ [] → (∀ kv ∈ pf, kv.2.length = n) → (pf.map Prod.fst).Nodup →
      (∀ k ∈ pf.map Prod.fst, key k = k) →
      ∃ js, dictToJson key rnd pf = .ok js ∧ js.length = n ∧
        ∀ (i : ℕ), i < n → ∃ sc, js[i]? = some (i + 1, sc) ∧
          List.Forall₂ (fun kv kp => kp.1 = kv.1 ∧ ∃ p x y, kv.2[i]? = some p ∧ kp.2 = [x, y] ∧
            |x - p| ≤ ε ∧ |y - (1 - p)| ≤ ε ∧ |x + y - 1| ≤ 2 * ε) pf sc := by
  refine ⟨fun h => by rw [h]; rfl, ?_, ?_⟩
  · rintro ⟨a, b, ha, hb, hlt⟩
    obtain ⟨tl, rfl⟩ : ∃ tl, pf = a :: tl := by
      cases pf with
      | nil => cases ha
      | cons c tl => cases ha; exact ⟨tl, rfl⟩
    have hcol : ∀ i, (∃ c ∈ a :: tl, c.2.length ≤ i) →
        ((a :: tl).mapM fun kv => do
          let v ← pyGet kv.2 i
          return (kv.1, [rnd v, rnd (1 - v)]) : Except Err (List (K × List F))) = .error .index := by
      rintro i ⟨c, hc, hci⟩
      refine mapM_error ⟨c, hc, ?_⟩ fun c' _ e' he => ?_
      · simp [pyGet, Nat.not_lt.2 hci]
      · by_cases h : i < c'.2.length
        · rw [pyGet_lt h 0] at he; cases he
        · have : pyGet c'.2 i = .error .index := by simp [pyGet, h]
          rw [this] at he
          cases he
          rfl
    unfold dictToJson
    refine mapM_error ⟨b.2.length, List.mem_range.2 hlt, ?_⟩ fun i _ e' he => ?_
    · rw [hcol _ ⟨b, hb, le_rfl⟩]
      rfl
    · by_cases h : ∃ c ∈ a :: tl, c.2.length ≤ i
      · rw [hcol i h] at he; cases he; rfl
      · push Not at h
        rw [mapM_ok (g := fun kv => (kv.1, [rnd (kv.2.getD i 0), rnd (1 - kv.2.getD i 0)]))
          fun kv hkv => by rw [pyGet_lt (h kv hkv) 0]; rfl] at he
        cases he
  · intro n hne hlen hnd hk
    obtain ⟨a, tl, rfl⟩ := List.exists_cons_of_ne_nil hne
    have hj : dictToJson key rnd (a :: tl) = .ok ((List.range n).map fun i => (i + 1,
        (a :: tl).map fun kv => (kv.1, [rnd (kv.2.getD i 0), rnd (1 - kv.2.getD i 0)]))) := by
      show (List.range a.2.length).mapM _ = _
      rw [hlen a List.mem_cons_self]
      refine mapM_ok fun i hi => ?_
      rw [mapM_ok (g := fun kv => (kv.1, [rnd (kv.2.getD i 0), rnd (1 - kv.2.getD i 0)]))
        fun kv hkv => by rw [pyGet_lt (by rw [hlen kv hkv]; exact List.mem_range.1 hi) 0]; rfl,
        ok_bind, jsonItems_same]
      · rfl
      · rw [List.map_map]
        exact hnd
      · intro kv hkv
        obtain ⟨x, hx, rfl⟩ := List.mem_map.1 hkv
        exact hk x.1 (List.mem_map_of_mem (f := Prod.fst) hx)
    refine ⟨_, hj, by simp, fun i hi => ⟨_, by rw [List.getElem?_map, List.getElem?_range hi]; rfl, ?_⟩⟩
    rw [List.forall₂_map_right_iff, List.forall₂_same]
    intro kv hkv
    have hl : i < kv.2.length := by rw [hlen kv hkv]; exact hi
    refine ⟨rfl, kv.2.getD i 0, _, _, by simp [hl], rfl, hr _, hr _, ?_⟩
    have h1 := abs_le.1 (hr (kv.2.getD i 0))
    have h2 := abs_le.1 (hr (1 - kv.2.getD i 0))
    rw [abs_le]
    constructor <;> linarith [h1.1, h1.2, h2.1, h2.2]

end

/-! ## Tables -/

section
variable {K V : Type} [DecidableEq K]

/-- `convert_csv_to_json`, for a table whose rows all have the columns `cols`: there is a record for
exactly the labels of the table; the record of a label is the template, with the entries of the last
row of that label in place of or in addition to its own.  The caller's template afterwards has the
entries of the last row.  Missing for the full claim: that the template is the caller's
(`C77_not_template`). -/
theorem C77_records_partial (str : K → K) (rows : List (K × List (K × V))) (template : List (K × V))
    (cols : List K) (hc : cols.Nodup) (hr : ∀ r ∈ rows, r.2.map Prod.fst = cols) :
    (∀ l, (csvToJson str rows template).1.lookup l = none ↔ ∀ r ∈ rows, str r.1 ≠ l) ∧
    (∀ before r after, rows = before ++ r :: after → (∀ r' ∈ after, str r'.1 ≠ str r.1) →
      ∃ t, (csvToJson str rows template).1.lookup (str r.1) = some t ∧
        ∀ j, t.lookup j = (r.2.lookup j).or (template.lookup j)) ∧
    (∀ before r, rows = before ++ [r] →
      ∀ j, (csvToJson str rows template).2.lookup j = (r.2.lookup j).or (template.lookup j)) := by
  have hmiss : ∀ r ∈ rows, ∀ j, r.2.lookup j = none ↔ j ∉ cols := by
    intro r h j
    rw [← hr r h, List.lookup_eq_none_iff]
    simp only [bne_iff_ne, ne_eq, List.mem_map, not_exists, not_and]
    exact ⟨fun h x hx e => h x hx e.symm, fun h x hx e => h x hx e.symm⟩
  -- appending a row at the end
  have happ : ∀ l r, csvToJson str (l ++ [r]) template =
      (itemSet (csvToJson str l template).1 (str r.1) (itemsUpdate (csvToJson str l template).2 r.2),
        itemsUpdate (csvToJson str l template).2 r.2) := by
    intro l r
    unfold csvToJson
    rw [List.foldl_append]
    rfl
  have key : ∀ l, (∀ r ∈ l, r ∈ rows) →
      (∀ j, j ∉ cols → (csvToJson str l template).2.lookup j = template.lookup j) ∧
      (∀ k, (csvToJson str l template).1.lookup k = none ↔ ∀ r ∈ l, str r.1 ≠ k) ∧
      (∀ before r after, l = before ++ r :: after → (∀ r' ∈ after, str r'.1 ≠ str r.1) →
        ∃ t, (csvToJson str l template).1.lookup (str r.1) = some t ∧
          ∀ j, t.lookup j = (r.2.lookup j).or (template.lookup j)) ∧
      (∀ before r, l = before ++ [r] →
        ∀ j, (csvToJson str l template).2.lookup j = (r.2.lookup j).or (template.lookup j)) := by
    intro l
    induction l using List.reverseRecOn with
    | nil => intro _; simp [csvToJson]
    | append_singleton l r ih =>
      intro hl
      obtain ⟨i1, i2, i3, -⟩ := ih fun x hx => hl x (by simp [hx])
      have hrm : r ∈ rows := hl r (by simp)
      have hnd : (r.2.map Prod.fst).Nodup := by rw [hr r hrm]; exact hc
      have ht : ∀ j, (itemsUpdate (csvToJson str l template).2 r.2).lookup j =
          (r.2.lookup j).or (template.lookup j) := by
        intro j
        rw [lookup_itemsUpdate _ _ hnd]
        cases h : r.2.lookup j with
        | some v => rfl
        | none => rw [i1 j ((hmiss r hrm j).1 h)]
      rw [happ]
      refine ⟨fun j hj => ?_, fun k => ?_, fun b r' a e hlast => ?_, fun b r' e j => ?_⟩
      · show (itemsUpdate _ _).lookup j = _
        rw [ht, (hmiss r hrm j).2 hj]
        rfl
      · show (itemSet _ _ _).lookup k = none ↔ _
        rw [lookup_itemSet]
        by_cases hk : k = str r.1
        · rw [if_pos hk]
          simp only [reduceCtorEq, false_iff]
          exact fun h => h r (by simp) hk.symm
        · rw [if_neg hk, i2]
          simp only [List.mem_append, List.mem_singleton]
          constructor
          · rintro h x (hx | rfl)
            · exact h x hx
            · exact Ne.symm hk
          · exact fun h x hx => h x (.inl hx)
      · show ∃ t, (itemSet _ _ _).lookup _ = some t ∧ _
        rw [lookup_itemSet]
        rcases List.eq_nil_or_concat a with rfl | ⟨a', x, rfl⟩
        · have e' := List.append_inj' e rfl
          have : r = r' := by simpa using e'.2
          subst this
          exact ⟨_, if_pos rfl, ht⟩
        · have e2 : l ++ [r] = (b ++ r' :: a') ++ [x] := by rw [e]; simp
          have e' := List.append_inj' e2 rfl
          have : r = x := by simpa using e'.2
          subst this
          rw [if_neg (Ne.symm (hlast r (by simp)))]
          exact i3 b r' a' e'.1 fun y hy => hlast y (by simp [hy])
      · have e' := List.append_inj' e rfl
        have : r = r' := by simpa using e'.2
        subst this
        exact ht j
  exact ⟨(key rows fun _ h => h).2.1, (key rows fun _ h => h).2.2.1, (key rows fun _ h => h).2.2.2⟩

end

/-! ## Concrete cases -/

namespace Ex

/-- A text as a name. -/
def nm (s : String) : PyName := .str s.toList

def fArcs : List (PyName × PyName × PyName) :=
  [(nm "e1", nm "a", nm "b"), (nm "e2", nm "b", nm "c")]

def fCoords : List (PyName × ℚ × ℚ) := [(nm "a", 0, 0), (nm "b", 3, 4), (nm "c", 3, 10)]

def fSpeed : List (PyName × ℚ) := [(nm "e1", 10), (nm "e2", 60)]

def fOds : List (PyName × PyName × PyName) := [(nm "od", nm "a", nm "c")]

/-- A square root that is exact for the two lengths. -/
def fSqrt (x : ℚ) : ℚ := if x = 25 then 5 else if x = 36 then 6 else 0

/-- Rounding to ten decimals. -/
def round10 (x : ℚ) : ℚ := (⌊x * 10 ^ 10 + 1 / 2⌋ : ℚ) / 10 ^ 10

theorem round10_ok (x : ℚ) : |round10 x - x| ≤ 1 / (2 * 10 ^ 10) := by
  unfold round10
  have h1 := Int.floor_le (x * 10 ^ 10 + 1 / 2)
  have h2 := Int.lt_floor_add_one (x * 10 ^ 10 + 1 / 2)
  rw [abs_le]
  constructor
  · have : x - 1 / (2 * 10 ^ 10) ≤ (⌊x * 10 ^ 10 + 1 / 2⌋ : ℚ) / 10 ^ 10 := by
      rw [le_div_iff₀ (by norm_num)]; linarith
    linarith
  · have : (⌊x * 10 ^ 10 + 1 / 2⌋ : ℚ) / 10 ^ 10 ≤ x + 1 / (2 * 10 ^ 10) := by
      rw [div_le_iff₀ (by norm_num)]; linarith
    linarith

end Ex

open Ex in
example : (createTransport fSqrt fArcs fCoords fSpeed fOds).map NetDict.conns =
    .ok [(nm "e1", nm "a", nm "b", 1 / 2), (nm "e2", nm "b", nm "c", 1 / 10)] := by decide +kernel

open Ex in
/-- The hypotheses of the theorem on reading back hold. -/
example := C75_read_back_partial fSqrt jsonKey fArcs fCoords fSpeed fOds
  (by
    have : ∀ k ∈ fArcs.map Prod.fst ++ fCoords.map Prod.fst ++ fOds.map Prod.fst, jsonKey k = k := by
      decide
    intro k h
    exact this k (by simpa [or_assoc] using h))
  (by decide) (by decide) (by decide) (by unfold OneRoad; decide)

/-- Two roads from 1 over 2 to 3, the second given against the direction of the drive: the hypotheses of
the theorem on the straight line hold, and the drive from 1 to 3 takes at least 5 / 60. -/
example : ∃ (f : NetDict ℕ ℝ) (ws : List ℝ),
    createTransport Real.sqrt [(10, 1, 2), (11, 3, 2)] [(1, 0, 0), (2, 3, 0), (3, 3, 4)]
      [(10, 30), (11, 60)] [] = .ok f ∧ Drive f.conns 1 ws 3 ∧ ws.length = 2 ∧ 5 ≤ 60 * ws.sum := by
  obtain ⟨f, h, -, -, hf⟩ := (C75_file Real.sqrt [(10, 1, 2), (11, 3, 2)]
    [((1 : ℕ), (0 : ℝ), (0 : ℝ)), (2, 3, 0), (3, 3, 4)] [(10, 30), (11, 60)] [] (by decide)).1 (by
      intro a ha
      simp only [List.mem_cons, List.not_mem_nil, or_false] at ha
      rcases ha with rfl | rfl
      · exact ⟨_, _, _, rfl, rfl, rfl⟩
      · exact ⟨_, _, _, rfl, rfl, rfl⟩)
  have hs := C75_straight_line (vmax := 60) (by decide) h (by
    intro k v hk
    rw [List.lookup_cons, List.lookup_cons, List.lookup_nil] at hk
    split at hk
    · cases hk; norm_num
    · split at hk
      · cases hk; norm_num
      · cases hk)
  have hd : ∃ ws, Drive f.conns 1 ws 3 ∧ ws.length = 2 := by
    generalize f.conns = cs at hf
    rcases hf with _ | ⟨⟨-, a1, a2, -⟩, _ | ⟨⟨-, b1, b2, -⟩, _⟩⟩
    exact ⟨_, .cons List.mem_cons_self (.inl ⟨a1, a2⟩)
      (.cons (List.mem_cons_of_mem _ List.mem_cons_self) (.inr ⟨b1, b2⟩) .nil), rfl⟩
  obtain ⟨ws, hd, hl⟩ := hd
  refine ⟨f, ws, h, hd, hl, ?_⟩
  have := hs.2 1 3 ws (0, 0) (3, 4) hd rfl rfl
  have e : √(((0 : ℝ) - 3) ^ 2 + (0 - 4) ^ 2) = 5 := by
    rw [show ((0 : ℝ) - 3) ^ 2 + (0 - 4) ^ 2 = 5 ^ 2 by norm_num]
    exact Real.sqrt_sq (by norm_num)
  rw [e] at this
  exact this

/-- A missing speed. -/
example : (createTransport Ex.fSqrt Ex.fArcs Ex.fCoords [(Ex.nm "e1", 10)] Ex.fOds).map NetDict.conns =
    .error .key := by decide +kernel

/-- Nodes named by numbers, as in a dictionary with the keys 1 and 2: the ends of the connections stay
numbers, the entries of the component list become texts, so that the graph has four nodes, and the two
that come from the component list have no connection. -/
theorem C75_not_int_names :
    let coords : List (PyName × ℚ × ℚ) := [(.int 1, 0, 0), (.int 2, 3, 4)]
    let arcs : List (PyName × PyName × PyName) := [(.str ['e'], .int 1, .int 2)]
    ∃ f inf, createTransport Ex.fSqrt arcs coords [(.str ['e'], 10)] [] = .ok f ∧
      readModel (loadNet jsonKey f) = .ok inf ∧
      inf.G.nodes = [.int 1, .int 2, .str ['1'], .str ['2']] ∧
      ∀ e ∈ inf.G.edges, e.src ≠ .str ['1'] ∧ e.dst ≠ .str ['1'] ∧ e.src ≠ .str ['2'] ∧
        e.dst ≠ .str ['2'] := by
  refine ⟨_, _, rfl, rfl, by decide +kernel, by decide +kernel⟩

/-- Two arcs between the same nodes: no `graph_type` is written, so that only one of them is in the
graph that is read. -/
theorem C75_not_parallel :
    let coords : List (PyName × ℚ × ℚ) := [(.str ['a'], 0, 0), (.str ['b'], 3, 4)]
    let arcs : List (PyName × PyName × PyName) :=
      [(.str ['e'], .str ['a'], .str ['b']), (.str ['f'], .str ['b'], .str ['a'])]
    ∃ inf, readModel (loadNet jsonKey (createGraph arcs coords [])) = .ok inf ∧
      inf.G.edges.map NEdge.label = [.str ['f']] := by
  refine ⟨_, rfl, by decide +kernel⟩

/-- A scenario with two arcs of one type; a stand-in for the distribution function. -/
example : createScenario (fun x _ m : ℚ => if x < m then 1 / 4 else 3 / 4)
    [((1 : ℕ), 7, 8), (2, 8, 9)] [(1, 'r'), (2, 'r')] [('r', 1, 5)] [(1, 2), (2, 6)] =
    .ok [(1, [1 / 4, 3 / 4]), (2, [3 / 4, 1 / 4])] := by decide +kernel

example := C76_scenario (K := ℕ) (T := Char) (fun x _ m : ℚ => if x < m then 1 / 4 else 3 / 4)
  (fun x _ m => by split <;> norm_num)

open Ex in
example := C76_file_partial (K := ℕ) id round10 _ round10_ok [(1, [1 / 4, 1 / 3]), (2, [1, 0])]

/-- Two scenarios for two components. -/
example : dictToJson id Ex.round10 [((1 : ℕ), [1 / 4, 1 / 2]), (2, [1, 0])] =
    .ok [(1, [(1, [1 / 4, 3 / 4]), (2, [1, 0])]), (2, [(1, [1 / 2, 1 / 2]), (2, [0, 1])])] := by
  decide +kernel

/-- The number of scenarios is that of the first component: of the second component, only the first
of two scenarios is written. -/
theorem C76_not_all_scenarios :
    dictToJson id Ex.round10 [((1 : ℕ), [1 / 4]), (2, [1, 1 / 2])] =
      .ok [(1, [(1, [1 / 4, 3 / 4]), (2, [1, 0])])] := by
  decide +kernel

/-- A positive probability of failure becomes zero in the file. -/
theorem C76_not_small_probability :
    dictToJson id Ex.round10 [((1 : ℕ), [1 / 10 ^ 11])] = .ok [(1, [(1, [0, 1])])] := by
  decide +kernel

/-- A table with two rows. -/
example : (csvToJson id [((1 : ℕ), [(10, 'x'), (11, 'y')]), (2, [(10, 'z'), (11, 'w')])]
    [(12, 'n'), (10, 'n')]).1 =
    [(1, [(12, 'n'), (10, 'x'), (11, 'y')]), (2, [(12, 'n'), (10, 'z'), (11, 'w')])] := by decide +kernel

example := C77_records_partial id [((1 : ℕ), [(10, 'x'), (11, 'y')]), (2, [(10, 'z'), (11, 'w')])]
  [(12, 'n')] [10, 11] (by decide) (by decide)

/-- The template is the caller's object: a second table, without the column 10 of the first and
converted with the same template, gets the value of the last row of the first table in its records,
where the template had `'n'`. -/
theorem C77_not_template :
    let template : List (ℕ × Char) := [(10, 'n'), (11, 'n')]
    let second : List (ℕ × List (ℕ × Char)) := [(5, [(11, 'v')])]
    let after := (csvToJson id [(1, [(10, 'x'), (11, 'y')])] template).2
    (csvToJson id second template).1 = [(5, [(10, 'n'), (11, 'v')])] ∧
      (csvToJson id second after).1 = [(5, [(10, 'x'), (11, 'v')])] := by
  decide +kernel

end BNS
