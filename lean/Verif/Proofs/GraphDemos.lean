import Verif.Model.GraphDemos
import Verif.Spec.GraphDemos
import Verif.Proofs.CreateModel
import Verif.Props.ConnMain
import Verif.Props.Rbd

/-!
# The networks of the routine and rbd demos, and probabilities of events of components with two states
-/

namespace BNS

set_option linter.unusedSectionVars false

/-- The probability that `f` is true of independent truth values. -/
def boolProb : List (ℚ × ℚ) → (List Bool → Bool) → ℚ
  | [], f => if f [] then 1 else 0
  | ab :: l, f => ab.1 * boolProb l (fun bs => f (false :: bs)) + ab.2 * boolProb l fun bs => f (true :: bs)

section
variable {K : Type} [DecidableEq K]

theorem sumOver_bool (names : List K) (hn : names.Nodup) (probs : K → ℕ → ℚ) (f : List Bool → Bool)
    (y : K → ℕ) :
    sumOver (names.map fun k => (k, 2)) (fun x => if f (names.map fun k => decide (x k ≠ 0)) then
        weight (names.map fun k => (k, 2)) probs x else 0) y =
      boolProb (names.map fun k => (probs k 0, probs k 1)) f := by
  induction names generalizing f y with
  | nil => simp [sumOver, boolProb, weight]
  | cons k l ih =>
    have hk := (List.nodup_cons.1 hn).1
    have hl := (List.nodup_cons.1 hn).2
    have hfst : (l.map fun k => (k, 2)).map Prod.fst = l := by rw [List.map_map]; exact List.map_id _
    have key : ∀ (i : ℕ) (b : Bool), b = decide (i ≠ 0) →
        sumOver (l.map fun k => (k, 2)) (fun x => if f ((k :: l).map fun k => decide (x k ≠ 0)) then
          weight ((k :: l).map fun k => (k, 2)) probs x else 0) (Function.update y k i) =
        probs k i * boolProb (l.map fun k => (probs k 0, probs k 1)) (fun bs => f (b :: bs)) := by
      intro i b hb
      rw [← ih hl (fun bs => f (b :: bs)) (Function.update y k i), ← sumOver_mul_left]
      refine sumOver_congr' _ (by rw [hfst]; exact hl) _ fun x _ hx => ?_
      have hxk : x k = i := by
        rw [hx k (by rw [hfst]; exact hk), Function.update_self]
      simp only [List.map_cons, hxk, ← hb, weight, List.prod_cons, mul_ite, mul_zero]
    simp only [List.map_cons, sumOver, boolProb, Finset.sum_range_succ, Finset.sum_range_zero, zero_add]
    have h0 := key 0 false rfl
    have h1 := key 1 true rfl
    simp only [List.map_cons] at h0 h1
    rw [h0, h1]

theorem probOf_bool (names : List K) (hn : names.Nodup) (probs : K → ℕ → ℚ) (f : List Bool → Bool)
    (E : (K → ℕ) → Prop) [DecidablePred E]
    (h : ∀ x, E x ↔ f (names.map fun k => decide (x k ≠ 0)) = true) :
    probOf (names.map fun k => (k, 2)) probs E = boolProb (names.map fun k => (probs k 0, probs k 1)) f := by
  rw [← sumOver_bool names hn probs f fun _ => 0]
  unfold probOf
  congr 1
  funext x
  by_cases hE : E x
  · rw [if_pos hE, if_pos ((h x).1 hE)]
  · rw [if_neg hE, if_neg fun e => hE ((h x).2 e)]

end

section
variable {K : Type} [LinearOrder K] {data : List (CfgKey K × CfgVal K)}
  {nd eg xb : ℕ → K} {src snk od1 sys pm q : K} {mb : CfgVal K}

/-- Connections between different pairs of nodes, given by numbers, are not parallel. -/
theorem noParallel_index (nm : ℕ → K) {N : ℕ} (hi : ∀ i < N, ∀ j < N, nm i = nm j → i = j)
    (l : List (K × ℕ × ℕ)) (hl : ∀ c ∈ l, c.2.1 < N ∧ c.2.2 < N)
    (hp : (l.map Prod.snd).Pairwise fun a b => ¬ (a = b ∨ a = (b.2, b.1))) :
    NoParallel false (l.map fun c => (c.1, nm c.2.1, nm c.2.2, (1 : ℚ))) := by
  unfold NoParallel
  rw [List.pairwise_map] at hp ⊢
  refine List.Pairwise.imp_of_mem (fun {a b} ha hb h u v h1 h2 => h ?_) hp
  obtain ⟨a1, a2⟩ := hl a ha
  obtain ⟨b1, b2⟩ := hl b hb
  rcases h1 with ⟨rfl, rfl⟩ | ⟨-, rfl, rfl⟩ <;> rcases h2 with ⟨e1, e2⟩ | ⟨-, e1, e2⟩ <;>
    simp only at e1 e2
  · exact .inl (Prod.ext (hi _ a1 _ b1 e1.symm) (hi _ a2 _ b2 e2.symm))
  · exact .inr (Prod.ext (hi _ a1 _ b2 e2.symm) (hi _ a2 _ b1 e1.symm))
  · exact .inr (Prod.ext (hi _ a1 _ b2 e2.symm) (hi _ a2 _ b1 e1.symm))
  · exact .inl (Prod.ext (hi _ a1 _ b1 e1.symm) (hi _ a2 _ b2 e2.symm))

theorem index_inj {N : ℕ} (nm : ℕ → K) (h : ((List.range N).map nm).Nodup) :
    ∀ i < N, ∀ j < N, nm i = nm j → i = j := fun i hi j hj e =>
  List.inj_on_of_nodup_map h (List.mem_range.2 hi) (List.mem_range.2 hj) e

/-- The nodes of the routine demo by number, from 0. -/
theorem RoutineNames.inj (h : RoutineNames nd eg) :
    ∀ i < 4, ∀ j < 4, nd (i + 1) = nd (j + 1) → i = j :=
  index_inj (fun i => nd (i + 1))
    (h.sublist (List.sublist_append_left [nd 1, nd 2, nd 3, nd 4] [eg 1, eg 2, eg 3, eg 4, eg 5]))

/-- The file of the routine demo can be used by the connectivity demos. -/
theorem routine_file (h : RoutineNames nd eg) (hd : DemoConfig data pm q mb)
    {files : K → Option (FileC K)} {m : NetJson K} (hm : RoutineModel nd eg od1 m)
    (hf : files pm = some (.model m)) : ConnFileOK files data pm q m false false mb := by
  obtain ⟨m1, m2, m3, m4⟩ := hm
  have happ := List.nodup_append.1 (show ([nd 1, nd 2, nd 3, nd 4] ++ [eg 1, eg 2, eg 3, eg 4, eg 5]).Nodup
    from h)
  refine ⟨hd.model, hf, .inl ⟨_, hd.scen, .inr (.inl rfl)⟩, hd.id, hd.branches, hd.out,
    .inl ⟨m4, rfl, rfl⟩, fun _ => ?_, ?_, fun c hc => ?_, fun n hn he => ?_⟩
  · rw [m2]
    exact noParallel_index (fun i => nd (i + 1)) h.inj
      [(eg 1, 0, 1), (eg 2, 0, 2), (eg 3, 1, 2), (eg 4, 1, 3), (eg 5, 2, 3)] (by simp)
      (by show List.Pairwise _ [(0, 1), (0, 2), (1, 2), (1, 3), (2, 3)]; decide)
  · rw [m2]; exact happ.2.1
  · have e1 : m.conns.map Prod.fst = [eg 1, eg 2, eg 3, eg 4, eg 5] := by rw [m2]; rfl
    rw [e1]
    rw [m2] at hc
    have hc' : c.2.1 ∈ [nd 1, nd 2, nd 3, nd 4] ∧ c.2.2.1 ∈ [nd 1, nd 2, nd 3, nd 4] := by
      simp only [List.mem_cons, List.not_mem_nil, or_false] at hc
      rcases hc with rfl | rfl | rfl | rfl | rfl <;> simp
    exact ⟨fun he => happ.2.2 _ hc'.1 _ he rfl, fun he => happ.2.2 _ hc'.2 _ he rfl⟩
  · rw [m2] at he
    rw [m1] at hn
    exact happ.2.2 _ hn _ he rfl

/-- Whether a node of the routine demo (counted from 0) can be reached, by the working connections. -/
def bridgeReach (a b c d e : Bool) : ℕ → Bool
  | 0 => true
  | 1 => a || (b && c) || (b && e && d)
  | 2 => b || (a && c) || (a && d && e)
  | _ => (a && d) || (b && e) || (a && c && e) || (b && c && d)

theorem bridge_01 : ∀ b c d e, bridgeReach true b c d e 0 = bridgeReach true b c d e 1 := by decide
theorem bridge_02 : ∀ a c d e, bridgeReach a true c d e 0 = bridgeReach a true c d e 2 := by decide
theorem bridge_12 : ∀ a b d e, bridgeReach a b true d e 1 = bridgeReach a b true d e 2 := by decide
theorem bridge_13 : ∀ a b c e, bridgeReach a b c true e 1 = bridgeReach a b c true e 3 := by decide
theorem bridge_23 : ∀ a b c d, bridgeReach a b c d true 2 = bridgeReach a b c d true 3 := by decide

/-- When the origin and the destination of the routine demo are connected. -/
theorem routine_linked (h : RoutineNames nd eg) {m : NetJson K} (hm : RoutineModel nd eg od1 m)
    (x : K → ℕ) : LinkedIn false m.conns (nd 1) (nd 4) x ↔
      (x (eg 1) ≠ 0 ∧ x (eg 4) ≠ 0) ∨ (x (eg 2) ≠ 0 ∧ x (eg 5) ≠ 0) ∨
      (x (eg 1) ≠ 0 ∧ x (eg 3) ≠ 0 ∧ x (eg 5) ≠ 0) ∨ (x (eg 2) ≠ 0 ∧ x (eg 3) ≠ 0 ∧ x (eg 4) ≠ 0) := by
  obtain ⟨-, m2, -, -⟩ := hm
  have hmem : ∀ c, c ∈ m.conns ↔ c = (eg 1, nd 1, nd 2, 1) ∨ c = (eg 2, nd 1, nd 3, 1) ∨
      c = (eg 3, nd 2, nd 3, 1) ∨ c = (eg 4, nd 2, nd 4, 1) ∨ c = (eg 5, nd 3, nd 4, 1) := fun c => by
    rw [m2]; simp
  have go : ∀ {u v : K} (k : K), (k, u, v, (1 : ℚ)) ∈ m.conns ∨ (k, v, u, (1 : ℚ)) ∈ m.conns → x k ≠ 0 →
      WorkingConn false m.conns x u v := fun k h hk => by
    rcases h with h | h
    · exact ⟨_, h, hk, .inl ⟨rfl, rfl⟩⟩
    · exact ⟨_, h, hk, .inr ⟨rfl, rfl, rfl⟩⟩
  constructor
  · intro hl
    set R := bridgeReach (decide (x (eg 1) ≠ 0)) (decide (x (eg 2) ≠ 0)) (decide (x (eg 3) ≠ 0))
      (decide (x (eg 4) ≠ 0)) (decide (x (eg 5) ≠ 0)) with hRdef
    have key : ∀ c, LinkedIn false m.conns (nd 1) c x → ∃ i < 4, c = nd (i + 1) ∧ R i = true := by
      intro c hl
      unfold LinkedIn at hl
      induction hl with
      | refl => exact ⟨0, by omega, rfl, rfl⟩
      | @tail b c _ hw ih =>
        obtain ⟨i, hi, rfl, hR⟩ := ih
        obtain ⟨e, he, hx, hlk⟩ := hw
        have step : ∀ (u v : ℕ), u < 4 → v < 4 → R u = R v →
            ConnLinks false (e.1, nd (u + 1), nd (v + 1), (1 : ℚ)) (nd (i + 1)) c →
            ∃ j < 4, c = nd (j + 1) ∧ R j = true := by
          intro u v hu hv h1 hc
          rcases hc with ⟨e1, e2⟩ | ⟨-, e1, e2⟩
          · have := h.inj u hu i hi e1
            subst this
            exact ⟨v, hv, e2.symm, h1 ▸ hR⟩
          · have := h.inj v hv i hi e2
            subst this
            exact ⟨u, hu, e1.symm, h1.symm ▸ hR⟩
        rcases (hmem e).1 he with rfl | rfl | rfl | rfl | rfl
        · refine step 0 1 (by omega) (by omega) ?_ hlk
          rw [hRdef, decide_eq_true hx]
          exact bridge_01 _ _ _ _
        · refine step 0 2 (by omega) (by omega) ?_ hlk
          rw [hRdef, decide_eq_true hx]
          exact bridge_02 _ _ _ _
        · refine step 1 2 (by omega) (by omega) ?_ hlk
          rw [hRdef, decide_eq_true hx]
          exact bridge_12 _ _ _ _
        · refine step 1 3 (by omega) (by omega) ?_ hlk
          rw [hRdef, decide_eq_true hx]
          exact bridge_13 _ _ _ _
        · refine step 2 3 (by omega) (by omega) ?_ hlk
          rw [hRdef, decide_eq_true hx]
          exact bridge_23 _ _ _ _
    obtain ⟨i, hi, e, hR⟩ := key _ hl
    have := h.inj 3 (by omega) i hi e
    subst this
    simpa [hRdef, bridgeReach, and_assoc, or_assoc] using hR
  · have w1 := go (u := nd 1) (v := nd 2) (eg 1) (.inl (by simp [hmem]))
    have w2 := go (u := nd 1) (v := nd 3) (eg 2) (.inl (by simp [hmem]))
    have w3 := go (u := nd 2) (v := nd 3) (eg 3) (.inl (by simp [hmem]))
    have w3' := go (u := nd 3) (v := nd 2) (eg 3) (.inr (by simp [hmem]))
    have w4 := go (u := nd 2) (v := nd 4) (eg 4) (.inl (by simp [hmem]))
    have w5 := go (u := nd 3) (v := nd 4) (eg 5) (.inl (by simp [hmem]))
    rintro (⟨h1, h2⟩ | ⟨h1, h2⟩ | ⟨h1, h2, h3⟩ | ⟨h1, h2, h3⟩)
    · exact (Relation.ReflTransGen.single (w1 h1)).tail (w4 h2)
    · exact (Relation.ReflTransGen.single (w2 h1)).tail (w5 h2)
    · exact ((Relation.ReflTransGen.single (w1 h1)).tail (w3 h2)).tail (w5 h3)
    · exact ((Relation.ReflTransGen.single (w2 h1)).tail (w3' h2)).tail (w4 h3)

/-- The nodes of the rbd demo by number: 0 is the source, 9 the sink. -/
def rbdNode (xb : ℕ → K) (src snk : K) (i : ℕ) : K := if i = 0 then src else if i = 9 then snk else xb i

/-- Whether the sink can be reached from a node, by the working blocks. -/
def rbdReach (w : ℕ → Bool) : ℕ → Bool
  | 0 => w 7 && w 8 && (w 1 || w 2 || w 3 || (w 4 && w 5 && w 6))
  | 4 => w 4 && w 7 && w 8 && ((w 5 && w 6) || w 1 || w 2 || w 3)
  | 5 => w 5 && w 7 && w 8 && (w 6 || (w 4 && (w 1 || w 2 || w 3)))
  | 7 => w 7 && w 8
  | 8 => w 8
  | 9 => true
  | i => w i && w 7 && w 8

/-- The pairs of nodes of the rbd demo that are connected. -/
def rbdLinks : List (ℕ × ℕ) :=
  [(0, 1), (0, 2), (0, 3), (0, 4), (4, 5), (5, 6), (6, 7), (7, 8), (8, 9), (1, 7), (2, 7), (3, 7)]

theorem rbdReach_step (w : ℕ → Bool) (h0 : w 0 = true) (h9 : w 9 = true) : ∀ p ∈ rbdLinks,
    (w p.1 = true → rbdReach w p.2 = true → rbdReach w p.1 = true) ∧
    (w p.2 = true → rbdReach w p.1 = true → rbdReach w p.2 = true) := by
  have key : ∀ w1 w2 w3 w4 w5 w6 w7 w8 : Bool, ∀ p ∈ rbdLinks,
      let w : ℕ → Bool := fun i => [true, w1, w2, w3, w4, w5, w6, w7, w8, true].getD i true
      (w p.1 = true → rbdReach w p.2 = true → rbdReach w p.1 = true) ∧
      (w p.2 = true → rbdReach w p.1 = true → rbdReach w p.2 = true) := by decide +kernel
  intro p hp
  have h := key (w 1) (w 2) (w 3) (w 4) (w 5) (w 6) (w 7) (w 8) p hp
  simp only [rbdLinks, List.mem_cons, List.not_mem_nil, or_false] at hp
  rcases hp with rfl | rfl | rfl | rfl | rfl | rfl | rfl | rfl | rfl | rfl | rfl | rfl <;>
    simpa [rbdReach, h0, h9] using h

theorem RbdNames.inj (h : RbdNames xb eg src snk) :
    ∀ i < 10, ∀ j < 10, rbdNode xb src snk i = rbdNode xb src snk j → i = j :=
  index_inj (rbdNode xb src snk) (h.sublist (List.sublist_append_left
    [src, xb 1, xb 2, xb 3, xb 4, xb 5, xb 6, xb 7, xb 8, snk] _))

theorem rbd_conns {m : NetJson K} (hm : RbdModel xb eg src snk od1 m) :
    m.conns = (rbdLinks.zipIdx.map fun p => (eg (p.2 + 1), p.1)).map fun c =>
      (c.1, rbdNode xb src snk c.2.1, rbdNode xb src snk c.2.2, (1 : ℚ)) := hm.2.1

/-- The file of the rbd demo can be read. -/
theorem rbd_file (h : RbdNames xb eg src snk) (hd : DemoConfig data pm q mb)
    {files : K → Option (FileC K)} {m : NetJson K} (hm : RbdModel xb eg src snk od1 m)
    (hf : files pm = some (.model m)) : ConnFileOK files data pm q m false false mb := by
  have m2 := rbd_conns hm
  obtain ⟨m1, m2', m3, m4⟩ := hm
  have happ := List.nodup_append.1 (show ([src, xb 1, xb 2, xb 3, xb 4, xb 5, xb 6, xb 7, xb 8, snk] ++
      [eg 1, eg 2, eg 3, eg 4, eg 5, eg 6, eg 7, eg 8, eg 9, eg 10, eg 11, eg 12]).Nodup from h)
  have e1 : m.conns.map Prod.fst =
      [eg 1, eg 2, eg 3, eg 4, eg 5, eg 6, eg 7, eg 8, eg 9, eg 10, eg 11, eg 12] := by rw [m2']; rfl
  have e2 : m.comps.map Prod.fst = [src, xb 1, xb 2, xb 3, xb 4, xb 5, xb 6, xb 7, xb 8, snk] := by
    rw [m1]; rfl
  refine ⟨hd.model, hf, .inl ⟨_, hd.scen, .inr (.inl rfl)⟩, hd.id, hd.branches, hd.out,
    .inl ⟨m4, rfl, rfl⟩, fun _ => ?_, ?_, fun c hc => ?_, fun n hn he => ?_⟩
  · rw [m2]
    refine noParallel_index (rbdNode xb src snk) h.inj _ ?_ ?_
    · intro c hc
      obtain ⟨p, hp, rfl⟩ := List.mem_map.1 hc
      exact (show ∀ p ∈ rbdLinks.zipIdx, p.1.1 < 10 ∧ p.1.2 < 10 by decide) p hp
    · rw [List.map_map]
      show List.Pairwise _ (rbdLinks.zipIdx.map Prod.fst)
      decide
  · rw [e1]; exact happ.2.1
  · rw [e1]
    have hc' : c.2.1 ∈ [src, xb 1, xb 2, xb 3, xb 4, xb 5, xb 6, xb 7, xb 8, snk] ∧
        c.2.2.1 ∈ [src, xb 1, xb 2, xb 3, xb 4, xb 5, xb 6, xb 7, xb 8, snk] := by
      rw [m2'] at hc
      simp only [List.mem_cons, List.not_mem_nil, or_false] at hc
      rcases hc with rfl | rfl | rfl | rfl | rfl | rfl | rfl | rfl | rfl | rfl | rfl | rfl <;> simp
    exact ⟨fun he => happ.2.2 _ hc'.1 _ he rfl, fun he => happ.2.2 _ hc'.2 _ he rfl⟩
  · rw [e1] at he
    rw [e2] at hn
    exact happ.2.2 _ hn _ he rfl

/-- When the source and the sink of the rbd demo are connected. -/
theorem rbd_connected (h : RbdNames xb eg src snk) {m : NetJson K} (hm : RbdModel xb eg src snk od1 m)
    {G : NGraph K} (hG : GraphOK G) (hD : Describes false false (m.comps.map Prod.fst) m.conns G)
    (x : K → ℕ) :
    Connected G (binary [xb 1, xb 2, xb 3, xb 4, xb 5, xb 6, xb 7, xb 8]) src snk x ↔
      x (xb 7) ≠ 0 ∧ x (xb 8) ≠ 0 ∧ (x (xb 1) ≠ 0 ∨ x (xb 2) ≠ 0 ∨ x (xb 3) ≠ 0 ∨
        (x (xb 4) ≠ 0 ∧ x (xb 5) ≠ 0 ∧ x (xb 6) ≠ 0)) := by
  have m2 := rbd_conns hm
  obtain ⟨m1, m2', -, -⟩ := hm
  have happ := List.nodup_append.1 (show ([src, xb 1, xb 2, xb 3, xb 4, xb 5, xb 6, xb 7, xb 8, snk] ++
      [eg 1, eg 2, eg 3, eg 4, eg 5, eg 6, eg 7, eg 8, eg 9, eg 10, eg 11, eg 12]).Nodup from h)
  set vs := binary [xb 1, xb 2, xb 3, xb 4, xb 5, xb 6, xb 7, xb 8] with hvs
  have hfst : vs.map Prod.fst = [xb 1, xb 2, xb 3, xb 4, xb 5, xb 6, xb 7, xb 8] := binary_fst _
  set nm := rbdNode xb src snk with hnm
  have hedge : ∀ e ∈ G.edges, ∃ p ∈ rbdLinks, e.src = nm p.1 ∧ e.dst = nm p.2 := by
    intro e he
    have : (e.label, e.src, e.dst, e.weight) ∈ m.conns := by
      rw [← hD.edges]; exact List.mem_map_of_mem he
    rw [m2] at this
    obtain ⟨c, hc, e1⟩ := List.mem_map.1 this
    obtain ⟨p, hp, rfl⟩ := List.mem_map.1 hc
    refine ⟨p.1, (List.mem_zipIdx' hp).2 ▸ List.getElem_mem _, ?_, ?_⟩
    · exact (congrArg (fun t => t.2.1) e1).symm
    · exact (congrArg (fun t => t.2.2.1) e1).symm
  have hlink : ∀ p ∈ rbdLinks, ∃ e ∈ G.edges, e.src = nm p.1 ∧ e.dst = nm p.2 ∧
      e.label ∈ [eg 1, eg 2, eg 3, eg 4, eg 5, eg 6, eg 7, eg 8, eg 9, eg 10, eg 11, eg 12] := by
    intro p hp
    obtain ⟨i, hi, rfl⟩ := List.getElem_of_mem hp
    have hc : (eg (i + 1), nm rbdLinks[i].1, nm rbdLinks[i].2, (1 : ℚ)) ∈ m.conns := by
      rw [m2]
      refine List.mem_map.2 ⟨(eg (i + 1), rbdLinks[i]), List.mem_map.2 ⟨(rbdLinks[i], i), ?_, rfl⟩, rfl⟩
      exact List.mem_zipIdx_iff_getElem?.2 (by simp)
    have hl := List.mem_map_of_mem (f := Prod.fst) hc
    rw [m2'] at hl
    rw [← hD.edges] at hc
    obtain ⟨e, he, e1⟩ := List.mem_map.1 hc
    refine ⟨e, he, congrArg (fun t => t.2.1) e1, congrArg (fun t => t.2.2.1) e1, ?_⟩
    rw [show e.label = eg (i + 1) from congrArg (fun t => t.1) e1]
    exact hl
  have hnode : ∀ i < 10, nm i ∈ G.nodes := by
    intro i hi
    refine (hD.nodes _).2 (.inl ?_)
    rw [m1]
    have : nm i ∈ (List.range 10).map nm := List.mem_map_of_mem (List.mem_range.2 hi)
    exact this
  have hlab : ∀ k ∈ [eg 1, eg 2, eg 3, eg 4, eg 5, eg 6, eg 7, eg 8, eg 9, eg 10, eg 11, eg 12],
      Works vs x k := by
    intro k hk hc
    rw [hfst] at hc
    refine absurd rfl (happ.2.2 k ?_ k hk)
    exact List.mem_cons_of_mem _ (List.mem_append_left [snk] hc)
  constructor
  · rintro ⟨es, ns, hr, -, hw⟩
    have key : ∀ {u v : K} {es : List (NEdge K)} {ns : List K}, Route G u es ns v → v = snk →
        (∀ n ∈ ns, Works vs x n) → ∃ i < 10, u = nm i ∧
          rbdReach (fun i => decide (i = 0 ∨ i = 9 ∨ x (xb i) ≠ 0)) i = true := by
      intro u v es ns hr hv
      induction hr with
      | nil _ =>
        intro _
        exact ⟨9, by omega, hv, rfl⟩
      | @cons u b v e es ns hu he hl hr ih =>
        intro hw
        obtain ⟨j, hj, e1, e2⟩ := ih hv fun n hn => hw n (List.mem_cons_of_mem _ hn)
        obtain ⟨p, hp, p1, p2⟩ := hedge e he
        have hlt := (show ∀ p ∈ rbdLinks, p.1 < 10 ∧ p.2 < 10 by decide) p hp
        have hwu : ∀ i < 10, u = nm i → decide (i = 0 ∨ i = 9 ∨ x (xb i) ≠ 0) = true := by
          intro i hi e3
          by_cases h0 : i = 0
          · simp [h0]
          by_cases h9 : i = 9
          · simp [h9]
          have hwi := hw u List.mem_cons_self
          have hnmi : nm i = xb i := by rw [hnm]; unfold rbdNode; rw [if_neg h0, if_neg h9]
          rw [e3, hnmi] at hwi
          refine decide_eq_true (.inr (.inr (hwi ?_)))
          rw [hfst]
          have hi' : i = 1 ∨ i = 2 ∨ i = 3 ∨ i = 4 ∨ i = 5 ∨ i = 6 ∨ i = 7 ∨ i = 8 := by omega
          rcases hi' with rfl | rfl | rfl | rfl | rfl | rfl | rfl | rfl <;> simp
        obtain ⟨s1, s2⟩ := rbdReach_step (fun i => decide (i = 0 ∨ i = 9 ∨ x (xb i) ≠ 0)) (by simp)
          (by simp) p hp
        rcases hl with ⟨l1, l2⟩ | ⟨-, l1, l2⟩
        · have : p.2 = j := h.inj _ hlt.2 _ hj (p2.symm.trans (l2.trans e1))
          subst this
          exact ⟨p.1, hlt.1, l1.symm.trans p1, s1 (hwu _ hlt.1 (l1.symm.trans p1)) e2⟩
        · have : p.1 = j := h.inj _ hlt.1 _ hj (p1.symm.trans (l1.trans e1))
          subst this
          exact ⟨p.2, hlt.2, l2.symm.trans p2, s2 (hwu _ hlt.2 (l2.symm.trans p2)) e2⟩
    obtain ⟨i, hi, e1, e2⟩ := key hr rfl hw
    have : 0 = i := h.inj 0 (by omega) i hi e1
    subst this
    simpa [rbdReach, and_assoc, or_assoc] using e2
  · rintro ⟨w7, w8, hor⟩
    have hns : src ∉ vs.map Prod.fst ∧ snk ∉ vs.map Prod.fst := by
      rw [hfst]
      refine ⟨fun hc => (List.nodup_cons.1 happ.1).1 (List.mem_append_left [snk] hc), fun hc => ?_⟩
      exact (List.nodup_append.1 (show ([src, xb 1, xb 2, xb 3, xb 4, xb 5, xb 6, xb 7, xb 8] ++ [snk]).Nodup
        from happ.1)).2.2 snk (List.mem_cons_of_mem _ hc) snk (List.mem_singleton_self _) rfl
    let Reach : ℕ → Prop := fun i => ∃ es ns, Route G (nm i) es ns snk ∧
      (∀ e ∈ es, Works vs x e.label) ∧ ∀ n ∈ ns, Works vs x n
    have r9 : Reach 9 := ⟨[], [snk], .nil (hnode 9 (by omega)), by simp, fun n hn hc => by
      rw [List.mem_singleton.1 hn] at hc; exact absurd hc hns.2⟩
    have step : ∀ i j, (i, j) ∈ rbdLinks → Works vs x (nm i) → Reach j → Reach i := by
      rintro i j hp hw ⟨es, ns, h1, h2, h3⟩
      obtain ⟨e, he, e1, e2, e3⟩ := hlink _ hp
      have hlt := (show ∀ p ∈ rbdLinks, p.1 < 10 ∧ p.2 < 10 by decide) _ hp
      refine ⟨e :: es, nm i :: ns, .cons (hnode i hlt.1) he (.inl ⟨e1, e2⟩) h1, fun e' he' => ?_,
        fun n hn => ?_⟩
      · rcases List.mem_cons.1 he' with rfl | he'
        · exact hlab _ e3
        · exact h2 _ he'
      · rcases List.mem_cons.1 hn with rfl | hn
        · exact hw
        · exact h3 _ hn
    have r8 : Reach 8 := step 8 9 (by decide) (fun _ => w8) r9
    have r7 : Reach 7 := step 7 8 (by decide) (fun _ => w7) r8
    have hw0 : Works vs x (nm 0) := fun hc => absurd hc hns.1
    rcases hor with w | w | w | ⟨wa, wb, wc⟩
    · exact step 0 1 (by decide) hw0 (step 1 7 (by decide) (fun _ => w) r7)
    · exact step 0 2 (by decide) hw0 (step 2 7 (by decide) (fun _ => w) r7)
    · exact step 0 3 (by decide) hw0 (step 3 7 (by decide) (fun _ => w) r7)
    · exact step 0 4 (by decide) hw0 (step 4 5 (by decide) (fun _ => wa) (step 5 6 (by decide) (fun _ => wb)
        (step 6 7 (by decide) (fun _ => wc) r7)))

/-- Whether the system of the rbd demo works, by the blocks. -/
def rbdWorks : List Bool → Bool
  | [a, b, c, d, e, f, g, h] => g && (h && (a || (b || (c || (d && (e && f))))))
  | _ => false

end

end BNS
