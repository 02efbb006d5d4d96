import Verif.Proofs.Routes
import Verif.Props.Flow
import Mathlib.Data.Rat.Floor
import Mathlib.Data.Nat.Lattice
import Mathlib.Tactic.IntervalCases

/-!
# C49: `sys_fun_pipes`; C65: reliability of pipe systems from end to end

`scipy.optimize.milp` is a parameter with the contract `MilpLibOK`, which `bestMilpLib_ok` shows can be
met.
-/

set_option linter.unusedSectionVars false

namespace BNS

variable {E K : Type} [DecidableEq E] [DecidableEq K] {S : PipeSys E K} {compOf : E → K}
variable {vs : List (K × ℕ)}

open Classical in
/-- Some best point, if there is one. -/
noncomputable def bestMilpLib (c : List ℚ) (rows : List LinRow) : MilpRes :=
  if h : ∃ x, LinOptimal c rows x then some (dot c h.choose, h.choose) else none

theorem bestMilpLib_ok : MilpLibOK bestMilpLib where
  best := fun c rows h => ⟨h.choose, h.choose_spec, by rw [bestMilpLib, dif_pos h]⟩
  none := fun c rows h => by rw [bestMilpLib, dif_neg h]

/-! ### The largest amount -/

theorem pipeCap_nonneg (h : PipesOK S compOf vs) (x : K → ℕ) {ep : E × K × K} (hep : ep ∈ S.edges) :
    0 ≤ pipeCap S compOf x ep := by
  unfold pipeCap
  split
  · exact le_refl _
  · obtain ⟨v, hv, -, h0, -⟩ := h.values ep hep
    by_cases hne : v.values = []
    · simp [capAt, hv, hne]
    · exact h0 _ (capAt_mem hv hne _)

theorem pipeCap_mono (h : PipesOK S compOf vs) {x y : K → ℕ} {ep : E × K × K} (hep : ep ∈ S.edges)
    (h1 : x ep.2.1 ≤ y ep.2.1) (h2 : x ep.2.2 ≤ y ep.2.2) (h3 : x (compOf ep.1) ≤ y (compOf ep.1)) :
    pipeCap S compOf x ep ≤ pipeCap S compOf y ep := by
  by_cases hz : x ep.2.1 = 0 ∨ x ep.2.2 = 0
  · have : pipeCap S compOf x ep = 0 := by rw [pipeCap, if_pos hz]
    rw [this]
    exact pipeCap_nonneg h y hep
  · have hz' : ¬ (y ep.2.1 = 0 ∨ y ep.2.2 = 0) := by omega
    rw [pipeCap, pipeCap, if_neg hz, if_neg hz']
    obtain ⟨v, hv, -, -, hp⟩ := h.values ep hep
    exact capAt_mono_of hv hp h3

theorem outOver_zero (L : List (E × K × K)) (n : K) : outOver L (fun _ => 0) n = 0 := by
  simp [outOver]

theorem inOver_zero (L : List (E × K × K)) (n : K) : inOver L (fun _ => 0) n = 0 := by
  simp [inOver]

theorem pipeFlow_zero {cap : E × K × K → ℚ} (hc : ∀ ep ∈ S.edges, 0 ≤ cap ep) :
    PipeFlow S cap (fun _ => 0) fun _ => 0 where
  cap := fun ep h => by simpa using hc ep h
  supply := fun o _ => outOver_zero _ _
  through := fun m n _ _ _ => by rw [outOver_zero, inOver_zero]
  arrive := fun m _ => by simp
  stop := fun m _ _ n _ => by rw [outOver_zero, inOver_zero]

theorem sum_filter_le (L : List (E × K × K)) (p : E × K × K → Bool) (f : E → ℕ) :
    ((L.filter p).map fun ep => f ep.1).sum ≤ (L.map fun ep => f ep.1).sum :=
  (List.Sublist.map _ List.filter_sublist).sum_le_sum (fun _ _ => Nat.zero_le _)

theorem pipeFlow_bound {cap : E × K × K → ℚ} {f : E → ℕ} {u : K → ℕ} (h : PipeFlow S cap f u) :
    ((S.depot 0).map u).sum ≤ (S.depot 0).length * (S.edges.map fun ep => ⌊cap ep⌋₊).sum := by
  have hu : ∀ o ∈ S.depot 0, u o ≤ (S.edges.map fun ep => ⌊cap ep⌋₊).sum := by
    intro o ho
    rw [← h.supply o ho]
    exact (sum_filter_le _ _ f).trans (List.sum_le_sum fun ep hep => Nat.le_floor (h.cap ep hep))
  have := List.sum_le_card_nsmul ((S.depot 0).map u) _ (by
    intro n hn
    obtain ⟨o, ho, rfl⟩ := List.mem_map.1 hn
    exact hu o ho)
  simpa using this

/-- There is a largest amount, and a flow that attains it. -/
theorem exists_best {cap : E × K × K → ℚ} (hc : ∀ ep ∈ S.edges, 0 ≤ cap ep) :
    ∃ f u, PipeFlow S cap f u ∧ ∀ f' u', PipeFlow S cap f' u' →
      ((S.depot 0).map u').sum ≤ ((S.depot 0).map u).sum := by
  set A : Set ℕ := { n | ∃ f u, PipeFlow S cap f u ∧ ((S.depot 0).map u).sum = n } with hA
  have hne : A.Nonempty := ⟨_, _, _, pipeFlow_zero hc, rfl⟩
  have hb : BddAbove A := by
    refine ⟨(S.depot 0).length * (S.edges.map fun ep => ⌊cap ep⌋₊).sum, ?_⟩
    rintro n ⟨f, u, h, rfl⟩
    exact pipeFlow_bound h
  obtain ⟨f, u, h, hs⟩ := Nat.sSup_mem hne hb
  refine ⟨f, u, h, fun f' u' h' => ?_⟩
  rw [hs]
  exact le_csSup hb ⟨f', u', h', rfl⟩

/-- What scipy is asked for: the largest amount. -/
theorem optimal_iff (h : PipesOK S compOf vs) (cap : E × K × K → ℚ) (x : List ℚ) :
    LinOptimal (vec S (fun _ => 0) fun _ => -1) (allRows S cap) x ↔
      ∃ f u, x = point S f u ∧ PipeFlow S cap f u ∧ ∀ f' u', PipeFlow S cap f' u' →
        ((S.depot 0).map u').sum ≤ ((S.depot 0).map u).sum := by
  constructor
  · rintro ⟨hf, hb⟩
    obtain ⟨f, u, rfl⟩ := exists_point h (by rw [hf.length, vec_length]) hf.whole
    refine ⟨f, u, rfl, (feasible_iff h cap f u).1 hf, fun f' u' h' => ?_⟩
    have := hb _ ((feasible_iff h cap f' u').2 h')
    rw [dot_cost, dot_cost] at this
    exact_mod_cast neg_le_neg_iff.1 this
  · rintro ⟨f, u, rfl, hp, hb⟩
    refine ⟨(feasible_iff h cap f u).2 hp, fun y hy => ?_⟩
    obtain ⟨f', u', rfl⟩ := exists_point h (by rw [hy.length, vec_length]) hy.whole
    rw [dot_cost, dot_cost]
    exact neg_le_neg (by exact_mod_cast hb _ _ ((feasible_iff h cap f' u').1 hy))

/-! ### The rule -/

theorem addState_ok {x : K → ℕ} {r : Rule K} {k : K} (hk : k ∈ vs.map Prod.fst)
    (hn : (r.map Prod.fst).Nodup) :
    ∃ r', addState (compsOf vs x) r k = .ok r' ∧ (r'.map Prod.fst).Nodup ∧
      ((∀ ki ∈ r, ki.2 = x ki.1) → ∀ ki, ki ∈ r' ↔ ki ∈ r ∨ ki = (k, x k)) := by
  unfold addState
  by_cases h : k ∈ r.map Prod.fst
  · refine ⟨r, by rw [if_pos h], hn, fun hr ki => ⟨.inl, ?_⟩⟩
    rintro (h' | rfl)
    · exact h'
    · obtain ⟨⟨k', i⟩, h1, rfl⟩ := List.mem_map.1 h
      have : i = x k' := hr _ h1
      exact this ▸ h1
  · refine ⟨r ++ [(k, x k)], by rw [if_neg h, itemsGet_compsOf x hk]; rfl, ?_, fun _ ki => by simp⟩
    rw [List.map_append, List.nodup_append]
    refine ⟨hn, by simp, ?_⟩
    intro a ha b hb
    simp only [List.map_cons, List.map_nil, List.mem_singleton] at hb
    rintro rfl
    exact h (hb ▸ ha)

theorem point_get (f : E → ℕ) (u : K → ℕ) {i : ℕ} {ep : E × K × K}
    (h : S.edges[i]? = some ep) : pyGet (point S f u) i = .ok (f ep.1 : ℚ) := by
  obtain ⟨hi, he⟩ := List.getElem?_eq_some_iff.1 h
  have h1 : (point S f u)[i]? = some (f ep.1 : ℚ) := by
    unfold point vec
    rw [List.getElem?_append_left (by simpa using hi), List.getElem?_map, h]
    rfl
  unfold pyGet
  rw [h1]

/-- The components and end nodes of the arcs that carry something, with their states. -/
theorem rule_ok (h : PipesOK S compOf vs) (x : K → ℕ) (f : E → ℕ) (u : K → ℕ) :
    ∃ r, S.edges.foldlM (pipeRule S (enumIdx S) (compsOf vs x) (point S f u)) [] = .ok r ∧
      (r.map Prod.fst).Nodup ∧ ∀ k i, (k, i) ∈ r ↔ i = x k ∧ ∃ ep ∈ S.edges, 0 < f ep.1 ∧
        (k = compOf ep.1 ∨ k = ep.2.1 ∨ k = ep.2.2) := by
  have main : ∀ (L : List (E × K × K)) (r : Rule K), (∀ ep ∈ L, ep ∈ S.edges) →
      (r.map Prod.fst).Nodup → (∀ ki ∈ r, ki.2 = x ki.1) →
      ∃ r', L.foldlM (pipeRule S (enumIdx S) (compsOf vs x) (point S f u)) r = .ok r' ∧
        (r'.map Prod.fst).Nodup ∧ ∀ k i, (k, i) ∈ r' ↔ (k, i) ∈ r ∨ (i = x k ∧ ∃ ep ∈ L, 0 < f ep.1 ∧
          (k = compOf ep.1 ∨ k = ep.2.1 ∨ k = ep.2.2)) := by
    intro L
    induction L with
    | nil => intro r _ hn _; exact ⟨r, rfl, hn, by simp⟩
    | cons a L ih =>
      intro r hL hn hr
      have ha := hL a (by simp)
      obtain ⟨i, h1, h2⟩ := enumIdx_get h.nodup ha
      have hstep : ∃ r1, pipeRule S (enumIdx S) (compsOf vs x) (point S f u) r a = .ok r1 ∧
          (r1.map Prod.fst).Nodup ∧ ∀ k i, (k, i) ∈ r1 ↔ (k, i) ∈ r ∨ (i = x k ∧ 0 < f a.1 ∧
            (k = compOf a.1 ∨ k = a.2.1 ∨ k = a.2.2)) := by
        simp only [pipeRule]
        rw [h1, ok_bind, point_get f u h2, ok_bind]
        by_cases hf : 0 < f a.1
        · have hc : itemsGet S.e2c a.1 = .ok (compOf a.1) := by simp [itemsGet, dictGet, h.comp a ha]
          obtain ⟨v, -, hv, -⟩ := h.values a ha
          obtain ⟨ra, a1, a2, a3⟩ := addState_ok (x := x) (List.mem_map_of_mem (f := Prod.fst) hv) hn
          have a3 := a3 hr
          have hra : ∀ ki ∈ ra, ki.2 = x ki.1 := fun ki hki => by
            rcases (a3 ki).1 hki with h' | rfl
            exacts [hr ki h', rfl]
          obtain ⟨rb, b1, b2, b3⟩ := addState_ok (x := x) (h.ends a ha).1 a2
          have b3 := b3 hra
          have hrb : ∀ ki ∈ rb, ki.2 = x ki.1 := fun ki hki => by
            rcases (b3 ki).1 hki with h' | rfl
            exacts [hra ki h', rfl]
          obtain ⟨rc, c1, c2, c3⟩ := addState_ok (x := x) (h.ends a ha).2 b2
          have c3 := c3 hrb
          refine ⟨rc, ?_, c2, fun k i => ?_⟩
          · rw [if_pos (by exact_mod_cast hf), hc, ok_bind, a1, ok_bind, b1, ok_bind, c1]
          · rw [c3, b3, a3]
            simp only [Prod.mk.injEq]
            constructor
            · rintro (((h' | ⟨rfl, rfl⟩) | ⟨rfl, rfl⟩) | ⟨rfl, rfl⟩)
              · exact .inl h'
              · exact .inr ⟨rfl, hf, .inl rfl⟩
              · exact .inr ⟨rfl, hf, .inr (.inl rfl)⟩
              · exact .inr ⟨rfl, hf, .inr (.inr rfl)⟩
            · rintro (h' | ⟨rfl, -, rfl | rfl | rfl⟩)
              · exact .inl (.inl (.inl h'))
              · exact .inl (.inl (.inr ⟨rfl, rfl⟩))
              · exact .inl (.inr ⟨rfl, rfl⟩)
              · exact .inr ⟨rfl, rfl⟩
        · refine ⟨r, ?_, hn, fun k i => ⟨.inl, ?_⟩⟩
          · rw [if_neg (by exact_mod_cast hf)]; rfl
          · rintro (h' | ⟨-, h', -⟩)
            exacts [h', absurd h' hf]
      obtain ⟨r1, s1, s2, s3⟩ := hstep
      have hr1 : ∀ ki ∈ r1, ki.2 = x ki.1 := by
        rintro ⟨k, i⟩ hki
        rcases (s3 k i).1 hki with h' | ⟨rfl, -⟩
        exacts [hr _ h', rfl]
      obtain ⟨r', t1, t2, t3⟩ := ih r1 (fun ep h => hL ep (by simp [h])) s2 hr1
      refine ⟨r', by rw [List.foldlM_cons, s1, ok_bind, t1], t2, fun k i => ?_⟩
      rw [t3, s3]
      constructor
      · rintro ((h' | ⟨h1, h2⟩) | ⟨h1, ep, h2, h3⟩)
        · exact .inl h'
        · exact .inr ⟨h1, a, by simp, h2⟩
        · exact .inr ⟨h1, ep, by simp [h2], h3⟩
      · rintro (h' | ⟨e1, ep, e2, e3⟩)
        · exact .inl (.inl h')
        · rcases List.mem_cons.1 e2 with rfl | e2
          · exact .inl (.inr ⟨e1, e3⟩)
          · exact .inr ⟨e1, ep, e2, e3⟩
  obtain ⟨r, h1, h2, h3⟩ := main S.edges [] (fun _ h => h) (by simp) (by simp)
  exact ⟨r, h1, h2, by simpa using h3⟩

/-! ### C49 -/

/-- **C49.**  `sys_fun_pipes` returns, without exception, the largest whole amount that can flow; the state
is `'s'` exactly if the threshold can flow.  The rule then comes from such a flow: it has the
components and the end nodes of the arcs that carry something, with the states that they have.  It
applies to the evaluated vector, and every component vector that dominates it lets the threshold flow,
whatever optimal point scipy finds. -/
theorem C49_pipes {lib : List ℚ → List LinRow → MilpRes} (hlib : MilpLibOK lib)
    (h : PipesOK S compOf vs) (thres : ℚ) {x : K → ℕ} (hx : InSpace vs x) :
    ∃ (val : ℕ) (st : St) (r : Rule K),
      sysFunPipes lib (compsOf vs x) thres S (enumIdx S) = .ok ((val : ℚ), st, r) ∧
      Delivers S compOf val x ∧ (∀ F, Delivers S compOf F x → F ≤ val) ∧
      (st = .s ↔ Delivers S compOf thres x) ∧ (st = .f ↔ ¬ Delivers S compOf thres x) ∧
      RuleOK vs r ∧
      (st = .s → AppliesS r x ∧ (∀ y, AppliesS r y → Delivers S compOf thres y) ∧
        ∃ f u, PipeFlow S (pipeCap S compOf x) f u ∧ ((S.depot 0).map u).sum = val ∧
          ∀ k i, (k, i) ∈ r ↔ i = x k ∧ ∃ ep ∈ S.edges, 0 < f ep.1 ∧
            (k = compOf ep.1 ∨ k = ep.2.1 ∨ k = ep.2.2)) ∧
      (st = .f → r = []) := by
  set cap := pipeCap S compOf x with hcap
  have hc0 : ∀ ep ∈ S.edges, 0 ≤ cap ep := fun ep => pipeCap_nonneg h x
  obtain ⟨z, hz, hl⟩ := hlib.best (vec S (fun _ => 0) fun _ => -1) (allRows S cap) (by
    obtain ⟨f, u, h1, h2⟩ := exists_best hc0
    exact ⟨_, (optimal_iff h cap _).2 ⟨f, u, rfl, h1, h2⟩⟩)
  obtain ⟨f, u, rfl, hp, hb⟩ := (optimal_iff h cap z).1 hz
  set val := ((S.depot 0).map u).sum with hval
  have hdel : Delivers S compOf val x := ⟨f, u, hp, le_refl _⟩
  have hmax : ∀ F, Delivers S compOf F x → F ≤ val := by
    rintro F ⟨f', u', h1, h2⟩
    exact h2.trans (by exact_mod_cast hb f' u' h1)
  have hiff : thres ≤ val ↔ Delivers S compOf thres x := ⟨fun hh => ⟨f, u, hp, hh⟩, hmax thres⟩
  obtain ⟨r, r1, r2, r3⟩ := rule_ok h x f u
  have hrun : sysFunPipes lib (compsOf vs x) thres S (enumIdx S) =
      if (val : ℚ) < thres then .ok ((val : ℚ), .f, []) else .ok ((val : ℚ), .s, r) := by
    simp only [sysFunPipes]
    rw [rows_ok h hx lib, ok_bind, hl]
    simp only [dot_cost, neg_neg]
    rw [r1, ok_bind]
    rfl
  by_cases hv : (val : ℚ) < thres
  · refine ⟨val, .f, [], by rw [hrun, if_pos hv], hdel, hmax,
      ⟨fun h => (by cases h), fun h => absurd (hiff.2 h) (not_le.2 hv)⟩,
      ⟨fun _ h => absurd (hiff.2 h) (not_le.2 hv), fun _ => rfl⟩, ⟨by simp, by simp⟩,
      fun h => (by cases h), fun _ => rfl⟩
  · have hd := hiff.1 (not_lt.1 hv)
    refine ⟨val, .s, r, by rw [hrun, if_neg hv], hdel, hmax, ⟨fun _ => hd, fun _ => rfl⟩,
      ⟨fun h => (by cases h), fun h => absurd hd h⟩, ⟨r2, ?_⟩, fun _ => ⟨?_, ?_, f, u, hp, rfl, r3⟩,
      fun h => (by cases h)⟩
    · rintro ⟨k, i⟩ hki
      obtain ⟨-, ep, hep, -, hk⟩ := (r3 k i).1 hki
      obtain ⟨v, -, hv, -⟩ := h.values ep hep
      rcases hk with rfl | rfl | rfl
      exacts [List.mem_map.2 ⟨_, hv, rfl⟩, (h.ends ep hep).1, (h.ends ep hep).2]
    · rintro ⟨k, i⟩ hki
      exact ((r3 k i).1 hki).1.le
    · intro y hy
      refine ⟨f, u, { hp with cap := fun ep hep => ?_ }, not_lt.1 hv⟩
      by_cases hf : 0 < f ep.1
      · have hle : ∀ k, (k = compOf ep.1 ∨ k = ep.2.1 ∨ k = ep.2.2) → x k ≤ y k := fun k hk =>
          hy (k, x k) ((r3 k _).2 ⟨rfl, ep, hep, hf, hk⟩)
        exact (hp.cap ep hep).trans (pipeCap_mono h hep (hle _ (.inr (.inl rfl)))
          (hle _ (.inr (.inr rfl))) (hle _ (.inl rfl)))
      · have : f ep.1 = 0 := by omega
        rw [this]
        simpa using pipeCap_nonneg h y hep

/-- **C49, monotone.**  A better component vector lets at least as much flow. -/
theorem C49_monotone (h : PipesOK S compOf vs) (F : ℚ) {x y : K → ℕ}
    (hxy : ∀ kn ∈ vs, x kn.1 ≤ y kn.1) (hd : Delivers S compOf F x) : Delivers S compOf F y := by
  obtain ⟨f, u, hp, hF⟩ := hd
  refine ⟨f, u, { hp with cap := fun ep hep => (hp.cap ep hep).trans ?_ }, hF⟩
  have hle : ∀ k ∈ vs.map Prod.fst, x k ≤ y k := by
    intro k hk
    obtain ⟨kn, h, rfl⟩ := List.mem_map.1 hk
    exact hxy kn h
  obtain ⟨v, -, hv, -⟩ := h.values ep hep
  exact pipeCap_mono h hep (hle _ (h.ends ep hep).1) (hle _ (h.ends ep hep).2)
    (hle _ (List.mem_map_of_mem (f := Prod.fst) hv))

/-- **C49**, a solver without success: the value is `0`.  A positive threshold is then reported as not
reached, whatever can flow; any other threshold is a `TypeError`, since no solution can be read, unless
there is no arc. -/
theorem C49_no_success {lib : List ℚ → List LinRow → MilpRes} (hlib : ∀ c A, lib c A = none)
    (h : PipesOK S compOf vs) (thres : ℚ) {x : K → ℕ} (hx : InSpace vs x) :
    (0 < thres → sysFunPipes lib (compsOf vs x) thres S (enumIdx S) = .ok (0, .f, [])) ∧
    (thres ≤ 0 → S.edges ≠ [] →
      sysFunPipes lib (compsOf vs x) thres S (enumIdx S) = .error .type) ∧
    (thres ≤ 0 → S.edges = [] →
      sysFunPipes lib (compsOf vs x) thres S (enumIdx S) = .ok (0, .s, [])) := by
  refine ⟨fun ht => ?_, fun ht he => ?_, fun ht he => ?_⟩ <;> simp only [sysFunPipes] <;>
    rw [rows_ok h hx lib, ok_bind, hlib]
  · simp only [ht, if_true]; rfl
  · simp only [not_lt.2 ht, if_false]
    obtain ⟨ep, t, hs⟩ := List.exists_cons_of_ne_nil he
    obtain ⟨i, hi, -⟩ := enumIdx_get h.nodup (ep := ep) (by simp [hs])
    simp only [hs, List.mapM_cons]
    rw [hi, ok_bind, error_bind, error_bind]
  · simp only [not_lt.2 ht, if_false, he]; rfl

/-- `x` lets the amount `F` through: its capacities are enough for that many routes. -/
def Routes (S : PipeSys E K) (compOf : E → K) (F : ℚ) (x : K → ℕ) : Prop :=
  ∃ k : ℕ, F ≤ k ∧ HasRoutes S (pipeCap S compOf x) k

theorem delivers_iff_routes (h : PipesOK S compOf vs) (hP : PhasesOK S) (F : ℚ) (x : K → ℕ) :
    Delivers S compOf F x ↔ Routes S compOf F x := by
  constructor
  · rintro ⟨f, u, h1, h2⟩
    exact ⟨_, h2, (flow_iff_routes h hP _ _).1 ⟨f, u, h1, rfl⟩⟩
  · rintro ⟨k, h1, h2⟩
    obtain ⟨f, u, h3, h4⟩ := (flow_iff_routes h hP _ _).2 h2
    exact ⟨f, u, h3, by rw [h4]; exact h1⟩

/-- **C49, in terms of routes; partial.**  If every arc belongs to one subsystem, and the depots are
only entered from the subsystem before and left in the subsystem behind: the value of `sys_fun_pipes` is
the largest number of routes, from an origin over depots of every group to a destination, for which the
capacities are enough; the state is `'s'` exactly if the threshold is reached, and then every component
vector that dominates the rule has the routes as well.

Missing: other systems, see `C49_not_routes`. -/
theorem C49_routes_partial {lib : List ℚ → List LinRow → MilpRes} (hlib : MilpLibOK lib)
    (h : PipesOK S compOf vs) (hP : PhasesOK S) (thres : ℚ) {x : K → ℕ} (hx : InSpace vs x) :
    ∃ (val : ℕ) (st : St) (r : Rule K),
      sysFunPipes lib (compsOf vs x) thres S (enumIdx S) = .ok ((val : ℚ), st, r) ∧
      HasRoutes S (pipeCap S compOf x) val ∧
      (∀ k, HasRoutes S (pipeCap S compOf x) k → k ≤ val) ∧
      (st = .s ↔ thres ≤ val) ∧ (st = .f ↔ (val : ℚ) < thres) ∧
      (st = .s → AppliesS r x ∧ ∀ y, AppliesS r y → Routes S compOf thres y) := by
  obtain ⟨val, st, r, h1, h2, h3, h4, h5, -, h6, -⟩ := C49_pipes hlib h thres hx
  have hmax : ∀ k, HasRoutes S (pipeCap S compOf x) k → k ≤ val := fun k hk => by
    have := h3 k ((delivers_iff_routes h hP _ x).2 ⟨k, le_refl _, hk⟩)
    exact_mod_cast this
  have hiff : Delivers S compOf thres x ↔ thres ≤ val := by
    refine ⟨h3 thres, fun hh => ?_⟩
    obtain ⟨f, u, p1, p2⟩ := h2
    exact ⟨f, u, p1, hh.trans p2⟩
  refine ⟨val, st, r, h1, ?_, hmax, h4.trans hiff, ?_, fun hs => ⟨(h6 hs).1, fun y hy =>
    (delivers_iff_routes h hP _ y).1 ((h6 hs).2.1 y hy)⟩⟩
  · obtain ⟨k, hk, hr⟩ := (delivers_iff_routes h hP _ x).1 h2
    have h7 : val ≤ k := by exact_mod_cast hk
    rwa [le_antisymm h7 (hmax k hr)]
  · rw [h5, hiff, not_le]

/-! ### C65 -/

/-- The hypotheses of `run` hold for a pipe system. -/
theorem sysFun_pipes {lib : List ℚ → List LinRow → MilpRes} (hlib : MilpLibOK lib)
    (h : PipesOK S compOf vs) (thres : ℚ) {Φ : (K → ℕ) → Bool}
    (hΦ : ∀ x, Φ x = true ↔ Delivers S compOf thres x) :
    SysOK vs Φ (pipesSysFun lib thres S (enumIdx S) vs) ∧ Coherent vs Φ := by
  have key : ∀ x, InSpace vs x → let r := pipesSysFun lib thres S (enumIdx S) vs x
      (r.st = .s ↔ Φ x = true) ∧ (r.st = .f ↔ Φ x = false) ∧ RuleOK vs r.min ∧
      (r.st = .s → AppliesS r.min x ∧ ValidS vs Φ r.min) ∧ (r.st = .f → r.min = []) := by
    intro x hx
    obtain ⟨val, st, r, h1, -, -, h2, h3, h4, h5, h6⟩ := C49_pipes hlib h thres hx
    simp only [pipesSysFun, h1]
    rw [hΦ, ← Bool.not_eq_true, hΦ]
    refine ⟨h2, h3, h4, fun hs => ⟨(h5 hs).1, fun y hy ha => ?_⟩, h6⟩
    rw [hΦ]
    exact (h5 hs).2.1 y ha
  constructor
  · constructor
    · intro x hx
      obtain ⟨h1, h2, -⟩ := key x hx
      split
      · rename_i h; exact h1.2 h
      · rename_i h; exact h2.2 (by simpa using h)
    · intro x hx _
      exact (key x hx).2.2.1
    · intro x hx _ hs
      obtain ⟨h1, -, -, h4, -⟩ := key x hx
      exact (h4 (h1.2 hs)).symm
    · intro x hx hne hf
      obtain ⟨-, h2, -, -, h5⟩ := key x hx
      exact absurd (h5 (h2.2 hf)) hne
  · intro x y hxy hs
    rw [hΦ] at hs ⊢
    exact C49_monotone h thres hxy hs

/-- **C65.**  `run` with `sys_fun_pipes` as its system function: the monitored bounds contain, and with a
sufficient budget both equal, the probability that the threshold cannot flow through the pipes. -/
theorem C65_pipe_reliability {lib : List ℚ → List LinRow → MilpRes} (hlib : MilpLibOK lib)
    {c : RunCfg K} (h : PipesOK S compOf c.vs) (thres : ℚ)
    [DecidablePred (Delivers S compOf thres)] (hvs : VarisOK c.vs) (hp : ProbOK c.vs c.probs)
    (hsf : c.sysFun = pipesSysFun lib thres S (enumIdx S) c.vs) :
    (∀ st, run c { s := [], f := [] } none = .ok st → ∀ row ∈ st.mon,
      row.pfLow ≤ probOf c.vs c.probs (fun x => ¬ Delivers S compOf thres x) ∧
      probOf c.vs c.probs (fun x => ¬ Delivers S compOf thres x) ≤ row.pfUp) ∧
    (c.survFirst = true → (c.vs.map Prod.snd).prod < c.maxSf →
      2 * (c.vs.map Prod.snd).prod ≤ c.maxNb → c.pfBndWr = 0 → c.maxRules = none →
      ∃ st row, run c { s := [], f := [] } none = .ok st ∧ st.outFlag = some .complete ∧
        st.mon.getLast? = some row ∧
        row.pfLow = probOf c.vs c.probs (fun x => ¬ Delivers S compOf thres x) ∧
        row.pfUp = probOf c.vs c.probs (fun x => ¬ Delivers S compOf thres x)) := by
  have hs := sysFun_pipes hlib h thres (Φ := fun x => decide (Delivers S compOf thres x)) (by simp)
  rw [← hsf] at hs
  have hc : CfgOK c fun x => decide (Delivers S compOf thres x) := ⟨hvs, hs.2, hp, hs.1⟩
  constructor
  · intro st h
    have := (C27_bounds hc (Ex.start_empty c) h).1
    rw [pFail_decide] at this
    exact this
  · intro hfirst hmax hnb hw hmr
    obtain ⟨st, h1, h2⟩ := C29_completes hc hfirst hmax hnb hw hmr (Ex.start_empty c)
    obtain ⟨-, row, -, h3, -, h4, h5⟩ := C28_enough_branches_partial hc (Ex.start_empty c)
      (resume_none c _) hnb h1 h2
    rw [pFail_decide] at h4 h5
    exact ⟨st, row, h1, h2, h3, h4, h5⟩

/-- **C65, in terms of routes; partial**: for systems with one phase after another. -/
theorem C65_pipe_routes_partial {lib : List ℚ → List LinRow → MilpRes} (hlib : MilpLibOK lib)
    {c : RunCfg K} (h : PipesOK S compOf c.vs) (hP : PhasesOK S) (thres : ℚ)
    [DecidablePred (Routes S compOf thres)] (hvs : VarisOK c.vs) (hp : ProbOK c.vs c.probs)
    (hsf : c.sysFun = pipesSysFun lib thres S (enumIdx S) c.vs) :
    (∀ st, run c { s := [], f := [] } none = .ok st → ∀ row ∈ st.mon,
      row.pfLow ≤ probOf c.vs c.probs (fun x => ¬ Routes S compOf thres x) ∧
      probOf c.vs c.probs (fun x => ¬ Routes S compOf thres x) ≤ row.pfUp) ∧
    (c.survFirst = true → (c.vs.map Prod.snd).prod < c.maxSf →
      2 * (c.vs.map Prod.snd).prod ≤ c.maxNb → c.pfBndWr = 0 → c.maxRules = none →
      ∃ st row, run c { s := [], f := [] } none = .ok st ∧ st.outFlag = some .complete ∧
        st.mon.getLast? = some row ∧
        row.pfLow = probOf c.vs c.probs (fun x => ¬ Routes S compOf thres x) ∧
        row.pfUp = probOf c.vs c.probs (fun x => ¬ Routes S compOf thres x)) := by
  have hfun : Delivers S compOf thres = Routes S compOf thres := by
    funext x
    exact propext (delivers_iff_routes h hP thres x)
  have key := @C65_pipe_reliability E K _ _ S compOf lib hlib c h thres
  rw [hfun] at key
  exact key hvs hp hsf

/-! ### The example of the repository, and a system where nothing arrives -/

namespace Ex

/-- The system of `tests/test_pipes_sys.py:21-178`: the nodes `n1 … n11` are 1 … 11, the components `x1 …
x10` are 21 … 30 and the arcs `e1 … e17` are 1 … 17. -/
def pipes : PipeSys ℕ ℕ :=
  { edges := [(1, 1, 2), (2, 3, 2), (3, 2, 4), (4, 4, 5), (5, 5, 6), (6, 4, 7), (7, 7, 8), (8, 7, 9),
      (9, 6, 5), (10, 8, 7), (11, 9, 7), (12, 7, 4), (13, 5, 4), (14, 5, 10), (15, 7, 11), (16, 4, 5),
      (17, 4, 7)]
    e2c := [(1, 21), (2, 22), (3, 23), (4, 24), (5, 25), (6, 26), (7, 27), (8, 28), (9, 25), (10, 27),
      (11, 28), (12, 26), (13, 24), (14, 29), (15, 30), (16, 24), (17, 26)]
    depots := [[1, 3], [6, 8, 9], [10, 11]]
    subNodes := [[1, 2, 3, 4, 5, 6, 7, 8, 9], [4, 5, 6, 7, 8, 9, 10, 11]]
    subEdges := [[1, 2, 3, 4, 5, 6, 7, 8], [16, 17, 9, 10, 11, 12, 13, 14, 15]]
    varis := [21, 22, 23, 24, 25, 26, 27, 28, 29, 30].map fun k => (k, .mk' k [0, 1, 2] .dflt) }

def pipesComp (e : ℕ) : ℕ := (pipes.e2c.lookup e).getD 0

def pipesVs : List (ℕ × ℕ) :=
  [1, 2, 3, 4, 5, 6, 7, 8, 9, 10, 11].map (fun k => (k, 2)) ++
    [21, 22, 23, 24, 25, 26, 27, 28, 29, 30].map fun k => (k, 3)

theorem pipesOK : PipesOK pipes pipesComp pipesVs where
  names := by decide
  nodup := by decide
  loops := by decide
  comp := by decide
  ends := by decide
  values := by
    intro ep hep
    refine ⟨.mk' (pipesComp ep.1) [0, 1, 2] .dflt, ?_⟩
    revert ep
    decide +kernel
  depots := by decide
  origins := by decide
  subs := by decide
  arcs := by decide

theorem pipesPhases : PhasesOK pipes where
  pos := by decide
  ex := by
    have : ∀ ep ∈ pipes.edges, ep.1 ∈ pipes.subEdges.getD 0 [] ∨ ep.1 ∈ pipes.subEdges.getD 1 [] := by
      decide
    intro ep hep
    rcases this ep hep with h | h
    exacts [⟨0, by decide, h⟩, ⟨1, by decide, h⟩]
  one := by
    have key : ∀ e ∈ pipes.subEdges.getD 0 [], e ∉ pipes.subEdges.getD 1 [] := by decide
    intro e m m' hm hm' h h'
    have h2 : pipes.subNodes.length = 2 := by decide
    rw [h2] at hm hm'
    interval_cases m <;> interval_cases m'
    · rfl
    · exact absurd h' (key e h)
    · exact absurd h (key e h')
    · rfl
  src := by decide
  dst := by decide
  inside := by decide

/-- The flow that the test of the repository expects: with all components in their best states, two
units run `n1 → n2 → n4 → n5 → n6 → n5 → n10`. -/
example : HasRoutes pipes (pipeCap pipes pipesComp fun k => if k ≤ 11 then 1 else 2) 2 := by
  refine ⟨[[1, 3, 4, 5, 9, 14], [1, 3, 4, 5, 9, 14]], rfl, ?_, by decide +kernel⟩
  intro p hp
  have hp : p = [1, 3, 4, 5, 9, 14] := by simpa using hp
  subst hp
  refine ⟨1, by decide, ?_⟩
  refine .go (w := 2) (by decide) (by decide) (by decide) (by decide) ?_
  refine .go (w := 4) (by decide) (by decide) (by decide) (by decide) ?_
  refine .go (w := 5) (by decide) (by decide) (by decide) (by decide) ?_
  refine .stop (w := 6) (by decide) (by decide) (by decide) (by decide) ?_
  refine .go (w := 5) (by decide) (by decide) (by decide) (by decide) ?_
  refine .stop (w := 10) (by decide) (by decide) (by decide) (by decide) ?_
  exact .done rfl (by decide)

example : ∃ (val : ℕ) (st : St) (r : Rule ℕ), sysFunPipes bestMilpLib
    (compsOf pipesVs fun k => if k ≤ 11 then 1 else 2) 2 pipes (enumIdx pipes) = .ok ((val : ℚ), st, r) ∧
      HasRoutes pipes (pipeCap pipes pipesComp fun k => if k ≤ 11 then 1 else 2) val := by
  obtain ⟨val, st, r, h1, h2, -⟩ := C49_routes_partial bestMilpLib_ok pipesOK pipesPhases 2
    (x := fun k => if k ≤ 11 then 1 else 2) (by decide)
  exact ⟨val, st, r, h1, h2⟩

/-- Two units can flow, but the solver does not say so. -/
example : sysFunPipes (fun _ _ => none) (compsOf pipesVs fun k => if k ≤ 11 then 1 else 2) 2 pipes
    (enumIdx pipes) = .ok (0, .f, []) :=
  (C49_no_success (fun _ _ => rfl) pipesOK 2 (by decide)).1 (by norm_num)

/-- The whole pipeline. -/
noncomputable def pipesCfg : RunCfg ℕ :=
  { vs := pipesVs, probs := fun k _ => if k ≤ 11 then 1 / 2 else 1 / 3
    sysFun := pipesSysFun bestMilpLib 2 pipes (enumIdx pipes) pipesVs
    maxSf := 120932353, maxNb := 241864704 }

open Classical in
example : ∃ st row, run pipesCfg { s := [], f := [] } none = .ok st ∧ st.mon.getLast? = some row ∧
    row.pfLow = probOf pipesVs pipesCfg.probs (fun x => ¬ Routes pipes pipesComp 2 x) := by
  obtain ⟨st, row, h1, -, h2, h3, -⟩ := (C65_pipe_routes_partial (c := pipesCfg) bestMilpLib_ok
    pipesOK pipesPhases 2 ⟨by decide, by decide⟩ ⟨by decide +kernel, by decide +kernel⟩ rfl).2 rfl
    (by decide +kernel) (by decide +kernel) rfl rfl
  exact ⟨st, row, h1, h2, h3⟩

/-- One subsystem with the origin 1 and the destinations 3 and 4; the arcs run `1 → 2`, `2 → 1` and
`3 → 4`. -/
def loopPipes : PipeSys ℕ ℕ :=
  { edges := [(1, 1, 2), (2, 2, 1), (3, 3, 4)]
    e2c := [(1, 11), (2, 12), (3, 13)]
    depots := [[1], [3, 4]]
    subNodes := [[1, 2, 3, 4]]
    subEdges := [[1, 2, 3]]
    varis := [11, 12, 13].map fun k => (k, .mk' k [0, 1] .dflt) }

def loopVs : List (ℕ × ℕ) := [1, 2, 3, 4, 11, 12, 13].map fun k => (k, 2)

theorem loopOK : PipesOK loopPipes (fun e => e + 10) loopVs where
  names := by decide
  nodup := by decide
  loops := by decide
  comp := by decide
  ends := by decide
  values := by
    intro ep hep
    refine ⟨.mk' (ep.1 + 10) [0, 1] .dflt, ?_⟩
    revert ep
    decide +kernel
  depots := by decide
  origins := by decide
  subs := by decide
  arcs := by decide

theorem loop_noRoute {m v : ℕ} {p : List ℕ} (h : PipeRoute loopPipes m v p) :
    m = 0 → v = 1 ∨ v = 2 → False := by
  have hl : loopPipes.subNodes.length = 1 := by decide
  induction h with
  | done hm _ => rintro rfl _; rw [hl] at hm; cases hm
  | @go m e v w p hm he hes hw hr ih =>
    intro h0 hv
    refine ih h0 ?_
    revert hv
    clear ih hr hes hw
    revert he
    simp only [loopPipes, List.mem_cons, Prod.mk.injEq, List.not_mem_nil, or_false]
    omega
  | @stop m e v w p hm he hes hw hr ih =>
    rintro rfl hv
    have hw : w = 3 ∨ w = 4 := by simpa [PipeSys.depot, loopPipes] using hw
    clear ih hr hes
    revert he
    simp only [loopPipes, List.mem_cons, Prod.mk.injEq, List.not_mem_nil, or_false]
    omega

end Ex

/-- **C49 is false in terms of routes** when the origin can be entered and a destination can be left:
there is no route from the origin to a destination, but `sys_fun_pipes` reports that a unit arrives.
The flow that scipy finds runs from the origin back to the origin and from one destination to
another. -/
theorem C49_not_routes {lib : List ℚ → List LinRow → MilpRes} (hlib : MilpLibOK lib) :
    (¬ ∃ k, 0 < k ∧ HasRoutes Ex.loopPipes (pipeCap Ex.loopPipes (fun e => e + 10) fun _ => 1) k) ∧
    ∃ (val : ℕ) (r : Rule ℕ), 0 < val ∧
      sysFunPipes lib (compsOf Ex.loopVs fun _ => 1) 1 Ex.loopPipes (enumIdx Ex.loopPipes) =
        .ok ((val : ℚ), .s, r) := by
  constructor
  · rintro ⟨k, hk, rs, rfl, hr, -⟩
    obtain ⟨p, hp⟩ := List.exists_mem_of_length_pos hk
    obtain ⟨o, ho, hr⟩ := hr p hp
    refine Ex.loop_noRoute hr rfl (.inl ?_)
    simpa [PipeSys.depot, Ex.loopPipes] using ho
  · obtain ⟨val, st, r, h1, -, h2, h3, -⟩ := C49_pipes hlib Ex.loopOK 1 (x := fun _ => 1) (by decide)
    have hd : Delivers Ex.loopPipes (fun e => e + 10) 1 fun _ => 1 := by
      refine ⟨fun _ => 1, fun _ => 1, ⟨by decide +kernel, by decide +kernel, ?_, by decide +kernel, ?_⟩,
        by decide +kernel⟩
      · intro m n hn
        have : m = 0 := by
          by_contra hm
          have : Ex.loopPipes.subNodes.length ≤ m := by
            have : Ex.loopPipes.subNodes.length = 1 := by decide
            omega
          simp [List.getElem?_eq_none this] at hn
        subst this
        revert n
        decide +kernel
      · intro m h1 h2
        have : Ex.loopPipes.subNodes.length = 1 := by decide
        omega
    rw [h3.2 hd] at h1
    refine ⟨val, r, ?_, h1⟩
    have := h2 1 hd
    have : (1 : ℕ) ≤ val := by exact_mod_cast this
    omega

end BNS
