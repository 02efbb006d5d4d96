import Verif.Spec.Bnb
import Verif.Proofs.CpmBasic

/-!
# Lemmas on path tables and binary branches
-/

namespace BNS

set_option linter.unusedSectionVars false

variable {K : Type} [DecidableEq K]

/-! ## Dictionaries -/

theorem arcGet_ok {d : List (K × ℕ)} {k : K} (h : k ∈ d.map Prod.fst) :
    arcGet d k = .ok (dictFn d k) := by
  obtain ⟨kv, hkv, rfl⟩ := List.mem_map.1 h
  have : (d.find? fun q => q.1 = kv.1).isSome := by
    rw [List.find?_isSome]
    exact ⟨kv, hkv, by simp⟩
  obtain ⟨a, ha⟩ := Option.isSome_iff_exists.1 this
  unfold arcGet dictFn
  rw [ha]
  rfl

theorem setArc_keys (a : K) (v : ℕ) (d : List (K × ℕ)) :
    (setArc a v d).map Prod.fst = d.map Prod.fst := by
  unfold setArc
  rw [List.map_map]
  rfl

theorem dictFn_map (f : K → ℕ → ℕ) {d : List (K × ℕ)} {k : K} (h : k ∈ d.map Prod.fst) :
    dictFn (d.map fun kv => (kv.1, f kv.1 kv.2)) k = f k (dictFn d k) := by
  induction d with
  | nil => simp at h
  | cons a d ih =>
    unfold dictFn at ih ⊢
    rw [List.map_cons, List.find?_cons, List.find?_cons]
    by_cases ha : a.1 = k
    · subst ha
      simp
    · simp only [ha, decide_false]
      refine ih ?_
      rw [List.map_cons, List.mem_cons] at h
      exact h.resolve_left fun e => ha e.symm

theorem dictFn_setArc {a : K} {v : ℕ} {d : List (K × ℕ)} {k : K} (h : k ∈ d.map Prod.fst) :
    dictFn (setArc a v d) k = if k = a then v else dictFn d k :=
  dictFn_map (fun q n => if q = a then v else n) h

/-! ## The system state -/

theorem pathSurvives_ok {d : List (K × ℕ)} (cond : ℕ) {path : List K}
    (h : ∀ e ∈ path, e ∈ d.map Prod.fst) :
    pathSurvives d cond path = .ok (decide (Surv (dictFn d) cond path)) := by
  have hm : (path.mapM fun i => do
      let v ← arcGet d i
      return decide (v = cond)) = Except.ok (path.map fun e => decide (dictFn d e = cond)) := by
    refine mapM_ok fun e he => ?_
    rw [arcGet_ok (h e he)]
    rfl
  unfold pathSurvives
  rw [hm]
  show Except.ok _ = _
  congr 1
  unfold Surv
  cases path with
  | nil => simp
  | cons a l => simp [List.all_eq, Bool.decide_and]

theorem bestState_cons (s0 : ℕ) (r : List K × ℕ) (rows : List (List K × ℕ)) (x : K → ℕ)
    (cond : ℕ) : bestState s0 (r :: rows) x cond =
      if Surv x cond r.1 then max r.2 (bestState s0 rows x cond) else bestState s0 rows x cond := by
  unfold bestState
  by_cases h : Surv x cond r.1
  · rw [List.filter_cons_of_pos (by simpa using h), if_pos h]
    rfl
  · rw [List.filter_cons_of_neg (by simpa using h), if_neg h]

theorem le_bestState (s0 : ℕ) (rows : List (List K × ℕ)) (x : K → ℕ) (cond : ℕ) :
    s0 ≤ bestState s0 rows x cond := by
  induction rows with
  | nil => exact le_rfl
  | cons r rows ih =>
    rw [bestState_cons]
    split
    · exact ih.trans (le_max_right _ _)
    · exact ih

theorem bestState_le {s0 m : ℕ} {rows : List (List K × ℕ)} {x : K → ℕ} {cond : ℕ} (h0 : s0 ≤ m)
    (h : ∀ r ∈ rows, Surv x cond r.1 → r.2 ≤ m) : bestState s0 rows x cond ≤ m := by
  induction rows with
  | nil => exact h0
  | cons r rows ih =>
    rw [bestState_cons]
    have := ih fun r hr => h r (by simp [hr])
    split
    · rename_i hs
      exact max_le (h r (by simp) hs) this
    · exact this

theorem bestState_ge {s0 : ℕ} {rows : List (List K × ℕ)} {x : K → ℕ} {cond : ℕ}
    {r : List K × ℕ} (hr : r ∈ rows) (hs : Surv x cond r.1) : r.2 ≤ bestState s0 rows x cond := by
  induction rows with
  | nil => cases hr
  | cons a rows ih =>
    rw [bestState_cons]
    rcases List.mem_cons.1 hr with rfl | hr
    · rw [if_pos hs]; exact le_max_left _ _
    · split
      · exact (ih hr).trans (le_max_right _ _)
      · exact ih hr

theorem bestState_mem (s0 : ℕ) (rows : List (List K × ℕ)) (x : K → ℕ) (cond : ℕ) :
    bestState s0 rows x cond = s0 ∨
      ∃ r ∈ rows, Surv x cond r.1 ∧ r.2 = bestState s0 rows x cond := by
  induction rows with
  | nil => exact .inl rfl
  | cons a rows ih =>
    rw [bestState_cons]
    have hrest : bestState s0 rows x cond = s0 ∨ ∃ r ∈ a :: rows, Surv x cond r.1 ∧
        r.2 = bestState s0 rows x cond :=
      ih.imp id fun ⟨r, hr, h⟩ => ⟨r, by simp [hr], h⟩
    split
    · rename_i hs
      rcases le_total (bestState s0 rows x cond) a.2 with h | h
      · rw [max_eq_left h]
        exact .inr ⟨a, by simp, hs, rfl⟩
      · rw [max_eq_right h]
        exact hrest
    · exact hrest

theorem evalPaths_ok {d : List (K × ℕ)} (cond : ℕ) {s0 : ℕ} {rows : List (PathRow K)}
    (h : ∀ r ∈ rows, ∀ e ∈ r.path, e ∈ d.map Prod.fst) (h0 : ∀ r ∈ rows, s0 ≤ r.state)
    (hs : rows.Pairwise fun a b => b.state ≤ a.state) :
    evalPaths d cond s0 rows = .ok (bestState s0 (rowsOf rows) (dictFn d) cond) := by
  induction rows with
  | nil => rfl
  | cons r rows ih =>
    obtain ⟨h1, h2⟩ := List.pairwise_cons.1 hs
    unfold evalPaths
    rw [pathSurvives_ok cond (h r (by simp)), ok_bind]
    have hb : bestState s0 (rowsOf (r :: rows)) (dictFn d) cond =
        if Surv (dictFn d) cond r.path then
          max r.state (bestState s0 (rowsOf rows) (dictFn d) cond)
        else bestState s0 (rowsOf rows) (dictFn d) cond := bestState_cons _ _ _ _ _
    rw [hb]
    by_cases hsv : Surv (dictFn d) cond r.path
    · simp only [hsv, decide_true, if_true]
      rw [pure_ok, max_eq_left]
      refine bestState_le (h0 r (by simp)) fun q hq _ => ?_
      obtain ⟨p, hp, rfl⟩ := List.mem_map.1 hq
      exact h1 p hp
    · simp only [hsv, decide_false, Bool.false_eq_true, if_false]
      exact ih (fun r hr => h r (by simp [hr])) (fun r hr => h0 r (by simp [hr])) h2

/-- The model of `eval_sys_state` on a good table. -/
theorem evalSysState_ok {keys : List K} {table : List (PathRow K)} (ht : TableOK keys table)
    {d : List (K × ℕ)} (hd : d.map Prod.fst = keys) :
    evalSysState table d 1 = .ok (tableState table (dictFn d)) := by
  obtain ⟨s0, t0, h1, h2⟩ := ht.head
  cases table with
  | nil => cases h1
  | cons r rows =>
    rw [List.head?_cons, Option.some.injEq] at h1
    subst h1
    show evalPaths d 1 s0 (_ :: rows) = _
    unfold evalPaths
    have : pathSurvives d 1 ([] : List K) = .ok false := rfl
    rw [this, ok_bind]
    simp only [Bool.false_eq_true, if_false]
    exact evalPaths_ok (rows := rows) 1 (fun r hr e he => by rw [hd]; exact (ht.path r hr).2.2 e he)
      h2 ht.sorted

theorem Surv.up {keys : List K} {x y : K → ℕ} (hxy : ∀ k ∈ keys, x k ≤ y k)
    (hy : ∀ k ∈ keys, y k ≤ 1) {path : List K} (hp : ∀ e ∈ path, e ∈ keys)
    (h : Surv x 1 path) : Surv y 1 path := by
  refine ⟨h.1, fun e he => ?_⟩
  have h1 := h.2 e he
  have h2 := hxy e (hp e he)
  have h3 := hy e (hp e he)
  omega

theorem tableState_mono {keys : List K} {table : List (PathRow K)} (ht : TableOK keys table)
    {x y : K → ℕ} (hxy : ∀ k ∈ keys, x k ≤ y k) (hy : ∀ k ∈ keys, y k ≤ 1) :
    tableState table x ≤ tableState table y := by
  refine bestState_le (le_bestState _ _ _ _) fun r hr hs => ?_
  obtain ⟨p, hp, rfl⟩ := List.mem_map.1 hr
  exact bestState_ge hr (hs.up hxy hy (ht.path p hp).2.2)

/-! ## The arcs to split -/

theorem freeArcs_ok {lower upper : List (K × ℕ)} {path : List K}
    (h : ∀ e ∈ path, e ∈ lower.map Prod.fst ∧ e ∈ upper.map Prod.fst) :
    freeArcs lower upper path =
      .ok (path.filter fun e => decide (dictFn lower e < dictFn upper e)) := by
  induction path with
  | nil => rfl
  | cons e path ih =>
    obtain ⟨h1, h2⟩ := h e (by simp)
    unfold freeArcs
    rw [arcGet_ok h2, ok_bind, arcGet_ok h1, ok_bind, ih fun e he => h e (by simp [he]), ok_bind,
      List.filter_cons]
    simp only [decide_eq_true_eq]
    rfl

theorem mem_matched {d : List (K × ℕ)} (hn : (d.map Prod.fst).Nodup) {e : K} {cond : ℕ}
    (he : e ∈ d.map Prod.fst) :
    e ∈ (d.filter fun kv => kv.2 = cond).map Prod.fst ↔ dictFn d e = cond := by
  induction d with
  | nil => simp at he
  | cons a d ih =>
    rw [List.map_cons, List.nodup_cons] at hn
    by_cases ha : a.1 = e
    · subst ha
      have hnot : a.1 ∉ (d.filter fun kv => kv.2 = cond).map Prod.fst := fun hm => by
        obtain ⟨q, hq, e1⟩ := List.mem_map.1 hm
        exact hn.1 (e1 ▸ List.mem_map_of_mem (List.mem_filter.1 hq).1)
      have hd : dictFn (a :: d) a.1 = a.2 := by simp [dictFn]
      rw [hd, List.filter_cons]
      by_cases hc : a.2 = cond
      · simp [hc]
      · simp only [hc, decide_false, Bool.false_eq_true, if_false, iff_false]
        exact hnot
    · have he' : e ∈ d.map Prod.fst := by
        rw [List.map_cons, List.mem_cons] at he
        exact he.resolve_left fun h => ha h.symm
      have hd : dictFn (a :: d) e = dictFn d e := by simp [dictFn, ha]
      rw [hd, ← ih hn.2 he', List.filter_cons]
      split
      · rw [List.map_cons, List.mem_cons]
        exact ⟨fun h => h.resolve_left fun h => ha h.symm, .inr⟩
      · rfl

theorem arcsLoop_ok {keys : List K} (hk : keys.Nodup) {b : BBranch K} (hb : BBoxOK keys b)
    (cond : ℕ) {rows : List (PathRow K)} (h : ∀ r ∈ rows, r.path ≠ [] ∧ ∀ e ∈ r.path, e ∈ keys) :
    (arcsLoop b.lower b.upper ((b.upper.filter fun kv => kv.2 = cond).map Prod.fst) rows = .ok [] ∧
      ∀ r ∈ rows, ¬ Surv (dictFn b.upper) cond r.path) ∨
    ∃ l r l', rows = l ++ r :: l' ∧ (∀ q ∈ l, ¬ Surv (dictFn b.upper) cond q.path) ∧
      Surv (dictFn b.upper) cond r.path ∧
      arcsLoop b.lower b.upper ((b.upper.filter fun kv => kv.2 = cond).map Prod.fst) rows =
        .ok (r.path.filter fun e => decide (dictFn b.lower e < dictFn b.upper e)) := by
  induction rows with
  | nil => exact .inl ⟨rfl, by simp⟩
  | cons r rows ih =>
    obtain ⟨h1, h2⟩ := h r (by simp)
    have hiff : (r.path.all fun e => decide
        (e ∈ (b.upper.filter fun kv => kv.2 = cond).map Prod.fst)) = true ↔
        Surv (dictFn b.upper) cond r.path := by
      rw [List.all_eq_true]
      unfold Surv
      simp only [decide_eq_true_eq, ne_eq, h1, not_false_eq_true, true_and]
      refine forall₂_congr fun e he => ?_
      exact mem_matched (by rw [hb.upper]; exact hk) (by rw [hb.upper]; exact h2 e he)
    unfold arcsLoop
    by_cases hs : Surv (dictFn b.upper) cond r.path
    · rw [if_pos (hiff.2 hs)]
      refine .inr ⟨[], r, rows, rfl, by simp, hs, freeArcs_ok fun e he => ?_⟩
      rw [hb.lower, hb.upper]
      exact ⟨h2 e he, h2 e he⟩
    · rw [if_neg (fun hc => hs (hiff.1 hc))]
      rcases ih fun r hr => h r (by simp [hr]) with ⟨e1, e2⟩ | ⟨l, q, l', e1, e2, e3, e4⟩
      · refine .inl ⟨e1, fun q hq => ?_⟩
        rcases List.mem_cons.1 hq with rfl | hq
        · exact hs
        · exact e2 q hq
      · refine .inr ⟨r :: l, q, l', by rw [e1]; rfl, fun p hp => ?_, e3, e4⟩
        rcases List.mem_cons.1 hp with rfl | hp
        · exact hs
        · exact e2 p hp

/-- What `get_arcs_given_bstar` returns. -/
structure ArcsOut (keys : List K) (table : List (PathRow K)) (b : BBranch K) (arcs : List K) :
    Prop where
  nodup : arcs.Nodup
  free : ∀ a ∈ arcs, a ∈ keys ∧ dictFn b.lower a = 0 ∧ dictFn b.upper a = 1
  decided : ∀ x, (∀ k ∈ keys, dictFn b.lower k ≤ x k ∧ x k ≤ dictFn b.upper k) →
    (∀ a ∈ arcs, x a = 1) → tableState table x = tableState table (dictFn b.upper)

theorem getArcs_ok {keys : List K} (hk : keys.Nodup) {table : List (PathRow K)}
    (ht : TableOK keys table) {b : BBranch K} (hb : BBoxOK keys b) :
    ∃ arcs, getArcs b table 1 = .ok arcs ∧ ArcsOut keys table b arcs := by
  unfold getArcs
  obtain ⟨s0, t0, hh, hs0⟩ := ht.head
  rcases arcsLoop_ok hk hb 1 (fun r hr => ⟨(ht.path r hr).1, (ht.path r hr).2.2⟩) with
    ⟨e1, e2⟩ | ⟨l, r, l', e1, e2, e3, e4⟩
  · refine ⟨[], e1, List.nodup_nil, by simp, fun x hx _ => ?_⟩
    have hno : ∀ y, (∀ k ∈ keys, y k ≤ dictFn b.upper k) →
        tableState table y = (table.head?.map PathRow.state).getD 0 := by
      intro y hy
      refine le_antisymm (bestState_le le_rfl fun q hq hs => ?_) (le_bestState _ _ _ _)
      obtain ⟨p, hp, rfl⟩ := List.mem_map.1 hq
      exact absurd (hs.up hy hb.bin (ht.path p hp).2.2) (e2 p hp)
    rw [hno x fun k hkk => (hx k hkk).2, hno _ fun k _ => le_rfl]
  · have hr : r ∈ table.tail := by rw [e1]; simp
    obtain ⟨p1, p2, p3⟩ := ht.path r hr
    refine ⟨_, e4, p2.filter _, fun a ha => ?_, fun x hx hx1 => ?_⟩
    · obtain ⟨ha1, ha2⟩ := List.mem_filter.1 ha
      have ha2 : dictFn b.lower a < dictFn b.upper a := by simpa using ha2
      have := hb.bin a (p3 a ha1)
      exact ⟨p3 a ha1, by omega, by omega⟩
    · have key : ∀ y, (∀ k ∈ keys, y k ≤ dictFn b.upper k) → Surv y 1 r.path →
          tableState table y = r.state := by
        intro y hy hs
        refine le_antisymm (bestState_le ?_ fun q hq hqs => ?_) ?_
        · rw [hh]; exact hs0 r hr
        · obtain ⟨p, hp, rfl⟩ := List.mem_map.1 hq
          have hps := hqs.up hy hb.bin (ht.path p hp).2.2
          have hsort := ht.sorted
          rw [e1] at hp hsort
          rcases List.mem_append.1 hp with hp | hp
          · exact absurd hps (e2 p hp)
          · rcases List.mem_cons.1 hp with rfl | hp
            · exact le_rfl
            · exact (List.pairwise_cons.1 (List.pairwise_append.1 hsort).2.1).1 p hp
        · exact bestState_ge (r := (r.path, r.state)) (List.mem_map.2 ⟨r, hr, rfl⟩) hs
      rw [key _ (fun _ _ => le_rfl) e3, key x (fun k hkk => (hx k hkk).2)]
      refine ⟨p1, fun e he => ?_⟩
      by_cases hf : dictFn b.lower e < dictFn b.upper e
      · exact hx1 e (List.mem_filter.2 ⟨he, by simpa using hf⟩)
      · have h1 := e3.2 e he
        have h2 := hx e (p3 e he)
        have h3 := hb.le e (p3 e he)
        omega

theorem TimesApart.eq {a b : Option ℚ} (h : TimesApart a b) (hc : isClose a b = true) : b = a := by
  cases a with
  | none => cases b with
    | none => rfl
    | some b => cases hc
  | some a => cases b with
    | none => cases hc
    | some b =>
      have hc : |a - b| ≤ 1 / 100000000 + 1 / 100000 * |b| := of_decide_eq_true hc
      rcases h with rfl | h
      · rfl
      · have e : |b| / 100000 = 1 / 100000 * |b| := by rw [div_eq_mul_inv, one_div, mul_comm]
        rw [e] at h
        exact absurd h (not_lt.2 hc)

end BNS
