import Verif.Proofs.BnbOld
import Verif.Proofs.BnbCmat

/-!
# Lemmas on `bnb_fns.py` and on the event matrix of the first branch and bound
-/

namespace BNS

set_option linter.unusedSectionVars false

variable {K V R : Type} [DecidableEq K]

theorem argsort_sorted {t : List ℚ} (h : t.Pairwise (· ≤ ·)) : argsort t = List.range t.length := by
  unfold argsort
  refine List.Pairwise.insertionSort_eq ?_
  rw [List.pairwise_iff_getElem]
  intro i j hi hj hij
  simp only [List.length_range] at hi hj
  simp only [List.getElem_range, List.getD_eq_getElem?_getD, List.getElem?_eq_getElem hi,
    List.getElem?_eq_getElem hj, Option.getD_some]
  exact List.pairwise_iff_getElem.1 h i j hi hj hij

theorem mapM_pyGet_range {α : Type} (l : List α) :
    (List.range l.length).mapM (fun i => pyGet l i) = Except.ok l := by
  cases l with
  | nil => rfl
  | cons a l =>
    rw [mapM_ok (f := fun i => pyGet (a :: l) i) (g := fun i => (a :: l).getD i a)
      fun i hi => pyGet_lt (List.mem_range.1 hi) a]
    congr 1
    refine List.ext_getElem (by simp) fun i h1 h2 => ?_
    simp [List.getD_eq_getElem?_getD, List.getElem?_eq_getElem h2]

theorem surv_ok {arcs : List K} (hn : arcs.Nodup) {x : List ℕ} (hx : x.length = arcs.length)
    (m : ℕ) :
    ∃ surv, ((((x.zipIdx).filter fun a => a.1 = m).map Prod.snd).mapM fun i => pyGet arcs i) =
      Except.ok surv ∧ ∀ e ∈ arcs, e ∈ surv ↔ arcState arcs x e = m := by
  have hmem : ∀ i, i ∈ ((x.zipIdx).filter fun a => a.1 = m).map Prod.snd ↔
      ∃ h : i < x.length, x[i] = m := by
    intro i
    simp only [List.mem_map, List.mem_filter, decide_eq_true_eq]
    constructor
    · rintro ⟨⟨v, j⟩, ⟨h1, h2⟩, rfl⟩
      rw [List.mem_zipIdx_iff_getElem?] at h1
      obtain ⟨h3, h4⟩ := List.getElem?_eq_some_iff.1 h1
      exact ⟨h3, h4.trans h2⟩
    · rintro ⟨h1, h2⟩
      refine ⟨(x[i], i), ⟨?_, h2⟩, rfl⟩
      rw [List.mem_zipIdx_iff_getElem?]
      exact List.getElem?_eq_getElem h1
  cases arcs with
  | nil =>
    have : x = [] := List.length_eq_zero_iff.1 hx
    subst this
    exact ⟨[], rfl, by simp⟩
  | cons a arcs =>
    refine ⟨_, mapM_ok (f := fun i => pyGet (a :: arcs) i) (g := fun i => (a :: arcs).getD i a)
      fun i hi => pyGet_lt ?_ a, fun e he => ?_⟩
    · rw [← hx]; exact ((hmem i).1 hi).1
    · rw [List.mem_map]
      constructor
      · rintro ⟨i, hi, rfl⟩
        obtain ⟨h1, h2⟩ := (hmem i).1 hi
        have h3 : i < (a :: arcs).length := by omega
        have h4 : (a :: arcs).getD i a = (a :: arcs)[i] := by
          rw [List.getD_eq_getElem?_getD, List.getElem?_eq_getElem h3, Option.getD_some]
        unfold arcState
        rw [h4, hn.idxOf_getElem i h3, List.getD_eq_getElem?_getD, List.getElem?_eq_getElem h1, h2]
        rfl
      · intro h
        have h3 : (a :: arcs).idxOf e < (a :: arcs).length := List.idxOf_lt_length_of_mem he
        have h1 : (a :: arcs).idxOf e < x.length := by omega
        refine ⟨(a :: arcs).idxOf e, (hmem _).2 ⟨h1, ?_⟩, ?_⟩
        · unfold arcState at h
          rw [List.getD_eq_getElem?_getD, List.getElem?_eq_getElem h1] at h
          exact h
        · rw [List.getD_eq_getElem?_getD, List.getElem?_eq_getElem h3, List.getElem_idxOf]
          rfl

theorem findIdx?_all_congr {l : List (List K)} {p q : List K → Bool} (h : ∀ a ∈ l, p a = q a) :
    l.findIdx? p = l.findIdx? q := by
  induction l with
  | nil => rfl
  | cons a l ih =>
    rw [List.findIdx?_cons, List.findIdx?_cons, h a (by simp), ih fun a ha => h a (by simp [ha])]

/-- The result of `bnb_sys`, whatever the order of the paths. -/
def bnbResult (info : PathInfo K) (x : List ℕ) : SysOut (Option ℚ) (List K) :=
  match info.path.findIdx? (pathUp info x) with
  | some k => ⟨k, some ((info.time.insertionSort (· ≤ ·)).getD k 0), info.path.getD k []⟩
  | none => ⟨info.time.length, none, []⟩

theorem bnbSys_eq {info : PathInfo K} (hi : InfoOK info) {x : List ℕ}
    (hx : x.length = info.arcs.length) : bnbSys info x = .ok (bnbResult info x) := by
  have hlen : (info.time.insertionSort (· ≤ ·)).length = info.path.length := by
    rw [List.length_insertionSort, hi.len]
  unfold bnbSys
  simp only
  rw [argsort_sorted (List.pairwise_insertionSort _ _), hlen, mapM_pyGet_range, ok_bind]
  obtain ⟨surv, e1, h1⟩ := surv_ok hi.nodup hx info.maxState
  rw [e1, ok_bind]
  have hfind : (info.path.findIdx? fun p => p.all fun e => decide (e ∈ surv)) =
      info.path.findIdx? (pathUp info x) := by
    refine findIdx?_all_congr fun p hp => ?_
    unfold pathUp
    rw [Bool.eq_iff_iff, List.all_eq_true, List.all_eq_true]
    refine forall₂_congr fun e he => ?_
    rw [decide_eq_true_eq, decide_eq_true_eq, h1 e (hi.path p hp e he)]
  rw [hfind]
  unfold bnbResult
  cases hk : info.path.findIdx? (pathUp info x) with
  | none => simp only [hi.len]; rfl
  | some k =>
    obtain ⟨hkl, -⟩ := List.findIdx?_eq_some_iff_getElem.1 hk
    simp only
    rw [pyGet_lt (by simpa using hkl) 0, ok_bind, pyGet_lt (by omega) 0, ok_bind, pyGet_lt hkl [],
      ok_bind]
    simp [List.getD_eq_getElem?_getD, hkl, pure_ok]

theorem bnbResult_state {info : PathInfo K} (hi : InfoOK info) (x : List ℕ) :
    (bnbResult info x).state = info.path.findIdx (pathUp info x) := by
  unfold bnbResult
  cases hk : info.path.findIdx? (pathUp info x) with
  | none =>
    rw [List.findIdx?_eq_none_iff_findIdx_eq] at hk
    simp only [hk, hi.len]
  | some k =>
    rw [List.findIdx?_eq_some_iff_findIdx_eq] at hk
    simp only [hk.2]

/-! ## Order of the states -/

theorem findIdx_le_of_imp {α : Type} {l : List α} {p q : α → Bool}
    (h : ∀ a ∈ l, p a = true → q a = true) : l.findIdx q ≤ l.findIdx p := by
  induction l with
  | nil => simp
  | cons a l ih =>
    have := ih fun a ha => h a (by simp [ha])
    rw [List.findIdx_cons, List.findIdx_cons]
    cases hp : p a
    · cases hq : q a <;> simp
      exact this
    · simp [h a (by simp) hp]

theorem bnbState_anti {info : PathInfo K} (hi : InfoOK info) {maxStates x y : List ℕ}
    (hm : maxStates = List.replicate info.arcs.length info.maxState)
    (hy : Between (List.replicate maxStates.length 1) maxStates y)
    (hxy : Between (List.replicate maxStates.length 1) y x) :
    info.path.findIdx (pathUp info y) ≤ info.path.findIdx (pathUp info x) := by
  refine findIdx_le_of_imp fun p hp h => ?_
  unfold pathUp at h ⊢
  rw [List.all_eq_true] at h ⊢
  intro e he
  have h1 := h e he
  rw [decide_eq_true_eq] at h1 ⊢
  have he' := hi.path p hp e he
  have hlt : info.arcs.idxOf e < info.arcs.length := List.idxOf_lt_length_of_mem he'
  have hlen : maxStates.length = info.arcs.length := by rw [hm]; simp
  have h2 := (between_replicate.1 hy).2 (info.arcs.idxOf e) (by omega)
  have h3 := (between_replicate.1 hxy).2 (info.arcs.idxOf e) (by omega)
  have h4 : maxStates.getD (info.arcs.idxOf e) 0 = info.maxState := by
    rw [hm, List.getD_eq_getElem?_getD, List.getElem?_replicate, if_pos hlt]
    rfl
  unfold arcState at h1 ⊢
  omega

/-! ## The callbacks -/

theorem mem_appendNew {l xs : List K} {e : K} : e ∈ appendNew l xs ↔ e ∈ l ∨ e ∈ xs := by
  unfold appendNew
  induction xs generalizing l with
  | nil => simp
  | cons x xs ih =>
    rw [List.foldl_cons, ih]
    split
    · rename_i h
      constructor
      · rintro (h | h)
        · exact .inl h
        · exact .inr (by simp [h])
      · rintro (h' | h')
        · exact .inl h'
        · rcases List.mem_cons.1 h' with rfl | h'
          · exact .inl h
          · exact .inr h'
    · rw [List.mem_append, List.mem_singleton, List.mem_cons, or_assoc]

theorem mem_diff {order : List K} {xs l : List K} {e : K} :
    e ∈ xs.foldl (fun l x => if x ∈ order then l else l ++ [x]) l ↔ e ∈ l ∨ e ∈ xs ∧ e ∉ order := by
  induction xs generalizing l with
  | nil => simp
  | cons x xs ih =>
    rw [List.foldl_cons, ih]
    split
    · rename_i h
      refine or_congr_right ?_
      constructor
      · rintro ⟨h1, h2⟩; exact ⟨by simp [h1], h2⟩
      · rintro ⟨h1, h2⟩
        rcases List.mem_cons.1 h1 with rfl | h1
        · exact absurd h h2
        · exact ⟨h1, h2⟩
    · rename_i h
      rw [List.mem_append, List.mem_singleton, or_assoc, List.mem_cons]
      refine or_congr_right ?_
      constructor
      · rintro (rfl | ⟨h1, h2⟩)
        · exact ⟨.inl rfl, h⟩
        · exact ⟨.inr h1, h2⟩
      · rintro ⟨rfl | h1, h2⟩
        · exact .inl rfl
        · exact .inr ⟨h1, h2⟩

/-- As every arc is in the order, the first candidate is chosen. -/
theorem bnbNextComp_ok (info : PathInfo K) {c : K} {cand : List K} (hc : c ∈ info.arcs) :
    bnbNextComp info (c :: cand) = .ok c := by
  have hmem : c ∈ appendNew (info.path.foldl appendNew [])
      (info.arcs.foldl (fun l x => if x ∈ info.path.foldl appendNew [] then l else l ++ [x]) []) := by
    rw [mem_appendNew, mem_diff]
    by_cases h : c ∈ info.path.foldl appendNew []
    · exact .inl h
    · exact .inr (.inr ⟨hc, h⟩)
  unfold bnbNextComp
  simp only
  rw [List.findIdx?_cons]
  simp only [hmem, decide_true, if_true]
  rfl

theorem bnb_admissible (info : PathInfo K) {maxStates : List ℕ} (h : ∀ m ∈ maxStates, m ≤ 2) :
    Admissible info.arcs maxStates (fun cand (_ _ : List K) => bnbNextComp info cand)
      (fun _ _ _ _ _ => .ok bnbNextState) := by
  refine ⟨fun cand r1 r2 h0 hc => ?_, fun i c m h1 h2 lo hi r1 r2 h3 h4 h5 => ?_⟩
  · cases cand with
    | nil => exact absurd rfl h0
    | cons c cand => exact ⟨c, by simp, bnbNextComp_ok info (hc c (by simp))⟩
  · have := h m (List.mem_iff_getElem?.2 ⟨i, h2⟩)
    refine ⟨1, rfl, ?_, ?_⟩ <;> omega

/-! ## The event matrix -/

theorem oldCol_ok {v : Variable K} (hB : v.B = some (genB v.values.length)) {down up : ℕ}
    (h1 : 1 ≤ down) (h2 : down ≤ up) (h3 : up ≤ v.values.length)
    (h : v.values.length = 2 ∨ down = up) (flag : Bool) :
    ∃ c, oldCol v down up flag = .ok c ∧ c + 1 < 2 ^ v.values.length ∧
      ∀ i, i ∈ stateSet v c ↔
        down ≤ bnbStateOf flag v.values.length i ∧ bnbStateOf flag v.values.length i ≤ up := by
  have hpow := Nat.lt_two_pow_self (n := v.values.length)
  unfold oldCol
  simp only
  by_cases hdu : down = up
  · subst hdu
    rw [if_pos rfl]
    refine ⟨_, rfl, ?_, fun i => ?_⟩
    · split <;> omega
    · rw [stateSet_basic hB (by split <;> omega), Finset.mem_singleton]
      unfold bnbStateOf
      split <;> omega
  · have h2' := h.resolve_right hdu
    have hd : down = 1 := by omega
    have hu : up = 2 := by omega
    subst hd hu
    rw [hB, h2']
    refine ⟨2, ?_, by decide, fun i => ?_⟩
    · cases flag <;> decide +kernel
    · have : stateSet v 2 = {0, 1} := by
        unfold stateSet
        rw [hB, h2']
        decide +kernel
      rw [this, Finset.mem_insert, Finset.mem_singleton]
      unfold bnbStateOf
      split <;> omega

theorem oldRow_ok {n : ℕ} {vars : List (Variable K)} {down up : List ℕ}
    (hv : ∀ v ∈ vars, v.B = some (genB v.values.length)) (hd : down.length = vars.length)
    (hu : up.length = vars.length) (hn : n = vars.length)
    (h : ∀ i v, vars[i]? = some v → 1 ≤ down.getD i 0 ∧ down.getD i 0 ≤ up.getD i 0 ∧
      up.getD i 0 ≤ v.values.length ∧ (v.values.length = 2 ∨ down.getD i 0 = up.getD i 0))
    (flag : Bool) :
    ∃ cs, ((List.range n).mapM fun j => do
        let d ← pyGet down j
        let u ← pyGet up j
        let v ← pyGet vars j
        oldCol v d u flag) = Except.ok cs ∧ cs.length = vars.length ∧
      (∀ vc ∈ vars.zip cs, vc.2 + 1 < 2 ^ vc.1.values.length) ∧
      ∀ y : K → ℕ, RowMatches vars cs y ↔
        Between down up (vars.map fun v => bnbStateOf flag v.values.length (y v.name)) := by
  subst hn
  have key : ∀ (vs : List (Variable K)) (k : ℕ), (∀ j v, vs[j]? = some v → vars[k + j]? = some v) →
      ∃ cs, ((List.range' k vs.length).mapM fun j => do
        let d ← pyGet down j
        let u ← pyGet up j
        let v ← pyGet vars j
        oldCol v d u flag) = Except.ok cs ∧ cs.length = vs.length ∧
      (∀ vc ∈ vs.zip cs, vc.2 + 1 < 2 ^ vc.1.values.length) ∧
      ∀ y : K → ℕ, RowMatches vs cs y ↔ ∀ j v, vs[j]? = some v →
        down.getD (k + j) 0 ≤ bnbStateOf flag v.values.length (y v.name) ∧
        bnbStateOf flag v.values.length (y v.name) ≤ up.getD (k + j) 0 := by
    intro vs
    induction vs with
    | nil => exact fun k _ => ⟨[], rfl, rfl, by simp, fun y => by simp [RowMatches]⟩
    | cons v vs ih =>
      intro k hk
      obtain ⟨cs, e1, e2, e3, e4⟩ := ih (k + 1) fun j w hj => by
        have := hk (j + 1) w (by simpa using hj)
        rwa [show k + 1 + j = k + (j + 1) by omega]
      have hv0 := hk 0 v (by simp)
      rw [Nat.add_zero] at hv0
      have hkl := (List.getElem?_eq_some_iff.1 hv0).1
      obtain ⟨g1, g2, g3, g4⟩ := h k v hv0
      obtain ⟨c, f1, f2, f3⟩ := oldCol_ok (hv v (List.mem_iff_getElem?.2 ⟨k, hv0⟩)) g1 g2 g3 g4 flag
      refine ⟨c :: cs, ?_, by simp [e2], fun vc hvc => ?_, fun y => ?_⟩
      · have hvk : pyGet vars k = .ok v := by unfold pyGet; rw [hv0]
        rw [List.length_cons, List.range'_succ, List.mapM_cons, e1, pyGet_lt (by omega) 0, ok_bind,
          pyGet_lt (by omega) 0, ok_bind, hvk, ok_bind, f1]
        rfl
      · rw [List.zip_cons_cons, List.mem_cons] at hvc
        rcases hvc with rfl | hvc
        · exact f2
        · exact e3 vc hvc
      · have := e4 y
        unfold RowMatches at this ⊢
        rw [List.zip_cons_cons, List.forall_mem_cons, this, f3]
        constructor
        · rintro ⟨h1, h2⟩ j w hj
          cases j with
          | zero => simp only [List.getElem?_cons_zero, Option.some.injEq] at hj; subst hj; exact h1
          | succ j =>
            have := h2 j w (by simpa using hj)
            rwa [show k + 1 + j = k + (j + 1) by omega] at this
        · intro h1
          refine ⟨h1 0 v (by simp), fun j w hj => ?_⟩
          have := h1 (j + 1) w (by simpa using hj)
          rwa [show k + 1 + j = k + (j + 1) by omega]
  obtain ⟨cs, e1, e2, e3, e4⟩ := key vars 0 fun j v hj => by rwa [Nat.zero_add]
  refine ⟨cs, by rw [List.range_eq_range']; exact e1, e2, e3, fun y => ?_⟩
  rw [e4]
  unfold Between
  rw [List.length_map, hd]
  refine ⟨fun h1 => ⟨rfl, fun i hi => ?_⟩, fun h1 j v hj => ?_⟩
  · have := h1 i vars[i] (List.getElem?_eq_getElem hi)
    rw [Nat.zero_add] at this
    simpa [List.getD_eq_getElem?_getD, List.getElem?_eq_getElem hi] using this
  · obtain ⟨hjl, rfl⟩ := List.getElem?_eq_some_iff.1 hj
    have := h1.2 j hjl
    rw [Nat.zero_add]
    simpa [List.getD_eq_getElem?_getD, List.getElem?_eq_getElem hjl] using this

/-- A row stands for a branch. -/
def OldRowOf (vars : List (Variable K)) (flag : Bool) (b : OldBranch K V) (r : List ℕ) : Prop :=
  ∃ cs, r = b.upState :: cs ∧ cs.length = vars.length ∧
    (∀ vc ∈ vars.zip cs, vc.2 + 1 < 2 ^ vc.1.values.length) ∧
    ∀ y : K → ℕ, RowMatches vars cs y ↔
      Between b.down b.up (vars.map fun v => bnbStateOf flag v.values.length (y v.name))

theorem oldCmat_ok {vars : List (Variable K)}
    (hv : ∀ v ∈ vars, v.B = some (genB v.values.length)) {brs : List (OldBranch K V)}
    (hne : ∃ b ∈ brs, b.complete = true)
    (hb : ∀ b ∈ brs, b.complete = true → OldEncodable vars b) (flag : Bool) :
    ∃ C, oldCmat brs vars flag = .ok C ∧
      List.Forall₂ (OldRowOf vars flag) (brs.filter fun b => b.complete) C := by
  unfold oldCmat
  simp only
  have hb' : ∀ b ∈ brs.filter fun b => b.complete, OldEncodable vars b := fun b h =>
    hb b (List.mem_filter.1 h).1 (List.mem_filter.1 h).2
  cases hc : brs.filter fun b => b.complete with
  | nil =>
    obtain ⟨b, hb1, hb2⟩ := hne
    have : b ∈ brs.filter fun b => b.complete := List.mem_filter.2 ⟨hb1, hb2⟩
    rw [hc] at this
    cases this
  | cons b0 bs =>
    rw [hc] at hb'
    have h0 : pyGet (b0 :: bs) 0 = .ok b0 := rfl
    rw [h0, ok_bind]
    have hl := (hb' b0 (by simp)).down
    clear hc h0
    generalize (b0 :: bs) = l at hb'
    induction l with
    | nil => exact ⟨[], rfl, .nil⟩
    | cons b l ih =>
      obtain ⟨C, e1, h1⟩ := ih fun b h => hb' b (by simp [h])
      have hbb := hb' b (by simp)
      obtain ⟨cs, f1, f2, f3, f4⟩ := oldRow_ok hv hbb.down hbb.up hl hbb.le flag
      refine ⟨(b.upState :: cs) :: C, ?_, .cons ⟨cs, rfl, f2, f3, f4⟩ h1⟩
      rw [List.mapM_cons, f1, ok_bind, pure_ok, ok_bind, e1]
      rfl

end BNS
