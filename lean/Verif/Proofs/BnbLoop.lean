import Verif.Proofs.Bnb

/-!
# Lemmas on the decomposition loop of the binary branch and bound
-/

namespace BNS

set_option linter.unusedSectionVars false

variable {K : Type} [DecidableEq K]

/-- The system state depends on the arcs only. -/
theorem tableState_congr {keys : List K} {table : List (PathRow K)} (ht : TableOK keys table)
    {x y : K → ℕ} (hxy : ∀ k ∈ keys, x k = y k) : tableState table x = tableState table y := by
  unfold tableState bestState
  congr 2
  refine List.filter_congr fun r hr => ?_
  obtain ⟨p, hp, rfl⟩ := List.mem_map.1 hr
  rw [decide_eq_decide]
  unfold Surv
  refine and_congr_right fun _ => forall₂_congr fun e he => ?_
  rw [hxy e ((ht.path p hp).2.2 e he)]

/-- Number of arcs that are still free. -/
def freeCount (keys : List K) (b : BBranch K) : ℕ :=
  keys.countP fun k => decide (dictFn b.lower k < dictFn b.upper k)

theorem freeCount_lt {keys : List K} {b c : BBranch K} {a : K} (ha : a ∈ keys)
    (hb : dictFn b.lower a < dictFn b.upper a) (hc : dictFn c.upper a ≤ dictFn c.lower a)
    (h : ∀ k ∈ keys, dictFn b.lower k ≤ dictFn c.lower k ∧ dictFn c.upper k ≤ dictFn b.upper k) :
    freeCount keys c < freeCount keys b := by
  induction keys with
  | nil => cases ha
  | cons k keys ih =>
    have hle : freeCount keys c ≤ freeCount keys b := by
      refine List.countP_mono_left fun k hk h1 => ?_
      have h1 : dictFn c.lower k < dictFn c.upper k := by simpa using h1
      have := h k (by simp [hk])
      simp only [decide_eq_true_eq]
      omega
    unfold freeCount at *
    rw [List.countP_cons, List.countP_cons]
    rcases List.mem_cons.1 ha with rfl | ha
    · have h1 : ¬ dictFn c.lower a < dictFn c.upper a := by omega
      simp only [h1, hb, decide_false, decide_true, Bool.false_eq_true, if_false, if_true]
      omega
    · have := ih ha fun k hk => h k (by simp [hk])
      have hk := h k (by simp)
      by_cases h1 : dictFn c.lower k < dictFn c.upper k
      · have h2 : dictFn b.lower k < dictFn b.upper k := by omega
        simp only [h1, h2, decide_true, if_true]
        omega
      · simp only [h1, decide_false, Bool.false_eq_true, if_false]
        omega

/-- What the loop of `get_set_of_branches` returns, from the current lower bound `L`. -/
structure SetOut (keys : List K) (table : List (PathRow K)) (b : BBranch K) (L : List (K × ℕ))
    (arcs : List K) (upperF : List (K × ℕ)) (out : List (BBranch K)) : Prop where
  shape : ∃ init last, out = init ++ [last] ∧ last.fl = b.fu ∧ last.fu = b.fu ∧
    last.upper = upperF ∧
    (∀ k ∈ keys, dictFn last.lower k = if k ∈ arcs then 1 else dictFn L k) ∧
    ∀ c ∈ init, BLabelsOK table c ∧ freeCount keys c < freeCount keys b
  box : ∀ c ∈ out, BBoxOK keys c
  hits : ∀ x, bhits keys out x =
    if ∀ k ∈ keys, dictFn L k ≤ x k ∧ x k ≤ dictFn b.upper k then 1 else 0

theorem setLoop_ok {keys : List K} {table : List (PathRow K)} (ht : TableOK keys table)
    {b : BBranch K} (hb : BBoxOK keys b) (hl : b.fl ≤ tableState table (dictFn b.lower))
    {upperF : List (K × ℕ)}
    (hF : upperF.map Prod.fst = keys) (hF' : ∀ k ∈ keys, dictFn upperF k = dictFn b.upper k)
    {arcs : List K} (hn : arcs.Nodup) :
    ∀ {L : List (K × ℕ)}, L.map Prod.fst = keys →
    (∀ k ∈ keys, dictFn b.lower k ≤ dictFn L k ∧ dictFn L k ≤ dictFn b.upper k) →
    (∀ a ∈ arcs, a ∈ keys ∧ dictFn L a = 0 ∧ dictFn b.upper a = 1) →
    ∃ out, setLoop table 1 b upperF L arcs = .ok out ∧ SetOut keys table b L arcs upperF out := by
  induction arcs with
  | nil =>
    intro L hL hle _
    refine ⟨_, rfl, ⟨[], _, rfl, rfl, rfl, rfl, by simp, by simp⟩, ?_, fun x => ?_⟩
    · intro c hc
      rw [List.mem_singleton] at hc
      subst hc
      exact ⟨hL, hF, fun k hk => by rw [hF' k hk]; exact (hle k hk).2,
        fun k hk => by rw [hF' k hk]; exact hb.bin k hk⟩
    · unfold bhits
      rw [List.countP_singleton]
      simp only [decide_eq_true_eq]
      refine if_congr ?_ rfl rfl
      unfold InBBox
      exact forall₂_congr fun k hk => by rw [hF' k hk]
  | cons a arcs ih =>
    intro L hL hle har
    obtain ⟨hna, hn⟩ := List.nodup_cons.1 hn
    obtain ⟨ha, haL, haU⟩ := har a (by simp)
    have hset : ∀ k ∈ keys, dictFn (setArc a 1 L) k = if k = a then 1 else dictFn L k :=
      fun k hk => dictFn_setArc (by rw [hL]; exact hk)
    have hsetU : ∀ k ∈ keys, dictFn (setArc a 0 b.upper) k = if k = a then 0 else dictFn b.upper k :=
      fun k hk => dictFn_setArc (by rw [hb.upper]; exact hk)
    have hL1 : (setArc a 1 L).map Prod.fst = keys := by rw [setArc_keys, hL]
    have hU0 : (setArc a 0 b.upper).map Prod.fst = keys := by rw [setArc_keys, hb.upper]
    obtain ⟨out, e1, ho⟩ := ih hn hL1
      (fun k hk => by
        rw [hset k hk]
        split
        · rename_i e; subst e; exact ⟨by have := hb.le k hk; omega, by omega⟩
        · exact hle k hk)
      (fun k hk => by
        obtain ⟨h1, h2, h3⟩ := har k (by simp [hk])
        refine ⟨h1, ?_, h3⟩
        rw [hset k h1, if_neg (fun e : k = a => hna (e ▸ hk)), h2])
    have hbox : BBoxOK keys (⟨L, setArc a 0 b.upper, b.fl,
        tableState table (dictFn (setArc a 0 b.upper))⟩ : BBranch K) := by
      refine ⟨hL, hU0, fun k hk => ?_, fun k hk => ?_⟩
      · show dictFn L k ≤ dictFn (setArc a 0 b.upper) k
        rw [hsetU k hk]
        split
        · rename_i e; subst e; omega
        · exact (hle k hk).2
      · show dictFn (setArc a 0 b.upper) k ≤ 1
        rw [hsetU k hk]
        split
        · omega
        · exact hb.bin k hk
    unfold setLoop
    simp only [evalSysState_ok ht hU0, ok_bind, e1]
    refine ⟨_, rfl, ?_, ?_, fun x => ?_⟩
    · obtain ⟨init, last, h1, h2, h3, h4, h5, h6⟩ := ho.shape
      refine ⟨_ :: init, last, by rw [h1]; rfl, h2, h3, h4, fun k hk => ?_, fun c hc => ?_⟩
      · rw [h5 k hk, hset k hk]
        by_cases hka : k = a
        · subst hka; simp
        · simp [hka]
      · rcases List.mem_cons.1 hc with rfl | hc
        · refine ⟨⟨rfl, hl.trans (tableState_mono ht (fun k hk => (hle k hk).1) fun k hk =>
            (hle k hk).2.trans (hb.bin k hk))⟩, freeCount_lt ha ?_ ?_ fun k hk => ?_⟩
          · have := (hle a ha).1; omega
          · show dictFn (setArc a 0 b.upper) a ≤ _
            rw [hsetU a ha]; simp
          · refine ⟨(hle k hk).1, ?_⟩
            show dictFn (setArc a 0 b.upper) k ≤ _
            rw [hsetU k hk]
            split <;> omega
        · exact h6 c hc
    · intro c hc
      rcases List.mem_cons.1 hc with rfl | hc
      · exact hbox
      · exact ho.box c hc
    · have hx := ho.hits x
      unfold bhits at hx ⊢
      rw [List.countP_cons, hx]
      have e1 : InBBox keys (⟨L, setArc a 0 b.upper, b.fl,
          tableState table (dictFn (setArc a 0 b.upper))⟩ : BBranch K) x ↔
          (∀ k ∈ keys, dictFn L k ≤ x k ∧ x k ≤ dictFn b.upper k) ∧ x a = 0 := by
        unfold InBBox
        constructor
        · intro h
          have hxa : x a = 0 := by
            have := (h a ha).2
            have h0 : dictFn (setArc a 0 b.upper) a = 0 := by rw [hsetU a ha]; simp
            rw [h0] at this
            omega
          refine ⟨fun k hk => ⟨(h k hk).1, ?_⟩, hxa⟩
          have := (h k hk).2
          have h0 : dictFn (setArc a 0 b.upper) k ≤ dictFn b.upper k := by
            rw [hsetU k hk]; split <;> omega
          exact le_trans this h0
        · rintro ⟨h, hxa⟩ k hk
          refine ⟨(h k hk).1, ?_⟩
          show x k ≤ dictFn (setArc a 0 b.upper) k
          rw [hsetU k hk]
          split
          · rename_i e; subst e; omega
          · exact (h k hk).2
      have e2 : (∀ k ∈ keys, dictFn (setArc a 1 L) k ≤ x k ∧ x k ≤ dictFn b.upper k) ↔
          (∀ k ∈ keys, dictFn L k ≤ x k ∧ x k ≤ dictFn b.upper k) ∧ x a ≠ 0 := by
        constructor
        · intro h
          have hxa := (h a ha).1
          rw [hset a ha, if_pos rfl] at hxa
          refine ⟨fun k hk => ⟨?_, (h k hk).2⟩, by omega⟩
          have := (h k hk).1
          rw [hset k hk] at this
          split at this
          · rename_i e; subst e; omega
          · exact this
        · rintro ⟨h, hxa⟩ k hk
          refine ⟨?_, (h k hk).2⟩
          rw [hset k hk]
          split
          · rename_i e; subst e; omega
          · exact (h k hk).1
      simp only [e1, e2, decide_eq_true_eq]
      by_cases hh : ∀ k ∈ keys, dictFn L k ≤ x k ∧ x k ≤ dictFn b.upper k
      · by_cases hxa : x a = 0 <;> simp [hxa, hh]
      · simp [hh]

/-- What a child of a branch satisfies. -/
structure ChildOK (keys : List K) (table : List (PathRow K)) (b c : BBranch K) : Prop where
  box : BBoxOK keys c
  labels : BLabelsOK table c
  progress : c.fl = c.fu ∨ freeCount keys c < freeCount keys b

theorem split_ok {keys : List K} (hk : keys.Nodup) {table : List (PathRow K)}
    (ht : TableOK keys table) {b : BBranch K} (hb : BBoxOK keys b) (hl : BLabelsOK table b) :
    ∃ out, (do let arcs ← getArcs b table 1; getSetOfBranches b arcs table 1) = .ok out ∧
      (∀ c ∈ out, ChildOK keys table b c) ∧
      (∃ init last, out = init ++ [last] ∧ last.fl = last.fu) ∧
      ∀ x, bhits keys out x = if InBBox keys b x then 1 else 0 := by
  obtain ⟨arcs, e1, ha⟩ := getArcs_ok hk ht hb
  rw [e1, ok_bind]
  unfold getSetOfBranches
  have hF : (b.upper.map fun kv => (kv.1, if kv.1 ∈ arcs then 1 else kv.2)).map Prod.fst = keys := by
    rw [List.map_map, ← hb.upper]; rfl
  have hF' : ∀ k ∈ keys, dictFn (b.upper.map fun kv => (kv.1, if kv.1 ∈ arcs then 1 else kv.2)) k =
      dictFn b.upper k := by
    intro k hkk
    rw [dictFn_map (fun q n => if q ∈ arcs then 1 else n) (by rw [hb.upper]; exact hkk)]
    split
    · rename_i h; exact (ha.free k h).2.2.symm
    · rfl
  obtain ⟨out, e2, ho⟩ := setLoop_ok ht hb hl.2 hF hF' ha.nodup hb.lower
    (fun k hkk => ⟨le_rfl, hb.le k hkk⟩) ha.free
  obtain ⟨init, last, h1, h2, h3, h4, h5, h6⟩ := ho.shape
  refine ⟨out, e2, fun c hc => ?_, ⟨init, last, h1, h2.trans h3.symm⟩, ho.hits⟩
  refine ⟨ho.box c hc, ?_, ?_⟩
  all_goals rw [h1, List.mem_append, List.mem_singleton] at hc
  all_goals rcases hc with hc | rfl
  · exact (h6 c hc).1
  · have hU : tableState table (dictFn c.upper) = tableState table (dictFn b.upper) :=
      tableState_congr ht fun k hkk => by rw [h4]; exact hF' k hkk
    refine ⟨by rw [h3, hU]; exact hl.1, ?_⟩
    rw [h2, hl.1, ha.decided (dictFn c.lower)]
    · intro k hkk
      have := ho.box c (by rw [h1]; simp)
      have hle := this.le k hkk
      rw [h4, hF' k hkk] at hle
      refine ⟨?_, hle⟩
      rw [h5 k hkk]
      split
      · rename_i hka; have := ha.free k hka; omega
      · exact le_rfl
    · intro a haa
      rw [h5 a (ha.free a haa).1, if_pos haa]
  · exact .inr (h6 c hc).2
  · exact .inl (h2.trans h3.symm)

/-! ## One iteration -/

theorem bhits_append (keys : List K) (a b : List (BBranch K)) (x : K → ℕ) :
    bhits keys (a ++ b) x = bhits keys a x + bhits keys b x := List.countP_append

theorem bhits_cons (keys : List K) (b : BBranch K) (l : List (BBranch K)) (x : K → ℕ) :
    bhits keys (b :: l) x = bhits keys l x + if InBBox keys b x then 1 else 0 := by
  unfold bhits
  rw [List.countP_cons]
  simp only [decide_eq_true_eq]

theorem core_ok {keys : List K} (hk : keys.Nodup) {table : List (PathRow K)}
    (ht : TableOK keys table) {bstars : List (BBranch K)}
    (hb : ∀ b ∈ bstars, BBoxOK keys b ∧ BLabelsOK table b) :
    ∃ out, bnbCore bstars table 1 = .ok out ∧
      (∀ c ∈ out.flatten, ∃ b ∈ bstars, ChildOK keys table b c ∧
        ∀ x, InBBox keys c x → InBBox keys b x) ∧
      ∀ x, bhits keys out.flatten x = bhits keys bstars x := by
  unfold bnbCore
  induction bstars with
  | nil => exact ⟨[], rfl, by simp, fun _ => rfl⟩
  | cons b bstars ih =>
    obtain ⟨out, e1, h1, h2⟩ := ih fun b h => hb b (by simp [h])
    obtain ⟨hb1, hb2⟩ := hb b (by simp)
    obtain ⟨o, e2, h3, -, h4⟩ := split_ok hk ht hb1 hb2
    rw [List.mapM_cons, e2, ok_bind, e1, ok_bind]
    refine ⟨_, rfl, fun c hc => ?_, fun x => ?_⟩
    · rw [List.flatten_cons, List.mem_append] at hc
      rcases hc with hc | hc
      · refine ⟨b, by simp, h3 c hc, fun x hx => ?_⟩
        by_contra hn
        have := h4 x
        rw [if_neg hn] at this
        exact (List.countP_eq_zero.1 this c hc) (by simpa using hx)
      · obtain ⟨b', hb', h⟩ := h1 c hc
        exact ⟨b', by simp [hb'], h⟩
    · rw [List.flatten_cons, bhits_append, bhits_cons, h4, h2, Nat.add_comm]

theorem BBoxOK.nonempty {keys : List K} {b : BBranch K} (h : BBoxOK keys b) :
    InBBox keys b (dictFn b.lower) := fun k hk => ⟨le_rfl, h.le k hk⟩

theorem eq_of_bhits {keys : List K} {l : List (BBranch K)} {x : K → ℕ} (h : bhits keys l x ≤ 1)
    {b c : BBranch K} (hb : b ∈ l) (hc : c ∈ l) (hbx : InBBox keys b x) (hcx : InBBox keys c x) :
    b = c := by
  induction l with
  | nil => cases hb
  | cons a l ih =>
    rw [bhits_cons] at h
    have hpos : ∀ d ∈ l, InBBox keys d x → 1 ≤ bhits keys l x := fun d hd hdx =>
      List.countP_pos_iff.2 ⟨d, hd, by simpa using hdx⟩
    rcases List.mem_cons.1 hb with rfl | hb' <;> rcases List.mem_cons.1 hc with rfl | hc'
    · rfl
    · rw [if_pos hbx] at h
      have := hpos c hc' hcx
      omega
    · rw [if_pos hcx] at h
      have := hpos b hb' hbx
      omega
    · exact ih (by omega) hb' hc'

/-- One iteration: none of the new branches is dropped. -/
theorem step_ok {keys : List K} (hk : keys.Nodup) {table : List (PathRow K)}
    (ht : TableOK keys table) {bstars : List (BBranch K)} (hb : StarsOK keys table bstars) :
    ∃ out, bnbCore bstars table 1 = .ok out ∧
      (out.flatten.filter fun x => x ∉ bstars) = out.flatten ∧
      (∀ c ∈ out.flatten, ∃ b ∈ bstars, ChildOK keys table b c) ∧
      ∀ x, bhits keys out.flatten x = bhits keys bstars x := by
  obtain ⟨out, e1, h1, h2⟩ := core_ok hk ht fun b h => ⟨hb.box b h, hb.labels b h⟩
  refine ⟨out, e1, ?_, fun c hc => ?_, h2⟩
  · rw [List.filter_eq_self]
    intro c hc
    simp only [decide_eq_true_eq]
    intro hcb
    obtain ⟨b, hbm, h3, h4⟩ := h1 c hc
    have hne := h3.box.nonempty
    have := eq_of_bhits (hb.disjoint _) hbm hcb (h4 _ hne) hne
    subst this
    rcases h3.progress with h | h
    · exact hb.undecided b hcb h
    · exact lt_irrefl _ h
  · obtain ⟨b, hbm, h3, _⟩ := h1 c hc
    exact ⟨b, hbm, h3⟩

/-! ## The loop -/

/-- The files written from iteration `i` on. -/
def Dir.writeAll (dir : Dir K) (key : List Char) : ℕ → List (List (BBranch K)) → Dir K
  | _, [] => dir
  | i, d :: ds => Dir.writeAll (Dir.write dir (dumpName key i) d) key (i + 1) ds

theorem bhits_split (keys : List K) (p : BBranch K → Bool) (l : List (BBranch K)) (x : K → ℕ) :
    bhits keys (l.filter p) x + bhits keys (l.filter fun b => !p b) x = bhits keys l x := by
  induction l with
  | nil => rfl
  | cons a l ih =>
    cases h : p a
    · rw [List.filter_cons_of_neg (by simp [h]), List.filter_cons_of_pos (by simp [h]), bhits_cons,
        bhits_cons]
      omega
    · rw [List.filter_cons_of_pos (by simp [h]), List.filter_cons_of_neg (by simp [h]), bhits_cons,
        bhits_cons]
      omega

theorem loop_ok {keys : List K} (hk : keys.Nodup) {table : List (PathRow K)}
    (ht : TableOK keys table) (key : List Char) :
    ∀ (n m i : ℕ) (bstars : List (BBranch K)) (dir : Dir K), m + 2 ≤ n →
    StarsOK keys table bstars → (∀ b ∈ bstars, freeCount keys b ≤ m) →
    ∃ dumps : List (List (BBranch K)),
      bnbLoop table 1 key n i bstars dir = .ok (Dir.writeAll dir key i dumps) ∧
      (∀ c ∈ dumps.flatten, BBoxOK keys c ∧ BLabelsOK table c) ∧
      ∀ x, bhits keys (dumps.flatten.filter fun c => decide (c.fl = c.fu)) x =
        bhits keys bstars x := by
  intro n
  induction n with
  | zero => intro m i bstars dir h; omega
  | succ n ih =>
    intro m i bstars dir hn hb hm
    unfold bnbLoop
    by_cases h0 : bstars = []
    · subst h0
      exact ⟨[], by rw [if_pos rfl]; rfl, by simp, fun _ => rfl⟩
    rw [if_neg h0]
    obtain ⟨out, e1, e2, h1, h2⟩ := step_ok hk ht hb
    simp only [e1, ok_bind, e2]
    set new := out.flatten with hnew
    have hb' : StarsOK keys table (new.filter fun x => x.fl ≠ x.fu) := by
      refine ⟨fun b hbm => ?_, fun b hbm => ?_, fun b hbm => ?_, fun x => ?_⟩
      · obtain ⟨_, _, h⟩ := h1 b (List.mem_filter.1 hbm).1; exact h.box
      · obtain ⟨_, _, h⟩ := h1 b (List.mem_filter.1 hbm).1; exact h.labels
      · simpa using (List.mem_filter.1 hbm).2
      · have := hb.disjoint x
        rw [← h2 x] at this
        refine le_trans ?_ this
        exact List.filter_sublist.countP_le
    have hf : ∀ b ∈ new.filter fun x => x.fl ≠ x.fu, freeCount keys b + 1 ≤ m := by
      intro b hbm
      obtain ⟨hb1, hb2⟩ := List.mem_filter.1 hbm
      obtain ⟨b', hb', h⟩ := h1 b hb1
      have hb2 : b.fl ≠ b.fu := by simpa using hb2
      have := h.progress.resolve_left hb2
      have := hm b' hb'
      omega
    have hrec : ∃ dumps : List (List (BBranch K)),
        bnbLoop table 1 key n (i + 1) (new.filter fun x => x.fl ≠ x.fu)
          (Dir.write dir (dumpName key i) new) =
          .ok (Dir.writeAll (Dir.write dir (dumpName key i) new) key (i + 1) dumps) ∧
        (∀ c ∈ dumps.flatten, BBoxOK keys c ∧ BLabelsOK table c) ∧
        ∀ x, bhits keys (dumps.flatten.filter fun c => decide (c.fl = c.fu)) x =
          bhits keys (new.filter fun x => x.fl ≠ x.fu) x := by
      cases m with
      | zero =>
        have : (new.filter fun x => x.fl ≠ x.fu) = [] := by
          cases hc : (new.filter fun x => x.fl ≠ x.fu) with
          | nil => rfl
          | cons b l => exact absurd (hf b (by rw [hc]; simp)) (by omega)
        rw [this]
        refine ⟨[], ?_, by simp, fun _ => rfl⟩
        obtain ⟨n', rfl⟩ : ∃ n', n = n' + 1 := ⟨n - 1, by omega⟩
        unfold bnbLoop
        rw [if_pos rfl]
        rfl
      | succ m =>
        exact ih m (i + 1) _ _ (by omega) hb' fun b hbm => by
          have := hf b hbm
          omega
    obtain ⟨dumps, e3, h3, h4⟩ := hrec
    refine ⟨new :: dumps, e3, fun c hc => ?_, fun x => ?_⟩
    · rw [List.flatten_cons, List.mem_append] at hc
      rcases hc with hc | hc
      · obtain ⟨_, _, h⟩ := h1 c hc
        exact ⟨h.box, h.labels⟩
      · exact h3 c hc
    · rw [List.flatten_cons, List.filter_append, bhits_append, h4, ← h2 x,
        ← bhits_split keys (fun c => decide (c.fl = c.fu)) new x]
      congr 2
      refine List.filter_congr fun c _ => ?_
      simp

theorem freeCount_le (keys : List K) (b : BBranch K) : freeCount keys b ≤ keys.length :=
  List.countP_le_length

theorem le_foldr_max {l : List ℕ} {a : ℕ} (h : a ∈ l) : a ≤ l.foldr max 0 := by
  induction l with
  | nil => cases h
  | cons b l ih =>
    rw [List.foldr_cons]
    rcases List.mem_cons.1 h with rfl | h
    · exact le_max_left _ _
    · exact (ih h).trans (le_max_right _ _)

/-- The whole run: what is written. -/
theorem branchAndBound_ok {keys : List K} (hk : keys.Nodup) {table : List (PathRow K)}
    (ht : TableOK keys table) (key : List Char) {bstars : List (BBranch K)}
    (hb : StarsOK keys table bstars) (dir : Dir K) :
    ∃ dumps : List (List (BBranch K)),
      branchAndBound bstars table 1 key dir = .ok (Dir.writeAll dir key 0 dumps) ∧
      (∀ c ∈ dumps.flatten, BBoxOK keys c ∧ BLabelsOK table c) ∧
      ∀ x, bhits keys (dumps.flatten.filter fun c => decide (c.fl = c.fu)) x =
        bhits keys bstars x := by
  unfold branchAndBound
  refine loop_ok hk ht key _ ((bstars.map fun b => b.upper.length).foldr max 0) 0 bstars dir le_rfl hb
    fun b hbm => (freeCount_le keys b).trans ?_
  have : keys.length = b.upper.length := by rw [← (hb.box b hbm).upper, List.length_map]
  rw [this]
  exact le_foldr_max (List.mem_map.2 ⟨b, hbm, rfl⟩)

/-- A decided branch is right on its whole box. -/
theorem decided_sound {keys : List K} {table : List (PathRow K)} (ht : TableOK keys table)
    {b : BBranch K} (hb : BBoxOK keys b) (hl : BLabelsOK table b) (hd : b.fl = b.fu) {x : K → ℕ}
    (hx : InBBox keys b x) : tableState table x = b.fl := by
  have h1 := tableState_mono ht (fun k hk => (hx k hk).1)
    fun k hk => (hx k hk).2.trans (hb.bin k hk)
  have h2 := tableState_mono ht (fun k hk => (hx k hk).2) hb.bin
  have h3 := hl.1
  have h4 := hl.2
  omega

end BNS
