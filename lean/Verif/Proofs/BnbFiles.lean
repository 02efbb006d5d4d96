import Verif.Proofs.BnbDir

/-! Lemmas: files of other keys, and the contents of the single files of a run. -/

namespace BNS

set_option linter.unusedSectionVars false

variable {K : Type} [DecidableEq K]

theorem toDigits_no_underscore (i : ℕ) : '_' ∉ Nat.toDigits 10 i ++ ".json".toList := by
  rw [List.mem_append, not_or]
  refine ⟨fun h => ?_, by decide⟩
  have := Nat.isDigit_of_mem_toDigits (by omega) (by omega) h
  exact absurd this (by decide)

/-- A word that ends in `_` starts `b ++ t`, `t` without `_`, only if it starts `b`. -/
theorem prefix_underscore {a b t : List Char} (ht : '_' ∉ t) :
    a ++ ['_'] <+: b ++ t ↔ a ++ ['_'] <+: b := by
  constructor
  · intro h
    rcases List.prefix_or_prefix_of_prefix h (List.prefix_append b t) with h' | h'
    · exact h'
    · obtain ⟨s, hs⟩ := h'
      obtain ⟨u, hu⟩ := h
      rw [← hs, List.append_assoc] at hu
      have hst : s ++ u = t := List.append_cancel_left hu
      rcases List.eq_nil_or_concat s with rfl | ⟨s', c, rfl⟩
      · rw [List.append_nil] at hs; exact hs ▸ List.prefix_refl _
      · exfalso
        rw [List.concat_eq_append, ← List.append_assoc] at hs
        have := (List.append_inj' hs rfl).2
        apply ht
        rw [← hst, List.concat_eq_append, this]
        simp
  · intro h; exact h.trans (List.prefix_append _ _)

theorem globMatch_other (key key' : List Char) (i : ℕ) :
    globMatch key (dumpName key' i) = true ↔ key ++ ['_'] <+: key' ++ ['_'] := by
  unfold globMatch dumpName dumpPrefix
  rw [Bool.and_eq_true, decide_eq_true_eq, decide_eq_true_eq]
  have h1 : "sb_dump_".toList ++ key ++ ['_'] <+:
      "sb_dump_".toList ++ key' ++ ['_'] ++ (Nat.toDigits 10 i ++ ".json".toList) ↔
      key ++ ['_'] <+: key' ++ ['_'] := by
    rw [List.append_assoc, List.append_assoc, List.append_assoc, List.prefix_append_right_inj,
      ← prefix_underscore (b := key' ++ ['_']) (toDigits_no_underscore i), List.append_assoc]
  rw [h1]
  constructor
  · exact fun h => h.1
  · intro h
    refine ⟨h, ?_⟩
    have hlen : ("sb_dump_".toList ++ key ++ ['_']).length ≤
        ("sb_dump_".toList ++ key' ++ ['_']).length := by
      have := h.length_le
      simp only [List.length_append] at this ⊢
      omega
    rw [List.drop_append_of_le_length hlen, ← List.append_assoc]
    exact List.suffix_append _ _

theorem sbSaved_write_other {dir : Dir K} {key key' : List Char} (i : ℕ) (c : List (BBranch K))
    (h : globMatch key (dumpName key' i) = false) :
    sbSaved (Dir.write dir (dumpName key' i) c) key = sbSaved dir key := by
  unfold Dir.write
  rw [sbSaved_append]
  have h1 : sbSaved [(dumpName key' i, c)] key = [] := by
    refine sbSaved_nil_of_noMatch fun f hf => ?_
    rw [List.mem_singleton] at hf
    subst hf
    exact h
  rw [h1, List.append_nil]
  unfold sbSaved
  rw [List.filter_filter]
  congr 1
  refine List.filter_congr fun f _ => ?_
  by_cases hf : f.1 = dumpName key' i
  · rw [hf, h]; rfl
  · simp [hf]

theorem bnbLoop_other (table : List (PathRow K)) (cond : ℕ) (key key' : List Char)
    (h : ∀ i, globMatch key (dumpName key' i) = false) : ∀ (n i : ℕ) (bs : List (BBranch K))
    (dir dir' : Dir K), bnbLoop table cond key' n i bs dir = .ok dir' →
    sbSaved dir' key = sbSaved dir key := by
  intro n
  induction n with
  | zero => intro i bs dir dir' h; cases h
  | succ n ih =>
    intro i bs dir dir' hl
    unfold bnbLoop at hl
    split at hl
    · cases hl; rfl
    · rw [bind_ok] at hl
      obtain ⟨res, -, hl⟩ := hl
      rw [ih _ _ _ _ hl, sbSaved_write_other _ _ (h i)]

theorem loop_files {keys : List K} (hk : keys.Nodup) {table : List (PathRow K)}
    (ht : TableOK keys table) (key : List Char) :
    ∀ (n m i : ℕ) (bstars : List (BBranch K)) (dir : Dir K), m + 2 ≤ n →
    StarsOK keys table bstars → (∀ b ∈ bstars, freeCount keys b ≤ m) →
    ∃ dumps : List (List (BBranch K)),
      bnbLoop table 1 key n i bstars dir = .ok (Dir.writeAll dir key i dumps) ∧
      (∀ pre c post, dumps = pre ++ c :: post →
        StarsOK keys table (c.filter fun b => decide (b.fl ≠ b.fu)) ∧
        (∀ b ∈ c, BBoxOK keys b ∧ BLabelsOK table b) ∧
        ∀ x, bhits keys ((pre.flatMap fun c => c.filter fun b => decide (b.fl = b.fu)) ++ c) x =
          bhits keys bstars x) ∧
      (∀ c ∈ dumps.getLast?, (c.filter fun b => decide (b.fl ≠ b.fu)) = []) ∧
      (bstars ≠ [] → dumps ≠ []) := by
  intro n
  induction n with
  | zero => intro m i bstars dir h; omega
  | succ n ih =>
    intro m i bstars dir hn hb hm
    unfold bnbLoop
    by_cases h0 : bstars = []
    · subst h0
      exact ⟨[], by rw [if_pos rfl]; rfl, fun pre c post e => by simp at e, by simp,
        fun h => absurd rfl h⟩
    rw [if_neg h0]
    obtain ⟨out, e1, e2, h1, h2⟩ := step_ok hk ht hb
    simp only [e1, ok_bind, e2]
    set new := out.flatten with hnew
    have hb' : StarsOK keys table (new.filter fun x => x.fl ≠ x.fu) := by
      refine ⟨fun b hbm => ?_, fun b hbm => ?_, fun b hbm => ?_, fun x => ?_⟩
      · obtain ⟨_, _, h⟩ := h1 b (List.mem_filter.1 hbm).1; exact h.box
      · obtain ⟨_, _, h⟩ := h1 b (List.mem_filter.1 hbm).1; exact h.labels
      · simpa using (List.mem_filter.1 hbm).2
      · have := hb.disjoint x
        rw [← h2 x] at this
        refine le_trans ?_ this
        exact List.filter_sublist.countP_le
    have hf : ∀ b ∈ new.filter fun x => x.fl ≠ x.fu, freeCount keys b + 1 ≤ m := by
      intro b hbm
      obtain ⟨hb1, hb2⟩ := List.mem_filter.1 hbm
      obtain ⟨b', hb', h⟩ := h1 b hb1
      have hb2 : b.fl ≠ b.fu := by simpa using hb2
      have := h.progress.resolve_left hb2
      have := hm b' hb'
      omega
    have hrec : ∃ dumps : List (List (BBranch K)),
        bnbLoop table 1 key n (i + 1) (new.filter fun x => x.fl ≠ x.fu)
          (Dir.write dir (dumpName key i) new) =
          .ok (Dir.writeAll (Dir.write dir (dumpName key i) new) key (i + 1) dumps) ∧
        (∀ pre c post, dumps = pre ++ c :: post →
          StarsOK keys table (c.filter fun b => decide (b.fl ≠ b.fu)) ∧
          (∀ b ∈ c, BBoxOK keys b ∧ BLabelsOK table b) ∧
          ∀ x, bhits keys ((pre.flatMap fun c => c.filter fun b => decide (b.fl = b.fu)) ++ c) x =
            bhits keys (new.filter fun x => x.fl ≠ x.fu) x) ∧
        (∀ c ∈ dumps.getLast?, (c.filter fun b => decide (b.fl ≠ b.fu)) = []) ∧
        (dumps = [] → (new.filter fun x => x.fl ≠ x.fu) = []) := by
      by_cases hnil : (new.filter fun x => x.fl ≠ x.fu) = []
      · rw [hnil]
        refine ⟨[], ?_, fun pre c post e => by simp at e, by simp, fun _ => rfl⟩
        obtain ⟨n', rfl⟩ : ∃ n', n = n' + 1 := ⟨n - 1, by omega⟩
        unfold bnbLoop
        rw [if_pos rfl]
        rfl
      · cases m with
        | zero =>
          obtain ⟨b, hbm⟩ := List.exists_mem_of_ne_nil _ hnil
          exact absurd (hf b hbm) (by omega)
        | succ m =>
          obtain ⟨dumps, d1, d2, d3⟩ := ih m (i + 1) _ (Dir.write dir (dumpName key i) new) (by omega)
            hb' fun b hbm => by
              have := hf b hbm
              omega
          exact ⟨dumps, d1, d2, d3.1, fun e => absurd e (d3.2 hnil)⟩
    obtain ⟨dumps, e3, h3, h4, h5⟩ := hrec
    refine ⟨new :: dumps, e3, fun pre c post e => ?_, fun c hc => ?_, fun _ => by simp⟩
    · cases pre with
      | nil =>
        rw [List.nil_append, List.cons.injEq] at e
        obtain ⟨rfl, -⟩ := e
        refine ⟨hb', fun b hbm => ?_, fun x => ?_⟩
        · obtain ⟨_, _, h⟩ := h1 b hbm
          exact ⟨h.box, h.labels⟩
        · rw [List.flatMap_nil, List.nil_append, h2]
      | cons d pre =>
        rw [List.cons_append, List.cons.injEq] at e
        obtain ⟨rfl, e⟩ := e
        obtain ⟨g1, g2, g3⟩ := h3 pre c post e
        refine ⟨g1, g2, fun x => ?_⟩
        rw [List.flatMap_cons, List.append_assoc, bhits_append, g3, ← h2 x,
          ← bhits_split keys (fun c => decide (c.fl = c.fu)) new x]
        congr 2
        refine List.filter_congr fun c _ => ?_
        simp
    · cases hd : dumps with
      | nil =>
        rw [hd, List.getLast?_singleton, Option.mem_some_iff] at hc
        subst hc
        exact h5 hd
      | cons d ds =>
        rw [hd, List.getLast?_cons_cons, ← hd] at hc
        exact h4 c hc

theorem branchAndBound_files {keys : List K} (hk : keys.Nodup) {table : List (PathRow K)}
    (ht : TableOK keys table) (key : List Char) {bstars : List (BBranch K)}
    (hb : StarsOK keys table bstars) (dir : Dir K) :
    ∃ dumps : List (List (BBranch K)),
      branchAndBound bstars table 1 key dir = .ok (Dir.writeAll dir key 0 dumps) ∧
      (∀ pre c post, dumps = pre ++ c :: post →
        StarsOK keys table (c.filter fun b => decide (b.fl ≠ b.fu)) ∧
        (∀ b ∈ c, BBoxOK keys b ∧ BLabelsOK table b) ∧
        ∀ x, bhits keys ((pre.flatMap fun c => c.filter fun b => decide (b.fl = b.fu)) ++ c) x =
          bhits keys bstars x) ∧
      (∀ c ∈ dumps.getLast?, (c.filter fun b => decide (b.fl ≠ b.fu)) = []) ∧
      (bstars ≠ [] → dumps ≠ []) := by
  unfold branchAndBound
  refine loop_files hk ht key _ ((bstars.map fun b => b.upper.length).foldr max 0) 0 bstars dir le_rfl
    hb fun b hbm => (freeCount_le keys b).trans ?_
  have : keys.length = b.upper.length := by rw [← (hb.box b hbm).upper, List.length_map]
  rw [this]
  exact le_foldr_max (List.mem_map.2 ⟨b, hbm, rfl⟩)

theorem runFiles_eq (key : List Char) (dumps : List (List (BBranch K))) : ∀ i,
    runFiles key i dumps = (dumps.zipIdx i).map fun ci => (dumpName key ci.2, ci.1) := by
  induction dumps with
  | nil => intro i; rfl
  | cons c ds ih => intro i; unfold runFiles; rw [ih, List.zipIdx_cons, List.map_cons]

end BNS
