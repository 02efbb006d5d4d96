import Verif.Proofs.BnbFiles
import Verif.Props.BnbOrg

/-!
# Property C38: files of other keys, and going on from one file
-/

namespace BNS

set_option linter.unusedSectionVars false

variable {K : Type} [DecidableEq K]

/-- Which files of another key are read: all of them when `key_` starts `key'_`, none of them
otherwise. -/
theorem C38_reads_other_key_iff (key key' : List Char) (i : ℕ) (b : BBranch K) (hb : b.fl = b.fu) :
    sbSaved [(dumpName key' i, [b])] key =
      if key ++ ['_'] <+: key' ++ ['_'] then [b] else [] := by
  have h := globMatch_other key key' i
  unfold sbSaved
  by_cases hp : key ++ ['_'] <+: key' ++ ['_']
  · simp [h.2 hp, hp, hb]
  · have : globMatch key (dumpName key' i) = false := by
      rw [Bool.eq_false_iff]
      exact fun e => hp (h.1 e)
    simp [this, hp]

/-- A run with another key in the same directory does not change what is read back, unless `key_`
starts `key'_`.  In particular for two different keys without underscore. -/
theorem C38_other_key (bstars : List (BBranch K)) (table : List (PathRow K)) (cond : ℕ)
    (key key' : List Char) (hkey : ¬ key ++ ['_'] <+: key' ++ ['_']) (dir dir' : Dir K)
    (h : branchAndBound bstars table cond key' dir = .ok dir') :
    sbSaved dir' key = sbSaved dir key := by
  refine bnbLoop_other table cond key key' (fun i => ?_) _ _ _ _ _ h
  rw [Bool.eq_false_iff]
  exact fun e => hkey ((globMatch_other key key' i).1 e)

theorem C38_keys_without_underscore {key key' : List Char} (hne : key ≠ key') (h : '_' ∉ key') :
    ¬ key ++ ['_'] <+: key' ++ ['_'] := by
  rintro ⟨s, hs⟩
  rcases List.eq_nil_or_concat s with rfl | ⟨s', c, rfl⟩
  · rw [List.append_nil] at hs
    exact hne (List.append_inj' hs rfl).1
  · rw [List.concat_eq_append, ← List.append_assoc] at hs
    have := (List.append_inj' hs rfl).1
    exact h (by rw [← this]; simp)

/-- The files of a run in an empty directory, one by one.  The undecided branches read from any one
file are a proper start for another run, and together with the decided branches of the files up to that
one they partition the branches the run started with: a run can be taken up again after any of its
files.  The last file has no undecided branch. -/
theorem C38_resume {keys : List K} (hk : keys.Nodup) {table : List (PathRow K)}
    (ht : TableOK keys table) (key : List Char) {bstars : List (BBranch K)}
    (hb : StarsOK keys table bstars) :
    ∃ dumps : List (List (BBranch K)),
      branchAndBound bstars table 1 key [] =
        .ok (dumps.zipIdx.map fun ci => (dumpName key ci.2, ci.1)) ∧
      (∀ pre c post, dumps = pre ++ c :: post →
        StarsOK keys table (bstarsDump c) ∧
        (∀ b ∈ sbSavedDump c, b.fl = b.fu ∧ ∀ x, InBBox keys b x → tableState table x = b.fl) ∧
        ∀ x, bhits keys (pre.flatMap sbSavedDump) x + bhits keys (sbSavedDump c) x +
          bhits keys (bstarsDump c) x = bhits keys bstars x) ∧
      (∀ c ∈ dumps.getLast?, bstarsDump c = []) ∧
      (bstars ≠ [] → dumps ≠ []) := by
  obtain ⟨dumps, e1, h1, h2, h3⟩ := branchAndBound_files hk ht key hb []
  refine ⟨dumps, ?_, fun pre c post e => ?_, h2, h3⟩
  · rw [e1, writeAll_eq, List.filter_nil, List.nil_append, runFiles_eq]
  · obtain ⟨g1, g2, g3⟩ := h1 pre c post e
    refine ⟨g1, fun b hbm => ?_, fun x => ?_⟩
    · obtain ⟨b1, b2⟩ := List.mem_filter.1 hbm
      have b2 : b.fl = b.fu := by simpa using b2
      obtain ⟨b3, b4⟩ := g2 b b1
      exact ⟨b2, fun x hx => decided_sound ht b3 b4 b2 hx⟩
    · have := g3 x
      rw [bhits_append, ← bhits_split keys (fun c => decide (c.fl = c.fu)) c x] at this
      rw [← this, ← Nat.add_assoc]
      unfold sbSavedDump bstarsDump
      congr 2
      refine List.filter_congr fun c _ => ?_
      simp

/-- Two files: one with an undecided branch, and one with none. -/
example : Ex.bDir1.map (fun f => ((sbSavedDump f.2).length, (bstarsDump f.2).length)) =
    [(1, 1), (3, 0)] := by decide +kernel

example : ∃ dumps : List (List (BBranch ℕ)),
    branchAndBound [Ex.bRoot] Ex.bTable 1 Ex.bKey [] =
      .ok (dumps.zipIdx.map fun ci => (dumpName Ex.bKey ci.2, ci.1)) ∧ dumps ≠ [] :=
  let ⟨d, h, _, _, h'⟩ := C38_resume (by decide) Ex.bTableOK Ex.bKey Ex.bStars
  ⟨d, h, h' (by simp)⟩

example : ¬ "a".toList ++ ['_'] <+: "ab".toList ++ ['_'] :=
  C38_keys_without_underscore (by decide) (by decide)

end BNS
