import Verif.Proofs.BnbOrg
import Verif.Props.Bnb

/-!
# Property C73: the branch and bound that returns its branches
-/

namespace BNS

set_option linter.unusedSectionVars false

section
variable {K : Type} [DecidableEq K]

/-- `branch_and_bound_org` from disjoint undecided branches with right labels, none below the state of
"no path": it terminates without an error, and returns decided branches that contain every arc vector
exactly as often as the initial branches do and are right: the system state of every vector in the box
of a branch is its label.  Missing for the full claim: initial branches that are already decided (see
`C73_not_decided_start` and `C73_no_path_raises`). -/
theorem C73_partition_partial {keys : List K} (hk : keys.Nodup) {table : List (PathRow K)}
    (ht : TableOK keys table) {bstars : List (BBranch K)} (hb : StarsOK keys table bstars)
    (hfl : ∀ b ∈ bstars, ∀ r, table.head? = some r → r.state ≤ b.fl) :
    ∃ out, branchAndBoundOrg bstars table 1 = .ok out ∧
      (∀ b ∈ out, BBoxOK keys b ∧ b.fl = b.fu ∧ ∀ x, InBBox keys b x → tableState table x = b.fl) ∧
      ∀ x, bhits keys out x = bhits keys bstars x := by
  obtain ⟨s0, t0, hh, -⟩ := ht.head
  have hfuel : bvol keys bstars < 2 ^ (bstars.map fun b => b.upper.length).foldr max 0 + 1 := by
    rcases List.eq_nil_or_concat' bstars with rfl | ⟨l, b, rfl⟩
    · have : bvol keys ([] : List (BBranch K)) = 0 := Finset.sum_eq_zero fun s _ => rfl
      rw [this]
      exact Nat.succ_pos _
    · have hlen : keys.length = b.upper.length := by
        rw [← (hb.box b (by simp)).upper, List.length_map]
      have h1 := bvol_le hb.disjoint
      have h2 : keys.length ≤ ((l ++ [b]).map fun b => b.upper.length).foldr max 0 := by
        rw [hlen]
        exact le_foldr_max (List.mem_map.2 ⟨b, by simp, rfl⟩)
      have h3 := Nat.pow_le_pow_right (show 0 < 2 by omega) h2
      omega
  obtain ⟨out, e, h1, h2⟩ := orgLoop_ok hk ht _ bstars none [] hfuel hb fun b h => by
    rw [hh]; exact hfl b h _ hh
  exact ⟨out, e, fun b h => ⟨(h1 b h).1, (h1 b h).2.2, fun x hx =>
    decided_sound ht (h1 b h).1 (h1 b h).2.1 (h1 b h).2.2 hx⟩, h2⟩

/-- The two versions of the algorithm agree: a vector is in as many branches of the one as of the
other, with the same label. -/
theorem C73_agrees {keys : List K} (hk : keys.Nodup) {table : List (PathRow K)}
    (ht : TableOK keys table) (key : List Char) {bstars : List (BBranch K)}
    (hb : StarsOK keys table bstars)
    (hfl : ∀ b ∈ bstars, ∀ r, table.head? = some r → r.state ≤ b.fl) {dir : Dir K}
    (hdir : ∀ f ∈ dir, globMatch key f.1 = false) :
    ∃ out dir', branchAndBoundOrg bstars table 1 = .ok out ∧
      branchAndBound bstars table 1 key dir = .ok dir' ∧
      ∀ x, bhits keys out x = bhits keys (sbSaved dir' key) x ∧
        ∀ b ∈ out, InBBox keys b x → ∀ c ∈ sbSaved dir' key, InBBox keys c x → b.fl = c.fl := by
  obtain ⟨out, e1, h1, h2⟩ := C73_partition_partial hk ht hb hfl
  obtain ⟨dir', e2, -, h3, h4⟩ := C37_partition_partial hk ht key hb hdir
  exact ⟨out, dir', e1, e2, fun x => ⟨(h2 x).trans (h4 x).symm, fun b hbm hbx c hc hcx =>
    ((h1 b hbm).2.2 x hbx).symm.trans ((h3 c hc).2.2 x hcx)⟩⟩

/-- If no path is open at the upper end of the first branch, which is then decided, the call raises
`UnboundLocalError`: in particular for a network without paths. -/
theorem C73_no_path_raises {keys : List K} (hk : keys.Nodup) {table : List (PathRow K)}
    (ht : TableOK keys table) {b : BBranch K} (hb : BBoxOK keys b)
    (hno : ∀ r ∈ table.tail, ¬ Surv (dictFn b.upper) 1 r.path) (rest : List (BBranch K)) :
    branchAndBoundOrg (b :: rest) table 1 = .error .unbound := by
  have hfp : firstPath ((b.upper.filter fun kv => kv.2 = 1).map Prod.fst) table.tail = none := by
    cases hc : firstPath ((b.upper.filter fun kv => kv.2 = 1).map Prod.fst) table.tail with
    | none => rfl
    | some p =>
      obtain ⟨r, hr, rfl, hm⟩ := firstPath_some hc
      refine absurd ⟨(ht.path r hr).1, fun e he => ?_⟩ (hno r hr)
      exact (mem_matched (by rw [hb.upper]; exact hk)
        (by rw [hb.upper]; exact (ht.path r hr).2.2 e he)).1 (hm e he)
  have hbr : orgBranch (b :: rest) table 1 none b = .error .unbound := by
    unfold orgBranch
    rw [hfp]
    simp only
    cases hc : table.tail.getLast? with
    | none => rfl
    | some r =>
      simp only
      have hp := (ht.path r (List.mem_of_getLast? hc)).2.2
      have : ∀ p : List K, (∀ e ∈ p, e ∈ keys) → orgArcs table 1 b p none = .error .unbound ∨
          orgArcs table 1 b p none = .ok none := by
        intro p
        induction p with
        | nil => intro _; exact .inr rfl
        | cons a p ih =>
          intro h
          unfold orgArcs
          rw [arcGet_ok (by rw [hb.upper]; exact h a (by simp)),
            arcGet_ok (by rw [hb.lower]; exact h a (by simp)), ok_bind, ok_bind]
          split
          · exact .inl rfl
          · exact ih fun e he => h e (by simp [he])
      rcases this r.path hp with h | h <;> rw [h] <;> rfl
  unfold branchAndBoundOrg orgLoop
  rw [if_neg (by simp), List.foldlM_cons, hbr]
  rfl

/-- `get_arcs_given_bstar_nobreak` returns what `get_arcs_given_bstar` returns when a path is open at
the upper end of the branch, and raises `TypeError` (where the other one returns the empty list) when
none is. -/
theorem C73_nobreak {keys : List K} (hk : keys.Nodup) {table : List (PathRow K)}
    (ht : TableOK keys table) {b : BBranch K} (hb : BBoxOK keys b) :
    ((∃ r ∈ table.tail, Surv (dictFn b.upper) 1 r.path) →
      getArcsNobreak b table 1 = getArcs b table 1) ∧
    ((∀ r ∈ table.tail, ¬ Surv (dictFn b.upper) 1 r.path) →
      getArcsNobreak b table 1 = .error .type ∧ getArcs b table 1 = .ok []) := by
  have hmem : ∀ r ∈ table.tail, ∀ e ∈ r.path,
      (e ∈ (b.upper.filter fun kv => kv.2 = 1).map Prod.fst ↔ dictFn b.upper e = 1) := fun r hr e he =>
    mem_matched (by rw [hb.upper]; exact hk) (by rw [hb.upper]; exact (ht.path r hr).2.2 e he)
  unfold getArcsNobreak getArcs
  rw [arcsLoop_eq]
  constructor
  · rintro ⟨r, hr, hs⟩
    cases hc : firstPath ((b.upper.filter fun kv => kv.2 = 1).map Prod.fst) table.tail with
    | none => exact absurd (fun e he => (hmem r hr e he).2 (hs.2 e he)) (firstPath_none hc hr)
    | some p => rfl
  · intro hno
    cases hc : firstPath ((b.upper.filter fun kv => kv.2 = 1).map Prod.fst) table.tail with
    | none => exact ⟨rfl, rfl⟩
    | some p =>
      obtain ⟨r, hr, rfl, hm⟩ := firstPath_some hc
      exact absurd ⟨(ht.path r hr).1, fun e he => (hmem r hr e he).1 (hm e he)⟩ (hno r hr)

end

namespace Ex

theorem bTableOK : TableOK [1, 2, 3] bTable := by
  have e : bTable = [⟨[], none, 0⟩, ⟨[1], some 2, 2⟩, ⟨[2, 3], some 5, 1⟩] := by decide +kernel
  rw [e]
  exact ⟨⟨0, none, rfl, by simp⟩, by simp, by simp⟩

theorem bStars : StarsOK [1, 2, 3] bTable [bRoot] := by
  refine ⟨?_, ?_, ?_, fun x => List.countP_le_length⟩
  · intro b hb
    rw [List.mem_singleton] at hb
    subst hb
    exact ⟨rfl, rfl, by decide, by decide⟩
  · intro b hb
    rw [List.mem_singleton] at hb
    subst hb
    exact ⟨by decide +kernel, by decide +kernel⟩
  · intro b hb
    rw [List.mem_singleton] at hb
    subst hb
    decide

example := C73_partition_partial (by decide) bTableOK bStars (by decide +kernel)

example : (branchAndBoundOrg [bRoot] bTable 1).toOption.map
    (fun l => l.map fun b => (b.lower.map Prod.snd, b.upper.map Prod.snd, b.fl)) =
    some [([1, 0, 0], [1, 1, 1], 2), ([0, 0, 0], [0, 0, 1], 0), ([0, 1, 0], [0, 1, 0], 0),
      ([0, 1, 1], [0, 1, 1], 1)] := by decide +kernel

/-- Arc 2 works: undecided. -/
def oOne : BBranch ℕ := ⟨[(1, 0), (2, 1), (3, 0)], [(1, 1), (2, 1), (3, 1)], 0, 2⟩

/-- Arcs 1 and 2 fail: decided, no path is left. -/
def oTwo : BBranch ℕ := ⟨[(1, 0), (2, 0), (3, 0)], [(1, 0), (2, 0), (3, 1)], 0, 0⟩

end Ex

/-- With a decided branch behind an undecided one, both with right labels and disjoint, the result is
wrong without an exception: when all arcs work the best path, state 2, survives, but the result has a
branch labelled 0 that contains this vector, which is in two branches. -/
theorem C73_not_decided_start :
    (∀ b ∈ [Ex.oOne, Ex.oTwo], BBoxOK [1, 2, 3] b ∧ BLabelsOK Ex.bTable b) ∧
      (∀ x, bhits [1, 2, 3] [Ex.oOne, Ex.oTwo] x ≤ 1) ∧
      ∃ out b, branchAndBoundOrg [Ex.oOne, Ex.oTwo] Ex.bTable 1 = .ok out ∧ b ∈ out ∧
        InBBox [1, 2, 3] b (fun _ => 1) ∧ b.fl = 0 ∧ b.fu = 0 ∧
        tableState Ex.bTable (fun _ => 1) = 2 ∧ bhits [1, 2, 3] out (fun _ => 1) = 2 := by
  refine ⟨?_, fun x => ?_, ?_⟩
  · have : ∀ b ∈ [Ex.oOne, Ex.oTwo], b.lower.map Prod.fst = [1, 2, 3] ∧
        b.upper.map Prod.fst = [1, 2, 3] ∧ (∀ k ∈ [1, 2, 3], dictFn b.lower k ≤ dictFn b.upper k) ∧
        (∀ k ∈ [1, 2, 3], dictFn b.upper k ≤ 1) ∧ b.fu = tableState Ex.bTable (dictFn b.upper) ∧
        b.fl ≤ tableState Ex.bTable (dictFn b.lower) := by decide +kernel
    intro b hb
    obtain ⟨h1, h2, h3, h4, h5, h6⟩ := this b hb
    exact ⟨⟨h1, h2, h3, h4⟩, h5, h6⟩
  · rw [bhits_cons, bhits_cons]
    have : ¬ (InBBox [1, 2, 3] Ex.oOne x ∧ InBBox [1, 2, 3] Ex.oTwo x) := by
      rintro ⟨h1, h2⟩
      have a := (h1 2 (by simp)).1
      have b := (h2 2 (by simp)).2
      have a' : dictFn Ex.oOne.lower 2 = 1 := by decide
      have b' : dictFn Ex.oTwo.upper 2 = 0 := by decide
      omega
    show 0 + _ + _ ≤ 1
    by_cases h1 : InBBox [1, 2, 3] Ex.oOne x
    · rw [if_neg fun h2 => this ⟨h1, h2⟩, if_pos h1]
    · rw [if_neg h1]
      split <;> omega
  · cases hc : branchAndBoundOrg [Ex.oOne, Ex.oTwo] Ex.bTable 1 with
    | error e =>
      have : (branchAndBoundOrg [Ex.oOne, Ex.oTwo] Ex.bTable 1).toOption.isSome = true := by
        decide +kernel
      rw [hc] at this
      cases this
    | ok out =>
      have key : (branchAndBoundOrg [Ex.oOne, Ex.oTwo] Ex.bTable 1).toOption.any (fun out =>
          decide ((⟨[(1, 1), (2, 1), (3, 1)], [(1, 1), (2, 1), (3, 1)], 0, 0⟩ : BBranch ℕ) ∈ out ∧
            bhits [1, 2, 3] out (fun _ => 1) = 2)) = true := by decide +kernel
      rw [hc] at key
      simp only [Except.toOption, Option.any_some, decide_eq_true_eq] at key
      exact ⟨out, _, rfl, key.1, by decide, rfl, rfl, by decide +kernel, key.2⟩

end BNS
