import Verif.Proofs.BnbLoop
import Verif.Model.BnbOrg
import Mathlib.Algebra.Order.BigOperators.Group.Finset
import Mathlib.Algebra.BigOperators.Group.Finset.Basic
import Mathlib.Data.Finset.Powerset
import Mathlib.Algebra.Group.Action.Defs

/-!
# Lemmas on `branch_and_bound_org`
-/

namespace BNS

set_option linter.unusedSectionVars false

variable {K : Type} [DecidableEq K]

theorem dictFn_of_mem {d : List (K × ℕ)} (hn : (d.map Prod.fst).Nodup) {kv : K × ℕ} (h : kv ∈ d) :
    dictFn d kv.1 = kv.2 := by
  induction d with
  | nil => cases h
  | cons a d ih =>
    rw [List.map_cons, List.nodup_cons] at hn
    unfold dictFn at ih ⊢
    rw [List.find?_cons]
    rcases List.mem_cons.1 h with rfl | h
    · simp
    · have : ¬ a.1 = kv.1 := fun e => hn.1 (e ▸ List.mem_map_of_mem h)
      simp only [this, decide_false]
      exact ih hn.2 h

theorem firstPath_some {matched : List K} {rows : List (PathRow K)} {p : List K}
    (h : firstPath matched rows = some p) : ∃ r ∈ rows, r.path = p ∧ ∀ e ∈ p, e ∈ matched := by
  unfold firstPath at h
  obtain ⟨r, hr, rfl⟩ := Option.map_eq_some_iff.1 h
  refine ⟨r, List.mem_of_find?_eq_some hr, rfl, fun e he => ?_⟩
  have := List.find?_some hr
  simp only [List.all_eq_true, decide_eq_true_eq] at this
  exact this e he

theorem firstPath_none {matched : List K} {rows : List (PathRow K)}
    (h : firstPath matched rows = none) {r : PathRow K} (hr : r ∈ rows) :
    ¬ ∀ e ∈ r.path, e ∈ matched := by
  unfold firstPath at h
  rw [Option.map_eq_none_iff, List.find?_eq_none] at h
  have := h r hr
  simpa using this

theorem arcsLoop_eq (lower upper : List (K × ℕ)) (matched : List K) (rows : List (PathRow K)) :
    arcsLoop lower upper matched rows = match firstPath matched rows with
      | some p => freeArcs lower upper p
      | none => .ok [] := by
  induction rows with
  | nil => rfl
  | cons r rows ih =>
    unfold arcsLoop
    rw [ih]
    unfold firstPath
    rw [List.find?_cons]
    cases r.path.all fun e => decide (e ∈ matched) <;> rfl

/-- A branch with right labels that is not decided has a path that is open at the upper end. -/
theorem firstPath_open {keys : List K} (hk : keys.Nodup) {table : List (PathRow K)}
    (ht : TableOK keys table) {b : BBranch K} (hb : BBoxOK keys b) (hl : BLabelsOK table b)
    (hu : b.fl ≠ b.fu) (hfl : (table.head?.map PathRow.state).getD 0 ≤ b.fl) :
    ∃ p, firstPath ((b.upper.filter fun kv => kv.2 = 1).map Prod.fst) table.tail = some p := by
  cases hc : firstPath ((b.upper.filter fun kv => kv.2 = 1).map Prod.fst) table.tail with
  | some p => exact ⟨p, rfl⟩
  | none =>
    exfalso
    have hno : tableState table (dictFn b.upper) = (table.head?.map PathRow.state).getD 0 := by
      refine le_antisymm (bestState_le le_rfl fun q hq hs => ?_) (le_bestState _ _ _ _)
      obtain ⟨r, hr, rfl⟩ := List.mem_map.1 hq
      refine absurd (fun e he => ?_) (firstPath_none hc hr)
      have hek : e ∈ b.upper.map Prod.fst := by rw [hb.upper]; exact (ht.path r hr).2.2 e he
      exact (mem_matched (by rw [hb.upper]; exact hk) hek).2 (hs.2 e he)
    have h1 := hl.1
    have h2 := hl.2
    have h3 := tableState_mono ht hb.le hb.bin
    omega

theorem orgArcs_ok {keys : List K} (hk : keys.Nodup) {table : List (PathRow K)}
    (ht : TableOK keys table) {b : BBranch K} (hb : BBoxOK keys b) {path : List K}
    (hp : ∀ e ∈ path, e ∈ keys) (L : List (K × ℕ)) (sb : List (BBranch K))
    {out : List (BBranch K)} (h : setLoop table 1 b b.upper L
      (path.filter fun e => decide (dictFn b.lower e < dictFn b.upper e)) = .ok out) :
    ∃ s : OrgSt K, orgArcs table 1 b path
        (some { sb := sb, lower := L, upper := b.upper, fl := b.fl }) = .ok (some s) ∧
      s.sb ++ [{ lower := s.lower, upper := s.upper, fl := b.fu, fu := b.fu }] = sb ++ out := by
  induction path generalizing L sb out with
  | nil =>
    cases h
    exact ⟨_, rfl, rfl⟩
  | cons a path ih =>
    have ha : a ∈ keys := hp a (by simp)
    have hp' : ∀ e ∈ path, e ∈ keys := fun e he => hp e (by simp [he])
    unfold orgArcs
    rw [arcGet_ok (by rw [hb.upper]; exact ha), arcGet_ok (by rw [hb.lower]; exact ha), ok_bind,
      ok_bind]
    by_cases hf : dictFn b.lower a < dictFn b.upper a
    · rw [if_pos hf]
      rw [List.filter_cons_of_pos (by simpa using hf)] at h
      unfold setLoop at h
      simp only at h ⊢
      obtain ⟨fu, e1, h1⟩ := bind_ok.1 h
      obtain ⟨rest, e2, h2⟩ := bind_ok.1 h1
      cases h2
      rw [e1, ok_bind]
      have hup : setArc a 1 (setArc a 0 b.upper) = b.upper := by
        unfold setArc
        rw [List.map_map]
        conv_rhs => rw [← List.map_id b.upper]
        refine List.map_congr_left fun kv hkv => ?_
        by_cases hka : kv.1 = a
        · have h1 := dictFn_of_mem (by rw [hb.upper]; exact hk) hkv
          have h2 := hb.bin a ha
          rw [hka] at h1
          have h3 : kv.2 = 1 := by omega
          simp only [Function.comp_apply, hka, if_true, id_eq]
          exact Prod.ext hka.symm h3.symm
        · simp [hka]
      rw [hup]
      obtain ⟨s, e3, h3⟩ := ih hp' (setArc a 1 L)
        (sb ++ [{ lower := L, upper := setArc a 0 b.upper, fl := b.fl, fu := fu }]) e2
      refine ⟨s, e3, ?_⟩
      rw [h3, List.append_assoc]
      rfl
    · rw [if_neg hf]
      rw [List.filter_cons_of_neg (by simpa using hf)] at h
      exact ih hp' L sb h

theorem setLoop_fl {table : List (PathRow K)} {cond : ℕ} {b : BBranch K} {upperF L : List (K × ℕ)}
    {arcs : List K} {out : List (BBranch K)} (h : setLoop table cond b upperF L arcs = .ok out) :
    ∀ c ∈ out, c.fl = b.fl ∨ c.fl = b.fu := by
  induction arcs generalizing L out with
  | nil =>
    cases h
    intro c hc
    rw [List.mem_singleton] at hc
    subst hc
    exact .inr rfl
  | cons a arcs ih =>
    unfold setLoop at h
    obtain ⟨fu, e1, h1⟩ := bind_ok.1 h
    obtain ⟨rest, e2, h2⟩ := bind_ok.1 h1
    cases h2
    intro c hc
    rcases List.mem_cons.1 hc with rfl | hc
    · exact .inl rfl
    · exact ih e2 c hc

/-- What splitting one branch leaves. -/
structure OrgOut (keys : List K) (table : List (PathRow K)) (bstars : List (BBranch K)) (b : BBranch K)
    (sb : List (BBranch K)) : Prop where
  shape : ∃ init last, sb = (bstars.filter fun x => x ≠ b) ++ (init ++ [last]) ∧ last.fl = last.fu ∧
    (∀ c ∈ init ++ [last], BBoxOK keys c ∧ BLabelsOK table c ∧
      (table.head?.map PathRow.state).getD 0 ≤ c.fl) ∧
    ∀ x, bhits keys (init ++ [last]) x = if InBBox keys b x then 1 else 0

theorem orgBranch_ok {keys : List K} (hk : keys.Nodup) {table : List (PathRow K)}
    (ht : TableOK keys table) {b : BBranch K} (hb : BBoxOK keys b) (hl : BLabelsOK table b)
    (hu : b.fl ≠ b.fu) (hfl : (table.head?.map PathRow.state).getD 0 ≤ b.fl)
    (bstars : List (BBranch K)) (st : Option (OrgSt K)) :
    ∃ s : OrgSt K, orgBranch bstars table 1 st b = .ok (some s) ∧
      OrgOut keys table bstars b s.sb := by
  obtain ⟨p, hp⟩ := firstPath_open hk ht hb hl hu hfl
  obtain ⟨r, hr, rfl, hm⟩ := firstPath_some hp
  obtain ⟨p1, p2, p3⟩ := ht.path r hr
  obtain ⟨out, e1, h1, ⟨init, last, rfl, h2⟩, h3⟩ := split_ok hk ht hb hl
  have harcs : getArcs b table 1 =
      .ok (r.path.filter fun e => decide (dictFn b.lower e < dictFn b.upper e)) := by
    unfold getArcs
    rw [arcsLoop_eq, hp]
    exact freeArcs_ok fun e he => ⟨by rw [hb.lower]; exact p3 e he, by rw [hb.upper]; exact p3 e he⟩
  rw [harcs, ok_bind] at e1
  unfold getSetOfBranches at e1
  set arcs := r.path.filter fun e => decide (dictFn b.lower e < dictFn b.upper e) with harcs'
  have hup : (b.upper.map fun kv => (kv.1, if kv.1 ∈ arcs then 1 else kv.2)) = b.upper := by
    conv_rhs => rw [← List.map_id b.upper]
    refine List.map_congr_left fun kv hkv => ?_
    by_cases hka : kv.1 ∈ arcs
    · obtain ⟨ha1, ha2⟩ := List.mem_filter.1 hka
      have ha2 : dictFn b.lower kv.1 < dictFn b.upper kv.1 := by simpa using ha2
      have h1 := dictFn_of_mem (by rw [hb.upper]; exact hk) hkv
      have h2 := hb.bin kv.1 (p3 _ ha1)
      rw [if_pos hka]
      exact Prod.ext rfl (by simp only [id_eq]; omega)
    · rw [if_neg hka]
      rfl
  rw [hup] at e1
  obtain ⟨s, e2, h4⟩ := orgArcs_ok hk ht hb p3 b.lower (bstars.filter fun x => x ≠ b) e1
  refine ⟨{ s with sb := s.sb ++ [{ lower := s.lower, upper := s.upper, fl := b.fu, fu := b.fu }] }, ?_,
    ⟨init, last, h4, h2, fun c hc => ⟨(h1 c hc).box, (h1 c hc).labels, ?_⟩, h3⟩⟩
  · unfold orgBranch
    rw [hp]
    simp only
    rw [e2]
    rfl
  · rcases setLoop_fl e1 c hc with h | h
    · rw [h]; exact hfl
    · rw [h, hl.1]; exact le_bestState _ _ _ _

theorem orgRound_ok {keys : List K} (hk : keys.Nodup) {table : List (PathRow K)}
    (ht : TableOK keys table) (bstars : List (BBranch K)) :
    ∀ (l : List (BBranch K)) (st : Option (OrgSt K)), l ≠ [] →
    (∀ b ∈ l, BBoxOK keys b ∧ BLabelsOK table b ∧ b.fl ≠ b.fu ∧
      (table.head?.map PathRow.state).getD 0 ≤ b.fl) →
    ∃ s : OrgSt K, l.foldlM (orgBranch bstars table 1) st = .ok (some s) ∧
      ∃ b ∈ l, OrgOut keys table bstars b s.sb := by
  intro l
  induction l with
  | nil => intro st h; exact absurd rfl h
  | cons b l ih =>
    intro st _ h
    obtain ⟨h1, h2, h3, h4⟩ := h b (by simp)
    obtain ⟨s, e, hs⟩ := orgBranch_ok hk ht h1 h2 h3 h4 bstars st
    rw [List.foldlM_cons, e, ok_bind]
    by_cases hl : l = []
    · subst hl
      exact ⟨s, rfl, b, by simp, hs⟩
    · obtain ⟨s', e', b', hb', hs'⟩ := ih (some s) hl fun b hb => h b (by simp [hb])
      exact ⟨s', e', b', by simp [hb'], hs'⟩

/-! ## Number of vectors -/

/-- The vector of a set of arcs. -/
def indVec (s : Finset K) (k : K) : ℕ := if k ∈ s then 1 else 0

/-- Number of 0/1 vectors in the branches. -/
def bvol (keys : List K) (brs : List (BBranch K)) : ℕ :=
  ∑ s ∈ keys.toFinset.powerset, bhits keys brs (indVec s)

theorem bvol_pos {keys : List K} {brs : List (BBranch K)} {b : BBranch K} (hb : b ∈ brs)
    (h : BBoxOK keys b) : 0 < bvol keys brs := by
  refine Finset.sum_pos' (fun _ _ => Nat.zero_le _)
    ⟨keys.toFinset.filter fun k => dictFn b.lower k = 1, by simp, ?_⟩
  refine List.countP_pos_iff.2 ⟨b, hb, ?_⟩
  simp only [decide_eq_true_eq]
  intro k hk
  unfold indVec
  have h1 := h.le k hk
  have h2 := h.bin k hk
  simp only [Finset.mem_filter, List.mem_toFinset, hk, true_and]
  split <;> omega

theorem bvol_le {keys : List K} {brs : List (BBranch K)} (h : ∀ x, bhits keys brs x ≤ 1) :
    bvol keys brs ≤ 2 ^ keys.length := by
  unfold bvol
  refine (Finset.sum_le_card_nsmul _ _ 1 fun s _ => h _).trans ?_
  rw [Finset.card_powerset, smul_eq_mul, mul_one]
  exact Nat.pow_le_pow_right (by omega) (List.toFinset_card_le keys)

theorem bhits_remove {keys : List K} {bstars : List (BBranch K)} (hd : ∀ x, bhits keys bstars x ≤ 1)
    {b : BBranch K} (hb : b ∈ bstars) (hbox : BBoxOK keys b) (x : K → ℕ) :
    bhits keys (bstars.filter fun y => y ≠ b) x + (if InBBox keys b x then 1 else 0) =
      bhits keys bstars x := by
  have h1 := bhits_split keys (fun y => decide (y ≠ b)) bstars x
  have h2 : (bstars.filter fun y => !decide (y ≠ b)) = List.replicate (bstars.count b) b := by
    rw [← List.filter_beq]
    refine List.filter_congr fun y _ => ?_
    by_cases h : y = b <;> simp [h]
  have hrep : ∀ n x, bhits keys (List.replicate n b) x = if InBBox keys b x then n else 0 := by
    intro n x
    unfold bhits
    rw [List.countP_replicate]
    simp only [decide_eq_true_eq]
  have h3 : bstars.count b = 1 := by
    have hp : 0 < bstars.count b := List.count_pos_iff.2 hb
    have hle := hd (dictFn b.lower)
    rw [← bhits_split keys (fun y => decide (y ≠ b)) bstars, h2, hrep, if_pos hbox.nonempty] at hle
    omega
  rw [← h1, h2, hrep, h3]

theorem orgLoop_ok {keys : List K} (hk : keys.Nodup) {table : List (PathRow K)}
    (ht : TableOK keys table) :
    ∀ (n : ℕ) (bstars : List (BBranch K)) (st : Option (OrgSt K)) (saved : List (BBranch K)),
    bvol keys bstars < n → StarsOK keys table bstars →
    (∀ b ∈ bstars, (table.head?.map PathRow.state).getD 0 ≤ b.fl) →
    ∃ out, orgLoop table 1 n bstars st saved = .ok (saved ++ out) ∧
      (∀ c ∈ out, BBoxOK keys c ∧ BLabelsOK table c ∧ c.fl = c.fu) ∧
      ∀ x, bhits keys out x = bhits keys bstars x := by
  intro n
  induction n with
  | zero => intro bstars st saved h; omega
  | succ n ih =>
    intro bstars st saved hn hb hfl
    unfold orgLoop
    by_cases h0 : bstars = []
    · subst h0
      exact ⟨[], by rw [if_pos rfl, List.append_nil], by simp, fun _ => rfl⟩
    rw [if_neg h0]
    obtain ⟨s, e, b, hbm, ⟨init, last, h1, h2, h3, h4⟩⟩ := orgRound_ok hk ht bstars bstars st h0
      fun b h => ⟨hb.box b h, hb.labels b h, hb.undecided b h, hfl b h⟩
    rw [e, ok_bind]
    simp only
    have hall : ∀ c ∈ s.sb, BBoxOK keys c ∧ BLabelsOK table c ∧
        (table.head?.map PathRow.state).getD 0 ≤ c.fl := by
      intro c hc
      rw [h1, List.mem_append] at hc
      rcases hc with hc | hc
      · have := (List.mem_filter.1 hc).1
        exact ⟨hb.box c this, hb.labels c this, hfl c this⟩
      · exact h3 c hc
    have hhits : ∀ x, bhits keys s.sb x = bhits keys bstars x := by
      intro x
      rw [h1, bhits_append, h4, bhits_remove hb.disjoint hbm (hb.box b hbm)]
    have hsplit : ∀ x, bhits keys (s.sb.filter fun c => c.fl ≠ c.fu) x +
        bhits keys (s.sb.filter fun c => c.fl = c.fu) x = bhits keys bstars x := by
      intro x
      rw [← hhits x, ← bhits_split keys (fun c => decide (c.fl ≠ c.fu)) s.sb x]
      congr 2
      refine List.filter_congr fun c _ => ?_
      simp
    have hstars : StarsOK keys table (s.sb.filter fun c => c.fl ≠ c.fu) := by
      refine ⟨fun c hc => (hall c (List.mem_filter.1 hc).1).1,
        fun c hc => (hall c (List.mem_filter.1 hc).1).2.1, fun c hc => ?_, fun x => ?_⟩
      · simpa using (List.mem_filter.1 hc).2
      · have := hsplit x
        have := hb.disjoint x
        omega
    have hvol : bvol keys (s.sb.filter fun c => c.fl ≠ c.fu) < n := by
      have hsum : bvol keys (s.sb.filter fun c => c.fl ≠ c.fu) +
          bvol keys (s.sb.filter fun c => c.fl = c.fu) = bvol keys bstars := by
        unfold bvol
        rw [← Finset.sum_add_distrib]
        exact Finset.sum_congr rfl fun x _ => hsplit _
      have hpos : 0 < bvol keys (s.sb.filter fun c => c.fl = c.fu) := by
        refine bvol_pos (b := last) (List.mem_filter.2 ⟨?_, by simpa using h2⟩) (h3 last (by simp)).1
        rw [h1]
        simp
      omega
    obtain ⟨out, e2, g1, g2⟩ := ih _ (some s) (saved ++ s.sb.filter fun c => c.fl = c.fu) hvol hstars
      fun c hc => (hall c (List.mem_filter.1 hc).1).2.2
    refine ⟨(s.sb.filter fun c => c.fl = c.fu) ++ out, by rw [e2, List.append_assoc], fun c hc => ?_,
      fun x => ?_⟩
    · rcases List.mem_append.1 hc with hc | hc
      · obtain ⟨hc1, hc2⟩ := List.mem_filter.1 hc
        exact ⟨(hall c hc1).1, (hall c hc1).2.1, by simpa using hc2⟩
      · exact g1 c hc
    · rw [bhits_append, g2, Nat.add_comm, hsplit]

end BNS
