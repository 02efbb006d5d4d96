import Verif.Proofs.BnbCmat

/-!
# Properties C35–C39: the binary branch and bound
-/

namespace BNS

set_option linter.unusedSectionVars false

section
variable {K : Type} [DecidableEq K]

/-! ## C35: the system state is that of the best surviving path -/

theorem timeIdx_spec {pathTime : List (List K × Option ℚ)} {values : List (Option ℚ)}
    (hv : ValuesOK pathTime values) {x : List K × Option ℚ} (hx : x ∈ pathTime) :
    ∃ i, timeIdx values x.2 = some i ∧ values[i]? = some x.2 := by
  have hclose : isClose x.2 x.2 = true := by
    cases h : x.2 with
    | none => rfl
    | some a =>
      unfold isClose
      simp only [sub_self, abs_zero, decide_eq_true_eq]
      have := abs_nonneg a
      exact add_nonneg (by decide +kernel) (mul_nonneg (by decide +kernel) this)
  have hsome : (timeIdx values x.2).isSome := by
    unfold timeIdx
    rw [List.findIdx?_isSome, List.any_eq_true]
    exact ⟨x.2, (hv.known x hx).2, hclose⟩
  obtain ⟨i, hi⟩ := Option.isSome_iff_exists.1 hsome
  refine ⟨i, hi, ?_⟩
  obtain ⟨hlt, h1, -⟩ := List.findIdx?_eq_some_iff_getElem.1 hi
  rw [List.getElem?_eq_getElem hlt, (hv.apart x hx _ (List.getElem_mem hlt)).eq h1]

/-- `eval_sys_state` on the table of `get_path_time_idx`, no path having infinite time and every arc
of every path being in the dictionary, for any surviving state `cond`: the largest time index among
the surviving paths whose time is close to a value of the variable, 0 if there is none.  Missing for
the full claim: path lists with an infinite time (see `C35_not_with_infinite_time`). -/
theorem C35_best_path_partial (pathTime : List (List K × Option ℚ)) (values : List (Option ℚ))
    (hinf : ∀ x ∈ pathTime, x.2 ≠ none) (d : List (K × ℕ))
    (hd : ∀ x ∈ pathTime, ∀ e ∈ x.1, e ∈ d.map Prod.fst) (cond : ℕ) :
    evalSysState (getPathTimeIdx pathTime values) d cond =
      .ok (bestState 0 (pathStates pathTime values) (dictFn d) cond) :=
  evalSysState_table hinf hd cond

/-- The state of the fastest surviving path. -/
theorem bestState_fastest {pathTime : List (List K × Option ℚ)} {values : List (Option ℚ)}
    (hv : ValuesOK pathTime values) (x : K → ℕ) (cond : ℕ) :
    ∃ t : Option ℚ, values[bestState 0 (pathStates pathTime values) x cond]? = some t ∧
      TravelTime pathTime x cond t ∧
      (t ≠ none → timeIdx values t = some (bestState 0 (pathStates pathTime values) x cond)) := by
  set s := bestState 0 (pathStates pathTime values) x cond with hs
  have hle : ∀ p ∈ pathTime, Surv x cond p.1 → ∃ i ≤ s, values[i]? = some p.2 := by
    intro p hp hsv
    obtain ⟨i, h1, h2⟩ := timeIdx_spec hv hp
    refine ⟨i, ?_, h2⟩
    exact bestState_ge (r := (p.1, i))
      (List.mem_filterMap.2 ⟨p, hp, by rw [h1]; rfl⟩) hsv
  have hmono : ∀ (i : ℕ) (a t : Option ℚ), i ≤ s → values[i]? = some a → values[s]? = some t →
      timeLe t a := by
    intro i a t hi ha ht
    rcases Nat.lt_or_eq_of_le hi with hi | rfl
    · obtain ⟨h1, rfl⟩ := List.getElem?_eq_some_iff.1 ha
      obtain ⟨h2, rfl⟩ := List.getElem?_eq_some_iff.1 ht
      exact List.pairwise_iff_getElem.1 hv.sorted i s h1 h2 hi
    · rw [ha] at ht
      cases ht
      cases a with
      | none => trivial
      | some a => exact le_refl a
  rcases bestState_mem 0 (pathStates pathTime values) x cond with h0 | ⟨r, hr, hrs, hr2⟩
  · rw [← hs] at h0
    have hv0 : values[s]? = some none := by rw [h0, ← hv.head, List.head?_eq_getElem?]
    have hno : ∀ p ∈ pathTime, ¬ Surv x cond p.1 := by
      intro p hp hsv
      obtain ⟨i, hi, h2⟩ := hle p hp hsv
      obtain rfl : i = s := by omega
      rw [hv0] at h2
      exact (hv.known p hp).1 (Option.some.inj h2).symm
    exact ⟨none, hv0, ⟨⟨fun _ => hno, fun _ => rfl⟩, fun e => absurd rfl e,
      fun p hp hsv => absurd hsv (hno p hp)⟩, fun e => absurd rfl e⟩
  · rw [← hs] at hr2
    obtain ⟨p, hp, hpr⟩ := List.mem_filterMap.1 hr
    obtain ⟨i, h1, rfl⟩ := Option.map_eq_some_iff.1 hpr
    obtain ⟨i', h1', h2⟩ := timeIdx_spec hv hp
    rw [h1] at h1'
    cases h1'
    have his : i = s := hr2
    refine ⟨p.2, his ▸ h2, ⟨⟨fun e => absurd e (hv.known p hp).1, fun hno => ?_⟩,
      fun _ => ⟨p, hp, hrs, rfl⟩, fun y hy hsv => ?_⟩, fun _ => his ▸ h1⟩
    · exact absurd hrs (hno p hp)
    · obtain ⟨j, hj, h3⟩ := hle y hy hsv
      exact hmono j _ _ hj h3 (his ▸ h2)

/-- With the values as `get_branches` builds them: the value at the returned index is the time of the
fastest surviving path, and infinity exactly when no path survives. -/
theorem C35_fastest (pathTime : List (List K × Option ℚ)) (values : List (Option ℚ))
    (hv : ValuesOK pathTime values) (d : List (K × ℕ))
    (hd : ∀ x ∈ pathTime, ∀ e ∈ x.1, e ∈ d.map Prod.fst) (cond : ℕ) :
    ∃ (s : ℕ) (t : Option ℚ), evalSysState (getPathTimeIdx pathTime values) d cond = .ok s ∧
      values[s]? = some t ∧ TravelTime pathTime (dictFn d) cond t := by
  obtain ⟨t, h1, h2, -⟩ := bestState_fastest hv (dictFn d) cond
  exact ⟨_, t, evalSysState_table (fun x hx => (hv.known x hx).1) hd cond, h1, h2⟩

/-- The system state never drops when arcs recover. -/
theorem C35_monotone (pathTime : List (List K × Option ℚ)) (values : List (Option ℚ))
    (hinf : ∀ x ∈ pathTime, x.2 ≠ none) (d d' : List (K × ℕ))
    (hd : ∀ x ∈ pathTime, ∀ e ∈ x.1, e ∈ d.map Prod.fst)
    (hd' : ∀ x ∈ pathTime, ∀ e ∈ x.1, e ∈ d'.map Prod.fst)
    (hle : ∀ x ∈ pathTime, ∀ e ∈ x.1, dictFn d e ≤ dictFn d' e ∧ dictFn d' e ≤ 1) :
    ∃ s s', evalSysState (getPathTimeIdx pathTime values) d 1 = .ok s ∧
      evalSysState (getPathTimeIdx pathTime values) d' 1 = .ok s' ∧ s ≤ s' := by
  refine ⟨_, _, evalSysState_table hinf hd 1, evalSysState_table hinf hd' 1, ?_⟩
  refine bestState_le (Nat.zero_le _) fun r hr hs => bestState_ge hr ⟨hs.1, fun e he => ?_⟩
  obtain ⟨x, hx, hxr⟩ := List.mem_filterMap.1 hr
  obtain ⟨i, -, rfl⟩ := Option.map_eq_some_iff.1 hxr
  have h1 := hs.2 e he
  have h2 := hle x hx e he
  omega

/-- An arc of the first path that is missing from the dictionary: `KeyError`. -/
theorem C35_missing_arc_raises (row r : PathRow K) (rs : List (PathRow K)) (hrow : row.path = [])
    (d : List (K × ℕ)) (cond : ℕ) (h : ∃ e ∈ r.path, e ∉ d.map Prod.fst) :
    evalSysState (row :: r :: rs) d cond = .error .key := by
  unfold evalSysState evalPaths
  rw [hrow]
  have : pathSurvives d cond ([] : List K) = .ok false := rfl
  simp only [this, ok_bind, Bool.false_eq_true, if_false]
  unfold evalPaths
  rw [pathSurvives_error cond h]
  rfl

/-- A table without rows: `IndexError`. -/
theorem C35_empty_raises (d : List (K × ℕ)) (cond : ℕ) :
    evalSysState ([] : List (PathRow K)) d cond = .error .index := rfl

/-! ## C36: splitting a branch -/

/-- `get_arcs_given_bstar` and `get_set_of_branches` on a branch with right labels: both succeed; the
new branches contain exactly the vectors of the branch, each in one new branch; the labels are right
again; and the last one is decided: all its vectors have the system state it is labelled with. -/
theorem C36_split {keys : List K} (hk : keys.Nodup) {table : List (PathRow K)}
    (ht : TableOK keys table) {b : BBranch K} (hb : BBoxOK keys b) (hl : BLabelsOK table b) :
    ∃ arcs init last, getArcs b table 1 = .ok arcs ∧
      getSetOfBranches b arcs table 1 = .ok (init ++ [last]) ∧
      (∀ c ∈ init ++ [last], BBoxOK keys c ∧ BLabelsOK table c) ∧
      (∀ x, InBBox keys last x → tableState table x = last.fl ∧ tableState table x = last.fu) ∧
      ∀ x, bhits keys (init ++ [last]) x = if InBBox keys b x then 1 else 0 := by
  obtain ⟨arcs, e1, -⟩ := getArcs_ok hk ht hb
  obtain ⟨out, e2, h1, ⟨init, last, rfl, h2⟩, h3⟩ := split_ok hk ht hb hl
  rw [e1, ok_bind] at e2
  refine ⟨arcs, init, last, e1, e2, fun c hc => ⟨(h1 c hc).box, (h1 c hc).labels⟩, fun x hx => ?_,
    h3⟩
  have hlast := h1 last (by simp)
  have := decided_sound ht hlast.box hlast.labels h2 hx
  exact ⟨this, this.trans h2⟩

/-- For any choice of distinct free arcs the new branches are still disjoint and cover exactly the
branch; all but the last have right labels. -/
theorem C36_any_arcs {keys : List K} {table : List (PathRow K)} (ht : TableOK keys table)
    {b : BBranch K} (hb : BBoxOK keys b) (hl : BLabelsOK table b) {arcs : List K}
    (hn : arcs.Nodup)
    (ha : ∀ a ∈ arcs, a ∈ keys ∧ dictFn b.lower a = 0 ∧ dictFn b.upper a = 1) :
    ∃ init last, getSetOfBranches b arcs table 1 = .ok (init ++ [last]) ∧
      (∀ c ∈ init ++ [last], BBoxOK keys c) ∧ (∀ c ∈ init, BLabelsOK table c) ∧
      last.fl = b.fu ∧ last.fu = b.fu ∧
      ∀ x, bhits keys (init ++ [last]) x = if InBBox keys b x then 1 else 0 := by
  have hF : (b.upper.map fun kv => (kv.1, if kv.1 ∈ arcs then 1 else kv.2)).map Prod.fst = keys := by
    rw [List.map_map, ← hb.upper]; rfl
  have hF' : ∀ k ∈ keys, dictFn (b.upper.map fun kv => (kv.1, if kv.1 ∈ arcs then 1 else kv.2)) k =
      dictFn b.upper k := by
    intro k hkk
    rw [dictFn_map (fun q n => if q ∈ arcs then 1 else n) (by rw [hb.upper]; exact hkk)]
    split
    · rename_i h; exact (ha k h).2.2.symm
    · rfl
  obtain ⟨out, e2, ho⟩ := setLoop_ok ht hb hl.2 hF hF' hn hb.lower
    (fun k hkk => ⟨le_rfl, hb.le k hkk⟩) ha
  obtain ⟨init, last, rfl, h2, h3, -, -, h6⟩ := ho.shape
  exact ⟨init, last, e2, ho.box, fun c hc => (h6 c hc).1, h2, h3, ho.hits⟩

/-! ## C37: the whole run -/

/-- `branch_and_bound` from disjoint undecided branches, into a directory without files of this key:
it terminates without an error; what is then read back is a list of decided branches which contain
every arc vector exactly as often as the initial branches do, and which are right: the system state
of every vector in the box of a branch is the label of the branch.  Files with other names are kept.
Missing for the full claim: initial branches that are already decided (see
`C37_not_decided_start`) and directories that are not fresh (see C38). -/
theorem C37_partition_partial {keys : List K} (hk : keys.Nodup) {table : List (PathRow K)}
    (ht : TableOK keys table) (key : List Char) {bstars : List (BBranch K)}
    (hb : StarsOK keys table bstars) {dir : Dir K} (hdir : ∀ f ∈ dir, globMatch key f.1 = false) :
    ∃ dir', branchAndBound bstars table 1 key dir = .ok dir' ∧
      (∀ f ∈ dir, f ∈ dir') ∧
      (∀ b ∈ sbSaved dir' key, BBoxOK keys b ∧ b.fl = b.fu ∧
        ∀ x, InBBox keys b x → tableState table x = b.fl) ∧
      ∀ x, bhits keys (sbSaved dir' key) x = bhits keys bstars x := by
  obtain ⟨dumps, e1, h1, h2⟩ := branchAndBound_ok hk ht key hb dir
  have hfil : (dir.filter fun f => decide (∀ j < dumps.length, f.1 ≠ dumpName key (0 + j))) =
      dir := by
    rw [List.filter_eq_self]
    intro f hf
    simp only [decide_eq_true_eq]
    intro j _ e
    have := hdir f hf
    rw [e, globMatch_dumpName] at this
    cases this
  refine ⟨_, e1, fun f hf => ?_, ?_⟩
  · rw [writeAll_eq, hfil]
    exact List.mem_append_left _ hf
  · rw [sbSaved_writeAll, hfil, sbSaved_nil_of_noMatch hdir, List.nil_append]
    refine ⟨fun b hbm => ?_, h2⟩
    obtain ⟨hb1, hb2⟩ := List.mem_filter.1 hbm
    have hb2 : b.fl = b.fu := by simpa using hb2
    obtain ⟨h3, h4⟩ := h1 b hb1
    exact ⟨h3, hb2, fun x hx => decided_sound ht h3 h4 hb2 hx⟩

/-- From the full box of binary arcs, with the table of `get_path_time_idx` and at least one path with
a known finite time: the branches read back partition all 0/1 vectors, and the label of each is the
best surviving path for every vector in it. -/
theorem C37_full_box {keys : List K} (hk : keys.Nodup) {pathTime : List (List K × Option ℚ)}
    {values : List (Option ℚ)} (hinf : ∀ x ∈ pathTime, x.2 ≠ none)
    (hp : ∀ x ∈ pathTime, x.1 ≠ [] ∧ x.1.Nodup ∧ ∀ e ∈ x.1, e ∈ keys)
    (hone : ∃ r ∈ pathStates pathTime values, 0 < r.2)
    (key : List Char) {dir : Dir K} (hdir : ∀ f ∈ dir, globMatch key f.1 = false) :
    ∃ fl fu dir',
      evalSysState (getPathTimeIdx pathTime values) (keys.map fun k => (k, 0)) 1 = .ok fl ∧
      evalSysState (getPathTimeIdx pathTime values) (keys.map fun k => (k, 1)) 1 = .ok fu ∧
      branchAndBound [⟨keys.map fun k => (k, 0), keys.map fun k => (k, 1), fl, fu⟩]
        (getPathTimeIdx pathTime values) 1 key dir = .ok dir' ∧
      (∀ b ∈ sbSaved dir' key, BBoxOK keys b ∧ b.fl = b.fu ∧ ∀ x, InBBox keys b x →
        bestState 0 (pathStates pathTime values) x 1 = b.fl) ∧
      ∀ x, (∀ k ∈ keys, x k ≤ 1) → bhits keys (sbSaved dir' key) x = 1 := by
  have hkeys : ∀ v : ℕ, (keys.map fun k => (k, v)).map Prod.fst = keys := by
    intro v
    rw [List.map_map]
    exact List.map_id _
  have hfn : ∀ (v : ℕ) (k : K), k ∈ keys → dictFn (keys.map fun k => (k, v)) k = v := by
    intro v k hkk
    have h1 := dictFn_map (fun _ _ => v) (d := keys.map fun k => (k, 0)) (k := k)
      (by rw [hkeys]; exact hkk)
    rw [List.map_map] at h1
    exact h1
  have ht := tableOK_getPathTimeIdx values hinf hp
  have e0 := evalSysState_ok ht (hkeys 0)
  have e1 := evalSysState_ok ht (hkeys 1)
  have hs0 : tableState (getPathTimeIdx pathTime values) (dictFn (keys.map fun k => (k, 0))) = 0 := by
    rw [tableState_getPathTimeIdx values hinf]
    refine Nat.le_zero.1 (bestState_le le_rfl fun r hr hs => ?_)
    obtain ⟨x, hx, hxr⟩ := List.mem_filterMap.1 hr
    obtain ⟨i, -, rfl⟩ := Option.map_eq_some_iff.1 hxr
    obtain ⟨p1, -, p3⟩ := hp x hx
    obtain ⟨e, he⟩ := List.exists_mem_of_ne_nil _ p1
    have := hs.2 e he
    rw [hfn 0 e (p3 e he)] at this
    omega
  have hs1 : 0 < tableState (getPathTimeIdx pathTime values) (dictFn (keys.map fun k => (k, 1))) := by
    rw [tableState_getPathTimeIdx values hinf]
    obtain ⟨r, hr, h0⟩ := hone
    refine lt_of_lt_of_le h0 (bestState_ge hr ?_)
    obtain ⟨x, hx, hxr⟩ := List.mem_filterMap.1 hr
    obtain ⟨i, -, rfl⟩ := Option.map_eq_some_iff.1 hxr
    obtain ⟨p1, -, p3⟩ := hp x hx
    exact ⟨p1, fun e he => hfn 1 e (p3 e he)⟩
  have hstars : StarsOK keys (getPathTimeIdx pathTime values)
      [⟨keys.map fun k => (k, 0), keys.map fun k => (k, 1),
        tableState (getPathTimeIdx pathTime values) (dictFn (keys.map fun k => (k, 0))),
        tableState (getPathTimeIdx pathTime values) (dictFn (keys.map fun k => (k, 1)))⟩] := by
    refine ⟨?_, ?_, ?_, fun x => ?_⟩
    · intro b hb
      rw [List.mem_singleton] at hb
      subst hb
      exact ⟨hkeys 0, hkeys 1, fun k hkk => by simp only; rw [hfn 0 k hkk]; exact Nat.zero_le _,
        fun k hkk => by simp only; rw [hfn 1 k hkk]⟩
    · intro b hb
      rw [List.mem_singleton] at hb
      subst hb
      exact ⟨rfl, le_rfl⟩
    · intro b hb
      rw [List.mem_singleton] at hb
      subst hb
      simp only
      omega
    · exact List.countP_le_length
  obtain ⟨dir', f1, -, f3, f4⟩ := C37_partition_partial hk ht key hstars hdir
  refine ⟨_, _, dir', e0, e1, f1, fun b hb => ?_, fun x hx => ?_⟩
  · obtain ⟨g1, g2, g3⟩ := f3 b hb
    refine ⟨g1, g2, fun x hx => ?_⟩
    rw [← g3 x hx, tableState_getPathTimeIdx values hinf]
  · rw [f4 x]
    have : InBBox keys (⟨keys.map fun k => (k, 0), keys.map fun k => (k, 1),
        tableState (getPathTimeIdx pathTime values) (dictFn (keys.map fun k => (k, 0))),
        tableState (getPathTimeIdx pathTime values) (dictFn (keys.map fun k => (k, 1)))⟩ :
        BBranch K) x := fun k hkk => by
      simp only
      rw [hfn 0 k hkk, hfn 1 k hkk]
      exact ⟨Nat.zero_le _, hx k hkk⟩
    rw [bhits_cons, if_pos this]
    rfl

/-! ## C38: reading back -/

/-- What is read back after a run is what this run decided, after whatever decided branches are in
older files that match the pattern and were not overwritten. -/
theorem C38_what_is_read {keys : List K} (hk : keys.Nodup) {table : List (PathRow K)}
    (ht : TableOK keys table) (key : List Char) {bstars : List (BBranch K)}
    (hb : StarsOK keys table bstars) (dir : Dir K) :
    ∃ (dir' : Dir K) (fresh : List (BBranch K)) (n : ℕ),
      branchAndBound bstars table 1 key dir = .ok dir' ∧
      sbSaved dir' key =
        sbSaved (dir.filter fun f => decide (∀ j < n, f.1 ≠ dumpName key j)) key ++ fresh ∧
      (∀ b ∈ fresh, BBoxOK keys b ∧ b.fl = b.fu ∧
        ∀ x, InBBox keys b x → tableState table x = b.fl) ∧
      ∀ x, bhits keys fresh x = bhits keys bstars x := by
  obtain ⟨dumps, e1, h1, h2⟩ := branchAndBound_ok hk ht key hb dir
  refine ⟨_, _, dumps.length, e1, ?_, ?_, h2⟩
  · rw [sbSaved_writeAll]
    simp only [Nat.zero_add]
  · intro b hbm
    obtain ⟨hb1, hb2⟩ := List.mem_filter.1 hbm
    have hb2 : b.fl = b.fu := by simpa using hb2
    obtain ⟨h3, h4⟩ := h1 b hb1
    exact ⟨h3, hb2, fun x hx => decided_sound ht h3 h4 hb2 hx⟩

/-- In a directory without files of this key, what is read back does not depend on the directory.
Missing for the full claim: directories with files of earlier runs (see `C38_not_stale_files`). -/
theorem C38_fresh_partial {keys : List K} (hk : keys.Nodup) {table : List (PathRow K)}
    (ht : TableOK keys table) (key : List Char) {bstars : List (BBranch K)}
    (hb : StarsOK keys table bstars) {dir : Dir K} (hdir : ∀ f ∈ dir, globMatch key f.1 = false) :
    ∃ dir' dir0, branchAndBound bstars table 1 key dir = .ok dir' ∧
      branchAndBound bstars table 1 key [] = .ok dir0 ∧ sbSaved dir' key = sbSaved dir0 key := by
  have key_lem : ∀ (n i : ℕ) (bs : List (BBranch K)) (d1 d2 d1' : Dir K),
      bnbLoop table 1 key n i bs d1 = .ok d1' → sbSaved d1 key = sbSaved d2 key →
      (∀ j, i ≤ j → ∀ f ∈ d1 ++ d2, f.1 ≠ dumpName key j) →
      ∃ d2', bnbLoop table 1 key n i bs d2 = .ok d2' ∧ sbSaved d1' key = sbSaved d2' key := by
    intro n
    induction n with
    | zero => intro i bs d1 d2 d1' h; cases h
    | succ n ih =>
      intro i bs d1 d2 d1' h he hf
      unfold bnbLoop at h ⊢
      by_cases h0 : bs = []
      · rw [if_pos h0] at h ⊢
        cases h
        exact ⟨d2, rfl, he⟩
      · rw [if_neg h0] at h ⊢
        cases hc : bnbCore bs table 1 with
        | error e => rw [hc] at h; cases h
        | ok res =>
          rw [hc, ok_bind] at h
          rw [ok_bind]
          have hw : ∀ d : Dir K, (∀ f ∈ d, f ∈ d1 ++ d2) →
              Dir.write d (dumpName key i) (res.flatten.filter fun x => x ∉ bs) =
                d ++ [(dumpName key i, res.flatten.filter fun x => x ∉ bs)] := by
            intro d hd
            unfold Dir.write
            congr 1
            rw [List.filter_eq_self]
            intro f hfd
            simpa using hf i le_rfl f (hd f hfd)
          refine ih _ _ _ _ _ h ?_ ?_
          · rw [hw d1 (fun f hf => List.mem_append_left _ hf),
              hw d2 (fun f hf => List.mem_append_right _ hf), sbSaved_append, sbSaved_append, he]
          · intro j hj f hfm
            rw [hw d1 (fun f hf => List.mem_append_left _ hf),
              hw d2 (fun f hf => List.mem_append_right _ hf)] at hfm
            simp only [List.mem_append, List.mem_singleton] at hfm
            have hnew : dumpName key i ≠ dumpName key j := fun e => by
              have := dumpName_inj e; omega
            rcases hfm with (h | rfl) | (h | rfl)
            · exact hf j (by omega) f (by simp [h])
            · exact hnew
            · exact hf j (by omega) f (by simp [h])
            · exact hnew
  obtain ⟨dumps, e1, -, -⟩ := branchAndBound_ok hk ht key hb dir
  obtain ⟨d2', e2, e3⟩ := key_lem _ _ _ dir [] _ e1
    (by rw [sbSaved_nil_of_noMatch hdir]; rfl)
    (by
      intro j _ f hf e
      rw [List.append_nil] at hf
      have := hdir f hf
      rw [e, globMatch_dumpName] at this
      cases this)
  exact ⟨_, d2', e1, e2, e3⟩

/-! ## C39: the event matrix -/

/-- `get_cmat_from_branches` on decided binary branches and variables with complete stored tables:
the rows, in some order, are one per branch; the row of a branch starts with its state and its other
columns match an arc vector exactly when the vector is in the box; the rows are ordered by state. -/
theorem C39_rows {vars : List (K × Variable K)} (hv : ArcVars vars) {brs : List (BBranch K)}
    (hb : ∀ b ∈ brs, BBoxOK (vars.map Prod.fst) b ∧ b.fl = b.fu) :
    ∃ C rows, cmatFromBranches brs vars = .ok C ∧ C.Perm rows ∧
      C.Pairwise (fun a b => a.headD 0 ≤ b.headD 0) ∧
      List.Forall₂ (fun b r => ∃ cs, r = b.fl :: cs ∧ cs.length = vars.length ∧
        ∀ x, RowMatches (vars.map Prod.snd) cs x ↔ InBBox (vars.map Prod.fst) b x) brs rows := by
  obtain ⟨C, rows, e1, e2, e3, e4⟩ := cmat_ok hv hb
  refine ⟨C, rows, e1, e2, e3, e4.imp ?_⟩
  rintro b r ⟨cs, h1, h2, -, h4⟩
  exact ⟨cs, h1, h2, h4⟩

/-- The first undecided branch: `AssertionError`. -/
theorem C39_undecided_raises {vars : List (K × Variable K)} (hv : ArcVars vars)
    {pre post : List (BBranch K)} {b : BBranch K}
    (hpre : ∀ b ∈ pre, BBoxOK (vars.map Prod.fst) b ∧ b.fl = b.fu) (hb : b.fl ≠ b.fu) :
    cmatFromBranches (pre ++ b :: post) vars = .error .assertion := by
  have key : ((pre ++ b :: post).mapM fun b => cmatRow b vars) = Except.error .assertion := by
    induction pre with
    | nil =>
      have : cmatRow b vars = .error .assertion := by unfold cmatRow; rw [if_neg hb]
      rw [List.nil_append, List.mapM_cons, this, error_bind]
    | cons a pre ih =>
      obtain ⟨h1, h2⟩ := hpre a (by simp)
      obtain ⟨cs, f1, -⟩ := cmatRow_ok hv h1 h2
      rw [List.cons_append, List.mapM_cons, f1, ok_bind, ih fun b h => hpre b (by simp [h]),
        error_bind]
  unfold cmatFromBranches
  rw [key]
  rfl

/-- A first variable whose table is not stored: `TypeError`. -/
theorem C39_not_stored_raises (k : K) (v : Variable K) (vars : List (K × Variable K))
    (hv : v.B = none) (b : BBranch K) (brs : List (BBranch K)) (hd : b.fl = b.fu)
    (hk : k ∈ b.lower.map Prod.fst) :
    cmatFromBranches (b :: brs) ((k, v) :: vars) = .error .type := by
  have : cmatRow b ((k, v) :: vars) = .error .type := by
    unfold cmatRow
    rw [if_pos hd, List.mapM_cons]
    have : ∀ l, tableGet v l = .error .type := fun l => by unfold tableGet; rw [hv]
    simp only [arcGet_ok hk, ok_bind, this, error_bind]
  unfold cmatFromBranches
  rw [List.mapM_cons, this]
  rfl

end

/-! ## Concrete cases, and where the claims fail -/

namespace Ex

/-- Two routes: arc 1 alone (time 2), or arcs 2 and 3 (time 5). -/
def bPaths : List (List ℕ × Option ℚ) := [([2, 3], some 5), ([1], some 2)]

def bVals : List (Option ℚ) := [none, some 5, some 2]

def bTable : List (PathRow ℕ) := getPathTimeIdx bPaths bVals

def bRoot : BBranch ℕ :=
  ⟨[(1, 0), (2, 0), (3, 0)], [(1, 1), (2, 1), (3, 1)], 0, 2⟩

def bKey : List Char := "k".toList

example : bTable = [⟨[], none, 0⟩, ⟨[1], some 2, 2⟩, ⟨[2, 3], some 5, 1⟩] := by decide +kernel

theorem bValuesOK : ValuesOK bPaths bVals where
  head := rfl
  sorted := by simp [bVals, timeLe]; decide +kernel
  known := by simp [bPaths, bVals]
  apart := by
    have : ∀ x ∈ bPaths, ∀ y ∈ bVals, TimesApart x.2 y := by decide +kernel
    exact this

example : ∃ s t, evalSysState bTable [(1, 0), (2, 1), (3, 1)] 1 = .ok s ∧ bVals[s]? = some t :=
  let ⟨s, t, h1, h2, _⟩ := C35_fastest bPaths bVals bValuesOK [(1, 0), (2, 1), (3, 1)]
    (by decide +kernel) 1
  ⟨s, t, h1, h2⟩

theorem bFull : ∃ fl fu dir', evalSysState bTable ([1, 2, 3].map fun k => (k, 0)) 1 = .ok fl ∧
    evalSysState bTable ([1, 2, 3].map fun k => (k, 1)) 1 = .ok fu ∧
    branchAndBound [⟨[1, 2, 3].map fun k => (k, 0), [1, 2, 3].map fun k => (k, 1), fl, fu⟩]
      bTable 1 bKey [] = .ok dir' ∧
    (∀ b ∈ sbSaved dir' bKey, BBoxOK [1, 2, 3] b ∧ b.fl = b.fu ∧ ∀ x, InBBox [1, 2, 3] b x →
      bestState 0 (pathStates bPaths bVals) x 1 = b.fl) ∧
    ∀ x, (∀ k ∈ [1, 2, 3], x k ≤ 1) → bhits [1, 2, 3] (sbSaved dir' bKey) x = 1 :=
  C37_full_box (by decide) (by decide) (by decide) ⟨([1], 2), by decide +kernel, by decide⟩ bKey
    (by simp)

/-- The branches of the run: four decided ones. -/
example : (branchAndBound [bRoot] bTable 1 bKey []).toOption.map (fun d =>
    (sbSaved d bKey).map fun b => (b.lower.map Prod.snd, b.upper.map Prod.snd, b.fl)) =
    some [([1, 0, 0], [1, 1, 1], 2), ([0, 0, 0], [0, 0, 1], 0), ([0, 1, 0], [0, 1, 0], 0),
      ([0, 1, 1], [0, 1, 1], 1)] := by decide +kernel

end Ex

/-- With a path of infinite time in the list no row without path is put in front, and the state
when no path survives is that of the best path. -/
theorem C35_not_with_infinite_time :
    evalSysState (getPathTimeIdx [([1], some 2), ([2], none)] [none, some 2]) [(1, 0), (2, 0)] 1 =
      .ok 1 ∧ ∀ x ∈ [(([1] : List ℕ), some (2 : ℚ)), ([2], none)],
        ¬ Surv (dictFn [(1, 0), (2, 0)]) 1 x.1 := by decide +kernel

/-- A branch that is decided from the start (no path at all) is lost: nothing is written. -/
theorem C37_not_decided_start :
    ∃ b : BBranch ℕ, BBoxOK [1] b ∧
      BLabelsOK (getPathTimeIdx ([] : List (List ℕ × Option ℚ)) [none]) b ∧
      ∃ dir', branchAndBound [b] (getPathTimeIdx ([] : List (List ℕ × Option ℚ)) [none]) 1 Ex.bKey []
        = .ok dir' ∧ sbSaved dir' Ex.bKey = [] ∧ bhits [1] [b] (fun _ => 0) = 1 := by
  refine ⟨⟨[(1, 0)], [(1, 1)], 0, 0⟩, ⟨rfl, rfl, by decide, by decide⟩,
    ⟨by decide +kernel, by decide +kernel⟩, ?_⟩
  exact ⟨[(dumpName Ex.bKey 0, [])], by decide +kernel, by decide +kernel, by decide +kernel⟩

namespace Ex

/-- What a run leaves behind. -/
def left (x : Except Err (Dir ℕ)) : Dir ℕ := match x with
  | .ok d => d
  | .error _ => []

def bDir1 : Dir ℕ := left (branchAndBound [bRoot] bTable 1 bKey [])

def bRoot2 : BBranch ℕ := ⟨[(1, 0), (2, 0), (3, 0)], [(1, 1), (2, 1), (3, 1)], 0, 1⟩

def bTable2 : List (PathRow ℕ) := getPathTimeIdx [([1], some 2)] [none, some 2]

def bDir2 : Dir ℕ := left (branchAndBound [bRoot2] bTable2 1 bKey bDir1)

def bDir3 : Dir ℕ := left (branchAndBound [bRoot2] bTable2 1 "k_x".toList [])

def bDir4 : Dir ℕ := left (branchAndBound [bRoot] bTable 1 bKey bDir3)

end Ex

/-- A second run with the same key, for another system: files of the first run are read back as
well, and a vector is then in two branches. -/
theorem C38_not_stale_files :
    branchAndBound [Ex.bRoot] Ex.bTable 1 Ex.bKey [] = .ok Ex.bDir1 ∧
      branchAndBound [Ex.bRoot2] Ex.bTable2 1 Ex.bKey Ex.bDir1 = .ok Ex.bDir2 ∧
      bhits [1, 2, 3] [Ex.bRoot2] (fun _ => 0) = 1 ∧
      bhits [1, 2, 3] (sbSaved Ex.bDir2 Ex.bKey) (fun _ => 0) = 2 := by decide +kernel

/-- The same with another key, when the one key followed by `_` starts the other. -/
theorem C38_not_key_prefix :
    branchAndBound [Ex.bRoot2] Ex.bTable2 1 "k_x".toList [] = .ok Ex.bDir3 ∧
      branchAndBound [Ex.bRoot] Ex.bTable 1 Ex.bKey Ex.bDir3 = .ok Ex.bDir4 ∧
      bhits [1, 2, 3] [Ex.bRoot] (fun _ => 0) = 1 ∧
      bhits [1, 2, 3] (sbSaved Ex.bDir4 Ex.bKey) (fun _ => 0) = 2 := by decide +kernel

namespace Ex

def bVar (k : ℕ) : Variable ℕ := ⟨k, [0, 1], some (genB 2)⟩

def bVars : List (ℕ × Variable ℕ) := [(1, bVar 1), (2, bVar 2), (3, bVar 3)]

theorem bVars_ok : ArcVars bVars := by
  intro kv h
  simp only [bVars, List.mem_cons, List.not_mem_nil, or_false] at h
  rcases h with rfl | rfl | rfl <;> exact ⟨rfl, rfl, by decide⟩

example : ∃ C rows, cmatFromBranches (sbSaved bDir1 bKey) bVars = .ok C ∧ C.Perm rows ∧
    rows.length = 4 := by
  obtain ⟨fl, fu, d, h1, h2, h3, h4, -⟩ := bFull
  have e1 : fl = 0 := by
    have : evalSysState bTable ([1, 2, 3].map fun k => (k, 0)) 1 = .ok 0 := by decide +kernel
    rw [this] at h1; cases h1; rfl
  have e2 : fu = 2 := by
    have : evalSysState bTable ([1, 2, 3].map fun k => (k, 1)) 1 = .ok 2 := by decide +kernel
    rw [this] at h2; cases h2; rfl
  subst e1 e2
  have e3 : d = bDir1 := by
    have : branchAndBound [bRoot] bTable 1 bKey [] = .ok bDir1 := by decide +kernel
    have h3 : branchAndBound [bRoot] bTable 1 bKey [] = .ok d := h3
    rw [this] at h3; cases h3; rfl
  subst e3
  obtain ⟨C, rows, f1, f2, -, f4⟩ := C39_rows bVars_ok fun b hb => ⟨(h4 b hb).1, (h4 b hb).2.1⟩
  refine ⟨C, rows, f1, f2, ?_⟩
  rw [← f4.length_eq]
  decide +kernel

example : cmatFromBranches (sbSaved bDir1 bKey) bVars =
    .ok [[0, 0, 0, 2], [0, 0, 1, 0], [1, 0, 1, 1], [2, 1, 2, 2]] := by decide +kernel

end Ex

/-- For a component with three states the joined set is not the interval: the row of the box 0..2
does not match state 1. -/
theorem C39_not_three_states :
    cmatFromBranches [(⟨[(1, 0)], [(1, 2)], 0, 0⟩ : BBranch ℕ)]
        [(1, (⟨1, [0, 1, 2], some (genB 3)⟩ : Variable ℕ))] = .ok [[0, 4]] ∧
      ¬ RowMatches [(⟨1, [0, 1, 2], some (genB 3)⟩ : Variable ℕ)] [4] (fun _ => 1) ∧
      InBBox [1] (⟨[(1, 0)], [(1, 2)], 0, 0⟩ : BBranch ℕ) (fun _ => 1) := by decide +kernel

end BNS
