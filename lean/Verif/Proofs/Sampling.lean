import Verif.Proofs.SampleOrder
import Verif.Proofs.CpmCond
import Verif.Proofs.CpmProd
import Verif.Spec.Elim
import Mathlib.Data.List.GetD

/-! Helper lemmas for `single_sample`. -/

namespace BNS

set_option linter.unusedSectionVars false

variable {K : Type} [DecidableEq K] {U : K → Variable K}

theorem evidence_eq {vars : List (Variable K)} {sample : List ℕ}
    (hl : sample.length = vars.length) :
    sample.filter (fun s => decide (0 < s)) =
      ((vars.zip sample).filter fun vs => decide (0 < vs.2)).map Prod.snd := by
  induction vars generalizing sample with
  | nil =>
    have : sample = [] := List.length_eq_zero_iff.1 (by simpa using hl)
    simp [this]
  | cons v vars ih =>
    cases sample with
    | nil => simp at hl
    | cons s sample =>
      simp only [List.zip_cons_cons, List.filter_cons]
      by_cases h : 0 < s
      · simp [h, ih (sample := sample) (by simpa using hl)]
      · simp [h, ih (sample := sample) (by simpa using hl)]

theorem zip_fst_snd {α β : Type} (l : List (α × β)) : (l.map Prod.fst).zip (l.map Prod.snd) = l := by
  induction l with
  | nil => rfl
  | cons a l ih => simp [ih]

theorem zip_val {vars : List (Variable K)} (hn : (vars.map Variable.name).Nodup) {sample : List ℕ}
    {p : Variable K × ℕ} (hp : p ∈ vars.zip sample) :
    val (vars.map Variable.name) sample p.1.name = p.2 := by
  induction vars generalizing sample with
  | nil => simp at hp
  | cons v vars ih =>
    cases sample with
    | nil => simp at hp
    | cons s sample =>
      rw [List.map_cons, List.nodup_cons] at hn
      rw [List.map_cons, val_cons]
      rw [List.zip_cons_cons, List.mem_cons] at hp
      rcases hp with rfl | hp
      · simp
      · rw [if_neg, ih hn.2 hp]
        intro e
        exact hn.1 (e ▸ List.mem_map_of_mem (List.of_mem_zip hp).1)

theorem val_zip {vars : List (Variable K)} (hn : (vars.map Variable.name).Nodup) {sample : List ℕ}
    (hl : sample.length = vars.length) {v : Variable K} (hv : v ∈ vars) :
    (v, val (vars.map Variable.name) sample v.name) ∈ vars.zip sample := by
  have := (zip_forall_iff hn hl (fun v s => (v, s) ∈ vars.zip sample)).1 (fun p hp => hp)
  exact this v hv

/-- One iteration of `single_sample`: the probability recorded is that of a row of the CPM itself
which agrees with what was sampled so far for the parents in a positive state, and the states
written are that row's child states. -/
theorem sampleOne_spec {vars : List (Variable K)} {addOrder : List ℕ} {i irow : ℕ} {M : Cpm K}
    {sample s' : List ℕ} {p : ℚ} (hM : WF U M) (hn : (vars.map Variable.name).Nodup)
    (henv : ∀ v ∈ vars, U v.name = v) (hl : sample.length = vars.length)
    (hst : ∀ vs ∈ vars.zip sample, 0 < vs.2 → vs.2 < vs.1.values.length)
    (hch : ∀ k ∈ childNames M, val (vars.map Variable.name) sample k = 0)
    (h : sampleOne vars addOrder i M irow sample = .ok (s', p)) :
    ∃ r, (r, p) ∈ M.C.zip M.p ∧ 0 < p ∧
      assignAt addOrder i (r.take M.noChild) sample = .ok s' ∧
      ∀ v ∈ M.vars, v ∈ vars → 0 < val (vars.map Variable.name) sample v.name →
        val (vars.map Variable.name) sample v.name ∈ stateSet v (val M.getNames r v.name) := by
  unfold sampleOne at h
  simp only [evidence_eq hl] at h
  set cnd := (vars.zip sample).filter fun vs => decide (0 < vs.2) with hcnd
  have hmem : ∀ q ∈ cnd, q ∈ vars.zip sample ∧ 0 < q.2 := by
    intro q hq
    rw [hcnd, List.mem_filter, decide_eq_true_iff] at hq
    exact hq
  have hz := zip_fst_snd cnd
  have hpow : ∀ a n : ℕ, a < n → 0 < a → a + 1 < 2 ^ n := by
    intro a n h h0
    have : n < 2 ^ n := Nat.lt_two_pow_self
    rcases Nat.lt_or_ge (a + 1) n with h1 | h1
    · omega
    · omega
  have he : EvidenceOK U M.getNames (cnd.map Prod.fst) (cnd.map Prod.snd) :=
    { len := by simp
      env := by
        intro q hq _
        rw [hz] at hq
        exact henv _ (List.of_mem_zip (hmem q hq).1).1
      state := by
        intro q hq _
        rw [hz] at hq
        exact hpow _ _ (hst q (hmem q hq).1 (hmem q hq).2) (hmem q hq).2 }
  have hnd : ((cnd.map Prod.fst).map Variable.name).Nodup := by
    refine hn.sublist (List.Sublist.map _ ?_)
    have h1 : (cnd.map Prod.fst).Sublist ((vars.zip sample).map Prod.fst) :=
      List.Sublist.map _ List.filter_sublist
    rwa [List.map_fst_zip (by omega)] at h1
  rw [condition_ok hM he hnd, ok_bind] at h
  cases hp1 : (condPure M (cnd.map Prod.fst) (cnd.map Prod.snd)).p[irow]? with
  | none => simp [hp1] at h
  | some p' =>
  cases hr1 : (condPure M (cnd.map Prod.fst) (cnd.map Prod.snd)).C[irow]? with
  | none => simp [hp1, hr1] at h
  | some r' =>
  simp only [hp1, hr1] at h
  by_cases hpos : 0 < p'
  swap
  · rw [if_neg hpos] at h; cases h
  rw [if_pos hpos] at h
  obtain ⟨s2, ha, hb⟩ := bind_ok.1 h
  cases hb
  -- the row it comes from
  have hzmem : (r', p) ∈ (condPure M (cnd.map Prod.fst) (cnd.map Prod.snd)).C.zip
      (condPure M (cnd.map Prod.fst) (cnd.map Prod.snd)).p := by
    rw [List.mem_iff_getElem?]
    exact ⟨irow, by rw [List.getElem?_zip_eq_some]; exact ⟨hr1, hp1⟩⟩
  have hzip : (condPure M (cnd.map Prod.fst) (cnd.map Prod.snd)).C.zip
      (condPure M (cnd.map Prod.fst) (cnd.map Prod.snd)).p =
      ((M.C.zip M.p).filter fun cp => (checkList M.getNames (cnd.map Prod.fst)
        (cnd.map Prod.snd)).all fun t => rowTest t cp.1).map
          fun cp => (condRow (checkList M.getNames (cnd.map Prod.fst) (cnd.map Prod.snd)) cp.1, cp.2) :=
    zip_filter_map _ _ _ _ hM.pLen
  rw [hzip] at hzmem
  obtain ⟨⟨r, p2⟩, hrp, heq⟩ := List.mem_map.1 hzmem
  simp only [Prod.mk.injEq] at heq
  obtain ⟨rfl, rfl⟩ := heq
  rw [List.mem_filter, List.all_eq_true] at hrp
  obtain ⟨hrz, htest⟩ := hrp
  have hrC : r ∈ M.C := (List.of_mem_zip hrz).1
  refine ⟨r, hrz, hpos, ?_, ?_⟩
  · -- the child columns are untouched
    have htake : (condRow (checkList M.getNames (cnd.map Prod.fst) (cnd.map Prod.snd)) r).take
        M.noChild = r.take M.noChild := by
      apply List.ext_getElem?
      intro j
      rw [List.getElem?_take, List.getElem?_take]
      by_cases hj : j < M.noChild
      · rw [if_pos hj, if_pos hj]
        have hjl : j < M.vars.length := lt_of_lt_of_le hj hM.child
        have hjr : j < r.length := by rw [hM.rowLen r hrC]; exact hjl
        have hjr' : j < (condRow (checkList M.getNames (cnd.map Prod.fst)
            (cnd.map Prod.snd)) r).length := by rw [condRow_length]; exact hjr
        have hjn : j < M.getNames.length := by simpa [Cpm.getNames] using hjl
        have hnc : M.getNames[j] ∉ (checkList M.getNames (cnd.map Prod.fst)
            (cnd.map Prod.snd)).map (fun t => t.1.1.name) := by
          intro hc
          obtain ⟨t, ht, hte⟩ := List.mem_map.1 hc
          obtain ⟨h1, h2, -⟩ := mem_checkList.1 ht
          rw [hz] at h1
          obtain ⟨h3, h4⟩ := hmem _ h1
          have h5 := zip_val hn h3
          have hcn : M.getNames[j] ∈ childNames M := by
            unfold childNames
            rw [List.mem_iff_getElem?]
            refine ⟨j, ?_⟩
            rw [List.getElem?_map, List.getElem?_take, if_pos hj]
            rw [List.getElem?_eq_getElem hjl]
            simp [Cpm.getNames]
          have h6 := hch _ hcn
          rw [hte, h6] at h5
          omega
        have hval := (condRow_val hM he hnd hrC).2 _ hnc
        have hnn : M.getNames.Nodup := hM.nodup
        rw [getD_eq_val hnn _ hjn, getD_eq_val hnn _ hjn] at hval
        rw [List.getElem?_eq_getElem hjr, List.getElem?_eq_getElem hjr']
        rw [List.getD_eq_getElem _ _ hjr, List.getD_eq_getElem _ _ hjr'] at hval
        rw [hval]
      · rw [if_neg hj, if_neg hj]
    rw [← htake]; exact ha
  · intro v hv hvv hpos'
    have hvz := val_zip hn hl hvv
    set s := val (vars.map Variable.name) sample v.name with hs
    have hsl := hst _ hvz hpos'
    have hvc : (v, s) ∈ cnd := by
      rw [hcnd, List.mem_filter, decide_eq_true_iff]; exact ⟨hvz, hpos'⟩
    have hname : v.name ∈ M.getNames := List.mem_map_of_mem hv
    have ht : ((v, s), M.getNames.idxOf v.name) ∈
        checkList M.getNames (cnd.map Prod.fst) (cnd.map Prod.snd) :=
      mem_checkList.2 ⟨by rw [hz]; exact hvc, hname, rfl⟩
    have := htest _ ht
    unfold rowTest at this
    rw [decide_eq_true_iff] at this
    obtain ⟨b, hb⟩ := this
    rw [Finset.mem_inter] at hb
    simp only at hb
    rw [stateSet_basic (hM.table v hv) hsl, Finset.mem_singleton] at hb
    obtain ⟨rfl, hb⟩ := hb
    exact hb

theorem foldl_set_block (s1 s2 s3 vals : List ℕ) (h : vals.length = s2.length) :
    ((List.range' s1.length vals.length).zip vals).foldl (fun s jv => s.set jv.1 jv.2)
      (s1 ++ s2 ++ s3) = s1 ++ vals ++ s3 := by
  induction vals generalizing s1 s2 with
  | nil =>
    have : s2 = [] := List.length_eq_zero_iff.1 h.symm
    simp [this]
  | cons v vals ih =>
    cases s2 with
    | nil => simp at h
    | cons a s2 =>
      rw [List.length_cons, List.range'_succ, List.zip_cons_cons, List.foldl_cons]
      have hset : (s1 ++ a :: s2 ++ s3).set s1.length v = (s1 ++ [v]) ++ s2 ++ s3 := by simp
      have := ih (s1 ++ [v]) s2 (by simpa using h)
      rw [List.length_append, List.length_singleton] at this
      simp only [hset]
      rw [this]
      simp

theorem assignAt_block {a1 a3 : List ℕ} {i : ℕ} (s1 s2 s3 vals : List ℕ)
    (h1 : i ∉ a1) (h3 : i ∉ a3) (l1 : s1.length = a1.length) (l2 : s2.length = vals.length)
    (l3 : s3.length = a3.length) :
    assignAt (a1 ++ vals.map (fun _ => i) ++ a3) i vals (s1 ++ s2 ++ s3) =
      .ok (s1 ++ vals ++ s3) := by
  have hpos : (List.range (a1 ++ vals.map (fun _ => i) ++ a3).length).filter
      (fun j => decide ((a1 ++ vals.map (fun _ => i) ++ a3)[j]? = some i)) =
      List.range' s1.length vals.length := by
    rw [List.length_append, List.length_append, List.length_map, List.range_add, List.range_add,
      List.filter_append, List.filter_append]
    have f1 : (List.range a1.length).filter
        (fun j => decide ((a1 ++ vals.map (fun _ => i) ++ a3)[j]? = some i)) = [] := by
      rw [List.filter_eq_nil_iff]
      intro j hj
      rw [List.mem_range] at hj
      rw [decide_eq_true_iff, List.append_assoc, List.getElem?_append_left hj]
      intro hc
      exact h1 (List.mem_of_getElem? hc)
    have f2 : ((List.range vals.length).map (a1.length + ·)).filter
        (fun j => decide ((a1 ++ vals.map (fun _ => i) ++ a3)[j]? = some i)) =
        List.range' s1.length vals.length := by
      rw [List.filter_eq_self.2, l1, List.range'_eq_map_range]
      intro j hj
      obtain ⟨b, hb, rfl⟩ := List.mem_map.1 hj
      rw [List.mem_range] at hb
      rw [decide_eq_true_iff, List.append_assoc, List.getElem?_append_right (by omega),
        List.getElem?_append_left (by simp; omega), List.getElem?_map,
        List.getElem?_eq_getElem (by omega)]
      rfl
    have f3 : ((List.range a3.length).map (a1.length + vals.length + ·)).filter
        (fun j => decide ((a1 ++ vals.map (fun _ => i) ++ a3)[j]? = some i)) = [] := by
      rw [List.filter_eq_nil_iff]
      intro j hj
      obtain ⟨b, hb, rfl⟩ := List.mem_map.1 hj
      rw [decide_eq_true_iff, List.getElem?_append_right (by simp)]
      intro hc
      exact h3 (List.mem_of_getElem? hc)
    rw [f1, f2, f3]
    simp
  unfold assignAt
  rw [if_neg (by simp [l1, l2, l3])]
  simp only [hpos, List.length_range', if_true]
  rw [foldl_set_block _ _ _ _ l2.symm]

theorem foldl_set_length {α : Type} (l : List α) (f : α → ℕ) (g : α → ℕ) (s : List ℕ) :
    (l.foldl (fun s a => s.set (f a) (g a)) s).length = s.length := by
  induction l generalizing s with
  | nil => rfl
  | cons a l ih => rw [List.foldl_cons, ih, List.length_set]

theorem assignAt_length {a : List ℕ} {i : ℕ} {vals s s' : List ℕ}
    (h : assignAt a i vals s = .ok s') : s'.length = s.length := by
  unfold assignAt at h
  split at h
  · cases h
  simp only at h
  split at h
  · cases h
    exact foldl_set_length _ Prod.fst Prod.snd s
  · split at h
    · cases h
      exact foldl_set_length _ id _ s
    · cases h

theorem sampleLoop_length (vars : List (Variable K)) (a : List ℕ) (L : List (ℕ × Cpm K)) :
    ∀ (i : ℕ) (draws sample s : List ℕ) (ps : List ℚ),
      sampleLoop vars a i L draws sample = .ok (s, ps) → s.length = sample.length := by
  induction L with
  | nil =>
    intro i draws sample s ps h
    simp only [sampleLoop, Except.ok.injEq, Prod.mk.injEq] at h
    rw [h.1]
  | cons jM L ih =>
    intro i draws sample s ps h
    obtain ⟨j, M⟩ := jM
    cases draws with
    | nil => simp [sampleLoop] at h
    | cons d ds =>
      rw [sampleLoop] at h
      obtain ⟨⟨s1, p⟩, h1, h⟩ := bind_ok.1 h
      obtain ⟨⟨s2, ps'⟩, h2, h⟩ := bind_ok.1 h
      simp only [pure_ok, Except.ok.injEq, Prod.mk.injEq] at h
      obtain ⟨rfl, rfl⟩ := h
      rw [ih _ _ _ _ _ h2]
      unfold sampleOne at h1
      simp only at h1
      obtain ⟨M', -, h1⟩ := bind_ok.1 h1
      split at h1
      · split at h1
        · obtain ⟨s3, h3, h1⟩ := bind_ok.1 h1
          simp only [pure_ok, Except.ok.injEq, Prod.mk.injEq] at h1
          obtain ⟨rfl, rfl⟩ := h1
          exact assignAt_length h3
        · cases h1
      · cases h1

theorem dens_of_row {M : Cpm K} (hd : RowsDisjoint M) {r : List ℕ} {p : ℚ} {x : K → ℕ}
    (h : (r, p) ∈ M.C.zip M.p) (hm : RowMatches M.vars r x) : dens M x = p := by
  unfold dens
  unfold RowsDisjoint at hd
  generalize M.C = C at *
  generalize M.p = P at *
  induction C generalizing P with
  | nil => simp at h
  | cons c C ih =>
    cases P with
    | nil => simp at h
    | cons q P =>
      rw [List.pairwise_cons] at hd
      rw [List.zip_cons_cons, List.mem_cons] at h
      rw [List.zip_cons_cons, List.map_cons, List.sum_cons]
      rcases h with h | h
      · simp only [Prod.mk.injEq] at h
        obtain ⟨rfl, rfl⟩ := h
        rw [if_pos hm]
        have : ((C.zip P).map fun cp => if RowMatches M.vars cp.1 x then cp.2 else 0).sum = 0 := by
          apply List.sum_eq_zero
          intro y hy
          obtain ⟨cp, hcp, rfl⟩ := List.mem_map.1 hy
          rw [if_neg]
          exact fun hc => hd.1 _ (List.of_mem_zip hcp).1 x ⟨hm, hc⟩
        rw [this, add_zero]
      · rw [if_neg (fun hc => hd.1 _ (List.of_mem_zip h).1 x ⟨hc, hm⟩), zero_add, ih hd.2 _ h]

/-- The order of `get_sample_order` when parents come first. -/
theorem getSampleOrder_parentsFirst {cpms : List (Cpm K)} (h : ParentsFirst cpms)
    (hn : ((cpms.flatMap fun M => M.vars.take M.noChild).map Variable.name).Nodup) :
    getSampleOrder cpms = { order := List.range cpms.length
                            vars := cpms.flatMap fun M => M.vars.take M.noChild
                            addOrder := cpms.zipIdx.flatMap fun p =>
                              (p.1.vars.take p.1.noChild).map fun _ => p.2 } := by
  have : ∀ n, n ≤ cpms.length → (List.range n).foldl (fun st i => sampleStep i st.1 st.2)
        (cpms.zip (List.range cpms.length), { order := [], vars := [], addOrder := [] }) =
      ((cpms.zip (List.range cpms.length)).drop n,
        { order := List.range n
          vars := (cpms.take n).flatMap fun M => M.vars.take M.noChild
          addOrder := (cpms.take n).zipIdx.flatMap fun p =>
            (p.1.vars.take p.1.noChild).map fun _ => p.2 }) := by
    intro n
    induction n with
    | zero => intro _; simp
    | succ n ih =>
      intro hle
      rw [List.range_succ, List.foldl_append, ih (by omega), List.foldl_cons, List.foldl_nil]
      have hlt : n < cpms.length := by omega
      have hzl : n < (cpms.zip (List.range cpms.length)).length := by simp [hlt]
      have hdrop : (cpms.zip (List.range cpms.length)).drop n =
          (cpms[n], n) :: (cpms.zip (List.range cpms.length)).drop (n + 1) := by
        rw [List.drop_eq_getElem_cons hzl]; simp
      have hsplit : cpms = cpms.take n ++ cpms[n] :: cpms.drop (n + 1) := by
        rw [List.getElem_cons_drop, List.take_append_drop]
      have htake : cpms.take (n + 1) = cpms.take n ++ [cpms[n]] := by
        rw [List.take_succ_eq_append_getElem hlt]
      have hidx : getProdIdx (((cpms.zip (List.range cpms.length)).drop n).map Prod.fst)
          ((cpms.take n).flatMap fun M => M.vars.take M.noChild) = some 0 := by
        rw [hdrop]
        unfold getProdIdx
        rw [List.map_cons, List.findIdx?_cons, if_pos]
        rw [List.all_eq_true]
        intro v hv
        rw [decide_eq_true_iff, List.map_flatMap, List.mem_flatMap]
        exact h _ _ _ hsplit v.name (List.mem_map_of_mem hv)
      unfold sampleStep
      rw [hdrop] at hidx
      simp only [hdrop]
      simp only [hidx, List.getElem?_cons_zero, List.eraseIdx_cons_zero]
      have hno : ¬ ((((cpms.take n).flatMap fun M => M.vars.take M.noChild).any fun v =>
          decide (v.name ∈ (cpms[n].vars.take cpms[n].noChild).map Variable.name)) = true) := by
        rw [List.any_eq_true]
        rintro ⟨v, hv, hv2⟩
        rw [decide_eq_true_iff] at hv2
        rw [hsplit, List.flatMap_append, List.flatMap_cons, List.map_append, List.map_append,
          List.nodup_append] at hn
        exact hn.2.2 v.name (List.mem_map_of_mem hv) v.name (List.mem_append_left _ hv2) rfl
      rw [if_neg hno, htake]
      simp only [List.flatMap_append, List.flatMap_cons, List.flatMap_nil, List.append_nil,
        List.zipIdx_append, List.zipIdx_cons, List.zipIdx_nil, Nat.zero_add, List.length_take,
        Nat.min_eq_left hlt.le]
  have := this cpms.length le_rfl
  unfold getSampleOrder
  rw [this]
  simp

/-- The remaining iterations of `single_sample`, from a state in which the variables of `done` have
their values and those of `rest` are still 0. -/
theorem sampleLoop_spec {cpms : List (Cpm K)} (hwf : ∀ M ∈ cpms, WF U M)
    (hcb : ∀ M ∈ cpms, ChildBasic M) (hdis : ∀ M ∈ cpms, RowsDisjoint M) (hpf : ParentsFirst cpms)
    (hn : ((cpms.flatMap fun M => M.vars.take M.noChild).map Variable.name).Nodup) :
    ∀ (rest done : List (Cpm K)) (L : List (ℕ × Cpm K)) (draws pre s : List ℕ) (ps : List ℚ),
      cpms = done ++ rest → L.map Prod.snd = rest →
      pre.length = (done.flatMap fun M => M.vars.take M.noChild).length →
      (∀ vs ∈ (done.flatMap fun M => M.vars.take M.noChild).zip pre,
        vs.2 < vs.1.values.length) →
      sampleLoop (cpms.flatMap fun M => M.vars.take M.noChild)
        (cpms.zipIdx.flatMap fun p => (p.1.vars.take p.1.noChild).map fun _ => p.2) done.length L
        draws (pre ++ (rest.flatMap fun M => M.vars.take M.noChild).map fun _ => 0) = .ok (s, ps) →
      (∀ M ∈ rest, ∀ v ∈ parentNames M,
        0 < val ((cpms.flatMap fun M => M.vars.take M.noChild).map Variable.name) s v) →
      (∃ post, s = pre ++ post ∧
        post.length = (rest.flatMap fun M => M.vars.take M.noChild).length) ∧
      ps = rest.map (fun M => dens M
        (val ((cpms.flatMap fun M => M.vars.take M.noChild).map Variable.name) s)) ∧
      ∀ p ∈ ps, 0 < p := by
  set ch : Cpm K → List (Variable K) := fun M => M.vars.take M.noChild with hch
  intro rest
  induction rest with
  | nil =>
    intro done L draws pre s ps hc hL hlen hst h _
    have : L = [] := List.map_eq_nil_iff.1 hL
    subst this
    simp only [List.flatMap_nil, List.map_nil, List.append_nil, sampleLoop, Except.ok.injEq,
      Prod.mk.injEq] at h
    obtain ⟨rfl, rfl⟩ := h
    exact ⟨⟨[], by simp⟩, rfl, by simp⟩
  | cons M rest ih =>
    intro done L draws pre s ps hc hL hlen hst h hpos
    obtain ⟨⟨j, M'⟩, L, rfl⟩ := List.exists_cons_of_ne_nil (l := L) (by rintro rfl; simp at hL)
    simp only [List.map_cons, List.cons.injEq] at hL
    obtain ⟨rfl, hL⟩ := hL
    have hMm : M' ∈ cpms := by rw [hc]; simp
    cases draws with
    | nil => simp [sampleLoop] at h
    | cons d ds =>
      rw [sampleLoop] at h
      obtain ⟨⟨s1, p⟩, h1, h⟩ := bind_ok.1 h
      obtain ⟨⟨s2, ps'⟩, h2, h⟩ := bind_ok.1 h
      simp only [pure_ok, Except.ok.injEq, Prod.mk.injEq] at h
      obtain ⟨rfl, rfl⟩ := h
      have hvars : cpms.flatMap ch = done.flatMap ch ++ (ch M' ++ rest.flatMap ch) := by
        rw [hc]; simp
      have hnn := hn
      rw [hvars, List.map_append, List.map_append, List.nodup_append] at hnn
      obtain ⟨n1, n2, n3⟩ := hnn
      have hslen : (pre ++ ((M' :: rest).flatMap ch).map fun _ => 0).length =
          (cpms.flatMap ch).length := by
        rw [hvars]
        simp only [List.length_append, List.length_map, List.flatMap_cons, hlen]
      -- values of the variables that are still 0
      have hzero : ∀ k, k ∉ (done.flatMap ch).map Variable.name →
          val ((cpms.flatMap ch).map Variable.name)
            (pre ++ ((M' :: rest).flatMap ch).map fun _ => 0) k = 0 := by
        intro k hk
        rw [hvars, List.map_append, val_append _ _ _ _ (by rw [List.length_map, hlen]), if_neg hk]
        unfold val
        rw [List.getD_eq_getElem?_getD, List.getElem?_map]
        generalize ((ch M' ++ rest.flatMap ch).map Variable.name).idxOf k = j
        cases ((M' :: rest).flatMap ch)[j]? <;> rfl
      have hchn : ∀ k ∈ childNames M', k ∉ (done.flatMap ch).map Variable.name := by
        intro k hk hk'
        exact n3 k hk' k (List.mem_append_left _ hk) rfl
      have henv : ∀ v ∈ cpms.flatMap ch, U v.name = v := by
        intro v hv
        obtain ⟨N, hN, hvN⟩ := List.mem_flatMap.1 hv
        exact (hwf N hN).env v (List.mem_of_mem_take hvN)
      obtain ⟨r, hrz, hp, ha, hpar⟩ := sampleOne_spec (hwf M' hMm) hn henv hslen (by
          intro vs hvs hv0
          rw [hvars, List.zip_append (by rw [hlen])] at hvs
          rcases List.mem_append.1 hvs with hvs | hvs
          · exact hst vs hvs
          · exfalso
            have := (List.of_mem_zip hvs).2
            obtain ⟨-, -, e⟩ := List.mem_map.1 this
            omega)
        (fun k hk => hzero k (hchn k hk)) h1
      have hrC := (List.of_mem_zip hrz).1
      have hrl : (r.take M'.noChild).length = (ch M').length := by
        rw [hch, List.length_take, List.length_take, (hwf M' hMm).rowLen r hrC]
      -- where the sampled states go
      have hs1 : s1 = (pre ++ r.take M'.noChild) ++ (rest.flatMap ch).map fun _ => 0 := by
        have hadd : cpms.zipIdx.flatMap (fun p => (ch p.1).map fun _ => p.2) =
            (done.zipIdx.flatMap fun p => (ch p.1).map fun _ => p.2) ++
            (r.take M'.noChild).map (fun _ => done.length) ++
            ((rest.zipIdx (done.length + 1)).flatMap fun p => (ch p.1).map fun _ => p.2) := by
          rw [hc, List.zipIdx_append, List.flatMap_append, List.zipIdx_cons, List.flatMap_cons,
            List.append_assoc, Nat.zero_add]
          congr 2
          rw [List.map_const', List.map_const', hrl]
        have hsamp : (pre ++ ((M' :: rest).flatMap ch).map fun _ => 0) =
            pre ++ ((ch M').map fun _ => 0) ++ (rest.flatMap ch).map fun _ => 0 := by simp
        rw [hadd, hsamp, assignAt_block] at ha
        · exact (Except.ok.inj ha).symm
        · intro hm
          obtain ⟨q, hq, hq2⟩ := List.mem_flatMap.1 hm
          obtain ⟨-, -, e⟩ := List.mem_map.1 hq2
          have := (List.mem_zipIdx hq).2.1
          omega
        · intro hm
          obtain ⟨q, hq, hq2⟩ := List.mem_flatMap.1 hm
          obtain ⟨-, -, e⟩ := List.mem_map.1 hq2
          have := (List.mem_zipIdx hq).1
          omega
        · rw [hlen]
          exact (zipIdx_flatMap_length ch _ 0).symm
        · rw [List.length_map, hrl]
        · rw [List.length_map]
          exact (zipIdx_flatMap_length ch _ _).symm
      rw [hs1] at h2
      have hst' : ∀ vs ∈ ((done ++ [M']).flatMap ch).zip (pre ++ r.take M'.noChild),
          vs.2 < vs.1.values.length := by
        intro vs hvs
        rw [List.flatMap_append, List.zip_append (by rw [hlen])] at hvs
        rcases List.mem_append.1 hvs with hvs | hvs
        · exact hst vs hvs
        · refine hcb M' hMm r hrC vs ?_
          simp only [List.flatMap_cons, List.flatMap_nil, List.append_nil] at hvs
          rw [List.mem_iff_getElem?] at hvs ⊢
          obtain ⟨i, hi⟩ := hvs
          refine ⟨i, ?_⟩
          rw [List.getElem?_zip_eq_some] at hi ⊢
          refine ⟨hi.1, ?_⟩
          have := hi.2
          rw [List.getElem?_take] at this
          split at this
          · exact this
          · cases this
      have h2' := ih (done ++ [M']) L ds (pre ++ r.take M'.noChild) s2 ps' (by rw [hc]; simp) hL
        (by rw [List.flatMap_append, List.length_append, List.length_append, hlen, hrl]; simp) hst'
        (by rw [List.length_append, List.length_singleton]; exact h2)
        (fun N hN => hpos N (List.mem_cons_of_mem _ hN))
      obtain ⟨⟨post, hs, hpl⟩, hps, hall⟩ := h2'
      refine ⟨⟨r.take M'.noChild ++ post, by rw [hs, List.append_assoc], by
        rw [List.length_append, hrl, hpl, List.flatMap_cons, List.length_append]⟩, ?_, ?_⟩
      · rw [List.map_cons, hps]
        congr 1
        symm
        refine dens_of_row (hdis M' hMm) hrz ?_
        have hM := hwf M' hMm
        rw [rowMatches_iff hM.nodup (hM.rowLen r hrC)]
        intro v hv
        have hdone : ∀ k ∈ (done.flatMap ch).map Variable.name,
            val ((cpms.flatMap ch).map Variable.name) s2 k =
            val ((cpms.flatMap ch).map Variable.name)
              (pre ++ ((M' :: rest).flatMap ch).map fun _ => 0) k := by
          intro k hk
          rw [hs, hvars, List.map_append, List.append_assoc,
            val_append _ _ _ _ (by rw [List.length_map, hlen]),
            val_append _ _ _ _ (by rw [List.length_map, hlen]), if_pos hk, if_pos hk]
        rw [← List.take_append_drop M'.noChild M'.vars, List.mem_append] at hv
        rcases hv with hv | hv
        · -- child
          have hkn : v.name ∈ childNames M' := List.mem_map_of_mem hv
          have hvm := List.mem_of_mem_take hv
          have e1 : val ((cpms.flatMap ch).map Variable.name) s2 v.name =
              val M'.getNames r v.name := by
            rw [hs, hvars, List.map_append, List.append_assoc,
              val_append _ _ _ _ (by rw [List.length_map, hlen]), if_neg (hchn _ hkn),
              List.map_append, val_append _ _ _ _ (by rw [hrl, List.length_map]),
              if_pos (show v.name ∈ (ch M').map Variable.name from hkn)]
            have hnames : M'.getNames = (ch M').map Variable.name ++ parentNames M' := by
              unfold Cpm.getNames parentNames
              rw [hch, ← List.map_append, List.take_append_drop]
            rw [hnames]
            conv_rhs => rw [← List.take_append_drop M'.noChild r]
            rw [val_append _ _ _ _ (by rw [hrl, List.length_map]),
              if_pos (show v.name ∈ (ch M').map Variable.name from hkn)]
          rw [e1]
          have hb := (child_forall_iff hM (fun v s => s < v.values.length)).1 (hcb M' hMm) r hrC
            v hv
          change val M'.getNames r v.name ∈ stateSet v (val M'.getNames r v.name)
          rw [stateSet_basic (hM.table v hvm) hb]
          exact Finset.mem_singleton_self _
        · -- parent
          have hkn : v.name ∈ parentNames M' := List.mem_map_of_mem hv
          have hvm := List.mem_of_mem_drop hv
          obtain ⟨N, hN, hvN⟩ := hpf done M' rest hc v.name hkn
          have hkd : v.name ∈ (done.flatMap ch).map Variable.name := by
            rw [List.map_flatMap]
            exact List.mem_flatMap.2 ⟨N, hN, hvN⟩
          have hp0 := hpos M' (by simp) v.name hkn
          rw [hdone _ hkd] at hp0 ⊢
          obtain ⟨w, hw, hwn⟩ := List.mem_map.1 hvN
          have hwU := (hwf N (by rw [hc]; simp [hN])).env w (List.mem_of_mem_take hw)
          have hvw : w = v := by rw [← hwU, ← hM.env v hvm, hwn]
          subst hvw
          have hwm : w ∈ cpms.flatMap ch := by
            rw [hvars]
            exact List.mem_append_left _ (List.mem_flatMap.2 ⟨N, hN, hw⟩)
          exact hpar w hvm hwm hp0
      · intro q hq
        rcases List.mem_cons.1 hq with rfl | hq
        · exact hp
        · exact hall q hq

end BNS
