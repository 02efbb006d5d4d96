import Verif.Proofs.BnbFns

/-!
# C40, C41, C58: the first branch and bound and its path problem
-/

namespace BNS

set_option linter.unusedSectionVars false

variable {K V R : Type} [DecidableEq K]

/-! ## C40: `run_bnb` -/

/-- For every system function that is monotone (or antitone) on the component vectors and all
admissible callbacks, `run_bnb` returns (in particular, it stops); every returned branch is complete,
is a non-empty box within the bounds, carries the state that all its vectors have and the values at
its two ends; and every component vector lies in exactly one branch, other vectors in none. -/
theorem C40_partition {sysFn : List ℕ → Except Err (SysOut V R)}
    {nextComp : List K → R → R → Except Err K} {nextState : K → ℕ → ℕ → R → R → Except Err ℕ}
    {arcs : List K} (hn : arcs.Nodup) {maxStates : List ℕ} (hm : maxStates.length = arcs.length)
    (h1 : ∀ m ∈ maxStates, 1 ≤ m) {f : List ℕ → ℕ}
    (hf : Computes sysFn maxStates f) (hc : BnbCoherent maxStates f)
    (ha : Admissible arcs maxStates nextComp nextState) :
    ∃ out, runBnb sysFn nextComp nextState arcs maxStates = .ok out ∧
      (∀ b ∈ out, b.complete = true ∧ b.names = arcs ∧ Between b.down b.up b.down ∧
        b.downState = b.upState ∧ (∀ x, Between b.down b.up x → f x = b.upState) ∧
        ∃ d u, sysFn b.down = .ok d ∧ sysFn b.up = .ok u ∧ b.downVal = some d.val ∧
          b.upVal = some u.val) ∧
      ∀ x, ohits out x =
        if Between (List.replicate maxStates.length 1) maxStates x then 1 else 0 := by
  obtain ⟨out, e, h2, h3⟩ := runBnb_ok hn hm h1 hf hc ha
  refine ⟨out, e, fun b hb => ?_, h3⟩
  obtain ⟨g1, g2, g3, g4, g5⟩ := h2 b hb
  exact ⟨g2, g1.names, ⟨rfl, fun i hi => ⟨le_rfl, (g1.le i (by rw [← g1.down]; exact hi)).2.1⟩⟩,
    g4, g5, g3⟩

/-- The bounds and the names differ in number: `AssertionError`. -/
theorem C40_lengths_raise (sysFn : List ℕ → Except Err (SysOut V R))
    (nextComp : List K → R → R → Except Err K) (nextState : K → ℕ → ℕ → R → R → Except Err ℕ)
    {arcs : List K} {maxStates : List ℕ} (hm : maxStates.length ≠ arcs.length) :
    runBnb sysFn nextComp nextState arcs maxStates = .error .assertion := by
  unfold runBnb OldBranch.new
  rw [List.length_replicate, if_neg (by simp), if_pos hm]
  rfl

/-- The system is undecided on the whole box and the callback names a component that does not exist:
`ValueError`. -/
theorem C40_foreign_component_raises {sysFn : List ℕ → Except Err (SysOut V R)}
    {nextComp : List K → R → R → Except Err K} (nextState : K → ℕ → ℕ → R → R → Except Err ℕ)
    {arcs : List K} {maxStates : List ℕ} (hm : maxStates.length = arcs.length)
    {d u : SysOut V R} (hd : sysFn (List.replicate maxStates.length 1) = .ok d)
    (hu : sysFn maxStates = .ok u) (hne : d.state ≠ u.state)
    (hc : ∀ cand, ∃ c, c ∉ arcs ∧ nextComp cand d.res u.res = .ok c) :
    runBnb sysFn nextComp nextState arcs maxStates = .error .value := by
  unfold runBnb OldBranch.new
  rw [List.length_replicate, if_neg (by simp), if_neg (by simpa using hm), ok_bind]
  obtain ⟨n, hn⟩ : ∃ n, 2 ^ (maxStates.sum + 1) = n + 1 :=
    ⟨2 ^ (maxStates.sum + 1) - 1, by have := Nat.one_le_two_pow (n := maxStates.sum + 1); omega⟩
  rw [hn, getIdxFrom_cons, if_pos rfl]
  unfold oldLoop
  simp only [pyGet, List.getElem?_cons_zero, ok_bind, hd, hu]
  rw [if_neg hne]
  obtain ⟨c, h1, h2⟩ := hc (candComps arcs
    (⟨List.replicate maxStates.length 1, maxStates, arcs, false, 1, 1, none, none⟩ : OldBranch K V))
  rw [h2, ok_bind, pyIndex_eq, if_neg h1]
  rfl

theorem path_computes {info : PathInfo K} (hi : InfoOK info) {maxStates : List ℕ}
    (hm : maxStates.length = info.arcs.length) :
    Computes (bnbSys info) maxStates fun x => info.path.findIdx (pathUp info x) := by
  intro x hx
  have hlen := (between_replicate.1 hx).1
  refine ⟨(bnbResult info x).val, (bnbResult info x).res, ?_⟩
  rw [bnbSys_eq hi (by omega)]
  congr 1
  have := bnbResult_state hi x
  simp only
  rw [← this]

/-- The functions of `bnb_fns.py` on two-state arcs meet all these conditions: `run_bnb` returns
complete branches, every vector of which has the branch's number as that of its first surviving path
in the list (the number of paths if none survives), and that partition all vectors of arc states. -/
theorem C40_path_problem {info : PathInfo K} (hi : InfoOK info) (h2 : info.maxState = 2) :
    ∃ out, runBnb (bnbSys info) (fun cand (_ _ : List K) => bnbNextComp info cand)
        (fun _ _ _ _ _ => .ok bnbNextState) info.arcs (List.replicate info.arcs.length 2) = .ok out ∧
      (∀ b ∈ out, b.complete = true ∧ b.names = info.arcs ∧
        ∀ x, Between b.down b.up x → info.path.findIdx (pathUp info x) = b.upState) ∧
      ∀ x, ohits out x =
        if x.length = info.arcs.length ∧ ∀ s ∈ x, s = 1 ∨ s = 2 then 1 else 0 := by
  obtain ⟨out, e, g1, g2⟩ := C40_partition hi.nodup (maxStates := List.replicate info.arcs.length 2)
    (by simp) (fun m hm => by rw [List.eq_of_mem_replicate hm]; omega)
    (path_computes hi (by simp))
    (.inr fun x y hy hxy => bnbState_anti hi (by rw [h2]) hy hxy)
    (bnb_admissible info fun m hm => by rw [List.eq_of_mem_replicate hm])
  refine ⟨out, e, fun b hb => ?_, fun x => ?_⟩
  · obtain ⟨a1, a2, -, -, a3, -⟩ := g1 b hb
    exact ⟨a1, a2, a3⟩
  · rw [g2]
    refine if_congr ?_ rfl rfl
    rw [between_replicate, List.length_replicate]
    refine and_congr_right fun hl => ?_
    rw [List.forall_mem_iff_getElem]
    refine ⟨fun h i hix => ?_, fun h i hix => ?_⟩
    · have := h i (by omega)
      simp only [List.getD_eq_getElem?_getD, List.getElem?_eq_getElem hix, List.getElem?_replicate,
        if_pos (by omega : i < info.arcs.length), Option.getD_some] at this
      omega
    · have hix' : i < x.length := by omega
      have := h i hix'
      simp only [List.getD_eq_getElem?_getD, List.getElem?_eq_getElem hix', List.getElem?_replicate,
        if_pos (by omega : i < info.arcs.length), Option.getD_some]
      omega

/-- One arc with three states. -/
def threeInfo : PathInfo ℕ := ⟨[[7]], [1], [7], 3⟩

/-- With three-state arcs the same functions do not stop: `bnb_next_state` is always 1, which is not
a cut of the interval from 2 to 3.  Whatever number of iterations is allowed, the loop is not done. -/
theorem C40_not_three_states (n : ℕ) :
    oldLoop (bnbSys threeInfo) (fun cand (_ _ : List ℕ) => bnbNextComp threeInfo cand)
      (fun _ _ _ _ _ => .ok bnbNextState) [7] n
      [⟨[1], [3], [7], false, 1, 1, none, none⟩] [0] = .error .fuel := by
  have d1 : bnbSys threeInfo [1] = .ok ⟨1, none, []⟩ := by decide +kernel
  have d2 : bnbSys threeInfo [2] = .ok ⟨1, none, []⟩ := by decide +kernel
  have d3 : bnbSys threeInfo [3] = .ok ⟨0, some 1, [7]⟩ := by decide +kernel
  have hnc : bnbNextComp threeInfo [7] = .ok 7 := by decide +kernel
  have key : ∀ n (pre : List (OldBranch ℕ (Option ℚ))), (∀ b ∈ pre, b.complete = true) →
      oldLoop (bnbSys threeInfo) (fun cand (_ _ : List ℕ) => bnbNextComp threeInfo cand)
        (fun _ _ _ _ _ => .ok bnbNextState) [7] n
        (pre ++ [⟨[2], [3], [7], false, 1, 1, none, none⟩]) [pre.length] = .error .fuel := by
    intro n
    induction n using Nat.strong_induction_on with
    | _ n ih =>
      intro pre hpre
      cases n with
      | zero => rfl
      | succ n =>
        unfold oldLoop
        rw [pyGet_mid, ok_bind, d2, ok_bind, d3, ok_bind]
        simp only [Nat.one_ne_zero, if_false]
        have hcand : candComps [7] (⟨[2], [3], [7], false, 1, 1, none, none⟩ :
            OldBranch ℕ (Option ℚ)) = [7] := by decide +kernel
        rw [hcand, hnc, ok_bind, eraseIdx_mid, List.append_nil]
        have hidx : pyIndex [7] 7 = .ok 0 := by decide +kernel
        rw [hidx, ok_bind]
        simp only [pyGet, List.getElem?_cons_zero, ok_bind, bnbNextState, List.set_cons_zero]
        cases n with
        | zero => rfl
        | succ n =>
          rw [getIdxFrom_append, getIdxFrom_eq_nil.2 hpre, List.nil_append, getIdxFrom_cons,
            if_pos rfl, getIdxFrom_cons, if_pos rfl]
          simp only [Nat.zero_add]
          unfold oldLoop
          rw [pyGet_mid, ok_bind, d2, ok_bind, d1, ok_bind]
          simp only [if_true]
          rw [set_mid]
          have := ih n (by omega) (pre ++ [⟨[2], [1], [7], true, 1, 1, some none, some none⟩])
            (by
              intro b hb
              rw [List.mem_append, List.mem_singleton] at hb
              rcases hb with hb | rfl
              · exact hpre b hb
              · rfl)
          rw [List.append_assoc, List.length_append] at this
          exact this
  cases n with
  | zero => rfl
  | succ n =>
    unfold oldLoop
    simp only [pyGet, List.getElem?_cons_zero, ok_bind, d1, d3, Nat.one_ne_zero, if_false]
    have hcand : candComps [7] (⟨[1], [3], [7], false, 1, 1, none, none⟩ :
        OldBranch ℕ (Option ℚ)) = [7] := by decide +kernel
    have hidx : pyIndex [7] 7 = .ok 0 := by decide +kernel
    rw [hcand, hnc, ok_bind, hidx, ok_bind]
    simp only [List.getElem?_cons_zero, ok_bind, bnbNextState, List.set_cons_zero]
    cases n with
    | zero => rfl
    | succ n =>
      have h0 : getIdxFrom 0 ([⟨[1], [1], [7], false, 1, 1, none, none⟩,
          ⟨[2], [3], [7], false, 1, 1, none, none⟩] : List (OldBranch ℕ (Option ℚ))) false =
          [0, 1] := by decide +kernel
      simp only [List.eraseIdx_cons_zero, List.nil_append, Nat.reduceAdd]
      rw [h0]
      unfold oldLoop
      simp only [pyGet, List.getElem?_cons_zero, ok_bind, d1, if_true, List.set_cons_zero]
      exact key n [⟨[1], [1], [7], true, 1, 1, some none, some none⟩] (by simp)

/-! ## C41: the event matrix -/

/-- `get_cmat` on complete branches whose intervals are single states wherever the component has more
than two states: one row per complete branch, in order; it starts with the branch's state and its
other columns match the component states `y` of the network exactly when the vector they stand for
(shifted by one, or counted from the other end) is in the box.
Missing for the full claim: proper intervals of components with three or more states (see
`C41_not_three_states`). -/
theorem C41_rows_partial {vars : List (Variable K)}
    (hv : ∀ v ∈ vars, v.B = some (genB v.values.length)) {brs : List (OldBranch K V)}
    (hne : ∃ b ∈ brs, b.complete = true)
    (hb : ∀ b ∈ brs, b.complete = true → OldEncodable vars b) (flag : Bool) :
    ∃ C, oldCmat brs vars flag = .ok C ∧
      List.Forall₂ (fun b r => ∃ cs, r = b.upState :: cs ∧ cs.length = vars.length ∧
        ∀ y : K → ℕ, RowMatches vars cs y ↔
          Between b.down b.up (vars.map fun v => bnbStateOf flag v.values.length (y v.name)))
        (brs.filter fun b => b.complete) C := by
  obtain ⟨C, e1, e2⟩ := oldCmat_ok hv hne hb flag
  refine ⟨C, e1, e2.imp ?_⟩
  rintro b r ⟨cs, h1, h2, -, h4⟩
  exact ⟨cs, h1, h2, h4⟩

/-- No complete branch: `IndexError`. -/
theorem C41_none_complete_raises (vars : List (Variable K)) {brs : List (OldBranch K V)}
    (h : ∀ b ∈ brs, b.complete = false) (flag : Bool) :
    oldCmat brs vars flag = .error .index := by
  have : (brs.filter fun b => b.complete) = [] := by
    rw [List.filter_eq_nil_iff]
    intro b hb
    simp [h b hb]
  unfold oldCmat
  rw [this]
  rfl

/-- A proper interval of a variable whose table is not stored: `TypeError`. -/
theorem C41_not_stored_raises {v : Variable K} (hB : v.B = none) {down up : ℕ} (h1 : 1 ≤ down)
    (h2 : down < up) (h3 : up ≤ v.values.length) (names : List K) (s : ℕ) (val : Option V)
    (flag : Bool) :
    oldCmat [⟨[down], [up], names, true, s, s, val, val⟩] [v] flag = .error .type := by
  have : oldCol v down up flag = .error .type := by
    unfold oldCol
    simp only [hB]
    rw [if_neg (by split <;> omega)]
  unfold oldCmat
  simp only [List.filter_cons_of_pos, List.filter_nil, pyGet, List.getElem?_cons_zero, ok_bind,
    List.length_singleton, List.range_one, List.mapM_cons, this, error_bind]

/-- A variable with three states and a complete table. -/
def oldV3 : Variable ℕ := ⟨7, [0, 1, 2], some (genB 3)⟩

/-- The branch of all three states: the row only matches the lowest one. -/
theorem C41_not_three_states :
    ∃ C, oldCmat [(⟨[1], [3], [7], true, 5, 5, none, none⟩ : OldBranch ℕ ℚ)] [oldV3] true = .ok C ∧
      C = [[5, 0]] ∧ Between [1] [3] ([oldV3].map fun v => bnbStateOf true v.values.length 2) ∧
      ¬ RowMatches [oldV3] [0] (fun _ => 2) := by
  refine ⟨[[5, 0]], ?_, rfl, ?_, ?_⟩
  · decide +kernel
  · decide +kernel
  · unfold RowMatches
    simp only [List.zip_cons_cons, List.zip_nil_left, List.mem_singleton, forall_eq]
    decide +kernel

/-- `run_bnb` and `get_cmat` on a path problem with two-state arcs: every vector of arc states of the
network matches exactly one row, whose first entry is the number of its first surviving path.  With
`flag` the surviving state is 1, without it is 0. -/
theorem C41_path_problem {info : PathInfo K} (hi : InfoOK info) (h2 : info.maxState = 2)
    {vars : List (Variable K)} (hvn : vars.map Variable.name = info.arcs)
    (hv : ∀ v ∈ vars, v.B = some (genB v.values.length) ∧ v.values.length = 2) (flag : Bool) :
    ∃ out C, runBnb (bnbSys info) (fun cand (_ _ : List K) => bnbNextComp info cand)
        (fun _ _ _ _ _ => .ok bnbNextState) info.arcs (List.replicate info.arcs.length 2) = .ok out ∧
      oldCmat out vars flag = .ok C ∧
      ∀ y : K → ℕ, (∀ a ∈ info.arcs, y a < 2) →
        ∃ r, (C.filter fun r => decide (RowMatches vars r.tail y)) = [r] ∧
          r.head? = some (info.path.findIdx fun p =>
            p.all fun e => decide (y e = if flag then 1 else 0)) := by
  obtain ⟨out, e, g1, g2⟩ := runBnb_ok hi.nodup (maxStates := List.replicate info.arcs.length 2)
    (by simp) (fun m hm => by rw [List.eq_of_mem_replicate hm]; omega)
    (path_computes hi (by simp))
    (.inr fun x y hy hxy => bnbState_anti hi (by rw [h2]) hy hxy)
    (bnb_admissible info fun m hm => by rw [List.eq_of_mem_replicate hm])
  have hlen : vars.length = info.arcs.length := by rw [← hvn]; simp
  have hall : (out.filter fun b => b.complete) = out := by
    rw [List.filter_eq_self]
    exact fun b hb => (g1 b hb).2.1
  have hne : ∃ b ∈ out, b.complete = true := by
    have h1 := g2 (List.replicate info.arcs.length 1)
    rw [if_pos] at h1
    · obtain ⟨b, hb, -⟩ := List.countP_pos_iff.1 (by unfold ohits at h1; rw [h1]; exact Nat.one_pos)
      exact ⟨b, hb, (g1 b hb).2.1⟩
    · rw [between_replicate]
      refine ⟨by simp, fun i hix => ?_⟩
      rw [List.length_replicate] at hix
      simp only [List.getD_eq_getElem?_getD, List.getElem?_replicate, if_pos hix, Option.getD_some]
      omega
  obtain ⟨C, e1, e2⟩ := oldCmat_ok (vars := vars) (fun v h => (hv v h).1) hne
    (fun b hb _ => by
      obtain ⟨k1, -⟩ := g1 b hb
      refine ⟨by rw [k1.down, hlen], by rw [k1.up, hlen], fun i v hiv => ?_⟩
      obtain ⟨hil, rfl⟩ := List.getElem?_eq_some_iff.1 hiv
      have := k1.le i (by omega)
      have hv2 := (hv _ (List.getElem_mem hil)).2
      simp only [List.getD_eq_getElem?_getD (l := List.replicate info.arcs.length 2),
        List.getElem?_replicate, if_pos (by omega : i < info.arcs.length), Option.getD_some] at this
      omega) flag
  refine ⟨out, C, e, e1, fun y hy => ?_⟩
  rw [hall] at e2
  set x := vars.map fun v => bnbStateOf flag v.values.length (y v.name) with hx
  have hxi : ∀ i (h : i < info.arcs.length), x.getD i 0 = if flag then y info.arcs[i] + 1
      else 2 - y info.arcs[i] := by
    intro i h
    have h' : i < vars.length := by omega
    have hname : vars[i].name = info.arcs[i] := by
      simp only [← hvn, List.getElem_map]
    rw [hx, List.getD_eq_getElem?_getD, List.getElem?_map, List.getElem?_eq_getElem h']
    simp only [Option.map_some, Option.getD_some]
    rw [(hv _ (List.getElem_mem h')).2, hname]
    rfl
  have hh : ohits out x = 1 := by
    rw [g2, if_pos]
    rw [between_replicate, List.length_replicate]
    refine ⟨by rw [hx, List.length_map, hlen], fun i hix => ?_⟩
    have := hy _ (List.getElem_mem hix)
    rw [hxi i hix, List.getD_eq_getElem?_getD, List.getElem?_replicate, if_pos hix,
      Option.getD_some]
    split <;> omega
  have hup : pathUp info x = fun p => p.all fun e => decide (arcState info.arcs x e = 2) := by
    funext p; unfold pathUp; rw [h2]
  have hstate : info.path.findIdx (pathUp info x) =
      info.path.findIdx fun p => p.all fun e => decide (y e = if flag then 1 else 0) := by
    rw [hup]
    have key : ∀ p ∈ info.path, (p.all fun e => decide (arcState info.arcs x e = 2)) =
        p.all fun e => decide (y e = if flag then 1 else 0) := by
      intro p hp
      rw [Bool.eq_iff_iff, List.all_eq_true, List.all_eq_true]
      refine forall₂_congr fun e he => ?_
      have hea := hi.path p hp e he
      have hlt := List.idxOf_lt_length_of_mem hea
      rw [decide_eq_true_eq, decide_eq_true_eq]
      unfold arcState
      rw [hxi _ hlt, List.getElem_idxOf]
      have := hy e hea
      split <;> omega
    refine le_antisymm (findIdx_le_of_imp fun p hp h => ?_) (findIdx_le_of_imp fun p hp h => ?_)
    · rw [key p hp]; exact h
    · rw [← key p hp]; exact h
  have key : ∀ (bs : List (OldBranch K (Option ℚ))) (rs : List (List ℕ)),
      (∀ b ∈ bs, b ∈ out) →
      List.Forall₂ (OldRowOf vars flag) bs rs → ohits bs x = 1 →
      ∃ r, (rs.filter fun r => decide (RowMatches vars r.tail y)) = [r] ∧
        r.head? = some (info.path.findIdx (pathUp info x)) := by
    intro bs rs hbs hfor
    have hz : ∀ {bs : List (OldBranch K (Option ℚ))} {rs : List (List ℕ)},
        List.Forall₂ (OldRowOf vars flag) bs rs → ohits bs x = 0 →
        (rs.filter fun r => decide (RowMatches vars r.tail y)) = [] := by
      intro bs rs hfor
      induction hfor with
      | nil => intro _; rfl
      | cons hbr _ ih =>
        obtain ⟨cs, rfl, -, -, h4⟩ := hbr
        rw [ohits_cons]
        intro h0
        rename_i b bs rs _
        have hnb : ¬ Between b.down b.up x := fun h => by rw [if_pos h] at h0; omega
        rw [List.filter_cons_of_neg, ih (by omega)]
        simpa [h4 y] using hnb
    induction hfor with
    | nil => intro h; cases h
    | cons hbr hrest ih =>
      obtain ⟨cs, rfl, -, -, h4⟩ := hbr
      rename_i b bs rs
      rw [ohits_cons]
      intro h1
      by_cases hb : Between b.down b.up x
      · rw [if_pos hb] at h1
        refine ⟨b.upState :: cs, ?_, ?_⟩
        · rw [List.filter_cons_of_pos (by simpa [h4 y] using hb), hz hrest (by omega)]
        · have h5 : info.path.findIdx (pathUp info x) = b.upState :=
            (g1 b (hbs b (by simp))).2.2.2.2 x hb
          rw [h5]
          rfl
      · rw [if_neg hb] at h1
        obtain ⟨r, k1, k2⟩ := ih (fun b h => hbs b (by simp [h])) (by omega)
        refine ⟨r, ?_, k2⟩
        rw [List.filter_cons_of_neg (by simpa [h4 y] using hb), k1]
  rw [← hstate]
  exact key out C (fun _ h => h) e2 hh

/-! ## C58: `bnb_sys` -/

/-- If the times are in increasing order, `bnb_sys` returns the time of the fastest surviving path
(infinity if none), the number of a path that survives and has this time, and that path; the number
of paths if none survives.
Missing for the full claim: lists of paths in another order (see `C58_not_unsorted`). -/
theorem C58_fastest_partial {info : PathInfo K} (hi : InfoOK info)
    (hne : ∀ p ∈ info.path, p ≠ []) (hs : info.time.Pairwise (· ≤ ·)) {x : List ℕ}
    (hx : x.length = info.arcs.length) :
    ∃ out, bnbSys info x = .ok out ∧
      TravelTime (info.path.zip (info.time.map some)) (arcState info.arcs x) info.maxState out.val ∧
      (out.val = none → out.state = info.time.length) ∧
      ∀ t, out.val = some t → info.time[out.state]? = some t ∧
        info.path[out.state]? = some out.res ∧ Surv (arcState info.arcs x) info.maxState out.res := by
  refine ⟨_, bnbSys_eq hi hx, ?_⟩
  have hsurv : ∀ p ∈ info.path, pathUp info x p = true ↔
      Surv (arcState info.arcs x) info.maxState p := by
    intro p hp
    unfold pathUp Surv
    rw [List.all_eq_true]
    simp only [decide_eq_true_eq]
    exact ⟨fun h => ⟨hne p hp, h⟩, fun h => h.2⟩
  have hmem : ∀ pt ∈ info.path.zip (info.time.map some), ∃ (i : ℕ) (h : i < info.path.length)
      (h' : i < info.time.length), pt = (info.path[i], some info.time[i]) := by
    intro pt hpt
    obtain ⟨i, h1, h2⟩ := List.mem_iff_getElem.1 hpt
    have hi1 : i < info.path.length := by simp at h1; omega
    have hi2 : i < info.time.length := by simp at h1; omega
    exact ⟨i, hi1, hi2, by rw [← h2]; simp⟩
  unfold bnbResult
  rw [hs.insertionSort_eq]
  cases hk : info.path.findIdx? (pathUp info x) with
  | none =>
    simp only [reduceCtorEq, false_implies, implies_true, and_true]
    rw [List.findIdx?_eq_none_iff] at hk
    refine ⟨⟨fun _ p hp h => ?_, fun _ => rfl⟩, by simp, fun p hp h => ?_⟩
    all_goals
      obtain ⟨i, h1, h2, rfl⟩ := hmem p hp
      have := (hsurv _ (List.getElem_mem h1)).2 h
      rw [hk _ (List.getElem_mem h1)] at this
      cases this
  | some k =>
    obtain ⟨hkl, hk1, hk2⟩ := List.findIdx?_eq_some_iff_getElem.1 hk
    have hkt : k < info.time.length := by rw [← hi.len]; exact hkl
    simp only [List.getD_eq_getElem?_getD, List.getElem?_eq_getElem hkl,
      List.getElem?_eq_getElem hkt, Option.getD_some, reduceCtorEq, false_implies, true_and,
      Option.some.injEq, true_and]
    have hks := (hsurv _ (List.getElem_mem hkl)).1 hk1
    have hkm : (info.path[k], some info.time[k]) ∈ info.path.zip (info.time.map some) := by
      refine List.mem_iff_getElem.2 ⟨k, by simp; omega, by simp⟩
    refine ⟨⟨⟨by simp, fun h => absurd hks (h _ hkm)⟩, fun _ => ⟨_, hkm, hks, rfl⟩,
      fun p hp h => ?_⟩, fun t ht => ⟨ht, hks⟩⟩
    obtain ⟨i, h1, h2, rfl⟩ := hmem p hp
    have hi1 := (hsurv _ (List.getElem_mem h1)).2 h
    have hle : k ≤ i := by
      by_contra hlt
      have := hk2 i (by omega)
      rw [hi1] at this
      exact this rfl
    unfold timeLe
    simp only
    rcases Nat.eq_or_lt_of_le hle with rfl | hlt
    · exact le_rfl
    · exact List.pairwise_iff_getElem.1 hs k i hkt h2 hlt

/-- The order of the paths matters: the slower path comes first in the list, both survive; the code
returns the slower path with the time of the faster one. -/
theorem C58_not_unsorted :
    InfoOK (⟨[[1], [2]], [5, 3], [1, 2], 2⟩ : PathInfo ℕ) ∧
    bnbSys (⟨[[1], [2]], [5, 3], [1, 2], 2⟩ : PathInfo ℕ) [2, 2] = .ok ⟨0, some 3, [1]⟩ := by
  refine ⟨⟨by decide, rfl, by decide⟩, by decide +kernel⟩

/-- Whatever the order: the state is the number of the first path of the list that survives. -/
theorem C58_first_in_list {info : PathInfo K} (hi : InfoOK info) {x : List ℕ}
    (hx : x.length = info.arcs.length) :
    ∃ out, bnbSys info x = .ok out ∧
      ((∀ p ∈ info.path, pathUp info x p = false) → out.state = info.path.length) ∧
      ∀ pre p post, info.path = pre ++ p :: post → pathUp info x p = true →
        (∀ q ∈ pre, pathUp info x q = false) → out.state = pre.length ∧ out.res = p := by
  refine ⟨_, bnbSys_eq hi hx, fun h => ?_, fun pre p post he h1 h2 => ?_⟩
  · unfold bnbResult
    rw [List.findIdx?_eq_none_iff.2 h]
    exact hi.len.symm
  · have : info.path.findIdx? (pathUp info x) = some pre.length := by
      rw [he, List.findIdx?_append, List.findIdx?_eq_none_iff.2 h2, List.findIdx?_cons, if_pos h1]
      simp
    unfold bnbResult
    rw [this]
    simp [he]

/-- Fewer paths than times: `IndexError`. -/
theorem C58_missing_path_raises {info : PathInfo K} (h : info.path.length < info.time.length)
    (x : List ℕ) : bnbSys info x = .error .index := by
  unfold bnbSys
  simp only
  rw [argsort_sorted (List.pairwise_insertionSort _ _), List.length_insertionSort]
  have : (List.range info.time.length).mapM (fun i => pyGet info.path i) = Except.error .index := by
    refine mapM_error ⟨info.path.length, List.mem_range.2 h, by simp [pyGet]⟩ fun i _ e he => ?_
    unfold pyGet at he
    split at he
    · cases he
    · cases he; rfl
  rw [this]
  rfl

/-! ## The hypotheses are met -/

namespace Ex

/-- Two paths over three arcs, in increasing order of time. -/
def oInfo : PathInfo ℕ := ⟨[[2], [3, 1]], [9 / 100, 24 / 100], [1, 2, 3], 2⟩

theorem oInfo_ok : InfoOK oInfo := ⟨by decide, rfl, by decide⟩

example : ∃ out, bnbSys oInfo [2, 1, 2] = .ok out ∧ out.val = some (24 / 100) ∧ out.state = 1 := by
  obtain ⟨out, h, -⟩ := C58_fastest_partial oInfo_ok (by decide)
    (by decide +kernel : oInfo.time.Pairwise (· ≤ ·)) (x := [2, 1, 2]) rfl
  have : bnbSys oInfo [2, 1, 2] = .ok ⟨1, some (24 / 100), [3, 1]⟩ := by decide +kernel
  exact ⟨_, this, rfl, rfl⟩

/-- The run and its matrix. -/
def oRun : Except Err (List (OldBranch ℕ (Option ℚ))) :=
  runBnb (bnbSys oInfo) (fun cand (_ _ : List ℕ) => bnbNextComp oInfo cand)
    (fun _ _ _ _ _ => .ok bnbNextState) [1, 2, 3] [2, 2, 2]

example : oRun.toOption.map (fun l => l.map fun b => (b.down, b.up, b.upState)) =
    some [([1, 1, 1], [1, 1, 2], 2), ([1, 2, 1], [1, 2, 2], 0), ([2, 2, 1], [2, 2, 2], 0),
      ([2, 1, 1], [2, 1, 1], 2), ([2, 1, 2], [2, 1, 2], 1)] := by decide +kernel

def oVars : List (Variable ℕ) := [1, 2, 3].map fun k => ⟨k, [0, 1], some (genB 2)⟩

example : ∃ out C, oRun = .ok out ∧ oldCmat out oVars true = .ok C ∧
    ∀ y : ℕ → ℕ, (∀ a ∈ oInfo.arcs, y a < 2) →
      ∃ r, (C.filter fun r => decide (RowMatches oVars r.tail y)) = [r] := by
  obtain ⟨out, C, h1, h2, h3⟩ := C41_path_problem oInfo_ok rfl (vars := oVars) rfl
    (by decide +kernel) true
  exact ⟨out, C, h1, h2, fun y hy => let ⟨r, hr, _⟩ := h3 y hy; ⟨r, hr⟩⟩

/-- The sum of the component states as system state: three-state components, cut in the middle. -/
def sumSys (x : List ℕ) : Except Err (SysOut Unit Unit) := .ok ⟨x.sum, (), ()⟩

theorem sum_le_of_between {n : ℕ} {x y : List ℕ} (h : Between (List.replicate n 1) y x)
    (hy : y.length = n) : x.sum ≤ y.sum := by
  obtain ⟨h1, h2⟩ := between_replicate.1 h
  clear h
  induction n generalizing x y with
  | zero =>
    rw [List.length_eq_zero_iff] at h1 hy
    subst h1 hy
    exact le_rfl
  | succ n ih =>
    match x, y, h1, hy with
    | a :: x, b :: y, h1, hy =>
      rw [List.sum_cons, List.sum_cons]
      refine Nat.add_le_add (h2 0 (by omega)).2 (ih (by simpa using hy) (by simpa using h1) ?_)
      intro i hi
      simpa using h2 (i + 1) (by omega)

example : ∃ out, runBnb sumSys (fun cand _ _ => match cand with | c :: _ => .ok c | [] => .error .index)
    (fun _ lo hi _ _ => .ok ((lo + hi) / 2)) ['a', 'b'] [3, 3] = .ok out ∧
    ∀ x, ohits out x = if Between [1, 1] [3, 3] x then 1 else 0 := by
  obtain ⟨out, h1, -, h2⟩ := C40_partition (sysFn := sumSys) (f := List.sum) (arcs := ['a', 'b'])
    (maxStates := [3, 3])
    (nextComp := fun cand _ _ => match cand with | c :: _ => .ok c | [] => .error .index)
    (nextState := fun _ lo hi _ _ => .ok ((lo + hi) / 2))
    (by decide) rfl (by decide) (fun x _ => ⟨(), (), rfl⟩)
    (.inl fun x y hy hxy => sum_le_of_between hxy (between_replicate.1 hy).1)
    ⟨fun cand _ _ h0 _ => by
        cases cand with
        | nil => exact absurd rfl h0
        | cons c cand => exact ⟨c, by simp, rfl⟩,
      fun _ _ _ _ _ lo hi _ _ _ h _ => ⟨_, rfl, by omega, by omega⟩⟩
  exact ⟨out, h1, h2⟩

end Ex

end BNS
