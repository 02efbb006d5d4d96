import Verif.Proofs.GraphDemos

/-!
# Property C101: the routine and rbd demos, from writing the model file to the printed probabilities
-/

namespace BNS

set_option linter.unusedSectionVars false

section
variable {K : Type} [LinearOrder K] {disk : Disk K} {data : List (CfgKey K × CfgVal K)}
  {nd eg xb : ℕ → K} {src snk od1 sys pm q : K} {mb : CfgVal K}

/-- **C101, the written files.**  Whatever was there before, `setup` of the routine demo and `create_model`
of the rbd demo write the network to `model.json` and change nothing else. -/
theorem C101_files (disk : Disk K) :
    (RoutineNames nd eg → ∃ m, RoutineModel nd eg od1 m ∧
      (routineSetup nd eg od1 pm disk).files pm = some (.model m) ∧
      (∀ k, k ≠ pm → (routineSetup nd eg od1 pm disk).files k = disk.files k) ∧
      (routineSetup nd eg od1 pm disk).dirs = disk.dirs) ∧
    (RbdNames xb eg src snk → ∃ m, RbdModel xb eg src snk od1 m ∧
      (rbdSetup xb eg src snk od1 pm disk).files pm = some (.model m) ∧
      (∀ k, k ≠ pm → (rbdSetup xb eg src snk od1 pm disk).files k = disk.files k) ∧
      (rbdSetup xb eg src snk od1 pm disk).dirs = disk.dirs) := by
  have key : ∀ (f : NetDict K ℚ), (f.comps.map Prod.fst).Nodup → (f.conns.map Prod.fst).Nodup →
      (f.ods.map Prod.fst).Nodup → loadNet id f =
        { comps := f.comps, conns := f.conns, ods := f.ods, gtype := none } := by
    intro f h1 h2 h3
    unfold loadNet
    rw [jsonItems_same h1 fun _ _ => rfl, jsonItems_same h2 fun _ _ => rfl,
      jsonItems_same h3 fun _ _ => rfl]
  constructor
  · intro h
    have h' := List.nodup_append.1 (show ([nd 1, nd 2, nd 3, nd 4] ++
      [eg 1, eg 2, eg 3, eg 4, eg 5]).Nodup from h)
    refine ⟨_, ?_, if_pos rfl, fun k hk => if_neg hk, rfl⟩
    rw [key]
    · exact ⟨rfl, rfl, rfl, rfl⟩
    · exact h'.1
    · exact h'.2.1
    · exact List.nodup_singleton _
  · intro h
    have h' := List.nodup_append.1 (show ([src, xb 1, xb 2, xb 3, xb 4, xb 5, xb 6, xb 7, xb 8, snk] ++
      [eg 1, eg 2, eg 3, eg 4, eg 5, eg 6, eg 7, eg 8, eg 9, eg 10, eg 11, eg 12]).Nodup from h)
    refine ⟨_, ?_, if_pos rfl, fun k hk => if_neg hk, rfl⟩
    rw [key]
    · exact ⟨rfl, rfl, rfl, rfl⟩
    · exact h'.1
    · exact h'.2.1
    · exact List.nodup_singleton _

/-- **C101, the routine demo.**  In any directory, `setup` and then `main` with a configuration file that
names the model file print the failure probability 0.002236284 and the survival probability 0.997763716 of
the network, rounded to five digits.  The second is the probability that a way over working connections
leads from `n1` to `n4`; the first that none does. -/
theorem C101_routine {lib : PathLib K} (hlib : PathLibOK lib) (h : RoutineNames nd eg)
    (hsys : sys ∉ [eg 1, eg 2, eg 3, eg 4, eg 5]) (hd : DemoConfig data pm q mb) (disk : Disk K) :
    ∃ pf ps disk', routineMain lib (routineProbs eg) od1 sys data (routineSetup nd eg od1 pm disk) =
        .ok ((pf, ps), disk') ∧
      disk'.files = (routineSetup nd eg od1 pm disk).files ∧
      pf = 0.002236284 ∧ ps = 0.997763716 ∧
      ∃ (m : NetJson K) (prob : K → ℕ → ℚ) (_ : DecidablePred (LinkedIn false m.conns (nd 1) (nd 4))),
        RoutineModel nd eg od1 m ∧
        (prob (eg 1) 1 = 0.99 ∧ prob (eg 2) 1 = 0.98 ∧ prob (eg 3) 1 = 0.97 ∧ prob (eg 4) 1 = 0.96 ∧
          prob (eg 5) 1 = 0.95) ∧ ProbOK (connVs m) prob ∧
        ps = probOf (connVs m) prob (LinkedIn false m.conns (nd 1) (nd 4)) := by
  classical
  obtain ⟨m, hm, hf, -, -⟩ := (C101_files (od1 := od1) (pm := pm) (nd := nd) (eg := eg) (xb := eg)
    (src := pm) (snk := pm) disk).1 h
  have hok := routine_file h hd hm hf
  have hlk := routine_linked h hm
  obtain ⟨m1, m2, m3, m4⟩ := id hm
  have hnames : m.conns.map Prod.fst = [eg 1, eg 2, eg 3, eg 4, eg 5] := by rw [m2]; rfl
  have hvs : connVs m = [eg 1, eg 2, eg 3, eg 4, eg 5].map fun k => (k, 2) := by
    rw [connVs_binary, hnames]; rfl
  have hes : [eg 1, eg 2, eg 3, eg 4, eg 5].Nodup := by rw [← hnames]; exact hok.names
  have hlu : ∀ kv ∈ routineProbs eg, (routineProbs eg).lookup kv.1 = some kv.2 := fun kv hkv =>
    lookup_mem_items (show ((routineProbs eg).map Prod.fst).Nodup from hes) hkv
  have hpr : ∀ kv ∈ routineProbs eg, (routineProbs eg).prob kv.1 0 = kv.2.1 ∧
      (routineProbs eg).prob kv.1 1 = kv.2.2 := fun kv hkv => by
    simp [ConnProbs.prob, hlu kv hkv]
  have hp : ∀ c ∈ m.conns, (routineProbs eg).lookup c.1 =
      some ((routineProbs eg).prob c.1 0, (routineProbs eg).prob c.1 1) := by
    intro c hc
    have : c.1 ∈ (routineProbs eg).map Prod.fst := by
      have := List.mem_map_of_mem (f := Prod.fst) hc
      rwa [hnames] at this
    obtain ⟨kv, hkv, e⟩ := List.mem_map.1 this
    rw [← e, (hpr kv hkv).1, (hpr kv hkv).2]
    exact hlu kv hkv
  have hval : ([eg 1, eg 2, eg 3, eg 4, eg 5].map fun k =>
      ((routineProbs eg).prob k 0, (routineProbs eg).prob k 1)) =
      [(0.01, 0.99), (0.02, 0.98), (0.03, 0.97), (0.04, 0.96), (0.05, 0.95)] := by
    have h0 : (routineProbs eg).map (fun kv => ((routineProbs eg).prob kv.1 0, (routineProbs eg).prob kv.1 1)) =
        (routineProbs eg).map Prod.snd := List.map_congr_left fun kv hkv => by
      rw [(hpr kv hkv).1, (hpr kv hkv).2]
    exact h0
  have hpo : ProbOK (connVs m) (routineProbs eg).prob := by
    refine ConnProbsOK.probOK fun c hc => ?_
    refine ⟨_, _, hp c hc, ?_⟩
    have hc' : ((routineProbs eg).prob c.1 0, (routineProbs eg).prob c.1 1) ∈
        ([(0.01, 0.99), (0.02, 0.98), (0.03, 0.97), (0.04, 0.96), (0.05, 0.95)] : List (ℚ × ℚ)) := by
      rw [← hval, ← hnames, List.map_map]
      exact List.mem_map.2 ⟨c, hc, rfl⟩
    have : ∀ ab ∈ ([(0.01, 0.99), (0.02, 0.98), (0.03, 0.97), (0.04, 0.96), (0.05, 0.95)] :
        List (ℚ × ℚ)), 0 ≤ ab.1 ∧ 0 ≤ ab.2 ∧ ab.1 + ab.2 = 1 := by
      intro ab hab
      simp only [List.mem_cons, List.not_mem_nil, or_false] at hab
      rcases hab with rfl | rfl | rfl | rfl | rfl <;> norm_num
    exact this _ hc'
  obtain ⟨pf, ps, disk', h1, h2, -, -, h3⟩ := C97_routine hlib hok hp hpo (od := od1) (sys := sys)
    (o := nd 1) (d := nd 4) (by rw [m3]; simp [List.lookup]) (by rw [m1]; simp) (by rw [hnames]; exact hsys)
    (by rw [m2]; simp)
  obtain ⟨e1, e2⟩ := h3 (by rw [m2]; simp)
  let f : List Bool → Bool := fun l => match l with
    | [a, b, c, d, e] => (a && d) || (b && e) || (a && c && e) || (b && c && d)
    | _ => false
  have hf : ∀ x, LinkedIn false m.conns (nd 1) (nd 4) x ↔
      f ([eg 1, eg 2, eg 3, eg 4, eg 5].map fun k => decide (x k ≠ 0)) = true := fun x => by
    rw [hlk x]
    simp only [f, List.map_cons, List.map_nil, Bool.or_eq_true, Bool.and_eq_true, decide_eq_true_eq]
    simp only [and_assoc, or_assoc]
  have v2 : probOf (connVs m) (routineProbs eg).prob (LinkedIn false m.conns (nd 1) (nd 4)) =
      0.997763716 := by
    rw [hvs, probOf_bool _ hes _ f _ hf, hval]
    decide +kernel
  have v1 : probOf (connVs m) (routineProbs eg).prob (fun x => ¬ LinkedIn false m.conns (nd 1) (nd 4) x) =
      0.002236284 := by
    rw [hvs, probOf_bool _ hes _ (fun l => !f l) _ (fun x => by rw [hf x]; simp), hval]
    decide +kernel
  refine ⟨pf, ps, disk', h1, h2, e1.trans v1, e2.trans v2, m, (routineProbs eg).prob, inferInstance, hm, ?_,
    hpo, e2⟩
  have := congrArg (List.map Prod.snd) hval
  simpa using this

/-- **C101, the rbd demo.**  In any directory, `create_model` and then `main` with a configuration file that
names the model file and a limit of at least 512 print 100000/111081, which is the probability that `x1`
works given that blocks `x7`, `x8` and one of `x1`, `x2`, `x3` or all of `x4`, `x5`, `x6` work.  The name of
the system must come before `x1` in the alphabet, as `sys` does. -/
theorem C101_rbd {lib : PathLib K} (hlib : PathLibOK lib) (h : RbdNames xb eg src snk)
    (hsys : sys ∉ [src, xb 1, xb 2, xb 3, xb 4, xb 5, xb 6, xb 7, xb 8, snk]) (hlt : sys < xb 1) {nb : ℚ}
    (hnb : 512 ≤ nb) (hd : DemoConfig data pm q (.num nb)) (disk : Disk K) :
    (∃ disk', rbdCommand lib src snk sys (xb 1) data (rbdSetup xb eg src snk od1 pm disk) =
        .ok (some (100000 / 111081), disk') ∧
      disk'.files = (rbdSetup xb eg src snk od1 pm disk).files) ∧
    (100000 / 111081 : ℚ) =
      probOf ([xb 1, xb 2, xb 3, xb 4, xb 5, xb 6, xb 7, xb 8].map fun k => (k, 2))
        (fun _ i => if i = 0 then 0.1 else 0.9) (fun x => (x (xb 7) ≠ 0 ∧ x (xb 8) ≠ 0 ∧
          (x (xb 1) ≠ 0 ∨ x (xb 2) ≠ 0 ∨ x (xb 3) ≠ 0 ∨
            (x (xb 4) ≠ 0 ∧ x (xb 5) ≠ 0 ∧ x (xb 6) ≠ 0))) ∧ x (xb 1) ≠ 0) /
      probOf ([xb 1, xb 2, xb 3, xb 4, xb 5, xb 6, xb 7, xb 8].map fun k => (k, 2))
        (fun _ i => if i = 0 then 0.1 else 0.9) (fun x => x (xb 7) ≠ 0 ∧ x (xb 8) ≠ 0 ∧
          (x (xb 1) ≠ 0 ∨ x (xb 2) ≠ 0 ∨ x (xb 3) ≠ 0 ∨
            (x (xb 4) ≠ 0 ∧ x (xb 5) ≠ 0 ∧ x (xb 6) ≠ 0))) := by
  classical
  set names := [xb 1, xb 2, xb 3, xb 4, xb 5, xb 6, xb 7, xb 8] with hnames
  have happ := List.nodup_append.1 (show ([src, xb 1, xb 2, xb 3, xb 4, xb 5, xb 6, xb 7, xb 8, snk] ++
      [eg 1, eg 2, eg 3, eg 4, eg 5, eg 6, eg 7, eg 8, eg 9, eg 10, eg 11, eg 12]).Nodup from h)
  have hnodes : (src :: names ++ [snk]).Nodup := happ.1
  have hsrc : src ∉ names ++ [snk] := (List.nodup_cons.1 hnodes).1
  have hns := List.nodup_append.1 (List.nodup_cons.1 hnodes).2
  have hsnk : snk ∉ names := fun hc => hns.2.2 snk hc snk (List.mem_singleton_self _) rfl
  have hp : ∀ (P : K → ℕ → ℚ), (∀ k, P k 0 = 1 / 10 ∧ P k 1 = 9 / 10) →
      (names.map fun k => (P k 0, P k 1)) = List.replicate 8 (1 / 10, 9 / 10) := by
    intro P hP
    simp [hnames, hP, List.replicate]
  let F : (K → ℕ) → Prop := fun x => x (xb 7) ≠ 0 ∧ x (xb 8) ≠ 0 ∧
    (x (xb 1) ≠ 0 ∨ x (xb 2) ≠ 0 ∨ x (xb 3) ≠ 0 ∨ (x (xb 4) ≠ 0 ∧ x (xb 5) ≠ 0 ∧ x (xb 6) ≠ 0))
  have hf : ∀ x, F x ↔ rbdWorks (names.map fun k => decide (x k ≠ 0)) = true := fun x => by
    simp only [F, rbdWorks, hnames, List.map_cons, List.map_nil, Bool.or_eq_true, Bool.and_eq_true,
      decide_eq_true_eq]
  have hf1 : ∀ x, (F x ∧ x (xb 1) ≠ 0) ↔ (rbdWorks (names.map fun k => decide (x k ≠ 0)) &&
      (names.map fun k => decide (x k ≠ 0)).head?.getD false) = true := fun x => by
    rw [hf x]
    simp [hnames]
  have v0 : boolProb (List.replicate 8 (1 / 10, 9 / 10)) rbdWorks = 80978049 / 100000000 := by
    decide +kernel
  have v1 : boolProb (List.replicate 8 (1 / 10, 9 / 10)) (fun l => rbdWorks l && l.head?.getD false) = 729 / 1000 := by
    decide +kernel
  constructor
  · obtain ⟨m, hm, hfile, -, -⟩ := (C101_files (od1 := od1) (pm := pm) (nd := eg) (eg := eg) (xb := xb)
      (src := src) (snk := snk) disk).2 h
    have hok := rbd_file h hd hm hfile
    obtain ⟨inf, r1, r2, r3, r4, r5, r6, r7⟩ := connFile_read hok
    obtain ⟨cfg, disk', c1, c2, c3, c4, -, -⟩ := connFile_cfg hok r1
    have hcomps : inf.comps.map Prod.fst = src :: names ++ [snk] := by rw [r4, hm.1]; rfl
    have hbl : blocks (src :: names ++ [snk]) src snk = names := by
      unfold blocks
      rw [List.cons_append, List.erase_cons_head, List.erase_append_right _ hsnk]
      simp
    have hdia : DiagramOK inf.G (src :: names ++ [snk]) src snk sys (xb 1) := by
      refine ⟨r5, r7, hnodes, by simp, by simp, fun e => ?_, hsys, by simp [hnames], fun e => ?_,
        fun e => ?_⟩
      · exact hsrc (e ▸ List.mem_append_right _ (List.mem_singleton_self _))
      · exact hsrc (e ▸ List.mem_append_left _ (by simp [hnames]))
      · exact hsnk (e ▸ by simp [hnames])
    have hcon := rbd_connected h hm r5 r6
    have hmain := C91_limits_partial hlib hdia hlt (maxB := nb.ceil.toNat) (by
      have : (src :: names ++ [snk]).length - 1 = 9 := rfl
      rw [this]
      exact le_ceil_toNat (by exact_mod_cast hnb))
    have hv : VarisOK (binary names) :=
      ⟨by rw [binary_fst]; exact hns.1, fun kn h => by rw [(mem_binary.1 h).2]; norm_num⟩
    rw [hbl] at hmain
    rw [if_pos ((hcon _).2 (by simp))] at hmain
    have p0 : probOf (binary names) rbdProbs (Connected inf.G (binary names) src snk) =
        80978049 / 100000000 := by
      rw [← v0, ← hp rbdProbs fun k => by simp [rbdProbs]]
      exact probOf_bool names hns.1 rbdProbs rbdWorks _ fun x => (hcon x).trans (hf x)
    have p1 : probOf (binary names) rbdProbs (fun x => Connected inf.G (binary names) src snk x ∧
        x (xb 1) = 1) = 729 / 1000 := by
      rw [← v1, ← hp rbdProbs fun k => by simp [rbdProbs]]
      rw [← probOf_bool names hns.1 rbdProbs (fun l => rbdWorks l && l.head?.getD false) (fun x => F x ∧ x (xb 1) ≠ 0) hf1]
      refine probOf_congr hv rbdProbs _ _ fun x hx => ?_
      have := hx (xb 1, 2) (mem_binary.2 ⟨by simp [hnames], rfl⟩)
      rw [hcon x]
      refine and_congr_right fun _ => ?_
      simp only at this
      omega
    rw [p0, p1] at hmain
    refine ⟨disk', ?_, c4⟩
    unfold rbdCommand
    rw [c1, ok_bind]
    simp only [c2, c3, cfgNum, ok_bind, hcomps, hmain]
    norm_num [pure_ok]
  · have hP := hp (fun _ i => if i = 0 then 0.1 else 0.9) fun k => by norm_num
    have e1 := probOf_bool names hns.1 (fun _ i => if i = 0 then 0.1 else 0.9)
      (fun l => rbdWorks l && l.head?.getD false) _ hf1
    have e0 := probOf_bool names hns.1 (fun _ i => if i = 0 then 0.1 else 0.9) rbdWorks _ hf
    rw [hP, v0] at e0
    rw [hP, v1] at e1
    have : (100000 / 111081 : ℚ) = 729 / 1000 / (80978049 / 100000000) := by norm_num
    rw [this, ← e0, ← e1]

/-- **C101, errors.**  `main` in a directory in which the model file has not been written is an
`AssertionError` for both demos.  In the rbd demo a limit that is not a number, or not positive, is a
`TypeError`. -/
theorem C101_errors {lib : PathLib K} {probs : ConnProbs K} (hd : DemoConfig data pm q mb) {disk : Disk K} :
    (disk.files pm = none → disk.dirs pm = false →
      routineMain lib probs od1 sys data disk = .error .assertion ∧
      rbdCommand lib src snk sys (xb 1) data disk = .error .assertion) ∧
    (RbdNames xb eg src snk → ((∀ n, mb ≠ .num n) ∨ ∃ n, mb = .num n ∧ n ≤ 0) →
      rbdCommand lib src snk sys (xb 1) data (rbdSetup xb eg src snk od1 pm disk) = .error .type) := by
  constructor
  · intro h1 h2
    have hc : Cfg.new disk data = .error .assertion := C81_required (.inr ⟨pm, hd.model, h1, h2⟩)
    unfold routineMain rbdCommand
    rw [hc]
    exact ⟨rfl, rfl⟩
  · intro h hmb
    obtain ⟨m, hm, hfile, -, -⟩ := (C101_files (od1 := od1) (pm := pm) (nd := eg) (eg := eg) (xb := xb)
      (src := src) (snk := snk) disk).2 h
    have hok := rbd_file h hd hm hfile
    obtain ⟨inf, r1, r2, r3, r4, -⟩ := connFile_read hok
    obtain ⟨cfg, disk', c1, c2, c3, c4, -, -⟩ := connFile_cfg hok r1
    have hcomps : inf.comps.map Prod.fst =
        [src, xb 1, xb 2, xb 3, xb 4, xb 5, xb 6, xb 7, xb 8, snk] := by rw [r4, hm.1]; rfl
    have hne : src ≠ snk := fun e => absurd (h.inj 0 (by omega) 9 (by omega) e) (by omega)
    unfold rbdCommand
    rw [c1, ok_bind]
    simp only [c2, c3, hcomps]
    rcases hmb with hn | ⟨n, rfl, hn⟩
    · have : cfgNum mb = .error .type := by
        cases mb with
        | num r => exact absurd rfl (hn r)
        | _ => rfl
      rw [this, error_bind]
    · have hc : n.ceil.toNat = 0 := by
        have : n.ceil ≤ 0 := Rat.ceil_le_iff.2 (by simpa using hn)
        omega
      simp only [cfgNum, ok_bind, hc]
      rw [(C91_raises lib inf.G _ src snk sys (xb 1) 0).2.2 (by simp) (by
        rw [List.erase_cons_head]; simp), error_bind]

/-! ## The hypotheses can be met -/

end

namespace DemoEx

/-- The configuration file of the demos: model file 40, output directory 41. -/
def cfgFile : List (CfgKey ℕ × CfgVal ℕ) :=
  [(.configurationId, .text 42), (.modelName, .text 40), (.scenarioName, .null), (.outputPath, .text 41),
    (.maxBranches, .num 512)]

theorem cfgFile_ok : DemoConfig cfgFile 40 41 (.num 512) := by
  refine ⟨by decide, by decide, ⟨_, rfl⟩, by decide, by decide⟩

/-- An empty directory. -/
def empty : Disk ℕ := { files := fun _ => none, dirs := fun _ => false }

end DemoEx

open DemoEx

example : ∃ disk', routineMain enumLib (routineProbs (20 + ·)) 50 51 cfgFile
    (routineSetup id (20 + ·) 50 40 empty) = .ok ((0.002236284, 0.997763716), disk') := by
  obtain ⟨pf, ps, disk', h1, -, rfl, rfl, -⟩ := C101_routine (nd := id) (eg := (20 + ·)) (od1 := 50)
    (sys := 51) (pm := 40) (q := 41) enumLib_ok (by unfold RoutineNames; decide) (by decide) cfgFile_ok empty
  exact ⟨disk', h1⟩

example : ¬ ∃ r, routineMain enumLib (routineProbs (20 + ·)) 50 51 cfgFile empty = .ok r := by
  rintro ⟨r, hr⟩
  rw [((C101_errors (eg := (20 + ·)) (xb := (10 + ·)) (src := 10) (snk := 19) cfgFile_ok).1 rfl rfl).1] at hr
  cases hr

example : ∃ disk', rbdCommand enumLib 10 19 9 11 cfgFile (rbdSetup (10 + ·) (20 + ·) 10 19 50 40 empty) =
    .ok (some (100000 / 111081), disk') := by
  obtain ⟨⟨disk', h1, -⟩, -⟩ := C101_rbd (xb := (10 + ·)) (eg := (20 + ·)) (src := 10) (snk := 19)
    (od1 := 50) (sys := 9) (pm := 40) (q := 41) enumLib_ok (by unfold RbdNames; decide) (by decide) (by decide) (le_refl _)
    cfgFile_ok empty
  exact ⟨disk', h1⟩

end BNS
