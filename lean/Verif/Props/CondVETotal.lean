import Verif.Proofs.CondVETotal
import Verif.Props.CondVERound

/-!
# Properties C70 and C108, continued: the function returns
-/

namespace BNS

set_option linter.unusedSectionVars false

section
variable {K : Type} [LinearOrder K] {U : K → Variable K}

/-- For a network that also satisfies `CondVEDirect`, `cal_Msys_by_cond_VE` returns a CPM of the system
alone.  It has a row for exactly those states of the system that the system's CPM lists, and each
probability is the sum, over all states of the conditioning variables and of the components, of the
product of their CPMs and the system's.  Partial: networks with further variables between the
conditioning variables and the components, and components that are kept, are not covered;
`C70_not_two_conditions` and `C70_not_shared_parent` are such networks on which it raises. -/
theorem C70_returns_partial {d : List (K × Cpm K)} {varis : List (K × Variable K)}
    {cond veOrd : List K} {sys : K} (h : CondVEOK U d varis cond veOrd sys)
    (h2 : CondVEDirect d cond veOrd sys) {S : Cpm K} (hS : d.lookup sys = some S) :
    ∃ R, calMsysByCondVE d varis cond veOrd sys = .ok R ∧ R.vars = [U sys] ∧ R.noChild = 1 ∧
    (∀ r, r ∈ R.C ↔ ∃ s ∈ S.C, r = s.take 1) ∧
    ∀ (comps : List K) (N : K → Cpm K), comps.Nodup → (∀ k, k ∈ comps ↔ ParentOf d sys k) →
      (∀ k ∈ cond ++ comps, d.lookup k = some (N k)) →
      ∀ x, dens R x = sumOver ((cond ++ comps).map fun k => (k, (U k).values.length))
        (fun y => jointDens ((cond ++ comps).map N) y * dens S y) x := by
  have hrel : ∀ {k j : K}, Relevant d [sys] k → ParentOf d k j → Relevant d [sys] j := by
    rintro k j ⟨v, hv, hk⟩ hj
    exact ⟨v, hv, hk.tail hj⟩
  have hrels : Relevant d [sys] sys := ⟨sys, by simp, .refl⟩
  have hcN : ∀ j, j ∈ (S.vars.drop S.noChild).map Variable.name ↔ ParentOf d sys j := by
    intro j
    unfold ParentOf
    rw [hS]
    simp
  obtain ⟨inf, hinf, hmem, hnod, -⟩ := C42_ordered d [sys] veOrd fun k hk => h2.defined k (.inr hk)
  have hinfn := hnod (by simp)
  set N : K → Cpm K := fun k => (d.lookup k).getD S with hN
  have hNl : ∀ k, k ∈ cond ∨ Relevant d [sys] k → d.lookup k = some (N k) := by
    intro k hk
    obtain ⟨M, hM⟩ := h2.defined k hk
    simp [hN, hM]
  have hNsys : N sys = S := by simp [hN, hS]
  set cN := (S.vars.drop S.noChild).map Variable.name with hcNd
  have hve : (veNames inf cond veOrd cN).filter (fun v => v ≠ sys) = [] := by
    rw [List.filter_eq_nil_iff]
    intro k hk
    simp only [veNames, List.mem_filter, hmem, decide_eq_true_eq] at hk
    rcases h2.near k hk.1 with rfl | h3 | h3
    · simp
    · exact absurd h3 hk.2.2.1
    · exact absurd ((hcN k).2 h3) hk.2.2.2
  have hJ : jntNames veOrd cN = [] := by
    unfold jntNames
    rw [List.filter_eq_nil_iff]
    intro k hk
    simp [h2.elim k ((hcN k).1 hk)]
  have hkeys : ∀ k ∈ firstOccOn id (veNames inf cond veOrd cN ++ cN ++ jntNames veOrd cN ++ [sys]),
      Relevant d [sys] k := by
    intro k hk
    have := mem_firstOccOn_key id (veNames inf cond veOrd cN ++ cN ++ jntNames veOrd cN ++ [sys]) k
    rw [List.map_id, List.map_id] at this
    rw [this, hJ] at hk
    simp only [List.append_nil, List.mem_append, List.mem_singleton] at hk
    rcases hk with (hk | hk) | rfl
    · simp only [veNames, List.mem_filter, hmem] at hk
      exact hk.1
    · exact hrel hrels ((hcN k).1 hk)
    · exact hrels
  have hlk : ∀ k ∈ firstOccOn id (veNames inf cond veOrd cN ++ cN ++ jntNames veOrd cN ++ [sys]),
      d.lookup k = some (N k) := fun k hk => hNl k (.inr (hkeys k hk))
  have hclk : ∀ k ∈ cond, d.lookup k = some (N k) := fun k hk => hNl k (.inl hk)
  have hmapM : ∀ ks : List K, (∀ k ∈ ks, d.lookup k = some (N k)) →
      ks.mapM (assocGet d) = .ok (ks.map N) := by
    intro ks hks
    refine mapM_ok fun k hk => ?_
    unfold assocGet
    rw [hks k hk]
  -- the conditioning CPM
  have hchild : ∀ k ∈ cond, childNames (N k) = [k] := fun k hk => h.child k _ (hclk k hk)
  have hcnames : ∀ k ∈ cond, ∀ j ∈ (N k).getNames, j ∈ cond := by
    intro k hk j hj
    rw [getNames_eq, hchild k hk, List.mem_append, List.mem_singleton] at hj
    rcases hj with rfl | hj
    · exact hk
    · exact h.condClosed k hk j ⟨N k, hclk k hk, hj⟩
  have hdisj := childDisjoint_keys h.condNodup hchild
  have hcov : ∀ M ∈ cond.map N, WF U M ∧ M.vars ≠ [] ∧ Covers M fun _ => 0 := by
    intro M hM
    obtain ⟨k, hk, rfl⟩ := List.mem_map.1 hM
    refine ⟨h.wf k _ (hclk k hk), fun e => ?_, h.full k _ (hclk k hk) (fun e => h.condSys (e ▸ hk)) _
      fun j hj => ?_⟩
    · have := hchild k hk
      unfold childNames at this
      rw [e] at this
      simp at this
    · have hj' := hcnames k hk j hj
      exact List.length_pos_of_ne_nil (h.pos j _ (hclk j hj'))
  obtain ⟨Mc, hMc⟩ := productList_total (by simpa using h2.someCond) (fun _ => 0) hcov hdisj
  have hMs := productList_ok (fun M hM => (hcov M hM).1) hdisj hMc
  obtain ⟨r0, hr0, -⟩ := (hMs.covers _).2 fun M hM => (hcov M hM).2.2
  obtain ⟨hnet, hMn⟩ := condVE_rowNet h hmem hinfn hS hlk hclk hNsys hMc
  have hMv : Mc.vars ≠ [] := by
    obtain ⟨k, hk⟩ := List.exists_mem_of_ne_nil _ h2.someCond
    obtain ⟨v, hv, -⟩ := List.mem_map.1 ((hMn k).2 hk)
    exact List.ne_nil_of_mem hv
  rw [← hcNd, hve, hJ] at hnet
  have hEm : ∀ k, k ∈ elmNames veOrd cN ↔ ParentOf d sys k := by
    intro k
    simp only [elmNames, hJ, List.not_mem_nil, not_false_eq_true, decide_true, List.filter_true, hcN]
  have hEne : elmNames veOrd cN ≠ [] := by
    obtain ⟨k, hk⟩ := h2.someComp
    exact List.ne_nil_of_mem ((hEm k).2 hk)
  obtain ⟨cv, hcv1, hcv⟩ := h2.same
  obtain ⟨R, hR, hRr⟩ := condVELoop_total hnet hEne hcv1 (fun k hk => hcv k _ ((hEm k).1 hk)
    (hNl k (.inr (hrel hrels ((hEm k).1 hk))))) (by rw [hNsys]; exact h2.someRow S hS) hMv
    (condNames := cond) (fun k => (hMn k).symm) Mc.C (fun _ hc => hc) none
    (fun _ => List.ne_nil_of_mem hr0) (by simp)
  have hcal : calMsysByCondVE d varis cond veOrd sys = .ok R := by
    unfold calMsysByCondVE
    have hSg : assocGet d sys = .ok S := by
      unfold assocGet; rw [hS]
    rw [hinf, ok_bind, hSg, ok_bind]
    simp only [← hcNd, hve, List.mapM_nil, pure_ok, ok_bind]
    rw [hmapM _ hlk, ok_bind, hmapM _ hclk, ok_bind, hMc, ok_bind, zip_map_pair, hJ]
    exact hR
  obtain ⟨c1, c2, c3, c4⟩ := C70_system_by_conditioning_partial h hcal
  have hRn : R.vars.map Variable.name = [sys] := by
    have h1 : ∀ k ∈ R.vars.map Variable.name, k = sys := by
      intro k hk
      rcases (c2 k).1 hk with e | ⟨e1, e2⟩
      · exact e
      · exact absurd (h2.elim k e1) e2
    have h3 : sys ∈ R.vars.map Variable.name := (c2 sys).2 (.inl rfl)
    have h4 := c1.nodup
    cases e : R.vars.map Variable.name with
    | nil => rw [e] at h3; simp at h3
    | cons a l =>
      rw [e] at h1 h4
      have ha := h1 a (by simp)
      cases l with
      | nil => rw [ha]
      | cons b l =>
        have hb := h1 b (by simp)
        rw [ha, hb] at h4
        simp at h4
  have hRv : R.vars = [U sys] := by
    have : R.vars = (R.vars.map Variable.name).map U := by
      rw [List.map_map]
      conv_lhs => rw [← List.map_id R.vars]
      exact List.map_congr_left fun v hv => (c1.env v hv).symm
    rw [this, hRn]
    rfl
  refine ⟨R, hcal, hRv, by rw [c3, hRv]; rfl, fun r => ?_, fun comps N2 hcn hcm hN2 x => ?_⟩
  · rw [hRr, hNsys]
    refine exists_congr fun s => and_congr_right fun hs => ?_
    have hSc := h.child sys S hS
    have hSw := h.wf sys S hS
    have hl := hSw.rowLen s hs
    unfold childNames at hSc
    cases hv : S.vars with
    | nil => rw [hv] at hSc; simp at hSc
    | cons v vs =>
      rw [hv] at hSc hl
      cases s with
      | nil => simp at hl
      | cons a s =>
        have hvs : v.name = sys := by
          cases hn : S.noChild with
          | zero => rw [hn] at hSc; simp at hSc
          | succ n =>
            rw [hn, List.take_succ_cons, List.map_cons] at hSc
            exact (List.cons.inj hSc).1
        have : val S.getNames (a :: s) sys = a := by
          unfold val Cpm.getNames
          rw [hv, List.map_cons, hvs]
          simp
        rw [this]
        rfl
  · have hcd : ∀ k ∈ comps, k ∉ cond := fun k hk => h.direct k ((hcm k).1 hk)
    have hsn : (cond ++ comps).Nodup := by
      rw [List.nodup_append]
      refine ⟨h.condNodup, hcn, ?_⟩
      rintro a ha b hb rfl
      exact hcd a hb ha
    have hss : sys ∉ cond ++ comps := by
      rw [List.mem_append]
      rintro (hs | hs)
      · exact h.condSys hs
      · exact h.leaf sys hrels ((hcm sys).1 hs)
    have hrc : ∀ k ∈ comps, Relevant d [sys] k := fun k hk => hrel hrels ((hcm k).1 hk)
    have hagree : ∀ k ∈ cond ++ comps, N k = N2 k := by
      intro k hk
      have h1 := hN2 k hk
      simp [hN, h1]
    rw [c4 (cond ++ comps) (cond ++ comps ++ [sys]) N hsn]
    · refine sumOver_congr _ _ fun y => ?_
      rw [List.map_append, jointDens_append, List.map_congr_left hagree]
      simp [jointDens, hNsys]
    · rw [List.nodup_append]
      refine ⟨hsn, by simp, ?_⟩
      rintro a ha b hb rfl
      rw [List.mem_singleton] at hb
      exact hss (hb ▸ ha)
    · intro k
      rw [List.mem_append]
      constructor
      · rintro (hk | hk)
        · exact .inl hk
        · exact .inr ⟨hrc k hk, h2.elim k ((hcm k).1 hk), fun e => hss (by simp [← e, hk])⟩
      · rintro (hk | ⟨hk1, -, hk3⟩)
        · exact .inl hk
        · rcases h2.near k hk1 with e | e | e
          · exact absurd e hk3
          · exact .inl e
          · exact .inr ((hcm k).2 e)
    · intro k
      rw [List.mem_append, List.mem_append, List.mem_singleton]
      constructor
      · rintro ((hk | hk) | rfl)
        · exact .inl hk
        · exact .inr (hrc k hk)
        · exact .inr hrels
      · rintro (hk | hk)
        · exact .inl (.inl hk)
        · rcases h2.near k hk with e | e | e
          · exact .inr e
          · exact .inl (.inl e)
          · exact .inl (.inr ((hcm k).2 e))
    · intro k hk
      rcases List.mem_append.1 hk with hk | hk
      · rcases List.mem_append.1 hk with hk | hk
        · exact hNl k (.inl hk)
        · exact hNl k (.inr (hrc k hk))
      · rw [List.mem_singleton] at hk
        rw [hk]; exact hNl sys (.inr hrels)

/-- The same in double precision, without underflow, from tables stored with one rounding: the function
returns, with one row for each state of the system that the system's CPM lists, and each probability has a
relative error of at most `2⁻⁵²` times a number that can be read off the network. -/
theorem C108_returns_partial {d' d : List (K × Cpm K)}
    (h' : List.Forall₂ (fun a b => a.1 = b.1 ∧
      SameTable (NearP (fun _ => True) ((2 : ℚ) ^ (-53 : ℤ)) 1) a.2 b.2) d' d)
    {varis : List (K × Variable K)} {cond veOrd : List K} {sys : K}
    (h : CondVEOK U d varis cond veOrd sys) (h2 : CondVEDirect d cond veOrd sys) {S : Cpm K}
    (hS : d.lookup sys = some S) {n : ℕ} (hn : condVERoundings 1 d cond ≤ n) (hn' : n ≤ 2 ^ 52) :
    ∃ R, calMsysByCondVER (Arith.ofRound float53) d' varis cond veOrd sys = .ok R ∧ R.vars = [U sys] ∧
    (∀ r, r ∈ R.C ↔ ∃ s ∈ S.C, r = s.take 1) ∧
    ∀ (comps : List K) (N : K → Cpm K), comps.Nodup → (∀ k, k ∈ comps ↔ ParentOf d sys k) →
      (∀ k ∈ cond ++ comps, d.lookup k = some (N k)) →
      ∀ x, |dens R x - sumOver ((cond ++ comps).map fun k => (k, (U k).values.length))
          (fun y => jointDens ((cond ++ comps).map N) y * dens S y) x| ≤
        n * (2 : ℚ) ^ (-52 : ℤ) * sumOver ((cond ++ comps).map fun k => (k, (U k).values.length))
          (fun y => jointDens ((cond ++ comps).map N) y * dens S y) x := by
  obtain ⟨R, r1, r2, -, r4, r5⟩ := C70_returns_partial h h2 hS
  have hrel := calMsys_rel (counted_near C103_float53.1) h' varis cond veOrd sys
  rw [r1] at hrel
  cases hR : calMsysByCondVER (Arith.ofRound float53) d' varis cond veOrd sys with
  | error e => rw [hR] at hrel; exact hrel.elim
  | ok R' =>
    rw [hR] at hrel
    have hrel : SameTable _ R' R := hrel
    refine ⟨R', rfl, hrel.vars.trans r2, fun r => ?_, fun comps N hc1 hc2 hc3 x => ?_⟩
    · rw [hrel.C, r4]
    · have hd := r5 comps N hc1 hc2 hc3 x
      obtain ⟨h0, h1, h2⟩ := dens_near hrel x
      rw [hd] at h0 h1 h2
      have hnear : NearP (fun _ => True) ((2 : ℚ) ^ (-53 : ℤ)) (condVERoundings 1 d cond) (dens R' x)
          (sumOver ((cond ++ comps).map fun k => (k, (U k).values.length))
            (fun y => jointDens ((cond ++ comps).map N) y * dens S y) x) :=
        ⟨trivial, h0, h1, h2⟩
      exact C103_relative (hnear.mono C103_float53.1.eps hn) hn'

end

/-- The network of the repository's test. -/
theorem Ex.hD_direct : CondVEDirect Ex.hD [0] [0, 1, 3] 4 := by
  refine ⟨fun k hk => ?_, by simp, ⟨1, (Ex.parentOf_iff _ _ _).2 (by decide +kernel)⟩, ?_, fun k hk => ?_,
    fun k hk => ?_, ⟨[Ex.U 0], by simp, fun k M hk hM => ?_⟩⟩
  · rw [Ex.hD_relevant] at hk
    have hk' : k ∈ [0, 4, 1, 3, 0] := by simpa using hk
    have h1 : ∀ k ∈ [0, 4, 1, 3, 0], (Ex.hD.lookup k).isSome := by decide +kernel
    exact Option.isSome_iff_exists.1 (h1 k hk')
  · intro M hM
    have : Ex.hD.lookup 4 = some Ex.hSys := by decide +kernel
    rw [this] at hM
    cases hM
    decide +kernel
  · rw [Ex.parentOf_iff] at hk
    revert k
    decide +kernel
  · rw [Ex.hD_relevant] at hk
    rw [Ex.parentOf_iff]
    revert k
    decide +kernel
  · rw [Ex.parentOf_iff] at hk
    have h1 : ∀ k ∈ Ex.parsOf Ex.hD 4, ∀ M ∈ Ex.hD.lookup k, M.vars.drop 1 = [Ex.U 0] := by decide +kernel
    exact h1 k hk M hM

/-- The hypotheses hold of the network of the repository's test, which the function therefore evaluates,
exactly and in double precision. -/
example : (∃ R, calMsysByCondVE Ex.hD Ex.hV [0] [0, 1, 3] 4 = .ok R ∧ R.vars = [Ex.U 4]) ∧
    ∃ R, calMsysByCondVER (Arith.ofRound float53) Ex.hDs Ex.hV [0] [0, 1, 3] 4 = .ok R ∧
      ∀ r, r ∈ R.C ↔ r = [0] ∨ r = [1] := by
  have hS : Ex.hD.lookup 4 = some Ex.hSys := by decide +kernel
  obtain ⟨R, h1, h2, -⟩ := C70_returns_partial Ex.hD_ok Ex.hD_direct hS
  obtain ⟨R', g1, -, g2, -⟩ := C108_returns_partial (U := Ex.U) Ex.hDs_near Ex.hD_ok Ex.hD_direct hS
    (n := 2 ^ 16) (by decide +kernel) (by norm_num)
  refine ⟨⟨R, h1, h2⟩, R', g1, fun r => ?_⟩
  rw [g2]
  simp [Ex.hSys]

end BNS
