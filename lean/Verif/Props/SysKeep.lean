import Verif.Proofs.SysKeep
import Verif.Proofs.SysProd
import Verif.Props.SysNet

/-!
# Property C78: the state of the system together with states of its components
-/

namespace BNS

set_option linter.unusedSectionVars false

section
variable {K : Type} [LinearOrder K] {Φ : (K → ℕ) → Bool}

/-- Eliminating only some of the components: whatever the order, the result answers for each system
state and each choice of states of components that were kept — some of them, all of them or none —
with the probability that the component vector lies in a returned branch of that system state *and*
has these component states. -/
theorem C78_component {c : RunCfg K} (hc : CfgOK c Φ) (h0 : 0 < c.maxSf) {rules : Rules K}
    {brs0 : Option (List (Branch K))} (hs : StartOK c Φ rules brs0) {st : RunState K}
    (h : run c rules brs0 = .ok st) {U : K → Variable K} {sys : K} {m : ℕ}
    (hU : SysVars U c.vs sys m) {varis : K → Option (Variable K)}
    (hv : ∀ kn ∈ c.vs, varis kn.1 = some (U kn.1)) {lbl : St → Option ℕ}
    (hl : ∀ l, ∃ j, lbl l = some j ∧ j < m) :
    ∃ bs C, st.brs = some bs ∧ getCsys (c.vs.map Prod.fst) bs varis lbl = .ok (C, varis) ∧
      ∀ (cpms : List (Cpm K)) (gone kept : List (K × ℕ)) (ve : List (Variable K)),
        cpms.Perm (c.vs.map (compCpm U c.probs) ++ [sysCpm U c.vs sys C]) →
        c.vs.Perm (gone ++ kept) → ve.Perm (compVariables U gone) →
        ∃ P, variableElim cpms ve = .ok P ∧ ∀ j < m, ∀ q : List ((K × ℕ) × ℕ),
          (∀ a ∈ q, a.1 ∈ kept ∧ a.2 < a.1.2) → (q.map fun a => a.1.1).Nodup →
          P.getProb (U sys :: q.map fun a => U a.1.1) (j :: q.map Prod.snd) true =
            .ok (probOf c.vs c.probs fun x =>
              (∃ b ∈ bs, lbl b.label = some j ∧ InBox c.vs b x) ∧ ∀ a ∈ q, x a.1.1 = a.2) := by
  obtain ⟨-, -, -, hrun⟩ := C27_bounds hc hs h
  obtain ⟨bs, row, hb, hpart, -⟩ := hrun h0
  obtain ⟨C, e1, e2, e3⟩ := csys_events hU hpart hv fun b _ => hl b.label
  refine ⟨bs, C, hb, e1, fun cpms gone kept ve hp hgk hve => ?_⟩
  obtain ⟨P, f1, f2, f3, f4, f5⟩ := sysNet_keep hU c.probs e2 hgk hp hve
  refine ⟨P, f1, fun j hj q hq hqn => ?_⟩
  rw [sysNet_query hU c.probs e2 hgk hp f2 f3 f4 f5 hj q hq hqn]
  congr 1
  exact probOf_congr hc.vs c.probs _ _ fun x _ => and_congr_left fun _ => e3 j x

/-- Bounds on the probability that the system fails while some components are in given states: the
answer for the failure state from below, that answer plus the answer for "unknown" from above — after
any run, complete or not. -/
theorem C78_component_bounds {c : RunCfg K} (hc : CfgOK c Φ) (h0 : 0 < c.maxSf) {rules : Rules K}
    {brs0 : Option (List (Branch K))} (hs : StartOK c Φ rules brs0) {st : RunState K}
    (h : run c rules brs0 = .ok st) {U : K → Variable K} {sys : K}
    (hU : SysVars U c.vs sys 3) {varis : K → Option (Variable K)}
    (hv : ∀ kn ∈ c.vs, varis kn.1 = some (U kn.1)) {lbl : St → Option ℕ}
    (hf : lbl .f = some 0) (hsv : lbl .s = some 1) (hu : lbl .u = some 2) :
    ∃ bs C, st.brs = some bs ∧ getCsys (c.vs.map Prod.fst) bs varis lbl = .ok (C, varis) ∧
      ∀ (cpms : List (Cpm K)) (gone kept : List (K × ℕ)) (ve : List (Variable K)),
        cpms.Perm (c.vs.map (compCpm U c.probs) ++ [sysCpm U c.vs sys C]) →
        c.vs.Perm (gone ++ kept) → ve.Perm (compVariables U gone) →
        ∃ P, variableElim cpms ve = .ok P ∧ ∀ q : List ((K × ℕ) × ℕ),
          (∀ a ∈ q, a.1 ∈ kept ∧ a.2 < a.1.2) → (q.map fun a => a.1.1).Nodup →
          ∃ pf pu, P.getProb (U sys :: q.map fun a => U a.1.1) (0 :: q.map Prod.snd) true = .ok pf ∧
            P.getProb (U sys :: q.map fun a => U a.1.1) (2 :: q.map Prod.snd) true = .ok pu ∧
            pf ≤ probOf c.vs c.probs (fun x => Φ x = false ∧ ∀ a ∈ q, x a.1.1 = a.2) ∧
            probOf c.vs c.probs (fun x => Φ x = false ∧ ∀ a ∈ q, x a.1.1 = a.2) ≤ pf + pu := by
  obtain ⟨bs, C, e1, e2, e3⟩ := C78_component hc h0 hs h hU hv (lbl := lbl)
    (fun l => by cases l <;> simp [hf, hsv, hu])
  obtain ⟨-, -, -, hrun⟩ := C27_bounds hc hs h
  obtain ⟨bs', row, hbs', hpart, hlab, -⟩ := hrun h0
  rw [e1] at hbs'
  cases hbs'
  refine ⟨bs, C, e1, e2, fun cpms gone kept ve hp hgk hve => ?_⟩
  obtain ⟨P, f1, f2⟩ := e3 cpms gone kept ve hp hgk hve
  refine ⟨P, f1, fun q hq hqn => ⟨_, _, f2 0 (by omega) q hq hqn, f2 2 (by omega) q hq hqn, ?_, ?_⟩⟩
  · refine probOf_mono hc.vs hc.probs _ _ ?_
    rintro x - ⟨⟨b, hb, hl, hin⟩, hx⟩
    refine ⟨(label_sound hc.coh (hlab b hb).2 hin).1 ?_, hx⟩
    cases hlb : b.label <;> simp_all
  · unfold probOf
    rw [← sumOver_add]
    refine sumOver_mono c.vs hc.vs.nodup _ fun x hx _ => ?_
    have hw := weight_nonneg hc.probs hx
    by_cases hE : Φ x = false ∧ ∀ a ∈ q, x a.1.1 = a.2
    · obtain ⟨b, hb, hin⟩ := hpart.exists hx
      rw [if_pos hE]
      have hs' := label_sound hc.coh (hlab b hb).2 hin
      cases hlb : b.label with
      | f =>
        rw [if_pos ⟨⟨b, hb, by rw [hlb, hf], hin⟩, hE.2⟩]
        split_ifs <;> linarith
      | s => exact absurd (hs'.2 hlb) (by rw [hE.1]; simp)
      | u =>
        rw [if_pos (c := (∃ b ∈ bs, lbl b.label = some 2 ∧ InBox c.vs b x) ∧ ∀ a ∈ q, x a.1.1 = a.2)
          ⟨⟨b, hb, by rw [hlb, hu], hin⟩, hE.2⟩]
        split_ifs <;> linarith
    · rw [if_neg hE]
      split_ifs <;> linarith

/-- After a `complete` run with a sufficient branch limit the answers are exact: the probability that
the system fails (survives) and the kept components asked about are in the given states.  Divided by
the answer for the failure state alone this is the probability of the component states given a
failure.  Missing for the full claim: runs that report `complete` after a truncated decomposition
(`C28_complete_not_exact`). -/
theorem C78_component_exact_partial {c : RunCfg K} (hc : CfgOK c Φ) (h0 : 0 < c.maxSf)
    {rules : Rules K} {brs0 : Option (List (Branch K))} (hs : StartOK c Φ rules brs0)
    (hb : ResumeOK c rules brs0) (hm : 2 * (c.vs.map Prod.snd).prod ≤ c.maxNb)
    {st : RunState K} (h : run c rules brs0 = .ok st) (hcp : st.outFlag = some .complete)
    {U : K → Variable K} {sys : K} (hU : SysVars U c.vs sys 3) {varis : K → Option (Variable K)}
    (hv : ∀ kn ∈ c.vs, varis kn.1 = some (U kn.1)) {lbl : St → Option ℕ}
    (hf : lbl .f = some 0) (hsv : lbl .s = some 1) (hu : lbl .u = some 2) :
    ∃ bs C, st.brs = some bs ∧ getCsys (c.vs.map Prod.fst) bs varis lbl = .ok (C, varis) ∧
      ∀ (cpms : List (Cpm K)) (gone kept : List (K × ℕ)) (ve : List (Variable K)),
        cpms.Perm (c.vs.map (compCpm U c.probs) ++ [sysCpm U c.vs sys C]) →
        c.vs.Perm (gone ++ kept) → ve.Perm (compVariables U gone) →
        ∃ P, variableElim cpms ve = .ok P ∧ ∀ q : List ((K × ℕ) × ℕ),
          (∀ a ∈ q, a.1 ∈ kept ∧ a.2 < a.1.2) → (q.map fun a => a.1.1).Nodup →
          P.getProb (U sys :: q.map fun a => U a.1.1) (0 :: q.map Prod.snd) true =
            .ok (probOf c.vs c.probs fun x => Φ x = false ∧ ∀ a ∈ q, x a.1.1 = a.2) ∧
          P.getProb (U sys :: q.map fun a => U a.1.1) (1 :: q.map Prod.snd) true =
            .ok (probOf c.vs c.probs fun x => Φ x = true ∧ ∀ a ∈ q, x a.1.1 = a.2) := by
  obtain ⟨bs, C, e1, e2, e3⟩ := C78_component hc h0 hs h hU hv (lbl := lbl)
    (fun l => by cases l <;> simp [hf, hsv, hu])
  obtain ⟨-, -, -, hrun⟩ := C27_bounds hc hs h
  obtain ⟨bs', row, hbs', hpart, hlab, -⟩ := hrun h0
  rw [e1] at hbs'
  cases hbs'
  obtain ⟨bs', row', g1, -, g3, -⟩ := C28_enough_branches_partial hc hs hb hm h hcp
  rw [e1] at g1
  cases g1
  have key : ∀ x, InSpace c.vs x → ∃ b ∈ bs, InBox c.vs b x ∧
      (b.label = .f ∧ Φ x = false ∨ b.label = .s ∧ Φ x = true) := by
    intro x hx
    obtain ⟨b, hb', hin⟩ := hpart.exists hx
    have hs' := label_sound hc.coh (hlab b hb').2 hin
    obtain ⟨h1, h2⟩ := g3 b hb'
    refine ⟨b, hb', hin, ?_⟩
    have : b.label ≠ .u := by
      unfold Branch.label
      rw [if_pos h1]
      exact h2
    cases hlb : b.label with
    | f => exact .inl ⟨rfl, hs'.1 hlb⟩
    | s => exact .inr ⟨rfl, hs'.2 hlb⟩
    | u => exact absurd hlb this
  have hsound : ∀ x b, b ∈ bs → InBox c.vs b x → (lbl b.label = some 0 → Φ x = false) ∧
      (lbl b.label = some 1 → Φ x = true) := by
    intro x b hb' hin
    have hs' := label_sound hc.coh (hlab b hb').2 hin
    cases hlb : b.label <;> simp_all
  refine ⟨bs, C, e1, e2, fun cpms gone kept ve hp hgk hve => ?_⟩
  obtain ⟨P, f1, f2⟩ := e3 cpms gone kept ve hp hgk hve
  refine ⟨P, f1, fun q hq hqn => ⟨?_, ?_⟩⟩
  · rw [f2 0 (by omega) q hq hqn]
    congr 1
    refine probOf_congr hc.vs c.probs _ _ fun x hx => and_congr_left fun _ => ⟨?_, fun hφ => ?_⟩
    · rintro ⟨b, hb', hl, hin⟩
      exact (hsound x b hb' hin).1 hl
    · obtain ⟨b, hb', hin, h1 | h1⟩ := key x hx
      · exact ⟨b, hb', by rw [h1.1, hf], hin⟩
      · rw [hφ] at h1; exact absurd h1.2 (by simp)
  · rw [f2 1 (by omega) q hq hqn]
    congr 1
    refine probOf_congr hc.vs c.probs _ _ fun x hx => and_congr_left fun _ => ⟨?_, fun hφ => ?_⟩
    · rintro ⟨b, hb', hl, hin⟩
      exact (hsound x b hb' hin).2 hl
    · obtain ⟨b, hb', hin, h1 | h1⟩ := key x hx
      · rw [hφ] at h1; exact absurd h1.2 (by simp)
      · exact ⟨b, hb', by rw [h1.1, hsv], hin⟩

/-- Multiplying the system CPM with the component CPMs instead of eliminating: the product keeps the
event matrix, so its answer for a system state is the same as after elimination (`q` empty), but
asked for component states as well it counts every branch that has *some* vector with these states as
a whole. -/
theorem C78_product {c : RunCfg K} (hc : CfgOK c Φ) (h0 : 0 < c.maxSf) (hne : c.vs ≠ [])
    {rules : Rules K} {brs0 : Option (List (Branch K))} (hs : StartOK c Φ rules brs0)
    {st : RunState K} (h : run c rules brs0 = .ok st) {U : K → Variable K} {sys : K} {m : ℕ}
    (hU : SysVars U c.vs sys m) {varis : K → Option (Variable K)}
    (hv : ∀ kn ∈ c.vs, varis kn.1 = some (U kn.1)) {lbl : St → Option ℕ}
    (hl : ∀ l, ∃ j, lbl l = some j ∧ j < m) :
    ∃ bs C, st.brs = some bs ∧ getCsys (c.vs.map Prod.fst) bs varis lbl = .ok (C, varis) ∧
      ∀ comps : List (Cpm K), comps.Perm (c.vs.map (compCpm U c.probs)) →
        ∃ M, prodMsysMcomps (sysCpm U c.vs sys C) comps = .ok M ∧ M.C = C ∧ M.p = bs.map Branch.p ∧
          ∀ j < m, ∀ q : List ((K × ℕ) × ℕ),
            (∀ a ∈ q, a.1 ∈ c.vs ∧ a.2 < a.1.2) → (q.map fun a => a.1.1).Nodup →
            M.getProb (U sys :: q.map fun a => U a.1.1) (j :: q.map Prod.snd) true =
              .ok (probOf c.vs c.probs fun x => ∃ b ∈ bs, lbl b.label = some j ∧ InBox c.vs b x ∧
                ∀ a ∈ q, b.down a.1.1 ≤ a.2 ∧ a.2 ≤ b.up a.1.1) := by
  obtain ⟨-, -, -, hrun⟩ := C27_bounds hc hs h
  obtain ⟨bs, row, hb, hpart, hlab, -⟩ := hrun h0
  obtain ⟨C, e1, e2, e3⟩ := csys_rows hU hpart hv fun b _ => hl b.label
  refine ⟨bs, C, hb, e1, fun comps hp => ⟨_, sysProd_ok hU c.probs e2 hne hp, rfl, ?_, ?_⟩⟩
  · simp only
    have hall : List.Forall₂ (fun r b => probOf c.vs c.probs
        (RowMatches (compVariables U c.vs) r.tail) = b.p) C bs := by
      refine List.forall₂_iff_get.2 ⟨e3.length_eq.symm, fun i h1 h2 => ?_⟩
      obtain ⟨s, cs, -, g2, g3⟩ := (List.forall₂_iff_get.1 e3).2 i h2 h1
      rw [(hlab _ (List.get_mem bs ⟨i, h2⟩)).1]
      refine probOf_congr hc.vs c.probs _ _ fun x _ => ?_
      rw [g2]
      exact g3 x
    have h2 : List.Forall₂ (· = ·) (C.map fun r => probOf c.vs c.probs
        (RowMatches (compVariables U c.vs) r.tail)) (bs.map Branch.p) := by
      rw [List.forall₂_map_left_iff, List.forall₂_map_right_iff]
      exact hall
    exact List.forall₂_eq_eq_eq ▸ h2
  · intro j hj q hq hqn
    refine sysProd_query hU c.probs e2 hj q hq hqn _ fun x => ?_
    refine exists_forall₂ e3 fun b row ⟨s, cs, g1, g2, g⟩ => ?_
    subst g2
    simp only [List.head?_cons, List.tail_cons, g1, g]
    constructor
    · rintro ⟨k1, k2, k3⟩
      exact ⟨⟨k1, (box_choice k2 q (fun a ha => (hq a ha).1) hqn).2 k3⟩, k2⟩
    · rintro ⟨⟨k1, k3⟩, k2⟩
      exact ⟨k1, k2, (box_choice k2 q (fun a ha => (hq a ha).1) hqn).1 k3⟩

/-- The answer of the product for a system state together with component states is never less than
the probability of that event, and is equal to it if the branches of that system state fix these
components. -/
theorem C78_product_upper {c : RunCfg K} (hc : CfgOK c Φ) (h0 : 0 < c.maxSf) (hne : c.vs ≠ [])
    {rules : Rules K} {brs0 : Option (List (Branch K))} (hs : StartOK c Φ rules brs0)
    {st : RunState K} (h : run c rules brs0 = .ok st) {U : K → Variable K} {sys : K} {m : ℕ}
    (hU : SysVars U c.vs sys m) {varis : K → Option (Variable K)}
    (hv : ∀ kn ∈ c.vs, varis kn.1 = some (U kn.1)) {lbl : St → Option ℕ}
    (hl : ∀ l, ∃ j, lbl l = some j ∧ j < m) :
    ∃ bs C, st.brs = some bs ∧ getCsys (c.vs.map Prod.fst) bs varis lbl = .ok (C, varis) ∧
      ∀ comps : List (Cpm K), comps.Perm (c.vs.map (compCpm U c.probs)) →
        ∃ M, prodMsysMcomps (sysCpm U c.vs sys C) comps = .ok M ∧
          ∀ j < m, ∀ q : List ((K × ℕ) × ℕ),
            (∀ a ∈ q, a.1 ∈ c.vs ∧ a.2 < a.1.2) → (q.map fun a => a.1.1).Nodup →
            ∃ v, M.getProb (U sys :: q.map fun a => U a.1.1) (j :: q.map Prod.snd) true = .ok v ∧
              probOf c.vs c.probs (fun x =>
                (∃ b ∈ bs, lbl b.label = some j ∧ InBox c.vs b x) ∧ ∀ a ∈ q, x a.1.1 = a.2) ≤ v ∧
              ((∀ b ∈ bs, lbl b.label = some j → ∀ a ∈ q, b.down a.1.1 = b.up a.1.1) →
                v = probOf c.vs c.probs fun x =>
                  (∃ b ∈ bs, lbl b.label = some j ∧ InBox c.vs b x) ∧ ∀ a ∈ q, x a.1.1 = a.2) := by
  obtain ⟨bs, C, e1, e2, e3⟩ := C78_product hc h0 hne hs h hU hv hl
  refine ⟨bs, C, e1, e2, fun comps hp => ?_⟩
  obtain ⟨M, f1, -, -, f2⟩ := e3 comps hp
  refine ⟨M, f1, fun j hj q hq hqn => ⟨_, f2 j hj q hq hqn, ?_, fun hfix => ?_⟩⟩
  · refine probOf_mono hc.vs hc.probs _ _ ?_
    rintro x - ⟨⟨b, hb, hlb, hin⟩, hx⟩
    exact ⟨b, hb, hlb, hin, fun a ha => hx a ha ▸ hin _ (hq a ha).1⟩
  · refine probOf_congr hc.vs c.probs _ _ fun x _ => ⟨?_, ?_⟩
    · rintro ⟨b, hb, hlb, hin, hx⟩
      refine ⟨⟨b, hb, hlb, hin⟩, fun a ha => ?_⟩
      have h1 := hin _ (hq a ha).1
      have h2 := hx a ha
      have h3 := hfix b hb hlb a ha
      omega
    · rintro ⟨⟨b, hb, hlb, hin⟩, hx⟩
      exact ⟨b, hb, hlb, hin, fun a ha => hx a ha ▸ hin _ (hq a ha).1⟩

end

/-- The variables of the series system; 9 is the system. -/
def Ex.serU (k : ℕ) : Variable ℕ :=
  Variable.mk' k (if k = 9 then [0, 1, 2] else [0, 1]) .dflt

theorem Ex.serU_ok : SysVars Ex.serU Ex.series.vs 9 3 :=
  ⟨Ex.series_ok.vs, by decide +kernel, by decide +kernel, by decide +kernel,
    by decide +kernel, by decide +kernel, by decide +kernel, by decide +kernel⟩

/-- The series system with a branch limit that does not matter. -/
def Ex.series2 : RunCfg ℕ := { Ex.series with maxNb := 100 }

theorem Ex.series2_ok : CfgOK Ex.series2 Ex.seriesΦ :=
  ⟨Ex.series_ok.vs, Ex.series_ok.coh, Ex.series_ok.probs, Ex.series_ok.sys⟩

theorem Ex.series2_start : StartOK Ex.series2 Ex.seriesΦ Ex.seriesRules none :=
  ⟨Ex.series_start.dict, Ex.series_start.valid, Ex.series_start.good⟩

/-- Eliminating the components is needed for a joint question: for the two-component series system,
whose run is complete, the product answers 1/2 for "the system fails and component 1 works", an event
of probability 1/4; after eliminating component 0 the answer is right. -/
theorem C78_not_joint : ∃ (c : RunCfg ℕ) (Φ : (ℕ → ℕ) → Bool) (rules : Rules ℕ) (st : RunState ℕ)
    (bs : List (Branch ℕ)) (C : List (List ℕ)) (M P : Cpm ℕ),
    CfgOK c Φ ∧ StartOK c Φ rules none ∧ SysVars Ex.serU c.vs 9 3 ∧
    run c rules none = .ok st ∧ st.outFlag = some .complete ∧ st.brs = some bs ∧
    getCsys (c.vs.map Prod.fst) bs (some ∘ Ex.serU) Ex.lbl = .ok (C, some ∘ Ex.serU) ∧
    prodMsysMcomps (sysCpm Ex.serU c.vs 9 C) (c.vs.map (compCpm Ex.serU c.probs)) = .ok M ∧
    variableElim (c.vs.map (compCpm Ex.serU c.probs) ++ [sysCpm Ex.serU c.vs 9 C]) [Ex.serU 0] =
      .ok P ∧
    probOf c.vs c.probs (fun x => Φ x = false ∧ x 1 = 1) = 1 / 4 ∧
    M.getProb [Ex.serU 9, Ex.serU 1] [0, 1] true = .ok (1 / 2) ∧
    P.getProb [Ex.serU 9, Ex.serU 1] [0, 1] true = .ok (1 / 4) := by
  have hr : (run Ex.series2 Ex.seriesRules none).toOption.map (fun st => (st.outFlag,
      probOf Ex.series2.vs Ex.series2.probs fun x => ∃ b ∈ st.brs.getD [], Ex.lbl b.label = some 0 ∧
        InBox Ex.series2.vs b x ∧ ∀ a ∈ [((1, 2), 1)], b.down a.1.1 ≤ a.2 ∧ a.2 ≤ b.up a.1.1)) =
      some (some .complete, 1 / 2) := by decide +kernel
  cases hst : run Ex.series2 Ex.seriesRules none with
  | error e => rw [hst] at hr; cases hr
  | ok st =>
    rw [hst] at hr
    simp only [Except.toOption, Option.map_some, Option.some.injEq, Prod.mk.injEq] at hr
    have hl : ∀ l, ∃ j, Ex.lbl l = some j ∧ j < 3 := fun l => by cases l <;> simp [Ex.lbl]
    obtain ⟨bs, C, e1, e2, e3⟩ := C78_product Ex.series2_ok (by decide) (by decide) Ex.series2_start
      hst Ex.serU_ok (varis := some ∘ Ex.serU) (fun _ _ => rfl) hl
    obtain ⟨M, f1, -, -, f2⟩ := e3 _ (List.Perm.refl _)
    obtain ⟨bs', C', e1', e2', e3'⟩ := C78_component_exact_partial Ex.series2_ok (by decide)
      Ex.series2_start (resume_none _ _) (by decide) hst hr.1 Ex.serU_ok (varis := some ∘ Ex.serU)
      (fun _ _ => rfl) (lbl := Ex.lbl) rfl rfl rfl
    rw [e1] at e1'
    cases e1'
    rw [e2] at e2'
    cases e2'
    obtain ⟨P, g1, g2⟩ := e3' _ [(0, 2)] [(1, 2)] [Ex.serU 0] (List.Perm.refl _) (by decide)
      (List.Perm.refl _)
    have k1 := f2 0 (by omega) [((1, 2), 1)] (by decide) (by decide)
    have k2 := (g2 [((1, 2), 1)] (by decide) (by decide)).1
    rw [e1, Option.getD_some] at hr
    refine ⟨Ex.series2, Ex.seriesΦ, Ex.seriesRules, st, bs, C, M, P, Ex.series2_ok, Ex.series2_start,
      Ex.serU_ok, hst, hr.1, e1, e2, f1, g1, by decide +kernel, ?_, ?_⟩
    · exact k1.trans (congrArg _ hr.2)
    · exact k2.trans (congrArg _ (by decide +kernel))

/-- The hypotheses of the theorems above are met by a run stopped early and a complete one; in the
complete one a component is eliminated and two are kept. -/
example : CfgOK (Ex.cfg 3 100) Ex.Φ ∧ 0 < (Ex.cfg 3 100).maxSf ∧ (Ex.cfg 3 100).vs ≠ [] ∧
    StartOK (Ex.cfg 3 100) Ex.Φ { s := [], f := [] } none ∧
    ResumeOK (Ex.cfg 3 100) { s := [], f := [] } none ∧ SysVars Ex.netU (Ex.cfg 3 100).vs 9 3 ∧
    (Ex.cfg 20 100).vs.Perm ([(1, 3)] ++ [(2, 2), (0, 2)]) ∧
    2 * ((Ex.cfg 20 100).vs.map Prod.snd).prod ≤ (Ex.cfg 20 100).maxNb ∧
    (run (Ex.cfg 3 100) { s := [], f := [] } none).toOption.map (fun st => st.outFlag) =
      some (some .maxSf) ∧
    (run (Ex.cfg 20 100) { s := [], f := [] } none).toOption.map (fun st => st.outFlag) =
      some (some .complete) ∧
    probOf (Ex.cfg 20 100).vs (Ex.cfg 20 100).probs (fun x => Ex.Φ x = false ∧
      ∀ a ∈ [((2, 2), 1), ((0, 2), 0)], x a.1.1 = a.2) ≠ 0 :=
  ⟨Ex.cfg_ok 3 100, by decide, by decide, Ex.start_empty _, resume_none _ _, Ex.netU_ok,
    by decide, by decide +kernel, by decide +kernel, by decide +kernel, by decide +kernel⟩

end BNS
