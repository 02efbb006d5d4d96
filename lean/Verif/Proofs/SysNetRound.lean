import Verif.Proofs.CpmRoundCount
import Verif.Proofs.SysNetRun
import Verif.Spec.SysNetRound
import Mathlib.Data.List.Perm.Basic

/-!
# Helper lemmas: the system CPM and the component CPMs with rounded probabilities
-/

namespace BNS

set_option linter.unusedSectionVars false

open List

variable {K : Type} [LinearOrder K] {A : Arith} {F : ℚ → Prop} {ε : ℚ}

theorem elimList_rows : ∀ (ve : List (Variable K)) {l l1 : List (Cpm K)},
    variableElimList l ve = .ok l1 → (l1.map rows1).prod ≤ (l.map rows1).prod := by
  intro ve
  induction ve with
  | nil => intro l l1 h; cases h; exact le_rfl
  | cons v ve ih =>
    intro l l1 h
    unfold variableElimList at h
    rw [List.foldlM_cons] at h
    obtain ⟨l2, h2, h⟩ := bind_ok.1 h
    exact (ih h).trans (elimStep_rows h2)

theorem elim_rows {cpms : List (Cpm K)} {ve : List (Variable K)} {P : Cpm K}
    (h : variableElim cpms ve = .ok P) : P.C.length ≤ (cpms.map rows1).prod := by
  unfold variableElim at h
  obtain ⟨l, hl, h⟩ := bind_ok.1 h
  exact (le_max_right _ _).trans ((productList_rows h).trans (elimList_rows ve hl))

variable {R : ℕ → ℚ → ℚ → Prop}

theorem compCpm_near {U : K → Variable K} {vs : List (K × ℕ)} {probs pr : K → ℕ → ℚ}
    (hn : ∀ kn ∈ vs, ∀ i < kn.2, R 1 (probs kn.1 i) (pr kn.1 i)) {kn : K × ℕ}
    (hk : kn ∈ vs) : SameTable (R 1) (compCpm U probs kn) (compCpm U pr kn) := by
  refine ⟨rfl, rfl, rfl, ?_, ⟨rfl, rfl, rfl, rfl⟩, rfl⟩
  show Forall₂ _ ((range kn.2).map (probs kn.1)) ((range kn.2).map (pr kn.1))
  rw [List.forall₂_map_left_iff, List.forall₂_map_right_iff]
  exact List.forall₂_same.2 fun i hi => hn kn hk i (List.mem_range.1 hi)

theorem sysCpm_near (hR : Counted A R) (U : K → Variable K) (vs : List (K × ℕ)) (sys : K)
    (C : List (List ℕ)) : SameTable (R 1) (sysCpm U vs sys C) (sysCpm U vs sys C) := by
  refine ⟨rfl, rfl, rfl, ?_, ⟨rfl, rfl, rfl, rfl⟩, rfl⟩
  show Forall₂ _ (C.map fun _ => (1 : ℚ)) (C.map fun _ => (1 : ℚ))
  rw [List.forall₂_map_left_iff, List.forall₂_map_right_iff]
  exact List.forall₂_same.2 fun i hi => hR.one 1

theorem net_near (hR : Counted A R) {U : K → Variable K} {vs : List (K × ℕ)}
    {probs pr : K → ℕ → ℚ} (hn : ∀ kn ∈ vs, ∀ i < kn.2, R 1 (probs kn.1 i) (pr kn.1 i)) (sys : K)
    (C : List (List ℕ)) {cpms' : List (Cpm K)}
    (h : cpms'.Perm (vs.map (compCpm U probs) ++ [sysCpm U vs sys C])) :
    ∃ cpms, Forall₂ (SameTable (R 1)) cpms' cpms ∧
      cpms.Perm (vs.map (compCpm U pr) ++ [sysCpm U vs sys C]) := by
  have hf : Forall₂ (SameTable (R 1)) (vs.map (compCpm U probs) ++ [sysCpm U vs sys C])
      (vs.map (compCpm U pr) ++ [sysCpm U vs sys C]) := by
    refine List.rel_append ?_ (.cons (sysCpm_near hR U vs sys C) .nil)
    rw [List.forall₂_map_left_iff, List.forall₂_map_right_iff]
    exact List.forall₂_same.2 fun kn hk => compCpm_near hn hk
  exact List.perm_comp_forall₂ h hf

theorem NearProbs.nearP {vs : List (K × ℕ)} {probs pr : K → ℕ → ℚ} (hp : ProbOK vs pr)
    (hn : NearProbs F ε vs probs pr) : ∀ kn ∈ vs, ∀ i < kn.2, NearP F ε 1 (probs kn.1 i) (pr kn.1 i) := by
  intro kn hk i hi
  obtain ⟨h1, h2, h3⟩ := hn kn hk i hi
  exact ⟨h1, hp.nonneg kn hk i hi, by rwa [pow_one], by rwa [pow_one]⟩

theorem net_prod {U : K → Variable K} {vs : List (K × ℕ)} (hv : VarisOK vs) (pr : K → ℕ → ℚ) (sys : K)
    {C : List (List ℕ)} (hC : C ≠ []) {cpms : List (Cpm K)}
    (h : cpms.Perm (vs.map (compCpm U pr) ++ [sysCpm U vs sys C])) :
    (cpms.map rows1).prod = (vs.map Prod.snd).prod * C.length := by
  rw [(h.map rows1).prod_eq, List.map_append, List.prod_append, List.map_map]
  congr 1
  · congr 1
    refine List.map_congr_left fun kn hk => ?_
    have := hv.pos kn hk
    show max 1 ((range kn.2).map fun i => [i]).length = kn.2
    rw [List.length_map, List.length_range]
    exact max_eq_right this
  · have : 1 ≤ C.length := List.length_pos_iff.2 hC
    simpa [rows1, sysCpm] using this

/-- The system probability of the exact and of the rounded computation. -/
theorem net_getProb (hR : Counted A R) {U : K → Variable K} {vs : List (K × ℕ)} {sys : K} {m : ℕ}
    (hU : SysVars U vs sys m) {probs pr : K → ℕ → ℚ}
    (hn : ∀ kn ∈ vs, ∀ i < kn.2, R 1 (probs kn.1 i) (pr kn.1 i)) {C : List (List ℕ)} (hC : EventsOK U vs m C)
    {cpms' : List (Cpm K)} (h : cpms'.Perm (vs.map (compCpm U probs) ++ [sysCpm U vs sys C]))
    {ve : List (Variable K)} (hve : ve.Perm (compVariables U vs)) :
    ∃ P', variableElimR A cpms' ve = .ok P' ∧ P'.vars = [U sys] ∧ ∀ j < m, ∃ q,
      P'.getProbR A [U sys] [j] true = .ok q ∧
      R (netRoundings vs C.length) q (probOf vs pr (SysState U vs C j)) := by
  obtain ⟨cpms, hf, hperm⟩ := net_near hR hn sys C h
  obtain ⟨P, f1, f2, f3, f4, f5⟩ := sysNet_elim hU pr hC hperm hve
  obtain ⟨P', g1, g2⟩ := (elim_rel hR hf ve).of_ok f1
  refine ⟨P', g1, g2.vars.trans f3, fun j hj => ?_⟩
  obtain ⟨q, q1, q2⟩ := (getProb_rel g2 (fun _ _ hl hn => hR.sum _ _ _ _ hl hn) [U sys] [j] true).of_ok
    (sysNet_getProb hU pr f2 f3 f4 f5 hj)
  refine ⟨q, q1, hR.mono _ _ _ _ ?_ q2⟩
  have h1 := elimRows_le ve cpms
  have h2 := elim_rows f1
  have h3 := net_prod hU.varis pr sys hC.ne hperm
  have h4 : cpms.length = vs.length + 1 := by rw [hperm.length_eq]; simp
  have h5 : ve.length = vs.length := by rw [hve.length_eq]; simp [compVariables]
  rw [h3] at h1 h2
  rw [h5] at h1
  unfold elimRoundings netRoundings
  rw [h4]
  generalize (vs.map Prod.snd).prod * C.length = T at *
  have h6 : (vs.length + 1) * T = vs.length * T + T := Nat.succ_mul _ _
  omega

end BNS
