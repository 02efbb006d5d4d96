import Verif.Proofs.CondVERound
import Verif.Props.CondVE
import Verif.Props.ElimCondRound

/-!
# Property C108: `prod_Msys_and_Mcomps` and `cal_Msys_by_cond_VE` in floating-point arithmetic

`Arith` is the arithmetic of the probabilities, as in `Props/CpmRound`.
-/

namespace BNS

set_option linter.unusedSectionVars false

open List

section
variable {K : Type} [LinearOrder K] {U : K → Variable K}

theorem prodMsysR_exact (S : Cpm K) (l : List (Cpm K)) :
    prodMsysMcompsR Arith.exact S l = prodMsysMcomps S l := by
  have h : ∀ (m : Cpm K) c1 ks, compProbR Arith.exact m c1 ks = compProb m c1 ks := by
    intro m c1 ks
    rw [compProb_sum]
    rfl
  unfold prodMsysMcompsR prodMsysMcomps
  simp only [h]
  rfl

theorem joinCompsR_exact (xs : List K) : ∀ (S : Cpm K) (d : List (K × Cpm K)),
    joinCompsR Arith.exact xs S d = joinComps xs S d := by
  induction xs with
  | nil => intro S d; rfl
  | cons x xs ih =>
    intro S d
    unfold joinCompsR joinComps
    have hp : ∀ S M : Cpm K, S.productR Arith.exact M = S.product M := fun _ _ => rfl
    simp only [ih, hp]

theorem elimListR_exact (l : List (Cpm K)) (ve : List (Variable K)) :
    variableElimListR Arith.exact l ve = variableElimList l ve := by
  have hs : ∀ (M : Cpm K) vs flag, M.sumR Arith.exact vs flag = M.sum vs flag := fun M vs flag =>
    (C103_refines M M [] vs [] flag).2.1
  have hl : ∀ l : List (Cpm K), productListR Arith.exact l = productList l := by
    intro l
    cases l <;> rfl
  have he : elimStepR (K := K) Arith.exact = elimStep := by
    funext l v
    unfold elimStepR elimStep
    simp only [hs, hl]
  unfold variableElimListR variableElimList
  rw [he]

theorem condVERowR_exact (d : List (K × Cpm K)) (sys : K) (cElm cJnt cond : List K)
    (ve : List (Variable K)) (M : Cpm K) (cx : List ℕ) :
    condVERowR Arith.exact d sys cElm cJnt cond ve M cx = condVERow d sys cElm cJnt cond ve M cx := by
  have hs : ∀ (M : Cpm K) vs flag, M.sumR Arith.exact vs flag = M.sum vs flag := fun M vs flag =>
    (C103_refines M M [] vs [] flag).2.1
  have hp : ∀ S M : Cpm K, S.productR Arith.exact M = S.product M := fun _ _ => rfl
  unfold condVERowR condVERow
  simp only [joinCompsR_exact, elimListR_exact, prodMsysR_exact, hs, hp]

theorem condVELoopR_exact (row : List ℕ → Except Err (Cpm K)) : ∀ (rows : List (List ℕ)) M,
    condVELoopR Arith.exact row rows M = condVELoop row rows M := by
  intro rows
  induction rows with
  | nil => intro M; cases M <;> rfl
  | cons cx rest ih =>
    intro M
    unfold condVELoopR condVELoop
    simp only [ih, mergeR_exact]
    rfl

/-- With exact arithmetic these are the operations of the other properties. -/
theorem C108_refines (S : Cpm K) (comps : List (Cpm K)) (d : List (K × Cpm K))
    (varis : List (K × Variable K)) (cond veOrd : List K) (sys : K) :
    prodMsysMcompsR Arith.exact S comps = prodMsysMcomps S comps ∧
    calMsysByCondVER Arith.exact d varis cond veOrd sys = calMsysByCondVE d varis cond veOrd sys := by
  refine ⟨prodMsysR_exact S comps, ?_⟩
  have hl : ∀ l : List (Cpm K), productListR Arith.exact l = productList l := by
    intro l
    cases l <;> rfl
  have hr : ∀ d sys cElm cJnt cond ve (M : Cpm K), condVERowR (K := K) Arith.exact d sys cElm cJnt cond ve M =
      condVERow d sys cElm cJnt cond ve M := fun _ _ _ _ _ _ _ => funext fun _ => condVERowR_exact _ _ _ _ _ _ _ _
  unfold calMsysByCondVER calMsysByCondVE
  simp only [hl, hr, condVELoopR_exact]

/-- Whatever the arithmetic, rounding changes the probabilities only: the same exceptions, and tables with
the same variables and rows in the same order. -/
theorem C108_structure (A : Arith) {d' d : List (K × Cpm K)}
    (h : Forall₂ (fun a b => a.1 = b.1 ∧ SameTable (fun _ _ => True) a.2 b.2) d' d)
    (varis : List (K × Variable K)) (cond veOrd : List K) (sys : K) :
    Outcome (SameTable fun _ _ => True) (calMsysByCondVER A d' varis cond veOrd sys)
      (calMsysByCondVE d varis cond veOrd sys) :=
  calMsys_rel (counted_true A) (k := 0) h varis cond veOrd sys

/-- `prod_Msys_and_Mcomps`: with a system table right up to `s` relative errors and component tables of at
most `n` rows right up to `t`, the product is right up to `s + w (t + n + 1)`, where `w` is the number of
columns of the system table. -/
theorem C108_product {A : Arith} {F : ℚ → Prop} {ε : ℚ} (hA : A.Within F ε 0) {s t n : ℕ} {S' S : Cpm K}
    (hS : SameTable (NearP F ε s) S' S) {comps' comps : List (Cpm K)}
    (h : Forall₂ (SameTable (NearP F ε t)) comps' comps) (hn : ∀ m ∈ comps, m.C.length ≤ n) :
    Outcome (SameTable (NearP F ε (s + S.vars.length * (t + n + 1)))) (prodMsysMcompsR A S' comps')
      (prodMsysMcomps S comps) :=
  prodMsys_rel (counted_near hA) hS h hn le_rfl

/-- `cal_Msys_by_cond_VE` in double precision, without underflow, from tables stored with one rounding:
whenever it returns for a network satisfying `CondVEOK`, each probability is the sum of the joint
probabilities with a relative error of at most `2⁻⁵²` times a number that can be read off the network.
Missing for the full claim: that it returns on every network (see `C108_returns_partial`), underflow, tables
with samples. -/
theorem C108_system_partial {d' d : List (K × Cpm K)}
    (h' : Forall₂ (fun a b => a.1 = b.1 ∧
      SameTable (NearP (fun _ => True) ((2 : ℚ) ^ (-53 : ℤ)) 1) a.2 b.2) d' d)
    {varis : List (K × Variable K)} {cond veOrd : List K} {sys : K} (h : CondVEOK U d varis cond veOrd sys)
    {R' : Cpm K} (hR' : calMsysByCondVER (Arith.ofRound float53) d' varis cond veOrd sys = .ok R')
    {N : ℕ} (hN : condVERoundings 1 d cond ≤ N) (hN' : N ≤ 2 ^ 52)
    {summed net : List K} {T : K → Cpm K} (hsn : summed.Nodup) (hnn : net.Nodup)
    (hsm : ∀ k, k ∈ summed ↔ k ∈ cond ∨ (Relevant d [sys] k ∧ k ∈ veOrd ∧ k ≠ sys))
    (hnm : ∀ k, k ∈ net ↔ k ∈ cond ∨ Relevant d [sys] k)
    (hT : ∀ k ∈ net, d.lookup k = some (T k)) :
    (∀ k, k ∈ R'.getNames ↔ k = sys ∨ (ParentOf d sys k ∧ k ∉ veOrd)) ∧
    ∀ x, |dens R' x - sumOver (summed.map fun k => (k, (U k).values.length)) (jointDens (net.map T)) x| ≤
      N * (2 : ℚ) ^ (-52 : ℤ) *
        sumOver (summed.map fun k => (k, (U k).values.length)) (jointDens (net.map T)) x := by
  have hrel := calMsys_rel (counted_near C103_float53.1) h' varis cond veOrd sys
  rw [hR'] at hrel
  cases hR : calMsysByCondVE d varis cond veOrd sys with
  | error e => rw [hR] at hrel; exact hrel.elim
  | ok R =>
    rw [hR] at hrel
    have hrel : SameTable _ R' R := hrel
    obtain ⟨-, r2, -, r4⟩ := C70_system_by_conditioning_partial h hR
    refine ⟨fun k => ?_, fun x => ?_⟩
    · rw [← r2]
      unfold Cpm.getNames
      rw [hrel.vars]
    · have hd := r4 summed net T hsn hnn hsm hnm hT x
      obtain ⟨h0, h1, h2⟩ := dens_near hrel x
      rw [hd] at h0 h1 h2
      have hn : NearP (fun _ => True) ((2 : ℚ) ^ (-53 : ℤ)) (condVERoundings 1 d cond) (dens R' x)
          (sumOver (summed.map fun k => (k, (U k).values.length)) (jointDens (net.map T)) x) :=
        ⟨trivial, h0, h1, h2⟩
      exact C103_relative (hn.mono C103_float53.1.eps hN) hN'

end

namespace Ex

/-- The network of the repository's test as the computer stores it. -/
def hDs : List (ℕ × Cpm ℕ) := hD.map fun km => (km.1, stored km.2)

theorem hDs_near : Forall₂ (fun a b => a.1 = b.1 ∧
    SameTable (NearP (fun _ => True) ((2 : ℚ) ^ (-53 : ℤ)) 1) a.2 b.2) hDs hD := by
  have : ∀ km ∈ hD, (∀ x ∈ km.2.p, 0 ≤ x) ∧ km.2.Cs = [] := by decide +kernel
  unfold hDs
  generalize hD = d at this
  induction d with
  | nil => exact Forall₂.nil
  | cons a d ih =>
    have h1 := this a (by simp)
    exact Forall₂.cons ⟨rfl, stored_table _ h1.1 h1.2⟩ (ih fun km hkm => this km (by simp [hkm]))

end Ex

namespace Ex

theorem hD_relevant (k : ℕ) : Relevant hD [4] k ↔ k ∈ [4, 1, 3, 0] := by
  have hr : getInfVars hD [4] none = .ok [4, 1, 3, 0] := by decide +kernel
  by_cases hall : ∀ k, Relevant hD [4] k → ∃ M, hD.lookup k = some M
  · obtain ⟨r, h1, h2, -⟩ := (C42_relevant hD [4]).1 hall
    rw [hr] at h1
    cases h1
    exact (h2 k).symm
  · push Not at hall
    obtain ⟨j, hj, hn⟩ := hall
    have hl : hD.lookup j = none := by
      cases hx : hD.lookup j with
      | none => rfl
      | some M => exact (hn M hx).elim
    have := (C42_relevant hD [4]).2 ⟨j, hj, hl⟩
    rw [hr] at this
    cases this

end Ex

/-- Both probabilities of the system of the repository's test, as computed, have a relative error of at
most `2⁻³⁶`. -/
example {R' : Cpm ℕ} (hR' : calMsysByCondVER (Arith.ofRound float53) Ex.hDs Ex.hV [0] [0, 1, 3] 4 = .ok R')
    (x : ℕ → ℕ) :
    |dens R' x - sumOver [(0, 2), (1, 2), (3, 2)] (jointDens (Ex.hD.map Prod.snd)) x| ≤
      (2 : ℚ) ^ (-36 : ℤ) * sumOver [(0, 2), (1, 2), (3, 2)] (jointDens (Ex.hD.map Prod.snd)) x := by
  have key := (C108_system_partial (U := Ex.U) Ex.hDs_near Ex.hD_ok hR' (N := 2 ^ 16) (by decide +kernel)
    (by norm_num) (summed := [0, 1, 3]) (net := [0, 1, 3, 4])
    (T := fun k => (Ex.hD.lookup k).getD Ex.hHaz) (by decide) (by decide)
    (fun k => by rw [Ex.hD_relevant]; simp; omega) (fun k => by rw [Ex.hD_relevant]; simp; omega)
    (by decide +kernel)).2 x
  refine key.trans (le_of_eq ?_)
  have e : ((2 ^ 16 : ℕ) : ℚ) * (2 : ℚ) ^ (-52 : ℤ) = (2 : ℚ) ^ (-36 : ℤ) := by norm_num
  rw [e]
  rfl

/-- The network of the repository's test: the function returns in double precision, with the two rows of
the exact result and probabilities that differ from the exact ones. -/
theorem C108_not_exact :
    CondVEOK Ex.U Ex.hD Ex.hV [0] [0, 1, 3] 4 ∧ condVERoundings 1 Ex.hD [0] ≤ 2 ^ 20 ∧
    ∃ R', calMsysByCondVER (Arith.ofRound float53) Ex.hDs Ex.hV [0] [0, 1, 3] 4 = .ok R' ∧
      R'.C = [[0], [1]] ∧ R'.p ≠ [9/200, 117/200] := by
  refine ⟨Ex.hD_ok, by decide +kernel, ?_⟩
  have : (calMsysByCondVER (Arith.ofRound float53) Ex.hDs Ex.hV [0] [0, 1, 3] 4).toOption.any fun R' =>
        R'.C = [[0], [1]] ∧ R'.p ≠ [9/200, 117/200] := by decide +kernel
  revert this
  cases hr : calMsysByCondVER (Arith.ofRound float53) Ex.hDs Ex.hV [0] [0, 1, 3] 4 with
  | error e => intro h; cases h
  | ok R' => intro h; exact ⟨R', rfl, by simpa [Except.toOption] using h⟩

end BNS
