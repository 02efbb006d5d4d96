import Verif.Proofs.ElimCondRound
import Verif.Props.CpmRound
import Verif.Props.ElimCond
import Verif.Props.ElimTotal

/-!
# Property C107: `merge` and `variable_elim_cond` in floating-point arithmetic

`Arith` is the arithmetic of the probabilities, as in `Props/CpmRound`.
-/

namespace BNS

set_option linter.unusedSectionVars false

open List

section
variable {K : Type} [LinearOrder K] {U : K → Variable K}

theorem mergeR_exact (X Y : Cpm K) : X.mergeR Arith.exact Y = X.merge Y := by
  unfold Cpm.mergeR Cpm.merge
  simp only [Arith.exact, List.sum_cons, List.sum_nil, add_zero]

theorem elimCondRowR_exact (cpms : List (Cpm K)) (varis : List (Variable K)) (cNames : List K) (P : Cpm K)
    (idv : Option (List ℕ)) (cx : List ℕ) :
    elimCondRowR Arith.exact cpms varis cNames P idv cx = elimCondRow cpms varis cNames P idv cx := by
  have he : ∀ l, variableElimR Arith.exact l varis = variableElim l varis := fun l =>
    (C103_refines P P l varis [] true).2.2.2.1
  have hp : ∀ S M : Cpm K, S.productR Arith.exact M = S.product M := fun _ _ => rfl
  unfold elimCondRowR elimCondRow
  simp only [he, hp]

theorem elimCondLoopR_exact (cpms : List (Cpm K)) (varis : List (Variable K)) (cNames : List K) (P : Cpm K) :
    ∀ rows idv M, elimCondLoopR Arith.exact cpms varis cNames P rows idv M =
      elimCondLoop cpms varis cNames P rows idv M := by
  intro rows
  induction rows with
  | nil => intro idv M; rfl
  | cons cx rest ih =>
    intro idv M
    unfold elimCondLoopR elimCondLoop
    simp only [elimCondRowR_exact, ih, mergeR_exact]
    rfl

/-- With exact arithmetic these are the operations of the other properties. -/
theorem C107_refines (X Y : Cpm K) (cpms : List (Cpm K)) (varis : List (Variable K)) (cond : List (Cpm K)) :
    X.mergeR Arith.exact Y = X.merge Y ∧
    variableElimCondR Arith.exact cpms varis cond = variableElimCond cpms varis cond := by
  refine ⟨mergeR_exact X Y, ?_⟩
  have hl : productListR Arith.exact cond = productList cond := by cases cond <;> rfl
  unfold variableElimCondR variableElimCond
  simp only [hl, elimCondLoopR_exact]

/-- Whatever the arithmetic, rounding changes the probabilities only: the same exception is raised, or
nothing is returned in both cases, or the tables have the same variables and rows in the same order. -/
theorem C107_structure (A : Arith) {cpms' cpms cond' cond : List (Cpm K)}
    (h : Forall₂ (SameTable fun _ _ => True) cpms' cpms)
    (hc : Forall₂ (SameTable fun _ _ => True) cond' cond) (varis : List (Variable K)) :
    Outcome (Option.Rel (SameTable fun _ _ => True)) (variableElimCondR A cpms' varis cond')
      (variableElimCond cpms varis cond) :=
  variableElimCond_rel (counted_true A) (k := 0) h hc varis

/-- `merge` of tables right up to `n` and `m` relative errors, `m ≤ n`: the sum is right up to two more
per row of the second table. -/
theorem C107_merge {A : Arith} {F : ℚ → Prop} {ε : ℚ} (hA : A.Within F ε 0) {n m : ℕ} (hm : m ≤ n)
    {X' X Y' Y : Cpm K} (hX : SameTable (NearP F ε n) X' X) (hY : SameTable (NearP F ε m) Y' Y) :
    Outcome (fun z' z => SameTable (NearP F ε (n + 2 * Y.C.length)) z'.2 z.2) (X'.mergeR A Y')
      (X.merge Y) :=
  merge_rel (counted_near hA) hm hX hY

/-- Eliminating variables case by case in double precision, without underflow, from tables stored with
one rounding: it returns exactly when the first row of the conditioning tables dominates the others (and
raises `ValueError` otherwise), and each entry has a relative error of at most `2⁻⁵²` times a number that
can be read off the given tables.  With underflow: `C107_double_partial`.  Missing for the full claim: tables with samples. -/
theorem C107_marginal_partial {cpms' cpms cond' cond : List (Cpm K)}
    (h' : Forall₂ (SameTable (NearP (fun _ => True) ((2 : ℚ) ^ (-53 : ℤ)) 1)) cpms' cpms)
    (hc' : Forall₂ (SameTable (NearP (fun _ => True) ((2 : ℚ) ^ (-53 : ℤ)) 1)) cond' cond)
    {varis : List (Variable K)} {P : Cpm K} (h : CondTotOK U cpms varis cond P)
    {cvars : List (Variable K)} (hcn : (cvars.map Variable.name).Nodup) (hce : ∀ v ∈ cvars, U v.name = v)
    (hcm : ∀ k, k ∈ cvars.map Variable.name ↔ ∃ M ∈ cond, k ∈ M.getNames)
    (hleft : ∃ M ∈ cpms ++ cond, ∃ k ∈ M.getNames, k ∉ (cvars ++ varis).map Variable.name)
    (hcov : ∃ x, ∀ M ∈ cond, Covers M x)
    {N : ℕ} (hN : condRoundings 1 cpms varis cond ≤ N) (hN' : N ≤ 2 ^ 52) :
    (¬ FirstRowDominates cpms varis P →
      variableElimCondR (Arith.ofRound float53) cpms' varis cond' = .error .value) ∧
    (FirstRowDominates cpms varis P →
      ∃ R', variableElimCondR (Arith.ofRound float53) cpms' varis cond' = .ok (some R') ∧
        (∀ k, k ∈ R'.getNames ↔ (∃ M ∈ cpms ++ cond, k ∈ M.getNames) ∧
          k ∉ (cvars ++ varis).map Variable.name) ∧
        ∀ x, |dens R' x - sumOver ((cvars ++ varis).map fun v => (v.name, v.values.length))
            (jointDens (cpms ++ cond)) x| ≤
          N * (2 : ℚ) ^ (-52 : ℤ) * sumOver ((cvars ++ varis).map fun v => (v.name, v.values.length))
            (jointDens (cpms ++ cond)) x) := by
  obtain ⟨hr1, hr2⟩ := C57_returns_iff cpms varis cond P h
  have hrel := variableElimCond_rel (counted_near C103_float53.1) h' hc' varis
  refine ⟨fun hd => ?_, fun hd => ?_⟩
  · have e := hr2 hd
    rw [e] at hrel
    cases hx : variableElimCondR (Arith.ofRound float53) cpms' varis cond' with
    | error f => rw [hx] at hrel; rw [show f = .value from hrel]
    | ok r => rw [hx] at hrel; exact hrel.elim
  · obtain ⟨res, hres⟩ := hr1 hd
    obtain ⟨c1, c2⟩ := C57_conditioning_partial cpms varis cond h.ok cvars hcn hce hcm res hres
    obtain ⟨res', hres', hrr⟩ := hrel.of_ok hres
    cases hrr with
    | none =>
      obtain ⟨M, hM, k, hk, hkn⟩ := hleft
      exact (hkn (c1 rfl hcov M hM k hk)).elim
    | @some R' R hR =>
      obtain ⟨-, -, hd, -, hnames⟩ := c2 R rfl
      refine ⟨R', hres', fun k => ?_, fun x => ?_⟩
      · rw [← hnames]
        unfold Cpm.getNames
        rw [hR.vars]
      · obtain ⟨h0, h1, h2⟩ := dens_near hR x
        rw [hd] at h0 h1 h2
        have hn : NearP (fun _ => True) ((2 : ℚ) ^ (-53 : ℤ)) (condRoundings 1 cpms varis cond) (dens R' x)
            (sumOver ((cvars ++ varis).map fun v => (v.name, v.values.length))
              (jointDens (cpms ++ cond)) x) := ⟨trivial, h0, h1, h2⟩
        exact C103_relative (hn.mono C103_float53.1.eps hN) hN'

end

namespace Ex

/-- The tables of the series system as the computer stores them. -/
theorem series_stored (M : Cpm ℕ) (hM : M = A ∨ M = A') :
    Forall₂ (SameTable (NearP (fun _ => True) ((2 : ℚ) ^ (-53 : ℤ)) 1)) ([comp3, seriesCpm].map stored)
      [comp3, seriesCpm] ∧
    Forall₂ (SameTable (NearP (fun _ => True) ((2 : ℚ) ^ (-53 : ℤ)) 1)) ([M].map stored) [M] := by
  refine ⟨.cons (stored_table _ (by decide +kernel) rfl) (.cons (stored_table _ (by decide +kernel) rfl)
    .nil), ?_⟩
  rcases hM with rfl | rfl <;> exact .cons (stored_table _ (by decide +kernel) rfl) .nil

end Ex

/-- Two components in series: at most 128 roundings, so both probabilities of the system have a
relative error of at most `2⁻⁴⁵`. -/
example : ∃ R', variableElimCondR (Arith.ofRound float53) ([Ex.comp3, Ex.seriesCpm].map Ex.stored) [Ex.U 3]
      ([Ex.A'].map Ex.stored) = .ok (some R') ∧
    ∀ x, |dens R' x - sumOver [(0, 2), (3, 2)] (jointDens [Ex.comp3, Ex.seriesCpm, Ex.A']) x| ≤
      (2 : ℚ) ^ (-45 : ℤ) * sumOver [(0, 2), (3, 2)] (jointDens [Ex.comp3, Ex.seriesCpm, Ex.A']) x := by
  obtain ⟨h1, h2⟩ := Ex.series_stored Ex.A' (.inr rfl)
  have t2 := Ex.series_tot Ex.A' (.inr rfl)
  have hd : FirstRowDominates [Ex.comp3, Ex.seriesCpm] [Ex.U 3] Ex.A' := by
    by_contra hd
    have h2 : variableElimCond [Ex.comp3, Ex.seriesCpm] [Ex.U 3] [Ex.A'] ≠ .error .value := by
      decide +kernel
    exact h2 ((C57_returns_iff _ _ _ _ t2).2 hd)
  obtain ⟨R', hR', -, hx⟩ := (C107_marginal_partial h1 h2 t2 (cvars := [Ex.U 0]) (by decide +kernel)
    (by decide +kernel) (fun k => by
      have : Ex.A'.getNames = [Ex.U 0].map Variable.name := by decide +kernel
      simp [this]) ⟨Ex.seriesCpm, by simp, 1, by decide +kernel, by decide +kernel⟩
    ⟨fun _ => 0, by decide +kernel⟩ (N := 128) (by decide +kernel) (by norm_num)).2 hd
  refine ⟨R', hR', fun x => (hx x).trans (le_of_eq ?_)⟩
  have e : ((128 : ℕ) : ℚ) * (2 : ℚ) ^ (-52 : ℤ) = (2 : ℚ) ^ (-45 : ℤ) := by norm_num
  rw [e]
  rfl

/-- With 53 binary digits the two probabilities are not 7/25 and 18/25. -/
theorem C107_not_exact :
    ∃ R', variableElimCondR (Arith.ofRound float53) ([Ex.comp3, Ex.seriesCpm].map Ex.stored) [Ex.U 3]
      ([Ex.A'].map Ex.stored) = .ok (some R') ∧ R'.C = [[0], [1]] ∧ R'.p ≠ [7/25, 18/25] := by
  have : ((variableElimCondR (Arith.ofRound float53) ([Ex.comp3, Ex.seriesCpm].map Ex.stored) [Ex.U 3]
      ([Ex.A'].map Ex.stored)).toOption.bind id).any fun R' =>
        R'.C = [[0], [1]] ∧ R'.p ≠ [7/25, 18/25] := by decide +kernel
  revert this
  cases hr : variableElimCondR (Arith.ofRound float53) ([Ex.comp3, Ex.seriesCpm].map Ex.stored) [Ex.U 3]
      ([Ex.A'].map Ex.stored) with
  | error e => intro h; cases h
  | ok o =>
    cases o with
    | none => intro h; cases h
    | some R' => intro h; exact ⟨R', rfl, by simpa [Except.toOption] using h⟩

end BNS
