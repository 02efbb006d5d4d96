import Verif.Spec.Cpm

/-!
# Specification vocabulary: CPMs that carry samples

A CPM can carry, next to its event matrix, a table of samples `Cs` with one sampling probability
`q`, one weight `ps` and one sample number `sample_idx` per sample.
-/

namespace BNS

variable {K : Type}

/-- The same CPM without its samples. -/
def noSamples (M : Cpm K) : Cpm K := { M with Cs := [], q := [], ps := [], sampleIdx := [] }

/-- The samples of a CPM are well formed: one basic state per variable, one sampling probability and
one sample number per sample, and a weight for each sample or for none. -/
structure SamplesOK (M : Cpm K) : Prop where
  rowLen : ∀ c ∈ M.Cs, c.length = M.vars.length
  entry : ∀ c ∈ M.Cs, ∀ vs ∈ M.vars.zip c, vs.2 < vs.1.values.length
  qLen : M.q.length = M.Cs.length
  psLen : M.ps = [] ∨ M.ps.length = M.Cs.length
  siLen : M.sampleIdx.length = M.Cs.length

instance (M : Cpm K) : Decidable (SamplesOK M) :=
  decidable_of_iff
    ((∀ c ∈ M.Cs, c.length = M.vars.length) ∧
      (∀ c ∈ M.Cs, ∀ vs ∈ M.vars.zip c, vs.2 < vs.1.values.length) ∧
      M.q.length = M.Cs.length ∧ (M.ps = [] ∨ M.ps.length = M.Cs.length) ∧
      M.sampleIdx.length = M.Cs.length)
    ⟨fun ⟨a, b, c, d, e⟩ => ⟨a, b, c, d, e⟩, fun ⟨a, b, c, d, e⟩ => ⟨a, b, c, d, e⟩⟩

/-- The state a sample `c` over `vars` gives to the variable named `k`. -/
def sampleState [DecidableEq K] (vars : List (Variable K)) (c : List ℕ) (k : K) : ℕ :=
  c.getD ((vars.map Variable.name).idxOf k) 0

/-- The assignment `x` with the evidence written over it. -/
def override [DecidableEq K] (cv : List (Variable K)) (cs : List ℕ) (x : K → ℕ) (k : K) : ℕ :=
  if k ∈ cv.map Variable.name then sampleState cv cs k else x k

/-- The samples are those of the joint realisations `σ`: sample number `n` gives each variable the
state it has in realisation `n`. -/
def SampledBy [DecidableEq K] (σ : ℕ → K → ℕ) (M : Cpm K) : Prop :=
  ∀ (i n : ℕ) (c : List ℕ), M.sampleIdx[i]? = some n → M.Cs[i]? = some c →
    ∀ v ∈ M.vars, sampleState M.vars c v.name = σ n v.name

/-- The sampling probability of sample number `n`. -/
def numProb (M : Cpm K) (n : ℕ) : ℚ := M.q.getD (M.sampleIdx.idxOf n) 0

/-- The weight of sample number `n`: the recorded one, or its sampling probability. -/
def numWeight (M : Cpm K) (n : ℕ) : ℚ :=
  if M.ps = [] then numProb M n else M.ps.getD (M.sampleIdx.idxOf n) 0

end BNS
