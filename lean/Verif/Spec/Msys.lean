import Verif.Spec.Samples

/-!
# Specification vocabulary: component CPMs multiplied into a system CPM
-/

namespace BNS

variable {K : Type}

/-- Component CPMs conditioned on the states `cs` of the variables `cv` (none, or one): one child
each, every basic state of the child listed exactly once, all rows conditioned on `cs`, different
children, and conditioning variables that are not components. -/
structure CompsOK (U : K → Variable K) (cv : List (Variable K)) (cs : List ℕ)
    (comps : List (Cpm K)) : Prop where
  ne : comps ≠ []
  wf : ∀ m ∈ comps, WF U m
  vars : ∀ m ∈ comps, ∃ v, m.vars = v :: cv
  noChild : ∀ m ∈ comps, m.noChild = 1
  some_row : ∀ m ∈ comps, m.C ≠ []
  rows : ∀ m ∈ comps, ∀ c ∈ m.C, c.drop 1 = cs
  basic : ∀ m ∈ comps, ∀ v ∈ m.vars.take 1, ((m.C.map fun c => c.headD 0).Perm
    (List.range v.values.length))
  cond : cv.length ≤ 1
  disjoint : (comps.map childNames).Nodup
  indep : ∀ m ∈ comps, ∀ w ∈ cv, w.name ∉ childNames m

/-- What `prod_Msys_and_Mcomps` needs: a well-formed system CPM with at least one row, and
components that are not children of it.  `D v` is the CPM of component `v`. -/
structure MsysOK (U : K → Variable K) (cv : List (Variable K)) (cs : List ℕ) (S : Cpm K)
    (comps : List (Cpm K)) (D : K → Cpm K) : Prop where
  sys : WF U S
  scope : S.vars ≠ []
  some_row : S.C ≠ []
  compsOK : CompsOK U cv cs comps
  map : ∀ m ∈ comps, ∀ k ∈ childNames m, D k = m
  notChild : ∀ m ∈ comps, ∀ k ∈ childNames m, k ∉ childNames S
  condNotChild : ∀ w ∈ cv, w.name ∉ childNames S

/-- The parents of the system that are components, and the others. -/
def compPars [DecidableEq K] (S : Cpm K) (comps : List (Cpm K)) : List (Variable K) :=
  (S.vars.drop S.noChild).filter fun v => ∃ m ∈ comps, v.name ∈ childNames m
def otherPars [DecidableEq K] (S : Cpm K) (comps : List (Cpm K)) : List (Variable K) :=
  (S.vars.drop S.noChild).filter fun v => ∀ m ∈ comps, v.name ∉ childNames m

/-- What `prod_Msys_and_Mcomps` needs of the samples: the system has a child; it and the components
carry samples of the same joint realisations `σ` under the same, distinct, numbers; every parent of
the system is a component or a conditioning variable; and if some conditioning variable is not in
the scope of the system, some parent is a component.  `E v` is the CPM of component `v`. -/
structure MsysSamplesOK [DecidableEq K] (U : K → Variable K) (cv : List (Variable K)) (cs : List ℕ)
    (S : Cpm K) (comps : List (Cpm K)) (E : K → Cpm K) (σ : ℕ → K → ℕ) : Prop where
  tables : MsysOK U cv cs (noSamples S) (comps.map noSamples) (fun k => noSamples (E k))
  map : ∀ m ∈ comps, ∀ k ∈ childNames m, E k = m
  child : 0 < S.noChild
  some_sample : S.Cs ≠ []
  sys : SamplesOK S ∧ S.sampleIdx.Nodup ∧ SampledBy σ S
  comp : ∀ m ∈ comps, SamplesOK m ∧ m.sampleIdx.Nodup ∧ SampledBy σ m
  nums : ∀ m ∈ comps, ∀ n, n ∈ m.sampleIdx ↔ n ∈ S.sampleIdx
  all : ∀ v ∈ S.vars.drop S.noChild,
    v.name ∈ cv.map Variable.name ∨ ∃ m ∈ comps, v.name ∈ childNames m
  extra : compPars S comps = [] → ∀ w ∈ cv, w.name ∈ S.vars.map Variable.name

end BNS
