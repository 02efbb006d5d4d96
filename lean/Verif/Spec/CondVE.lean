import Verif.Spec.Elim
import Verif.Spec.Order

/-!
# Networks for the inference of a system event by conditioning

What `cal_Msys_by_cond_VE` needs of a dictionary of CPMs, said without its helper functions.
-/

namespace BNS

variable {K : Type} [DecidableEq K]

/-- A network `d` with a system event `sys`, conditioning variables `cond` and variables `veOrd` to
be summed out. -/
structure CondVEOK (U : K → Variable K) (d : List (K × Cpm K)) (varis : List (K × Variable K))
    (cond veOrd : List K) (sys : K) : Prop where
  /-- well-formed CPMs, each for the variable it is stored under, basic child states, no two rows
  for the same assignment -/
  wf : ∀ k M, d.lookup k = some M → WF U M
  basic : ∀ k M, d.lookup k = some M → ChildBasic M
  rows : ∀ k M, d.lookup k = some M → RowsDisjoint M
  child : ∀ k M, d.lookup k = some M → childNames M = [k]
  pos : ∀ k M, d.lookup k = some M → (U k).values ≠ []
  /-- every CPM but the system's is complete -/
  full : ∀ k M, d.lookup k = some M → k ≠ sys → ∀ x : K → ℕ,
    (∀ j ∈ M.vars.map Variable.name, x j < (U j).values.length) → Covers M x
  varis : ∀ k v, varis.lookup k = some v → v = U k
  /-- the conditioning variables have no parents outside, and the system is none of them and has
  none of them as a parent -/
  condNodup : cond.Nodup
  condClosed : ∀ k ∈ cond, ∀ j, ParentOf d k j → j ∈ cond
  condSys : sys ∉ cond
  direct : ∀ j, ParentOf d sys j → j ∉ cond
  /-- the system is a leaf, and its parents have no other children -/
  leaf : ∀ k, Relevant d [sys] k → ¬ ParentOf d k sys
  comps : ∀ j k, ParentOf d sys j → Relevant d [sys] k → k ≠ sys → ¬ ParentOf d k j
  /-- every other ancestor of the system is conditioned on or summed out -/
  complete : ∀ k, Relevant d [sys] k → k = sys ∨ k ∈ cond ∨ k ∈ veOrd ∨ ParentOf d sys k
  /-- a parent of the system that is not summed out depends on conditioning variables only -/
  joint : ∀ k, ParentOf d sys k → k ∉ veOrd → ∀ j, ParentOf d k j → j ∈ cond

/-- Networks in which the ancestors of the system are its parents, all to be summed out, and the
conditioning variables; the parents of the system all depend on the same conditioning variable, or
all on none. -/
structure CondVEDirect (d : List (K × Cpm K)) (cond veOrd : List K) (sys : K) : Prop where
  defined : ∀ k, k ∈ cond ∨ Relevant d [sys] k → ∃ M, d.lookup k = some M
  someCond : cond ≠ []
  someComp : ∃ k, ParentOf d sys k
  someRow : ∀ M, d.lookup sys = some M → M.C ≠ []
  elim : ∀ k, ParentOf d sys k → k ∈ veOrd
  near : ∀ k, Relevant d [sys] k → k = sys ∨ k ∈ cond ∨ ParentOf d sys k
  same : ∃ cv : List (Variable K), cv.length ≤ 1 ∧
    ∀ k M, ParentOf d sys k → d.lookup k = some M → M.vars.drop 1 = cv

end BNS
