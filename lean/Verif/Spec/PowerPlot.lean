import Verif.Model.PowerHouse

/-!
# What the map of the power network should show

Stated on the paths and houses alone.
-/

namespace BNS

variable {K : Type}

/-- `h` is the house (the first one, if several list it) at the head of the pole. -/
def HouseOf (houses : List (K × List K)) (pl h : K) : Prop :=
  ∃ l₁ pls l₂, houses = l₁ ++ (h, pls) :: l₂ ∧ pl ∈ pls ∧ ∀ x ∈ l₁, pl ∉ x.2

/-- On the path `p` from the substation `s`, the pole hangs on `t`: on the substation when it is the
first of the path, else on the house of the pole before it. -/
def HangsOn (houses : List (K × List K)) (s : K) (p : List K) (pl t : K) : Prop :=
  (∃ r, p = pl :: r ∧ t = s) ∨
  ∃ a q r, p = a ++ q :: pl :: r ∧ pl ∉ a ++ [q] ∧ HouseOf houses q t

/-- `p` is a path from substation `s`. -/
def IsPath (paths : List (K × List (List K))) (s : K) (p : List K) : Prop :=
  ∃ ps, (s, ps) ∈ paths ∧ p ∈ ps

end BNS
