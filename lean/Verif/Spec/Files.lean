import Mathlib.Algebra.Field.Defs
import Mathlib.Algebra.BigOperators.Group.List.Basic

/-!
# Specification vocabulary: drives over the connections of a model file
-/

namespace BNS

/-- A drive from one node to another over connections (name, origin, destination, weight), each in
either direction, with the list of the weights. -/
inductive Drive {K F : Type} (conns : List (K × K × K × F)) : K → List F → K → Prop
  | nil {u : K} : Drive conns u [] u
  | cons {u m v : K} {c : K × K × K × F} {ws : List F} : c ∈ conns →
      (c.2.1 = u ∧ c.2.2.1 = m ∨ c.2.1 = m ∧ c.2.2.1 = u) → Drive conns m ws v →
      Drive conns u (c.2.2.2 :: ws) v

/-- No two arcs (name, origin, destination) between the same two nodes. -/
def OneRoad {K : Type} (arcs : List (K × K × K)) : Prop :=
  arcs.Pairwise fun a b => ¬ (a.2 = b.2 ∨ a.2 = (b.2.2, b.2.1))

/-- A name as Python has it: a number or a text. -/
inductive PyName where
  | int (n : ℕ)
  | str (s : List Char)
  deriving DecidableEq

/-- What JSON makes of a key: a number becomes the text of its digits. -/
def jsonKey : PyName → PyName
  | .int n => .str (Nat.toDigits 10 n)
  | .str s => .str s

end BNS
