import Mathlib.Data.Rat.Defs
import Mathlib.Data.List.Sort

/-!
# Conventions shared by the whole model

Python exceptions are values of `Err`; a function that may raise returns `Except Err _`.
-/

namespace BNS

/-- The Python exceptions that the modelled code can raise (`fuel` is not a Python exception:
it marks a `while` loop that did not finish within the fuel given to it, and it is proved never
to occur).  `noPath` is `networkx.NetworkXNoPath`, `graph` any other exception of networkx.
Raised by `assert`, `raise` and failing operations, e.g. cpm.py:53-103, trans.py:110-140. -/
inductive Err where
  | assertion
  | value
  | index
  | key
  | type
  | attribute
  | unbound
  | noPath
  | graph
  | fuel
  deriving DecidableEq, Repr

instance {ε α : Type} [DecidableEq ε] [DecidableEq α] : DecidableEq (Except ε α) := fun a b =>
  match a, b with
  | .ok x, .ok y => if h : x = y then isTrue (by rw [h]) else isFalse (by simpa using h)
  | .error x, .error y => if h : x = y then isTrue (by rw [h]) else isFalse (by simpa using h)
  | .ok _, .error _ => isFalse (by simp)
  | .error _, .ok _ => isFalse (by simp)

/-- `xs.index(x)` : first position of `x`, `ValueError` if absent.
As in variable.py:142, 163, cpm.py:284, 397, 539, 584. -/
def pyIndex {α : Type} [DecidableEq α] (xs : List α) (x : α) : Except Err ℕ :=
  match xs.idxOf? x with
  | some i => .ok i
  | none => .error .value

/-- `xs[i]` for a non-negative `i`: `IndexError` when out of range.
As in cpm.py:585, variable.py:128-142. -/
def pyGet {α : Type} (xs : List α) (i : ℕ) : Except Err α :=
  match xs[i]? with
  | some a => .ok a
  | none => .error .index

theorem ok_bind {ε α β : Type} (a : α) (f : α → Except ε β) : (Except.ok a >>= f) = f a := rfl

theorem error_bind {ε α β : Type} (e : ε) (f : α → Except ε β) :
    ((Except.error e : Except ε α) >>= f) = .error e := rfl

theorem pure_ok {ε α : Type} (a : α) : (pure a : Except ε α) = .ok a := rfl

end BNS
