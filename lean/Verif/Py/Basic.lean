import Mathlib.Order.Defs.LinearOrder
import Mathlib.Data.Nat.Cast.Defs

/-!
# Python substrate: exceptions, numbers

Errors are values, so that "does not raise" is a statement about a total function.
-/

namespace RSE

/-- The exception classes the modelled code can raise. -/
inductive Err where
  | key        -- KeyError
  | value      -- ValueError
  | index      -- IndexError
  | attr       -- AttributeError
  | zeroDiv    -- ZeroDivisionError
  | type       -- TypeError
  | diverge    -- not an exception: a modelled `while` loop ran out of fuel (shown not to happen)
  deriving DecidableEq, Repr

/-- A Python computation that returns or raises. -/
abbrev Py (α : Type) := Except Err α

/-- `math.fsum`.  For exact arithmetic this is the ordinary sum; for floats it is some function of the list
(correctly rounded sum), about which structural theorems assume nothing. -/
class FSum (F : Type) where
  fsum : List F → F

instance (priority := 100) instFSumOfAddMonoid {F : Type} [AddMonoid F] : FSum F := ⟨List.sum⟩

/-- Python's `a / b` on numbers: raises `ZeroDivisionError` when `b == 0`. -/
def pyDiv {F : Type} [LinearOrder F] [Zero F] [Div F] (a b : F) : Py F :=
  if b = 0 then .error .zeroDiv else .ok (a / b)

end RSE
