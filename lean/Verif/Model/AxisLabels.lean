import Verif.Model.Reporters
import Mathlib.Data.Int.Log

/-!
# logic/helper.py: labels in scientific notation

Numbers are exact.  They are not in the program: `log10` of a number just below a power of ten can be an integer there.
-/

namespace RSE

/-- the text of a label, without the markup -/
inductive AxisLabel where
  /-- the number itself -/
  | plain (t : ℚ)
  /-- `10^e` -/
  | power (e : Int)
  /-- `coeff·10^e` -/
  | product (coeff : ℚ) (e : Int)
  deriving DecidableEq

/-- `sci_notation` (helper.py:401-408), with the default for `precision`: as many digits are printed as the coefficient is rounded to.  `log10` of 0 raises `ValueError`. -/
def sciNotation (num : ℚ) (decimalDigits : Nat := 1) (exponent : Option Int := none) : Py AxisLabel := do
  let e ← match exponent with
    | some e => .ok e
    | none => if num = 0 then .error .value else .ok (Int.log 10 |num|)
  let coeff : ℚ := (roundHalfEven (num / 10 ^ e * 10 ^ decimalDigits) : ℚ) / 10 ^ decimalDigits
  return if 1 < coeff then .product coeff e else .power e

/-- the labels of the ticks of a logarithmic axis in `plot_aggregate_data` (helper.py:424-427) -/
def tickLabel (t : ℚ) : Py AxisLabel := if 1 / 10 ≤ t then .ok (.plain t) else sciNotation t 0

end RSE
