import Mathlib.Data.Rat.Defs
import Mathlib.Algebra.Order.Field.Rat
import Mathlib.Algebra.Order.Floor.Defs
import Mathlib.Data.Rat.Floor

/-!
# Specification: the Carbon bonding curve, exactly

The two formulas documented in the comments at benchmark/core/trade/impl.py:60-64 and 83-87, over ℚ, in terms of
the width `a` and the lower end `b` of the square-root price range.  No rounding, no overflow.
-/

namespace Carbon.Spec

/-- Exact amount of target token received for `x` units of source token. -/
def curveOut (x y z a b : ℚ) : ℚ :=
  if a = 0 then x * b ^ 2
  else x * (a * y + b * z) ^ 2 / (a * x * (a * y + b * z) + z ^ 2)

/-- Exact amount of source token needed for `d` units of target token. -/
def curveIn (d y z a b : ℚ) : ℚ :=
  if a = 0 then d / b ^ 2
  else d * z ^ 2 / ((a * y + b * z) * (a * y + b * z - a * d))

/-- The number denoted by a stored rate word: a 48 bit mantissa, an exponent, and 48 fractional bits. -/
def wordValue (w : ℕ) : ℚ := ((w % 2 ^ 48 : ℕ) : ℚ) * 2 ^ (w / 2 ^ 48) / 2 ^ 48

end Carbon.Spec
