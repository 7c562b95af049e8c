import Mathlib.Algebra.Order.Field.Basic
import Mathlib.Algebra.Order.Floor.Ring
import Mathlib.Data.Nat.Log
import Verif.Sdk.Token

/-!
# Model of `carbon/helpers/floatint.py`

The number of binary digits is computed in the code by a floating-point logarithm. The model has both the exact number of digits and a
version of the constructor for any estimate of this number. The classes for other scales differ in one constant, which is a parameter.
-/

namespace Carbon

/-- `CarbonFloatInt64` (floatint.py:10-45): the fields after the checks of `__post_init__`. -/
structure FloatInt where
  significant : ℤ
  exponent : ℕ
  deriving DecidableEq, Repr

namespace FloatInt

/-- `BITS_SIGNIFICANT` (floatint.py:38). -/
def bitsSignificant : ℕ := 40

/-- `BITS_EXPONENT` (floatint.py:39). -/
def bitsExponent : ℕ := 8

/-- The constructor (floatint.py:42-45). -/
def make (significant exponent : ℤ) : Py FloatInt :=
  if exponent ≥ 0 then .ok ⟨significant, exponent.toNat⟩ else .error .assertion

/-- `bindig` (floatint.py:47-50) without rounding: the ceiling of the logarithm of `num + 1`. -/
def bindig (num : ℕ) : ℕ := Nat.clog 2 (num + 1)

/-- `from_int` (floatint.py:52-69) with an estimate of the number of digits. The message of the third assertion uses an unknown name, so
the failure is a `NameError`. -/
def fromIntWith (dig : ℕ → ℕ) (raw : ℤ) : Py FloatInt :=
  if raw < 0 then .error .assertion
  else if raw = 0 then make 0 0
  else
    let exponent : ℤ := (dig raw.toNat : ℤ) - bitsSignificant
    if ¬ exponent ≤ 2 ^ bitsExponent then .error (.custom "NameError")
    else if exponent ≤ 0 then make raw 0
    else make (raw >>> exponent.toNat) exponent

/-- `from_int` (floatint.py:52-69). -/
def fromInt (raw : ℤ) : Py FloatInt := fromIntWith bindig raw

/-- `max` (floatint.py:81-84). -/
def max (minus : ℤ := 0) : Py FloatInt := make (2 ^ bitsSignificant - 1 - minus) (2 ^ bitsExponent - 1)

/-- `min` (floatint.py:86-89). -/
def min (plus : ℤ := 0) : Py FloatInt := make (1 + plus) 0

/-- `asint` (floatint.py:116-119). -/
def asint (f : FloatInt) : ℤ := f.significant <<< f.exponent

section
variable {K : Type} [Field K] [LinearOrder K] [FloorRing K]

/-- `_one` (floatint.py:126-129) for a class with a given `ONE_EXPONENT`. -/
def one (oneExponent : ℕ) : ℤ := (1 : ℤ) <<< oneExponent

/-- `from_float` (floatint.py:71-79). -/
def fromFloat (oneExponent : ℕ) (x : K) : Py FloatInt := fromInt (SdkTkn.toInt (x * (one oneExponent : ℤ)))

/-- `asfloat` (floatint.py:136-139). -/
def asfloat (oneExponent : ℕ) (f : FloatInt) : K := (f.asint : K) / (one oneExponent : ℤ)

end

end FloatInt

end Carbon
