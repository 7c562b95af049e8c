import Mathlib.Algebra.Order.Floor.Ring
import Verif.Bench.Trade
import Verif.Carbon.Order
import Verif.Sdk.Token

/-!
# Model of the encoded orders of `carbon/sdk/carbonsdk.py` (lines 208-367)

Rates are elements of an ordered field `K` with a square root and a floor; float rounding is not modelled. Integers are Python's unbounded
integers. The dictionary and text forms (`from_sdk`, `descr`, `__getitem__`) are left out.
-/

namespace Carbon

open CarbonPair (pyDiv)

/-- `EncodedOrder` (carbonsdk.py:208-228). -/
structure EncodedOrder where
  token : Str
  y : ℤ
  z : ℤ
  A : ℤ
  B : ℤ
  deriving DecidableEq, Repr

namespace EncodedOrder

/-- `decodeFloat` (carbonsdk.py:243-246): a negative word has a negative exponent, and shifting by a negative count raises. -/
def decodeFloat (value : ℤ) : Py ℤ := if value < 0 then .error .value else .ok (Bench.decodeFloat value.toNat)

/-- `encodeFloat` (carbonsdk.py:267-272): for a negative value the exponent is zero and the mantissa the value. -/
def encodeFloat (value : ℤ) : ℤ := if value < 0 then value else Bench.encodeFloat value.toNat

section
variable {K : Type} [Field K] [LinearOrder K] [FloorRing K] [PySqrt K]

/-- `decode` (carbonsdk.py:248-251). -/
def decode (value : ℤ) : Py K := do
  let v ← decodeFloat value
  .ok ((v : K) / 2 ^ 48)

/-- `encodeRate` (carbonsdk.py:258-263). -/
def encodeRate (value : K) : Py ℕ := do
  let s ← Curve.sqrtE value
  let data := ⌊s * 2 ^ 48⌋.toNat
  let length := Bench.bitLength (data / 2 ^ 48)
  .ok ((data >>> length) <<< length)

/-- The capacity of `encode` (carbonsdk.py:289-296). -/
def capacity (y pHi pLo : K) (pMarg z : Option K) : Py K :=
  match pMarg, z with
  | some _, some _ => .error .value
  | _, some z => .ok z
  | none, none => .ok y
  | some m, none => if pHi ≤ m then .ok y else .ok (⌊y * (pHi - pLo) / (m - pHi)⌋ : ℤ)

/-- `encode` (carbonsdk.py:274-303). `int()` cuts off the decimals (`SdkTkn.toInt`). -/
def encode (y pHi pLo : K) (pMarg z : Option K := none) (token : Option Str := none) : Py EncodedOrder := do
  let c ← capacity y pHi pLo pMarg z
  let H ← encodeRate pHi
  let L ← encodeRate pLo
  .ok ⟨token.getD "TKN".toList, SdkTkn.toInt y, SdkTkn.toInt c, encodeFloat ((H : ℤ) - L), encodeFloat L⟩

/-- A parameter of `encode_yzAB`: an integer or a float. -/
inductive Num (K : Type) where
  | int (n : ℤ)
  | float (v : K)

/-- `encodeFloat` of either: floats can be neither converted with `bin` nor shifted. -/
def encodeNum : Num K → Py ℤ
  | .int n => .ok (encodeFloat n)
  | .float _ => .error .type

/-- `encode_yzAB` (carbonsdk.py:305-321). -/
def encodeYZAB (y z : K) (A B : Num K) (token : Str) : Py EncodedOrder := do
  let a ← encodeNum A
  let b ← encodeNum B
  .ok ⟨token, SdkTkn.toInt y, SdkTkn.toInt z, a, b⟩

/-- `p_end` (carbonsdk.py:347-349). -/
def pEnd (o : EncodedOrder) : Py K := do
  let b ← decode o.B
  .ok (b * b)

/-- `p_start` (carbonsdk.py:351-353). -/
def pStart (o : EncodedOrder) : Py K := do
  let b ← decode o.B
  let a ← decode o.A
  .ok ((b + a) ^ 2)

/-- `p_marg` (carbonsdk.py:355-365). The code after line 361 is not reached. -/
def pMarg (o : EncodedOrder) : Py K :=
  if o.y = o.z then o.pStart else if o.y = 0 then o.pEnd else .error (.custom "NotImplementedError")

end

end EncodedOrder

end Carbon
