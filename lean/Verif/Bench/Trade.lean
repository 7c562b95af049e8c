import Mathlib.Data.Nat.Sqrt
import Mathlib.Algebra.Order.Ring.Int
import Verif.Basic

/-!
# Model of `benchmark/core/trade/impl.py`

Everything is over `Int`/`Nat`, exactly as Python's unbounded integers.  A failing `assert`, a division
by zero and a negative shift are values of `Err`.
-/

namespace Carbon.Bench

open Carbon

/-- `ONE = 2 ** 48` (benchmark/core/trade/impl.py:3). -/
def ONE : Int := 2 ^ 48

/-- `MAX_UINT128` (benchmark/core/trade/impl.py:5). -/
def MAX128 : Int := 2 ^ 128 - 1

/-- `MAX_UINT256` (benchmark/core/trade/impl.py:6). -/
def MAX256 : Int := 2 ^ 256 - 1

/-- `check` (benchmark/core/trade/impl.py:8): `assert 0 <= val <= max`. -/
def check (val max : Int) : Py Int :=
  if 0 ≤ val ∧ val ≤ max then .ok val else .error .assertion

/-- Python's `a // b` on integers: floor division, raising on zero. -/
def floorDiv (a b : Int) : Py Int :=
  if b = 0 then .error .zeroDiv else .ok (a.fdiv b)

/-- `uint128` (benchmark/core/trade/impl.py:10). -/
def uint128 (n : Int) : Py Int := check n MAX128
/-- `add` (benchmark/core/trade/impl.py:11). -/
def add (a b : Int) : Py Int := check (a + b) MAX256
/-- `sub` (benchmark/core/trade/impl.py:12). -/
def sub (a b : Int) : Py Int := check (a - b) MAX256
/-- `mul` (benchmark/core/trade/impl.py:13). -/
def mul (a b : Int) : Py Int := check (a * b) MAX256
/-- `mulDivF` (benchmark/core/trade/impl.py:14): `check(a * b // c, MAX_UINT256)`. -/
def mulDivF (a b c : Int) : Py Int := do
  let q ← floorDiv (a * b) c
  check q MAX256
/-- `mulDivC` (benchmark/core/trade/impl.py:15): `check((a * b + c - 1) // c, MAX_UINT256)`. -/
def mulDivC (a b c : Int) : Py Int := do
  let q ← floorDiv (a * b + c - 1) c
  check q MAX256

/-- `bitLength` (benchmark/core/trade/impl.py:17-18): the number of binary digits after `0b`,
and 0 for 0.  `lstrip('0b')` strips the prefix (and leading zeros, of which `bin` prints none). -/
def bitLength (value : Nat) : Nat := if value > 0 then Nat.log2 value + 1 else 0

/-- `encodeFloat` (benchmark/core/trade/impl.py:28-31), for non-negative values
(it is only ever applied to `H - L` and `L`; see `EncOrder` for the negative case). -/
def encodeFloat (value : Nat) : Nat :=
  let exponent := bitLength (value / 2 ^ 48)
  let mantissa := value >>> exponent
  mantissa ||| (exponent * 2 ^ 48)

/-- `decodeFloat` (benchmark/core/trade/impl.py:33-34), for non-negative words. -/
def decodeFloat (value : Nat) : Nat := (value % 2 ^ 48) <<< (value / 2 ^ 48)

/-- An encoded order, the dict with keys `y z A B` built at benchmark/core/trade/impl.py:41-46.
`A`, `B` are encoded words.  (A range with `highestRate < lowestRate` would give a negative word `A`, on which
`decodeFloat` raises `ValueError: negative shift count`; such orders are outside this type.) -/
structure EncOrder where
  y : Int
  z : Int
  A : Nat
  B : Nat
  deriving DecidableEq, Repr

/-- `tradeBySourceAmountFunc` (benchmark/core/trade/impl.py:65-81). -/
def tradeBySourceAmountFunc (x y z A B : Int) : Py Int :=
  if A = 0 then do
    let bb ← mul B B
    let oo ← mul ONE ONE
    mulDivF x bb oo
  else do
    let temp1 ← mul z ONE
    let ya ← mul y A
    let zb ← mul z B
    let temp2 ← add ya zb
    let temp3 ← mul temp2 x
    let factor1 ← mulDivC temp1 temp1 MAX256
    let factor2 ← mulDivC temp3 A MAX256
    let factor := max factor1 factor2
    let temp4 ← mulDivC temp1 temp1 factor
    let temp5 ← mulDivC temp3 A factor
    if temp4 + temp5 ≤ MAX256 then do
      let q ← floorDiv temp3 factor
      mulDivF temp2 q (temp4 + temp5)
    else do
      let c ← mulDivC temp1 temp1 temp3
      let d ← add A c
      floorDiv temp2 d

/-- `tradeByTargetAmountFunc` (benchmark/core/trade/impl.py:88-102). -/
def tradeByTargetAmountFunc (x y z A B : Int) : Py Int :=
  if A = 0 then do
    let oo ← mul ONE ONE
    let bb ← mul B B
    mulDivC x oo bb
  else do
    let temp1 ← mul z ONE
    let ya ← mul y A
    let zb ← mul z B
    let temp2 ← add ya zb
    let xa ← mul x A
    let temp3 ← sub temp2 xa
    let factor1 ← mulDivC temp1 temp1 MAX256
    let factor2 ← mulDivC temp2 temp3 MAX256
    let factor := max factor1 factor2
    let temp4 ← mulDivC temp1 temp1 factor
    let temp5 ← mulDivF temp2 temp3 factor
    mulDivC x temp4 temp5

/-- `tradeFunc` (benchmark/core/trade/impl.py:104-113): any exception yields the fallback. -/
def tradeFunc (amount : Int) (order : EncOrder)
    (func : Int → Int → Int → Int → Int → Py Int) (fallback : Int) : Int :=
  let x := amount
  let A : Int := decodeFloat order.A
  let B : Int := decodeFloat order.B
  match (func x order.y order.z A B >>= uint128) with
  | .ok r => r
  | .error _ => fallback

/-- `tradeBySourceAmount` (benchmark/core/trade/impl.py:115-116). -/
def tradeBySourceAmount (amount : Int) (order : EncOrder) : Int :=
  tradeFunc amount order tradeBySourceAmountFunc 0

/-- `tradeByTargetAmount` (benchmark/core/trade/impl.py:118-119). -/
def tradeByTargetAmount (amount : Int) (order : EncOrder) : Int :=
  tradeFunc amount order tradeByTargetAmountFunc MAX128

/-- The capacity `z` at benchmark/core/trade/impl.py:43. -/
def encodeCapacity (y L H M : Nat) : Py Int :=
  if H = M then .ok (y : Int) else floorDiv ((y : Int) * ((H : Int) - L)) ((M : Int) - L)

/-- The order-encoding arithmetic of `encodeOrder` (benchmark/core/trade/impl.py:36-46) once the three
rates have been turned into fixed point square roots `L`, `H`, `M` by `encodeRate`; `H - L` must be
non-negative (see `EncOrder`), otherwise the model reports the `ValueError` that the first use of the
order would raise. -/
def encodeOrderFixed (y L H M : Nat) : Py EncOrder :=
  if H < L then .error .value else do
    let z ← encodeCapacity y L H M
    pure { y := y, z := z, A := encodeFloat (H - L), B := encodeFloat L }

/-- `encodeRate` (benchmark/core/trade/impl.py:20-23) for a rational rate `num/den`.
`int(value.sqrt() * ONE)` is the integer part of `2^48·√(num/den)`, which is
`⌊√⌊num·2^96/den⌋⌋`.  Simplification: the square root is taken exactly (the code takes it with
100 significant decimal digits). -/
def encodeRate (num den : Nat) : Py Nat :=
  if den = 0 then .error .zeroDiv else
    let data := Nat.sqrt (num * 2 ^ 96 / den)
    let length := bitLength (data / 2 ^ 48)
    .ok ((data >>> length) <<< length)

/-- `encodeOrder` (benchmark/core/trade/impl.py:36-46).  Rates are rationals given as numerator and
denominator, the liquidity is the integer part already. -/
def encodeOrder (liquidity : Nat) (lowest highest marginal : Nat × Nat) : Py EncOrder := do
  let L ← encodeRate lowest.1 lowest.2
  let H ← encodeRate highest.1 highest.2
  let M ← encodeRate marginal.1 marginal.2
  encodeOrderFixed liquidity L H M

end Carbon.Bench
