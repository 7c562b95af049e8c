import Verif.Bench.Trade
import Verif.Carbon.Order

/-!
# Model of the reference implementation `benchmark/core/trade/spec.py` and of reading encoded orders back

`Decimal` is replaced by exact arithmetic in an ordered field with square roots.
-/

namespace Carbon.Bench


open CarbonPair (pyDiv)

/-- The dict describing an order: `liquidity`, `lowestRate`, `highestRate`, `marginalRate` (benchmark/core/trade/spec.py:3-17). -/
structure RateOrder (K : Type) where
  liquidity : K
  lowest : K
  highest : K
  marginal : K
  deriving DecidableEq, Repr

/-- `decodeRate` (benchmark/core/trade/impl.py:25-26). -/
def decodeRate {K : Type} [Field K] (value : K) : K := (value / 2 ^ 48) ^ 2

/-- `decodeOrder` (benchmark/core/trade/impl.py:48-58). -/
def decodeOrder {K : Type} [Field K] [LinearOrder K] (o : EncOrder) : Py (RateOrder K) := do
  let y : K := o.y
  let z : K := o.z
  let A : K := decodeFloat o.A
  let B : K := decodeFloat o.B
  let M ← (if y = z then .ok (B + A) else do
    let q ← pyDiv (A * y) z
    .ok (B + q))
  .ok { liquidity := y, lowest := decodeRate B, highest := decodeRate (B + A), marginal := decodeRate M }

namespace Ref

/-- The dict with keys `y L H M` (benchmark/core/trade/spec.py:4-9). -/
structure RootOrder (K : Type) where
  y : K
  L : K
  H : K
  M : K
  deriving DecidableEq, Repr

section
variable {K : Type} [Field K] [LinearOrder K] [PySqrt K]

/-- `encodeOrder` (benchmark/core/trade/spec.py:3-9). The square root of a negative number raises. -/
def encodeOrder (o : RateOrder K) : Py (RootOrder K) := do
  let L ← Curve.sqrtE o.lowest
  let H ← Curve.sqrtE o.highest
  let M ← Curve.sqrtE o.marginal
  .ok { y := o.liquidity, L := L, H := H, M := M }

/-- `decodeOrder` (benchmark/core/trade/spec.py:11-17). -/
def decodeOrder (o : RootOrder K) : RateOrder K :=
  { liquidity := o.y, lowest := o.L ^ 2, highest := o.H ^ 2, marginal := o.M ^ 2 }

/-- `tradeBySourceAmountFunc` (benchmark/core/trade/spec.py:19-22). -/
def sourceFunc (x y L M : K) : Py K := pyDiv (M * M * x * y) (M * (M - L) * x + y)

/-- `tradeByTargetAmountFunc` (benchmark/core/trade/spec.py:24-27). -/
def targetFunc (x y L M : K) : Py K := pyDiv (x * y) (M * (L - M) * x + M * M * y)

/-- `tradeFunc` (benchmark/core/trade/spec.py:29-34). -/
def tradeFunc (amount : K) (o : RootOrder K) (func : K → K → K → K → Py K) : Py K := func amount o.y o.L o.M

/-- `tradeBySourceAmount` (benchmark/core/trade/spec.py:36-37). -/
def tradeBySourceAmount (amount : K) (o : RootOrder K) : Py K := tradeFunc amount o sourceFunc

/-- `tradeByTargetAmount` (benchmark/core/trade/spec.py:39-40). -/
def tradeByTargetAmount (amount : K) (o : RootOrder K) : Py K := tradeFunc amount o targetFunc

/-- `execute` (benchmark/core/trade/spec.py:42-43): by source if the flag is set, by target otherwise. -/
def execute (bySource : Bool) (amount : K) (o : RateOrder K) : Py K := do
  let e ← encodeOrder o
  if bySource then tradeBySourceAmount amount e else tradeByTargetAmount amount e

end

end Ref

/-- The order of the reference implementation that is requested by an integer liquidity and rational rates. -/
def requested {K : Type} [Field K] (y : Nat) (lo hi mid : Nat × Nat) : RateOrder K :=
  { liquidity := y, lowest := lo.1 / lo.2, highest := hi.1 / hi.2, marginal := mid.1 / mid.2 }

/-- `execute` (benchmark/core/trade/impl.py:121-122). -/
def execute (bySource : Bool) (amount : Int) (y : Nat) (lo hi mid : Nat × Nat) : Py Int := do
  let o ← encodeOrder y lo hi mid
  .ok (if bySource then tradeBySourceAmount amount o else tradeByTargetAmount amount o)

end Carbon.Bench
