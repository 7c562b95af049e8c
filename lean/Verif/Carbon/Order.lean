import Mathlib.Analysis.SpecialFunctions.Pow.Real
import Verif.Carbon.Pair

/-!
# Model of `carbon/order.py` (`Order`)

Numbers are elements of an ordered field `K` with a square-root function (`PySqrt`).  Over `ℝ` it is `Real.sqrt`; over
`ℚ` there is an executable one that is right on squares of rationals and only used in examples.  The rounding of
`Decimal` (128 digits) and of `math.sqrt` is not modelled.
-/

namespace Carbon

open CarbonPair (pyDiv)

/-- `math.sqrt` / `Decimal.sqrt` on non-negative numbers. -/
class PySqrt (K : Type) where
  sqrt : K → K

noncomputable instance : PySqrt ℝ := ⟨Real.sqrt⟩

/-- Integer square root, for examples. -/
def isqrt : Nat → Nat
  | 0 => 0
  | n + 1 => let r := isqrt n; if (r + 1) * (r + 1) ≤ n + 1 then r + 1 else r

/-- Square root of rationals that are squares, for examples. -/
instance : PySqrt ℚ := ⟨fun q => (isqrt q.num.toNat : ℚ) / (isqrt q.den : ℚ)⟩

/-- Numerical part of an `Order` after `__post_init__` (carbon/order.py:36-57). The attributes `C`/`D` are the same
numbers as `y`/`y_int` (carbon/order.py:49-50) and are not stored. -/
structure Curve (K : Type) where
  B : K
  S : K
  yint : K
  plow : K
  phigh : K
  y : K
  adjN : Bool
  deriving DecidableEq, Repr

/-- The numerical constructor arguments (carbon/order.py:36-61). -/
structure CurveArgs (K : Type) where
  B : Option K := none
  S : Option K := none
  yint : Option K := none
  phigh : Option K := none
  plow : Option K := none
  pmarg : Option K := none
  y : Option K := none
  reverseq : Bool := false

namespace Curve

section Field
variable {K : Type} [Field K] [LinearOrder K] [PySqrt K]

/-- A square root that raises on negative arguments (`ValueError` from `math`, `InvalidOperation` from `decimal`). -/
def sqrtE (x : K) : Py K := if x < 0 then .error .value else .ok (PySqrt.sqrt x)

/-- Prices and curve parameters (carbon/order.py:169-192). -/
def shape (a : CurveArgs K) : Py (K × K × K × K) :=
  match a.B, a.S with
  | some B, some S => do
    let pa ← (if a.reverseq then pyDiv 1 ((S + B) ^ 2) else .ok ((S + B) ^ 2))
    let pb ← (if a.reverseq then pyDiv 1 (B * B) else .ok (B * B))
    if pa < pb then .ok (B, S, pa, pb) else .ok (B, S, pb, pa)
  | _, _ =>
    match a.plow, a.phigh with
    | some pl, some ph => do
      let plow := if ph < pl then ph else pl
      let phigh := if ph < pl then pl else ph
      let b ← sqrtE plow
      let h ← sqrtE phigh
      .ok (b, h - b, plow, phigh)
    | _, _ => .error .assertion

/-- Capacity (carbon/order.py:194-207 and 215-222). -/
def capacity (a : CurveArgs K) (y plow phigh : K) : Py K :=
  match a.yint with
  | some z => .ok z
  | none =>
    match a.pmarg with
    | none => .ok y
    | some pm => do
      let h ← sqrtE phigh
      let l ← sqrtE plow
      let m ← sqrtE pm
      pyDiv (y * (h - l)) (m - l)

/-- `__post_init__` (carbon/order.py:150-231) with `auto_convert_variables=True` (the default and the only value used by
the simulator) and without the argument `D`, which is an alias for `y_int`. A missing `_y` ends in the assertion of
line 224 (or earlier, with `TypeError`, if a marginal price is given). -/
def init (a : CurveArgs K) : Py (Curve K) := do
  let s ← shape a
  match a.y with
  | none => .error .assertion
  | some y =>
    let z ← capacity a y s.2.2.1 s.2.2.2
    .ok ⟨s.1, s.2.1, z, s.2.2.1, s.2.2.2, y, decide (s.2.2.2 = s.2.2.1)⟩

/-- `p` (carbon/order.py:94-98). -/
def p (c : Curve K) : Py K := sqrtE (c.phigh * c.plow)

/-- `n` (carbon/order.py:131-139); the power `.25` is written as two square roots. -/
def n (c : Curve K) : Py K :=
  if c.adjN then .ok (1 / 10 ^ 18)
  else do
    let q ← pyDiv c.plow c.phigh
    let r ← sqrtE q
    let r2 ← sqrtE r
    .ok (1 - r2)

/-- `max(self.y_int, 1)` (carbon/order.py:104, 127). -/
def yint1 (c : Curve K) : K := max c.yint 1

/-- `x0` (carbon/order.py:100-105). -/
def x0 (c : Curve K) : Py K := do
  let n ← c.n
  let p ← c.p
  pyDiv (c.yint1 * (1 - n)) (p * (2 - n))

/-- `y0` (carbon/order.py:125-129). -/
def y0 (c : Curve K) : Py K := do
  let n ← c.n
  pyDiv (c.yint1 * (1 - n)) (2 - n)

/-- `k` (carbon/order.py:107-111). -/
def k (c : Curve K) : Py K := do
  let x0 ← c.x0
  let y0 ← c.y0
  .ok (x0 * y0)

/-- `a` (carbon/order.py:113-115). -/
def a (c : Curve K) : Py K := do
  let k ← c.k
  let n ← c.n
  let x0 ← c.x0
  .ok (k * (n - 1) - n * x0 * c.y)

/-- `x` (carbon/order.py:117-123). -/
def x (c : Curve K) : Py K := do
  let x0 ← c.x0
  let n ← c.n
  let y0 ← c.y0
  pyDiv (x0 * (n * c.y - c.y + y0 * (2 - n))) (n * c.y + y0 * (1 - n))

/-- `ExactBase.dxdy` (carbon/routers/exact_base_router.py:18-29). -/
def dxdy (c : Curve K) (dy : K) : Py K := do
  let x0 ← c.x0
  let y0 ← c.y0
  let n ← c.n
  pyDiv (-x0 * y0 * dy) ((n * c.y + y0 * (1 - n)) * (n * (c.y + dy) + y0 * (1 - n)))

/-- `FastRouter.amt_by_src` (carbon/routers/fast_router.py:47-67) without floor division (`ONE = 1`, lines 260-265). -/
def amtBySrc (c : Curve K) (dx : K) : Py K :=
  let temp2 := c.y * c.S + c.yint * c.B
  let temp3 := temp2 - dx * c.S
  pyDiv (dx * c.yint * c.yint) (temp2 * temp3)

/-- `FastRouter.amt_by_target` (carbon/routers/fast_router.py:69-92) without floor division. -/
def amtByTarget (c : Curve K) (dx : K) : Py K :=
  let temp1 := c.y * c.S + c.yint * c.B
  let temp2 := temp1 * dx
  let temp3 := temp2 * c.S + c.yint * c.yint
  pyDiv (temp1 * temp2) temp3

/-- `AlphaRouter.amt_by_target` (carbon/routers/alpha_router.py:149-172). -/
def alphaByTarget (c : Curve K) (dx : K) : Py K :=
  pyDiv (dx * c.yint ^ 2) ((c.S * c.y + c.B * c.yint) * (c.S * c.y + c.B * c.yint - c.S * dx))

/-- `AlphaRouter.amt_by_src` (carbon/routers/alpha_router.py:278-305). -/
def alphaBySrc (c : Curve K) (dx : K) : Py K :=
  pyDiv (dx * (c.S * c.y + c.B * c.yint) ^ 2) (c.S * dx * (c.S * c.y + c.B * c.yint) + c.yint ^ 2)

/-- `AlphaRouter.get_geoprice` (carbon/routers/alpha_router.py:136-146). -/
def geoprice (c : Curve K) : Py K := do
  let x0 ← c.x0
  let y0 ← c.y0
  pyDiv x0 y0

end Field

end Curve

end Carbon
