import Mathlib.Algebra.Order.Floor.Ring
import Mathlib.Data.Rat.Floor
import Verif.Carbon.FastRouter

/-!
# Model of `FastRouter` with `use_floor_division=True`, and of reading orders from a file

The parameters `S` and `B` of the orders are then in units of `2 ** -32` (carbon/routers/base_router.py:297-312). All numbers are
`Decimal`s (carbon/routers/fast_router.py:58, 81), whose `//` drops the fraction of the quotient.
-/

namespace Carbon.Floor

open Carbon.FastRouter

/-- The integer part of a number. -/
def trunc (q : ℚ) : ℚ := if 0 ≤ q then (⌊q⌋ : ℚ) else (⌈q⌉ : ℚ)

/-- `a // b` for `Decimal`s. Simplification: quotients of more than 128 digits do not raise. -/
def intDiv (a b : ℚ) : Py ℚ := if b = 0 then .error .zeroDiv else .ok (trunc (a / b))

/-- `ONE` (carbon/routers/fast_router.py:29). -/
def one : ℚ := 2 ^ 32

/-- `mul_div_f` (carbon/routers/fast_router.py:33-38). -/
def mulDivF (x y z : ℚ) : Py ℚ := intDiv (x * y) z

/-- `mul_div_c` (carbon/routers/fast_router.py:40-45). -/
def mulDivC (x y z : ℚ) : Py ℚ := intDiv (x * y + z - 1) z

/-- `amt_by_src` (carbon/routers/fast_router.py:47-67). -/
def amtBySrc (c : Curve ℚ) (dx : ℚ) : Py ℚ :=
  let temp1 := c.yint * one
  let temp2 := c.y * c.S + c.yint * c.B
  let temp3 := temp2 - dx * c.S
  mulDivC (dx * temp1) temp1 (temp2 * temp3)

/-- `amt_by_target` (carbon/routers/fast_router.py:69-92). -/
def amtByTarget (c : Curve ℚ) (dx : ℚ) : Py ℚ := do
  let temp1 := c.y * c.S + c.yint * c.B
  let temp2 ← intDiv (temp1 * dx) one
  let temp3 := temp2 * c.S + c.yint * c.yint * one
  mulDivF temp1 temp2 temp3

/-- `get_trade_amounts_by_source_amount` (carbon/routers/fast_router.py:94-105). -/
def rateBySource (x : ℚ) (o : Curve ℚ) : Py (FRate ℚ) := do
  let t ← amtByTarget o x
  let output := min t o.y
  let i ← amtBySrc o output
  .ok ⟨i, output⟩

/-- `get_trade_amounts_by_target_amount` (carbon/routers/fast_router.py:107-116). -/
def rateByTarget (x : ℚ) (o : Curve ℚ) : Py (FRate ℚ) := do
  let i := min x o.y
  let output ← amtBySrc o i
  .ok ⟨i, output⟩

/-- `match_by_src` (carbon/routers/fast_router.py:225-241). -/
def matchBySource (orders : List (Curve ℚ)) (x : ℚ) : Py (List (Action ℚ)) := matchAmount rateBySource cmpMin orders x

/-- `match_by_target` (carbon/routers/fast_router.py:243-258). -/
def matchByTarget (orders : List (Curve ℚ)) (x : ℚ) : Py (List (Action ℚ)) := matchAmount rateByTarget cmpMax orders x

section Read
variable {K : Type} [Field K] [LinearOrder K] [PySqrt K] [FloorRing K]

/-- What is used of an entry of a file of orders (carbon/routers/base_router.py:286-290). Entries with numbers that cannot be read are not
modelled. -/
structure Entry (K : Type) where
  S : Option K := none
  B : Option K := none
  y : Option K := none
  yint : Option K := none

/-- The integer parameters of an order (carbon/routers/base_router.py:296-309); the new order is constructed without conversion. -/
def scaled (c : Curve K) : Py (Curve K) := do
  let ph ← Curve.sqrtE c.phigh
  let pl ← Curve.sqrtE c.plow
  let h : K := (⌊ph⌋ : K) * 2 ^ 32
  let l : K := (⌊pl⌋ : K) * 2 ^ 32
  .ok { B := l, S := h - l, yint := c.yint, plow := c.plow, phigh := c.phigh, y := c.y, adjN := false }

/-- One order of the file (carbon/routers/base_router.py:286-309). -/
def entryOrder (floor : Bool) (e : Entry K) : Py (Curve K) := do
  let c ← Curve.init { B := e.B, S := e.S, yint := e.yint, y := e.y }
  if floor then scaled c else .ok c

/-- The loop of `make_orders_from_file` over a json file (carbon/routers/base_router.py:283-324), with the orders read so far. -/
def readLoop (floor : Bool) (num : Nat) : List (Curve K) → List (Entry K) → Py (List (Curve K))
  | acc, [] => .ok acc
  | acc, e :: rest => do
    let c ← entryOrder floor e
    let acc := acc ++ [c]
    if acc.length = num then .ok acc else readLoop floor num acc rest

/-- `make_orders_from_file` for a json file with these entries (carbon/routers/base_router.py:265-329, 347-350). -/
def readJson (floor : Bool) (num : Option Nat) (file : List (Entry K)) : Py (List (Curve K)) := readLoop floor (num.getD 10) [] file

/-- `make_orders_from_file` for a csv file with low prices, high prices and capacities (carbon/routers/base_router.py:330-350). -/
def readCsv (rows : List (K × K × K)) : Py (List (Curve K)) :=
  rows.mapM fun r => Curve.init { plow := some r.1, phigh := some r.2.1, yint := some r.2.2 }

end Read

end Carbon.Floor
