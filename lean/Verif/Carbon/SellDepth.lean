import Verif.Carbon.CurveBook

/-!
# Model of the order book of `resources/demo/CarbonSim-Demo-3-3-Big_Orderbook_NW.py`

Orders are read from a file, the amounts they release are listed for a grid of prices, and the list is turned into amounts per tick.
The functions read the orders and the bounds of the prices from global variables; they are arguments here. The approximate liquidities of
lines 93-94 and 105-106, which are not used, and the order book object returned last are left out.
-/

namespace Carbon.SellDepth

open UICurve

/-- An entry of the file (lines 48-49), with the numbers read. -/
structure Rec where
  pa : Int
  pb : Int
  pm : Int
  amt : Int
  deriving DecidableEq, Repr

/-- The checks of `import_orders` (CarbonSim-Demo-3-3-Big_Orderbook_NW.py:50-57) and the bounds of the prices that it returns. -/
def importOrders (rs : List Rec) : Py (Int × Int) :=
  match (rs.map fun r => min r.pa r.pb).min?, (rs.map fun r => max r.pa r.pb).max? with
  | some minp, some maxp =>
    if rs.any fun r => r.pa ≤ r.pb then .error (.custom "RuntimeError")
    else if rs.any fun r => r.pa ≠ r.pm then .error (.custom "RuntimeError")
    else .ok (minp, maxp)
  | _, _ => .error .value

/-- The curve of an order that `add_order` adds (lines 61-62, 69-70): full, selling the quote token of the pair between the prices of the entry.
Simplification: the way through the simulator and back (C33, C56) is not repeated. -/
noncomputable def curveOf (pair : CarbonPair) (r : Rec) : UICurve ℝ :=
  ⟨pair, pair.tknq, √(r.pb : ℝ), √(r.pa : ℝ) - √(r.pb : ℝ), r.amt, r.amt⟩

/-- `calc_new_buckets` (CarbonSim-Demo-3-3-Big_Orderbook_NW.py:83-89): the remainder of the division by zero raises. Simplification: the
division of line 88 is exact. -/
def calcNewBuckets (maxp minp tickSize : Int) : Py (Int × Int) :=
  if tickSize = 0 then .error .zeroDiv
  else
    let rem := (maxp - minp + 1).fmod tickSize
    let newmax := maxp + ((tickSize - rem) + 1)
    let range := newmax - minp
    .ok (newmax, (range + tickSize).tdiv tickSize)

/-- `np.linspace`: `num` equally spaced numbers; a negative number raises. -/
noncomputable def linspace (start stop : ℝ) (num : Int) : Py (List ℝ) :=
  if num < 0 then .error .value
  else .ok ((List.range num.toNat).map fun i : ℕ => start + i * ((stop - start) / (num - 1)))

/-- Prices and amounts returned. -/
structure Depth where
  prices : List ℝ
  dy : List ℝ
  dx : List ℝ

/-- Lines 95-96 and 107-108: the amounts released and paid at each price, with the functions of lines 73-74. -/
noncomputable def depth (orders : List (UICurve ℝ)) (prices : List ℝ) : Py Depth := do
  let dy ← prices.mapM (bookDy orders)
  let dx ← prices.mapM (bookDx orders)
  .ok ⟨prices, dy, dx⟩

/-- `sellDepthByBuckets` (CarbonSim-Demo-3-3-Big_Orderbook_NW.py:91-100). -/
noncomputable def byBuckets (orders : List (UICurve ℝ)) (minp maxp buckets : Int) : Py Depth := do
  let prices ← linspace minp maxp buckets
  depth orders prices

/-- `sellDepthByTick` (CarbonSim-Demo-3-3-Big_Orderbook_NW.py:102-112). -/
noncomputable def byTick (orders : List (UICurve ℝ)) (minp maxp tickSize : Int) : Py Depth := do
  let nb ← calcNewBuckets maxp minp tickSize
  let prices ← linspace minp nb.1 nb.2
  depth orders prices

/-- A line of the table of `decumulate`. -/
structure Tick where
  start : ℝ
  stop : ℝ
  liquidity : ℝ

/-- `decumulate` (CarbonSim-Demo-3-3-Big_Orderbook_NW.py:114-131); the first amount of an empty table raises `KeyError` (line 118). -/
noncomputable def decumulate (d : Depth) : Py (List Tick) :=
  match d.dy with
  | [] => .error .key
  | _ => .ok (List.zipWith (fun (p : ℝ × ℝ) l => ⟨p.1, p.2, l⟩) ((d.prices.tail ++ d.prices.getLast?.toList).zip d.prices)
      (List.zipWith (fun a b => a - b) d.dy d.dy.tail ++ [0]))

end Carbon.SellDepth
