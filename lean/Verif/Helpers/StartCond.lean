import Verif.Helpers.Strategy

/-!
# Model of `StartConditions` of `carbon/helpers/simulation.py` (lines 258-332)

The pickled dictionary is given by the lists of numbers under its keys, none if the key is missing. Numbers and dates are exact: a date is
the number of time units since some origin. Reading the file (lines 264-268) is left out.
-/

namespace Carbon

open CarbonPair (pyDiv)

/-- `StartConditions` (simulation.py:258-262): the raw data and the two dates. -/
structure StartCond (K : Type) where
  /-- `"carbon order boundaries"` -/
  boundaries : Option (List K)
  /-- `"carbon starting prices"` -/
  prices : Option (List K)
  /-- `"carbon order weights"` -/
  weights : Option (List K)
  /-- `"starting portfolio valuation"` -/
  valuation : Option (List K)
  /-- `"filtered price chart"` -/
  chart : Option (List K)
  /-- `"uniswap range boundaries"` -/
  uni : Option (List K)
  startDt : K
  endDt : K

namespace StartCond

variable {K : Type} [Field K] [LinearOrder K]

/-- `[float(x) for x in self._d[key]]` (simulation.py:301-302, 315-332). -/
def raw (x : Option (List K)) : Py (List K) :=
  match x with
  | some l => .ok l
  | none => .error .key

/-- `a, b, c, d = l`. -/
def four (l : List K) : Py (K × K × K × K) :=
  match l with
  | [a, b, c, d] => .ok (a, b, c, d)
  | _ => .error .value

/-- `a, b = l`. -/
def two (l : List K) : Py (K × K) :=
  match l with
  | [a, b] => .ok (a, b)
  | _ => .error .value

/-- `l[0]`. -/
def at0 (l : List K) : Py K :=
  match l with
  | a :: _ => .ok a
  | [] => .error .index

/-- `starting_portfolio_valuation` (simulation.py:326-328). -/
def startingValuation (d : StartCond K) : Py K := do
  let l ← raw d.valuation
  at0 l

/-- `strategy_carbon` (simulation.py:270-286). -/
def strategyCarbon (d : StartCond K) : Py (Strat K) := do
  let r ← raw d.boundaries
  let r ← four r
  let m ← raw d.prices
  let m ← two m
  let w ← raw d.weights
  let w ← two w
  let v ← d.startingValuation
  let fctr ← pyDiv v (w.1 + w.2)
  let c ← raw d.chart
  let p0 ← at0 c
  let amtRsk ← pyDiv (fctr * w.1) p0
  .ok (Strat.make (pSellA := r.2.1) (pSellB := r.1) (pBuyA := r.2.2.1) (pBuyB := r.2.2.2) (amtRsk := some amtRsk)
    (amtCsh := some (fctr * w.2)) (psellMarginal := some m.1) (pbuyMarginal := some m.2))

/-- `num_points` (simulation.py:288-290). -/
def numPoints (d : StartCond K) : Py Nat := do
  let c ← raw d.chart
  .ok c.length

/-- `time_step` (simulation.py:292-298). -/
def timeStep (d : StartCond K) : Py K := do
  let n ← d.numPoints
  pyDiv (d.endDt - d.startDt) ((n : K) - 1)

/-- `datetime` (simulation.py:309-312): one date more than there are prices. -/
def datetime (d : StartCond K) : Py (List K) := do
  let dt ← d.timeStep
  let n ← d.numPoints
  .ok ((List.range (n + 1)).map fun i : Nat => d.startDt + (i : K) * dt)

/-- `path` (simulation.py:304-307): prices by date; `zip` ends with the shorter list. -/
def path (d : StartCond K) : Py (List (K × K)) := do
  let t ← d.datetime
  let c ← raw d.chart
  .ok (t.zip c)

end StartCond

end Carbon
