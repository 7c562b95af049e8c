import Verif.Carbon.AlphaRouter

/-!
# Model of `carbon/routers/alpha_router_orig.py`, the previous `AlphaRouter`

The hypothetical amounts, the geometric price and the value of an order are the same as in `alpha_router.py`
(`alpha_router_orig.py:19-55`, `147-174`, `206-217`). The pandas frames are lists; a list assigned to a new column is taken to be assigned row by
row. Floor division is left out, and so are the conversions to float in the sums of a window.
-/

namespace Carbon.AlphaRouterOrig

section
variable {K : Type} [Field K] [LinearOrder K] [PySqrt K]

/-- `sliding_available_value` (carbon/routers/alpha_router_orig.py:123-126, 254-257): the sum over the last `n` rows, 0 where there are fewer. -/
def slidingValue (n : Nat) (col : List K) (i : Nat) : K := if i + 1 < n then 0 else ((col.take (i + 1)).drop (i + 1 - n)).sum

/-- `sliding_index` (carbon/routers/alpha_router_orig.py:121-122, 252-253): the last `n` rows, or all so far. -/
def slidingIndex (n : Nat) (rows : List Nat) (i : Nat) : List Nat := (rows.take (i + 1)).drop (i + 1 - n)

/-- `top_n_threshold_orders` (carbon/routers/alpha_router_orig.py:130-132, 261-263) for `n ≥ 1`. -/
def topN (n : Nat) (rows : List Nat) (col : List K) (t : K) : Py (List Nat) :=
  match (List.range rows.length).find? fun i => decide (t ≤ slidingValue n col i) with
  | none => .error .index
  | some i => .ok (slidingIndex n rows i)

/-- `match_by_target` (carbon/routers/alpha_router_orig.py:57-145). The column of the liquidity is put beside the positions in their original
order, lines 102-116, although it is in the order of the ranking, line 100. -/
def matchByTarget (orders : List (Curve K)) (x : K) (thresholdOrders : Option Nat) : Py (List (Action K)) := do
  let n := thresholdOrders.getD 10
  let hyp ← orders.mapM (·.alphaByTarget x)
  let ranked := AlphaRouter.rank hyp
  let liquidity := ranked.map fun i => ((orders[i]?).map (·.y)).getD 0
  let ps ← topN n ranked (ranked.map fun r => liquidity.getD r 0) |x|
  ExactRouter.matchExact orders x true ps false

/-- `match_by_src` (carbon/routers/alpha_router_orig.py:176-274) with `match` (276-295). `rolling(None)` is a `ValueError`. -/
def matchBySrc (orders : List (Curve K)) (x : K) (thresholdOrders : Option Nat) : Py (List (Action K)) := do
  let hyp ← orders.mapM (·.alphaBySrc x)
  let values ← (orders.zip hyp).mapM fun p => AlphaRouter.availableValue p.1 x p.2
  let ranked := AlphaRouter.rank hyp
  match thresholdOrders with
  | none => .error .value
  | some n => do
    let ps ← topN n ranked (ranked.map fun i => values.getD i 0) |x|
    ExactRouter.matchExact orders x false ps false

end

end Carbon.AlphaRouterOrig
