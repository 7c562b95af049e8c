import Verif.Carbon.OrderUI
import Verif.Carbon.Simulator

/-!
# Model of `carbon/simulators/sim_analytics.py` and of `CarbonOrderUI.liquidity_approx`

Vectors are pandas series: operations work entry by entry, on the longer of two series, entries that are missing on one
side give NaN.  A float is a number of the ordered field `K`, an infinity or NaN; division by zero gives these and raises
nothing.  Rounding and the sign of zero are not modelled.  Charts and text output are not modelled.
-/

namespace Carbon

/-- A float of numpy or pandas. -/
inductive Flt (K : Type) where
  | num (x : K)
  | inf
  | ninf
  | nan
  deriving DecidableEq, Repr

namespace Flt
variable {K : Type} [Field K] [LinearOrder K]

/-- The sign of a number times infinity. -/
def scaled (x : K) : Flt K := if x = 0 then .nan else if 0 < x then .inf else .ninf

/-- `-x`. -/
def neg : Flt K → Flt K
  | .num x => .num (-x)
  | .inf => .ninf
  | .ninf => .inf
  | .nan => .nan

/-- `x + y`. -/
def add : Flt K → Flt K → Flt K
  | .num x, .num y => .num (x + y)
  | .nan, _ | _, .nan => .nan
  | .inf, .ninf | .ninf, .inf => .nan
  | .inf, _ | _, .inf => .inf
  | .ninf, _ | _, .ninf => .ninf

/-- `x - y`. -/
def sub (x y : Flt K) : Flt K := x.add y.neg

/-- `x * y`. -/
def mul : Flt K → Flt K → Flt K
  | .num x, .num y => .num (x * y)
  | .nan, _ | _, .nan => .nan
  | .num x, .inf | .inf, .num x => scaled x
  | .num x, .ninf | .ninf, .num x => scaled (-x)
  | .inf, .inf | .ninf, .ninf => .inf
  | .inf, .ninf | .ninf, .inf => .ninf

/-- `x / y` of arrays: nothing is raised. -/
def div : Flt K → Flt K → Flt K
  | .num x, .num y => if y = 0 then scaled x else .num (x / y)
  | .nan, _ | _, .nan => .nan
  | .num _, .inf | .num _, .ninf => .num 0
  | .inf, .num y => if y < 0 then .ninf else .inf
  | .ninf, .num y => if y < 0 then .inf else .ninf
  | .inf, .inf | .inf, .ninf | .ninf, .inf | .ninf, .ninf => .nan

/-- `fillna(0)`. -/
def fill : Flt K → Flt K
  | .nan => .num 0
  | x => x

end Flt

namespace Analytics
variable {K : Type} [Field K] [LinearOrder K]

/-- An operation on two series of pandas, aligned by position. -/
def align (f : Flt K → Flt K → Flt K) : List (Flt K) → List (Flt K) → List (Flt K)
  | [], ys => ys.map fun y => f .nan y
  | x :: xs, [] => (x :: xs).map fun x => f x .nan
  | x :: xs, y :: ys => f x y :: align f xs ys

/-- `midpoints` (carbon/simulators/sim_analytics.py:49-54). -/
def midpoints (r : List (Flt K)) : List (Flt K) :=
  List.zipWith (fun x1 x2 => (Flt.num (1 / 2)).mul (x1.add x2)) r r.tail

/-- `diff` (carbon/simulators/sim_analytics.py:56-61). -/
def diff (r : List (Flt K)) : List (Flt K) := List.zipWith (fun x1 x2 => x2.sub x1) r r.tail

/-- `vecdot` (carbon/simulators/sim_analytics.py:75-78): pandas refuses series of different lengths. -/
def vecdot (v1 v2 : List (Flt K)) : Py (Flt K) :=
  if v1.length = v2.length then
    .ok ((List.zipWith (fun x y => x.fill.mul y.fill) v1 v2).foldl Flt.add (.num 0))
  else .error .value

/-- `linspace0` (carbon/simulators/sim_analytics.py:88-112), for at least one point; the defaults are 1/10000 and 1/100000. -/
def linspace0 (xmax : K) (nint : Nat) (eps : K := 1 / 10000) (eps2 : K := 1 / 100000) : List K :=
  let vec := (List.range (nint + 1)).map fun i : ℕ => if nint = 0 then 0 else (i : K) * (xmax / nint)
  (vec.set 0 eps).set nint ((1 - eps2) * xmax)

/-- `isnonenan` (carbon/simulators/sim_analytics.py:123-132); `none` is `None`. -/
def isnonenan : Option (Flt K) → Bool
  | none => true
  | some .nan => true
  | some _ => false

/-- `truncate` (carbon/simulators/sim_analytics.py:134-145). -/
def truncate (s1 : List (Flt K)) (s2 : List (Option (Flt K))) : List (Flt K) × List (Flt K) :=
  let s2r := (s2.filter fun x => !isnonenan x).filterMap id
  (s1.take s2r.length, s2r)

/-- The `bidask` argument of the order book (carbon/simulators/sim_analytics.py:299-300): one of the constants or anything
else. -/
inductive BookSide where
  | ask
  | bid
  | other
  deriving DecidableEq, Repr

end Analytics

/-- `OrderBook` (carbon/simulators/sim_analytics.py:301-314); the names of the tokens are not modelled. -/
structure OrderBook (K : Type) where
  src : List (Flt K)
  trg : List (Flt K)
  reverseBook : Bool
  deriving DecidableEq, Repr

namespace OrderBook
open Analytics
variable {K : Type} [Field K] [LinearOrder K]

/-- `__init__` (carbon/simulators/sim_analytics.py:301-314). -/
def make (src : List (Flt K)) (trg : List (Option (Flt K))) (side : BookSide := .ask) : Py (OrderBook K) :=
  let t := truncate src trg
  match side with
  | .ask => .ok ⟨t.1, t.2, false⟩
  | .bid => .ok ⟨t.1, t.2, true⟩
  | .other => .error .value

/-- `marg_trg_amounts` (carbon/simulators/sim_analytics.py:365-370). -/
def margTrg (b : OrderBook K) : List (Flt K) := diff b.trg

/-- `marg_src_amounts` (carbon/simulators/sim_analytics.py:372-377). -/
def margSrc (b : OrderBook K) : List (Flt K) := diff b.src

/-- `prices` (carbon/simulators/sim_analytics.py:379-384). -/
def prices (b : OrderBook K) : List (Flt K) := align Flt.div b.trg b.src

/-- `1/vec` (carbon/simulators/sim_analytics.py:390, 403, 457). -/
def reverse (v : List (Flt K)) : List (Flt K) := v.map fun x => (Flt.num 1).div x

/-- `pricesr` (carbon/simulators/sim_analytics.py:386-390). -/
def pricesr (b : OrderBook K) (rev : Bool := true) : List (Flt K) := if rev then reverse b.prices else b.prices

/-- `marg_prices` (carbon/simulators/sim_analytics.py:392-397). -/
def margPrices (b : OrderBook K) : List (Flt K) := align Flt.div b.margTrg b.margSrc

/-- `marg_pricesr` (carbon/simulators/sim_analytics.py:399-403). -/
def margPricesr (b : OrderBook K) (rev : Bool := true) : List (Flt K) := if rev then reverse b.margPrices else b.margPrices

/-- `dmarg_prices` (carbon/simulators/sim_analytics.py:427-439). -/
def dmargPrices (b : OrderBook K) : List (Flt K) :=
  let result := diff b.margPrices
  if b.reverseBook then result.map Flt.neg else result

/-- `ob_liquidity` (carbon/simulators/sim_analytics.py:420-425). -/
def obLiquidity (b : OrderBook K) : List (Flt K) := align Flt.div (midpoints b.margTrg) b.dmargPrices

/-- `ob_prices` (carbon/simulators/sim_analytics.py:448-453). -/
def obPrices (b : OrderBook K) : List (Flt K) := midpoints b.margPrices

end OrderBook

/-! ## Approximate liquidity -/

namespace UICurve

/-- `price` in `liquidity_approx` (carbon/carbon_order_ui.py:870, 881): the geometric mean of the part of the window in the
range, or the one price of the order. -/
noncomputable def windowPrice (c : UICurve ℝ) (price1 price2 : ℝ) : Py ℝ :=
  if c.pmax = c.pmin then .ok c.pmax
  else pySqrt (max (min price1 price2) c.pmin * min (max price1 price2) c.pmax)

/-- `liquidity_approx(price1, price2, tkn)` (carbon/carbon_order_ui.py:815-892): the share of the range, times the amount,
converted at the geometric mean of the window in the range. Outside the range nothing is converted. A token that is not in the
pair has no amount, and multiplying it raises. -/
noncomputable def liquidityApprox (c : UICurve ℝ) (price1 price2 : ℝ) (tkn : Option Str) : Py ℝ :=
  let perc := c.liquidityPerc price1 price2
  if c.disabled then .ok 0
  else if perc = 0 then .ok 0
  else do
    let price ← c.windowPrice price1 price2
    match ← c.pair.convert c.y c.tkn (tkn.getD c.pair.tknb) price with
    | none => .error .type
    | some liq => .ok (liq * perc)

end UICurve

namespace Analytics

/-- The result of `calc_liquidity_approx` (carbon/simulators/sim_analytics.py:523-531) without its texts. -/
structure Approx where
  bid : List (Option ℝ)
  ask : List (Option ℝ)
  prices : List ℝ
  tkn : Str

/-- The curves of one side (carbon/simulators/sim_analytics.py:497-504). -/
def side (orderuis : List (UICurve ℝ)) (pair : CarbonPair) (tkn : Str) : List (UICurve ℝ) :=
  orderuis.filter fun r => decide (r.pair.pairIso = pair.pairIso) && decide (r.tkn = tkn)

/-- One entry of `liq_ask` or `liq_bid` (carbon/simulators/sim_analytics.py:509-512). -/
noncomputable def density (curves : List (UICurve ℝ)) (tkn : Str) (p1 p2 : ℝ) : Py ℝ := do
  let l ← curves.mapM fun r => do
    let v ← r.liquidityApprox p1 p2 (some tkn)
    CarbonPair.pyDiv v (p2 - p1)
  .ok l.sum

/-- `x if x else None` (carbon/simulators/sim_analytics.py:519-521). -/
noncomputable def purge (purgezero : Bool) (x : ℝ) : Option ℝ := if purgezero && decide (x = 0) then none else some x

/-- `calc_liquidity_approx` (carbon/simulators/sim_analytics.py:471-531). Iterating over a series gives Python floats, whose
division by zero raises. -/
noncomputable def calcLiquidityApprox (orderuis : List (UICurve ℝ)) (prices : List ℝ) (pair : CarbonPair) (rev : Bool := true)
    (purgezero : Bool := true) : Py Approx := do
  let tkn := if rev then pair.tknq else pair.tknb
  let ask ← (prices.zip prices.tail).mapM fun w => density (side orderuis pair pair.tknb) tkn w.1 w.2
  let bid ← (prices.zip prices.tail).mapM fun w => density (side orderuis pair pair.tknq) tkn w.1 w.2
  .ok ⟨bid.map (purge purgezero), ask.map (purge purgezero), (prices.zip prices.tail).map fun w => 1 / 2 * (w.1 + w.2), tkn⟩

end Analytics

/-! ## Simulated trades -/

namespace Analytics
variable {K : Type} [Field K] [LinearOrder K] [PySqrt K]

/-- `BID_BOOK` (carbon/simulators/sim_analytics.py:146). -/
def bidBook : Str := "amm_buys".toList

/-- `ASK_BOOK` (carbon/simulators/sim_analytics.py:148). -/
def askBook : Str := "amm_sells".toList

/-- `BID` (carbon/simulators/sim_analytics.py:201, which overwrites 147), also `AMM_BUYS_BASETOKEN`. -/
def bid : Str := "amm_buys_tknb".toList

/-- `ASK` (carbon/simulators/sim_analytics.py:199, which overwrites 149), also `AMM_SELLS_BASETOKEN`. -/
def ask : Str := "amm_sells_tknb".toList

/-- `MAXPRICE` (carbon/simulators/sim_analytics.py:152). -/
def maxPrice : K := 10 ^ 100

/-- The simulated trade and its last record (carbon/simulators/sim_analytics.py:188-195, 235-240). Everything that goes wrong
is caught. -/
def lastRec (s : Sim K) (buys : Bool) (tkn : Str) (size : K) (pair : CarbonPair.Arg) : Option (TradeRec K) × Sim K :=
  let a : Sim.TradeArgs K := { tkn := tkn, amt := size, pair := pair, execute := false }
  match if buys then s.ammBuys a else s.ammSells a with
  | (.error _, s') => (none, s')
  | (.ok recs, s') => (recs.getLast?, s')

/-- `effective_price` (carbon/simulators/sim_analytics.py:154-195). `own` is the simulator of the object. The simulator has no
attribute `pair`. -/
def effectivePrice (own : Option (Sim K)) (size : K) (bidask : Str) (tkn : Option Str) (sim : Option (Sim K))
    (pair : Option CarbonPair.Arg) : Py K × Option (Sim K) :=
  let sim := match sim with | none => own | some s => some s
  let t : Py Str := match tkn, sim with
    | some t, _ => .ok t
    | none, none => .error .value
    | none, some s => match s.pair with | none => .error .value | some p => .ok p.tknb
  match t with
  | .error e => (.error e, sim)
  | .ok t =>
    match pair with
    | none => (.error (match sim with | none => .value | some _ => .attr), sim)
    | some pr =>
      if bidask = bidBook then
        match sim with
        | none => (.error .attr, none)
        | some s => let r := lastRec s true t size pr; (.ok (match r.1 with | none => maxPrice | some x => x.price), some r.2)
      else if bidask = askBook then
        match sim with
        | none => (.error .attr, none)
        | some s => let r := lastRec s false t size pr; (.ok (match r.1 with | none => 0 | some x => x.price), some r.2)
      else (.error .value, sim)

/-- `simulate_trades` (carbon/simulators/sim_analytics.py:203-243); the pair is a `CarbonPair` or not given. Without it the
simulator of the object is used, whatever `sim` is. -/
def simulateTrades (own : Option (Sim K)) (size : K) (buysell : Str) (sim : Option (Sim K)) (pair : Option CarbonPair) :
    Py (Option K) × Option (Sim K) :=
  let sim0 := match sim with | none => own | some s => some s
  let args : Py (Option (Sim K) × CarbonPair) := match pair, own with
    | some p, _ => .ok (sim0, p)
    | none, none => .error .value
    | none, some s => match s.pair with | none => .error .value | some p => .ok (some s, p)
  match args with
  | .error e => (.error e, sim0)
  | .ok (sim1, p) =>
    if buysell = ask then
      match sim1 with
      | none => (.error .attr, none)
      | some s => let r := lastRec s false p.tknb size (.str p.slashpair); (.ok (r.1.map TradeRec.amt2), some r.2)
    else if buysell = bid then
      match sim1 with
      | none => (.error .attr, none)
      | some s => let r := lastRec s true p.tknb size (.str p.slashpair); (.ok (r.1.map TradeRec.amt1), some r.2)
    else (.error .value, sim1)

end Analytics
end Carbon
