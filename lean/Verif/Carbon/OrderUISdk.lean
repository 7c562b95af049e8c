import Verif.Carbon.OrderUI
import Verif.Carbon.Simulator
import Verif.Sdk.Market

/-!
# Model of the SDK interface of `carbon/carbon_order_ui.py` and of `add_fromsdk`

Numbers are reals; the texts with the prices and budgets of a strategy are the numbers they stand for. Identifiers of the orders are left out.
-/

namespace Carbon

open CarbonPair (pyDiv)
open Sdk

/-- The global `Tokens`, the registered tokens. -/
abbrev Registry := TokenC

namespace UICurve

/-- `roundsd` (carbon/carbon_order_ui.py:1218-1235): the same as that of the SDK, but `None` leaves the number as it is. -/
noncomputable def roundNsd (x : ℝ) : Option ℤ → ℝ
  | none => x
  | some n => roundsd x n

/-- `y / z` of the entries of an order (carbon/carbon_order_ui.py:312, 316). -/
noncomputable def share (o : RawOrder ℝ) : Py ℝ := do
  let y ← bn2int o.y
  let z ← bn2int o.z
  match y, z with
  | .int y, .int z => pyDiv (y : ℝ) z
  | .int y, .float z => pyDiv (y : ℝ) z
  | .float y, .int z => pyDiv y z
  | .float y, .float z => pyDiv y z
  | _, _ => .error .type

/-- The name used for a token (carbon/carbon_order_ui.py:310-311, 314-315). -/
def tokenName (T : Registry) (token dflt : Str) : Py Str := do
  match ← T.ticker token (some false) false with
  | none => .ok dflt
  | some t => .ok t.token

/-- The orders of the base and of the quote token (carbon/carbon_order_ui.py:301-308). -/
def sides (s : RawStrategy ℝ) : Py (RawOrder ℝ × RawOrder ℝ) :=
  if (s.baseToken = s.token0 ∨ s.baseToken = s.token1) ∧ (s.quoteToken = s.token0 ∨ s.quoteToken = s.token1) ∧
      (s.token0 = s.baseToken ∨ s.token0 = s.quoteToken) ∧ (s.token1 = s.baseToken ∨ s.token1 = s.quoteToken) then
    if s.baseToken = s.token0 then .ok (s.order0, s.order1) else .ok (s.order1, s.order0)
  else .error .value

/-- `from_SDK` (carbon/carbon_order_ui.py:289-326): the curve that buys and the curve that sells the base token. They are linked to each
other. -/
noncomputable def fromSdk (T : Registry) (s : RawStrategy ℝ) (nsd : Option ℤ) : Py (UICurve ℝ × UICurve ℝ) := do
  let _ ← bn2int s.id
  let eo ← sides s
  let tknq ← tokenName T s.quoteToken "TKNQ".toList
  let ql ← share eo.2
  let tknb ← tokenName T s.baseToken "TKNB".toList
  let bl ← share eo.1
  let pair ← CarbonPair.make .none (some tknb) (some tknq)
  let sell ← fromPrices (.pair pair) tknb (roundNsd s.sellPriceLow nsd) (roundNsd s.sellPriceHigh nsd) (roundNsd s.sellBudget nsd)
    (roundNsd s.sellBudget nsd * bl)
  let buy ← fromPrices (.pair pair) tknq (roundNsd s.buyPriceHigh nsd) (roundNsd s.buyPriceLow nsd) (roundNsd s.buyBudget nsd)
    (roundNsd s.buyBudget nsd * ql)
  .ok (buy, sell)

/-- `pa`, `pb` as attributes (carbon/carbon_order_ui.py:95-98): `None` on a disabled curve. -/
noncomputable def paOpt (c : UICurve ℝ) : Option ℝ := if c.disabled then none else some c.pa

/-- See `paOpt`. -/
noncomputable def pbOpt (c : UICurve ℝ) : Option ℝ := if c.disabled then none else some c.pb

/-- `yzABSdata` (carbon/carbon_order_ui.py:1242-1290). -/
structure YzABS where
  y : ℝ
  z : ℝ
  A : ℤ
  B : ℤ
  S : ℤ

/-- `A_unscaled` (carbon/carbon_order_ui.py:1267-1270). -/
noncomputable def YzABS.aUnscaled (d : YzABS) : Py ℝ := pyDiv (d.A : ℝ) d.S

/-- `B_unscaled` (carbon/carbon_order_ui.py:1272-1275). -/
noncomputable def YzABS.bUnscaled (d : YzABS) : Py ℝ := pyDiv (d.B : ℝ) d.S

/-- `pair.decimals[tkn]` of one of the two tokens (carbon/pair.py:111-121); the quote token overwrites a base token of the same name. -/
def decimalsOf (p : CarbonPair) (tkn : Str) : Option DecV := if tkn = p.tknq then p.decQ else if tkn = p.tknb then p.decB else none

/-- `yzABS(sx)` (carbon/carbon_order_ui.py:1152-1182), for an exponent that is not negative. -/
noncomputable def yzABS (c : UICurve ℝ) (sx : ℕ := 0) : Py YzABS :=
  if !c.pair.hasDecimals then .error .value
  else match decimalsOf c.pair c.tkn, (c.pair.other c.tkn).bind (decimalsOf c.pair) with
    | some (.int dy), some (.int dx) =>
      let f : ℝ := 10 ^ (((dy : ℝ) - dx) / 2)
      .ok ⟨c.y * 10 ^ dy, c.yint * 10 ^ dy, SdkTkn.toInt (c.S * f * 2 ^ sx), SdkTkn.toInt (c.B * f * 2 ^ sx), 2 ^ sx⟩
    | none, _ => .error .key
    | _, none => .error .key
    | _, _ => .error .type

/-- `bidask` (carbon/carbon_order_ui.py:338-350): whether it is `"BID"`. -/
def isBid (c : UICurve ℝ) : Bool := decide (c.tkn = c.pair.tknb)

/-- The entry of one pair in `curves_by_pair_bidask` (carbon/carbon_order_ui.py:1109-1120): all curves, those under `"ASK"` and those under
`"BID"`. -/
structure ByPair where
  all : List (UICurve ℝ)
  ask : List (UICurve ℝ)
  bid : List (UICurve ℝ)

/-- `curves_by_pair_bidask` (carbon/carbon_order_ui.py:1092-1121), as a function of the name of the pair. The argument is the list of the values
of the dictionary. -/
def byPair (cs : List (UICurve ℝ)) (name : Str) : Option ByPair :=
  if name ∈ cs.map (fun c => c.pair.slashpair) then
    some ⟨cs.filter fun c => decide (c.pair.slashpair = name), cs.filter fun c => decide (c.pair.slashpair = name) && c.isBid,
      cs.filter fun c => decide (c.pair.slashpair = name) && !c.isBid⟩
  else none

/-- `p0` (carbon/carbon_order_ui.py:352-357). -/
noncomputable def p0 (c : UICurve ℝ) : Py ℝ := pySqrt (c.pa * c.pb)

/-- `Q_from_Gamma` (carbon/carbon_order_ui.py:391-394). -/
noncomputable def qFromGamma (g : ℝ) : ℝ := (1 - g) ^ 2

/-- `Gamma_from_Q` (carbon/carbon_order_ui.py:396-399). -/
noncomputable def gammaFromQ (q : ℝ) : Py ℝ := do
  let r ← pySqrt q
  .ok (1 - r)

/-- `asym_over_0` (carbon/carbon_order_ui.py:401-404). -/
noncomputable def asymOver0 (g : ℝ) : Py ℝ := do
  let r ← pyDiv 1 g
  .ok (1 - r)

/-- `int_over_0` (carbon/carbon_order_ui.py:406-409). -/
noncomputable def intOver0 (g : ℝ) : Py ℝ := pyDiv (2 - g) (1 - g)

/-- `p0_raw` (carbon/carbon_order_ui.py:429-434). -/
noncomputable def p0Raw (c : UICurve ℝ) : Py ℝ := pyDiv c.y0 c.x0

/-- `kappa_bar` (carbon/carbon_order_ui.py:461-470). -/
noncomputable def kappaBar (c : UICurve ℝ) : Py ℝ := do
  let r ← pySqrt (c.x0 * c.y0)
  pyDiv r c.Gamma

/-- `leverage_fctr` (carbon/carbon_order_ui.py:472-477). -/
noncomputable def leverage (c : UICurve ℝ) : Py ℝ := pyDiv 1 c.Gamma

/-- `widthr` (carbon/carbon_order_ui.py:479-482). -/
noncomputable def widthr (c : UICurve ℝ) : Py ℝ := pyDiv c.pmax c.pmin

/-- `widthpc` (carbon/carbon_order_ui.py:484-487). -/
noncomputable def widthpc (c : UICurve ℝ) : Py ℝ := do
  let p ← c.p0
  pyDiv (c.pmax - c.pmin) p

end UICurve

namespace Sim

/-- The arguments `add_fromsdk` passes on (carbon/simulators/carbon_simulator.py:424-436). -/
noncomputable def sdkArgs (buy sell : UICurve ℝ) : StrategyArgs ℝ :=
  { tkn := sell.tkn, amtSell := some sell.y, yintSell := some sell.yint, psellStart := sell.paOpt, psellEnd := sell.pbOpt,
    amtBuy := some buy.y, yintBuy := some buy.yint, pbuyStart := buy.paOpt, pbuyEnd := buy.pbOpt, pair := .pair sell.pair }

/-- `add_fromsdk` (carbon/simulators/carbon_simulator.py:415-436). What `from_SDK` raises is not caught. -/
noncomputable def addFromSdk (s : Sim ℝ) (T : Registry) (st : RawStrategy ℝ) (nsd : Option ℤ) : Py (Nat × Nat) × Sim ℝ :=
  match UICurve.fromSdk T st nsd with
  | .error e => (.error e, s)
  | .ok (buy, sell) => s.addStrategy (sdkArgs buy sell)

end Sim

end Carbon
