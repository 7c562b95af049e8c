import Verif.Sdk.Base

/-!
# Model of the market, trade and strategy methods of `carbon/sdk/carbonsdk.py`

The replies of the interface are functions of what is asked (`Api`), after the conversion to numbers; they may raise. The interface itself is
in `Verif.Sdk.Base`. Texts that are made of numbers (`str(...)`) are the numbers here.
-/

namespace Carbon

namespace Sdk

open CarbonPair (pyDiv)

/-- The parameters of `createBuySellStrategy` (carbonsdk0.py:416-445). -/
structure NewStrategy (K : Type) where
  baseToken : Str
  quoteToken : Str
  buyPriceLow : K
  buyPriceHigh : K
  buyBudget : K
  sellPriceLow : K
  sellPriceHigh : K
  sellBudget : K
  deriving DecidableEq

/-- The reply of `getTradeData` (carbonsdk0.py:289-309): the actions, and the totals by name. -/
structure TradeReply (K : Type) where
  tradeActions : List (List (Str × Val K))
  actionsWei : List (List (Str × Val K))
  totals : List (Str × K)
  deriving DecidableEq

/-- An order of a strategy as the interface gives it. -/
structure RawOrder (K : Type) where
  y : Val K
  z : Val K
  A : Val K
  B : Val K
  deriving DecidableEq

/-- A strategy as the interface gives it (carbonsdk0.py:601-625); the six numbers are texts there. -/
structure RawStrategy (K : Type) where
  id : Val K
  baseToken : Str
  quoteToken : Str
  buyPriceLow : K
  buyPriceHigh : K
  buyBudget : K
  sellPriceLow : K
  sellPriceHigh : K
  sellBudget : K
  token0 : Str
  token1 : Str
  order0 : RawOrder K
  order1 : RawOrder K
  deriving DecidableEq

/-- The transactions asked for. -/
inductive Tx (K : Type) where
  | create (s : NewStrategy K)
  | byTarget (source target : Str) (actions : List (List (Str × Val K))) (maxInput : K)
  | bySource (source target : Str) (actions : List (List (Str × Val K))) (minReturn : K)
  deriving DecidableEq

/-- The interface of the server (carbonsdk0.py:161-284): source and target are addresses and from the point of view of the trader; rates are
target per source. -/
structure Api (K : Type) where
  hasLiquidity : Str → Str → Py Bool
  hasLiquidities : List (Str × Str) → Py (List Bool)
  liquidity : Str → Str → Py K
  minRate : Str → Str → Py K
  maxRate : Str → Str → Py K
  depth : Str → Str → K → Py K
  depths : Str → Str → List K → Py (List (Option K))
  tradeData : Str → Str → K → Bool → Py (TradeReply K)
  userStrategies : Str → Py (List (RawStrategy K))

/-- `_assertTokensProvided` (sdkbase.py:66-70). -/
def provided : Option TokenC → Py TokenC
  | some T => .ok T
  | none => .error (.custom "CarbonSDKValueError")

/-- `T[tkn]`; `None` has no `upper`. -/
def lookup (T : TokenC) (t : Option Str) : Py SdkTkn :=
  match t with
  | none => .error .attr
  | some t => do
    let r ← T.ticker t
    match r with
    | some x => .ok x
    | none => .error .attr

section
variable {K : Type} [Field K] [LinearOrder K]

/-! ### Market information -/

/-- `mHasLiquidityByPair` (carbonsdk.py:491-506). -/
def hasLiquidityByPair (api : Api K) (tokens : Option TokenC) (pair : CarbonPair.Arg) (sells : Str) : Py Bool := do
  let T ← provided tokens
  let p ← CarbonPair.make pair none none
  let tgt ← lookup T (some sells)
  let src ← lookup T (p.other sells)
  api.hasLiquidity src.address tgt.address

/-- The two questions about a pair (carbonsdk.py:521-530): first the sale of the quote token. -/
def bothWays (T : TokenC) (pair : Str ⊕ CarbonPair) : Py (List ((CarbonPair × Str) × (Str × Str))) := do
  let p ← pair.elim (fun s => CarbonPair.make (.str s) none none) .ok
  let q ← lookup T (some p.tknq)
  let b ← lookup T (some p.tknb)
  .ok [((p, q.token), (b.address, q.address)), ((p, b.token), (q.address, b.address))]

/-- `mHasLiquidityByPairs` of a list (carbonsdk.py:508-532). -/
def hasLiquidityByPairs (api : Api K) (tokens : Option TokenC) (pairs : List (Str ⊕ CarbonPair)) : Py (List ((CarbonPair × Str) × Bool)) := do
  let T ← provided tokens
  let qs ← pairs.mapM (bothWays T)
  let r ← api.hasLiquidities (qs.flatten.map Prod.snd)
  .ok ((qs.flatten.map Prod.fst).zip r)

/-- `mHasLiquidityByPairs` of a text (carbonsdk.py:518-519). -/
def hasLiquidityByText (api : Api K) (tokens : Option TokenC) (pairs : Str) : Py (List ((CarbonPair × Str) × Bool)) :=
  hasLiquidityByPairs api tokens ((TokenC.splitChar ',' pairs).map fun s => .inl (CarbonPair.strip s))

/-- `PairLiquidity` (carbonsdk.py:12-32); `bid` says whether `bidAsk` is `"bid"`. -/
structure PairLiquidity (α : Type) where
  amount : α
  unit : Str
  sells : Str
  bid : Bool
  pair : CarbonPair
  inverted : Option Bool := none
  deriving DecidableEq

/-- `mGetLiquidityByPair` (carbonsdk.py:534-555). -/
def getLiquidityByPair (api : Api K) (tokens : Option TokenC) (pair : CarbonPair.Arg) (sells : Str) : Py (PairLiquidity K) := do
  let T ← provided tokens
  let p ← CarbonPair.make pair none none
  let tgt ← lookup T (some sells)
  let src ← lookup T (p.other sells)
  let a ← api.liquidity src.address tgt.address
  .ok { amount := a, unit := sells, sells := sells, bid := !p.hasBase sells, pair := p }

/-- `RangeByPair` (carbonsdk.py:35-53). -/
structure RangeByPair (K : Type) where
  startRate : Option K
  endRate : Option K
  sells : Str
  buys : Str
  bid : Bool
  pair : CarbonPair
  inverted : Bool
  deriving DecidableEq

/-- `mGetRangeByPair` (carbonsdk.py:557-581). -/
def getRangeByPair (api : Api K) (tokens : Option TokenC) (pair : CarbonPair.Arg) (sells : Str) : Py (RangeByPair K) := do
  let T ← provided tokens
  let p ← CarbonPair.make pair none none
  let src ← lookup T (p.other sells)
  let tgt ← lookup T (some sells)
  let mn ← api.minRate src.address tgt.address
  let mx ← api.maxRate src.address tgt.address
  let s ← p.price mx src.token tgt.token
  let e ← p.price mn src.token tgt.token
  .ok { startRate := s, endRate := e, sells := tgt.token, buys := src.token, bid := !p.hasBase sells, pair := p,
        inverted := p.hasQuote tgt.token }

/-- `mGetRateLiquidityDepthByPair` of one rate (carbonsdk.py:583-616): the loop over a number raises, and the handler takes it as one rate. -/
def getDepthByPair (api : Api K) (tokens : Option TokenC) (rate : K) (pair : CarbonPair.Arg) (sells : Str) : Py (PairLiquidity K) := do
  let T ← provided tokens
  let p ← CarbonPair.make pair none none
  let src ← lookup T (p.other sells)
  let tgt ← lookup T (some sells)
  let inv := p.hasBase tgt.token
  let raw ← if inv then pyDiv 1 rate else .ok rate
  let a ← api.depth src.address tgt.address raw
  .ok { amount := a, unit := sells, sells := sells, bid := !p.hasBase sells, pair := p, inverted := some inv }

/-- `mGetRateLiquidityDepthByPair` of a list of rates (carbonsdk.py:583-616): if the loop raises, the handler divides by the list, or hands it
on as it is. -/
def getDepthsByPair (api : Api K) (tokens : Option TokenC) (rates : List K) (pair : CarbonPair.Arg) (sells : Str) :
    Py (PairLiquidity (List (Option K))) := do
  let T ← provided tokens
  let p ← CarbonPair.make pair none none
  let src ← lookup T (p.other sells)
  let tgt ← lookup T (some sells)
  let inv := p.hasBase tgt.token
  let raw ← if inv then (if (0 : K) ∈ rates then .error .type else .ok (rates.map fun r => 1 / r)) else .ok rates
  let a ← api.depths src.address tgt.address raw
  .ok { amount := a, unit := sells, sells := sells, bid := !p.hasBase sells, pair := p, inverted := some inv }

/-- `MarketByPair` (carbonsdk.py:56-87). -/
structure Market (K : Type) where
  pair : Str
  bestBid : Option K
  bestAsk : Option K
  liqBid : K
  liqAsk : K
  lastBid : Option K
  lastAsk : Option K
  deriving DecidableEq

/-- `mGetMarketByPair` (carbonsdk.py:618-640). -/
def getMarketByPair (api : Api K) (tokens : Option TokenC) (pair : CarbonPair.Arg) : Py (Market K) := do
  let _ ← provided tokens
  let p ← CarbonPair.make pair none none
  let bidR ← getRangeByPair api tokens (.pair p) p.tknq
  let askR ← getRangeByPair api tokens (.pair p) p.tknb
  let bidL ← getLiquidityByPair api tokens (.pair p) p.tknq
  let askL ← getLiquidityByPair api tokens (.pair p) p.tknb
  .ok { pair := p.slashpair, bestBid := bidR.startRate, lastBid := bidR.endRate, liqBid := bidL.amount, bestAsk := askR.startRate,
        lastAsk := askR.endRate, liqAsk := askL.amount }

namespace Market

/-- Arithmetic with `None` raises `TypeError`. -/
def both {α : Type} (a b : Option K) (f : K → K → α) : Py α :=
  match a, b with
  | some x, some y => .ok (f x y)
  | _, _ => .error .type

/-- `inverted` (carbonsdk.py:89-91). -/
def inverted (m : Market K) : Py Bool := both m.bestBid m.bestAsk fun b a => decide (a < b)

/-- `mid` (carbonsdk.py:93-95). -/
def mid (m : Market K) : Py K := both m.bestBid m.bestAsk fun b a => 1 / 2 * (b + a)

/-- `spread` (carbonsdk.py:101-103). -/
def spread (m : Market K) : Py K := both m.bestAsk m.bestBid fun a b => a - b

/-- `spreadpc` (carbonsdk.py:97-99). -/
def spreadpc (m : Market K) : Py K := do
  let s ← m.spread
  let d ← m.mid
  pyDiv s d

/-- `ibid` (carbonsdk.py:141-145). -/
def ibid (m : Market K) (x : K) : Py K := both m.bestBid m.lastBid fun b l => b + x * (l - b)

/-- `iask` (carbonsdk.py:147-151). -/
def iask (m : Market K) (x : K) : Py K := both m.bestAsk m.lastAsk fun a l => a + x * (l - a)

/-- `iall` (carbonsdk.py:153-157). -/
def iall (m : Market K) (x : K) : Py K := both m.lastBid m.lastAsk fun b a => b + x * (a - b)

end Market

/-! ### Strategies -/

/-- `mCreateStrategy` (carbonsdk.py:661-706): what is asked of the server. The tokens are those of lines 696-697, whatever the pair. -/
def createStrategy (tokens : Option TokenC) (pair : CarbonPair.Arg) (sellStart sellEnd sellAmount buyStart buyEnd buyAmount : K) :
    Py (Tx K) := do
  let T ← provided tokens
  let _ ← CarbonPair.make pair none none
  let s := if sellStart ≤ sellEnd then (sellStart, sellEnd) else (sellEnd, sellStart)
  let b := if buyEnd ≤ buyStart then (buyStart, buyEnd) else (buyEnd, buyStart)
  if s.1 ≤ b.1 then .error .value
  else do
    let base ← lookup T (some "ETH".toList)
    let quote ← lookup T (some "USDC".toList)
    .ok (.create { baseToken := base.address, quoteToken := quote.address, buyPriceLow := b.2, buyPriceHigh := b.1, buyBudget := buyAmount,
                   sellPriceLow := s.1, sellPriceHigh := s.2, sellBudget := sellAmount })

/-- `EncodedOrder` with the values as they come (carbonsdk.py:208-233). -/
structure EncOrder (K : Type) where
  token : Str
  y : Val K
  z : Val K
  A : Val K
  B : Val K
  deriving DecidableEq

/-- `Strategy` (carbonsdk.py:425-440) with its `EncodedStrategy`. -/
structure UserStrategy (K : Type) where
  sid : Val K
  baseToken : Str
  baseTokenName : Str
  quoteToken : Str
  quoteTokenName : Str
  buyPriceLow : K
  buyPriceHigh : K
  buyBudget : K
  sellPriceLow : K
  sellPriceHigh : K
  sellBudget : K
  encodedId : Val K
  order0 : EncOrder K
  order1 : EncOrder K
  deriving DecidableEq

/-- The four values of an order (carbonsdk0.py:619-622). -/
def orderInts (token : Str) (o : RawOrder K) : Py (EncOrder K) := do
  let y ← bn2int o.y
  let z ← bn2int o.z
  let A ← bn2int o.A
  let B ← bn2int o.B
  .ok ⟨token, y, z, A, B⟩

variable [FloorRing K]

/-- The number of digits: `True` stands for 8, `None` for no rounding (carbonsdk0.py:609-612). -/
inductive Digits where
  | default
  | all
  | some (n : ℤ)
  deriving DecidableEq, Repr

/-- A number of a strategy (carbonsdk0.py:609-612). -/
def Digits.round (d : Digits) (x : K) : K :=
  match d with
  | .default => roundsd x 8
  | .all => x
  | .some n => roundsd x n

/-- `reformatStrategy` (carbonsdk0.py:601-625) followed by `Strategy.from_sdk` (carbonsdk.py:442-445, 453-462). -/
def userStrategy (tokens : Option TokenC) (d : Digits) (s : RawStrategy K) : Py (UserStrategy K) := do
  let T ← provided tokens
  let i ← bn2int s.id
  let o0 ← orderInts s.token0 s.order0
  let o1 ← orderInts s.token1 s.order1
  if lower (lower s.baseToken) ≠ lower s.token0 then .error .assertion
  else if lower (lower s.quoteToken) ≠ lower s.token1 then .error .assertion
  else .ok { sid := i, baseToken := lower s.baseToken, baseTokenName := T.addr1Name s.baseToken, quoteToken := lower s.quoteToken,
             quoteTokenName := T.addr1Name s.quoteToken, buyPriceLow := d.round s.buyPriceLow, buyPriceHigh := d.round s.buyPriceHigh,
             buyBudget := d.round s.buyBudget, sellPriceLow := d.round s.sellPriceLow, sellPriceHigh := d.round s.sellPriceHigh,
             sellBudget := d.round s.sellBudget, encodedId := i, order0 := o0, order1 := o1 }

/-- `mGetUserStrategies` (carbonsdk.py:644-656). -/
def getUserStrategies (api : Api K) (tokens : Option TokenC) (user : Str) (d : Digits := .default) : Py (List (UserStrategy K)) := do
  let r ← api.userStrategies user
  r.mapM (userStrategy tokens d)

/-! ### Trades -/

/-- The argument `traderBuySell` (carbonsdk.py:477-478): the two constants, or anything else. -/
inductive BuySell where
  | buy
  | sell
  | other
  deriving DecidableEq, Repr

/-- `TradeData` (carbonsdk.py:160-185). -/
structure TradeData (K : Type) where
  pair : Str
  tkn : Str
  side : BuySell
  amount : K
  source : SdkTkn
  target : SdkTkn
  byTarget : Bool
  actions : List (List (Str × Val K))
  actionsWei : List (List (Str × Val K))
  totals : List (Str × K)
  deriving DecidableEq

/-- `mPrepareTrade` (carbonsdk.py:711-762). Line 734 looks into the table of the module, here `global`, not into the container of the object.
`actionsTokenRes` is left out. -/
def prepareTrade (api : Api K) (tokens : Option TokenC) (global : TokenC) (pair : CarbonPair.Arg) (side : BuySell) (tkn : Str) (amount : K) :
    Py (TradeData K) := do
  let T ← provided tokens
  let p ← CarbonPair.make pair none none
  if side = .other then .error .value
  else if !p.hasToken tkn then .error .value
  else if amount ≤ 0 then .error .value
  else do
    let source := if side = .sell then some tkn else p.other tkn
    let target := source.bind p.other
    let src ← lookup T source
    let tgt ← lookup T target
    let byTarget := decide (some tkn = target)
    if !global.containsAll (source.toList ++ target.toList) then .error .value
    else do
      let data ← api.tradeData src.address tgt.address amount byTarget
      let actions ← data.tradeActions.mapM bn2intd
      let wei ← data.actionsWei.mapM bn2intd
      .ok ⟨p.slashpair, tkn, side, amount, src, tgt, byTarget, actions, wei, data.totals⟩

/-- `mComposeTradeTransaction` (carbonsdk.py:765-804) on the values of a `TradeData` (`cttargs`, carbonsdk.py:187-201): the actions go as texts
(carbonsdk0.py:327, 356). -/
def composeTrade (t : TradeData K) (maxDeviation : Option K := none) : Py (Tx K) :=
  let d := maxDeviation.getD (1 / 10)
  if t.byTarget then
    match dictGet t.totals "totalSourceAmount".toList with
    | some a => .ok (.byTarget t.source.address t.target.address (t.actions.map int2strd) (a * (1 + d)))
    | none => .error .key
  else
    match dictGet t.totals "totalTargetAmount".toList with
    | some a => .ok (.bySource t.source.address t.target.address (t.actions.map int2strd) (a * (1 - d)))
    | none => .error .key

end

end Sdk

end Carbon
