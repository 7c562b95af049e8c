import Verif.Carbon.AlphaRouter
import Verif.Carbon.OrderUI

/-!
# Model of `carbon/simulators/carbon_simulator.py` (`CarbonSimulatorUI`)

Python dictionaries are association lists in insertion order.  A method that changes the state and may raise afterwards
returns the outcome together with the state it leaves behind.  Printed messages, text notes, the `carbon_id` label and
the rounding of reported numbers are not modelled; `vault` is never used.
-/

namespace Carbon

open CarbonPair (pyDiv)

/-! ## Dictionaries -/

namespace Dict

variable {κ α : Type} [DecidableEq κ]

/-- `d.get(k)`. -/
def get (d : List (κ × α)) (k : κ) : Option α := (d.find? fun p => p.1 == k).map Prod.snd

/-- `d[k] = v`: replaced in place, or appended. -/
def set : List (κ × α) → κ → α → List (κ × α)
  | [], k, v => [(k, v)]
  | p :: d, k, v => if p.1 = k then (k, v) :: d else p :: set d k v

/-- `del d[k]` for a key that is present. -/
def del (d : List (κ × α)) (k : κ) : List (κ × α) := d.filter fun p => p.1 ≠ k

end Dict

/-! ## State -/

/-- `Order` as stored by the simulator (carbon/order.py:36-61, carbon_simulator.py:246-271): the curve and the labels. -/
structure SOrder (K : Type) where
  curve : Curve K
  tkn : Str
  pair : CarbonPair
  pairName : Str
  disabled : Bool
  id : Nat
  linked : Nat
  deriving DecidableEq, Repr

/-- A record of the trade log (carbon_simulator.py:770-810, 835-860). The key is the trade number with the number of the
route, or without for the aggregate. -/
structure TradeRec (K : Type) where
  uid : Nat × Option Nat
  exec : Bool
  partialFill : Bool
  limitfail : Option Bool
  amt1 : K
  tkn1 : Str
  amt2 : K
  tkn2 : Option Str
  pair : Str
  routes : List Nat
  price : K
  deriving DecidableEq, Repr

/-- `matching_method` (carbon_simulator.py:84-91). -/
inductive Method where
  | exact
  | fast
  | alpha
  deriving DecidableEq, Repr

/-- `CarbonSimulatorUI` (carbon_simulator.py:55-98). -/
structure Sim (K : Type) where
  nextId : Nat
  orders : List (Nat × SOrder K)
  trades : List ((Nat × Option Nat) × TradeRec K)
  numtrades : Nat
  pair : Option CarbonPair
  raiseonerror : Bool
  method : Method
  excludeFuture : Bool

/-- What a call of the API returns: a result, a dictionary with `success: False`, or an exception. -/
inductive Reply (α : Type) where
  | success (a : α)
  | failure (e : Err)
  | raised (e : Err)

namespace Sim

section
variable {K : Type} [Field K] [LinearOrder K] [PySqrt K]

/-- `__init__` (carbon_simulator.py:55-98). -/
def new (pair : CarbonPair.Arg) (raiseonerror : Bool) (method : Method) (excludeFuture : Bool := true) : Py (Sim K) := do
  let p ← CarbonPair.create pair none
  .ok ⟨0, [], [], 0, p, raiseonerror, method, excludeFuture⟩

/-- The `except` clause of the API calls, e.g. carbon_simulator.py:555-559. -/
def reply {α : Type} (s : Sim K) : Py α → Reply α
  | .ok a => .success a
  | .error e => if s.raiseonerror then .raised e else .failure e

/-- `get_carbon_pair` (carbon_simulator.py:134-147). `create` never returns `None` for a truthy argument. -/
def getPair (s : Sim K) (pair : CarbonPair.Arg) : Py CarbonPair :=
  let dflt : Py CarbonPair := match s.pair with
    | none => .error .value
    | some p => .ok p
  match pair with
  | .none => dflt
  | .str [] => dflt
  | a => do
    match ← CarbonPair.create a none with
    | none => .error .value
    | some p => .ok p

/-! ## Adding orders -/

/-- The curve of the new order (carbon_simulator.py:259-270): with a marginal price, a capacity, or the amount as
capacity. -/
def buildCurve (amt lo hi : K) (pmarg yint : Option K) : Py (Curve K) :=
  match pmarg, yint with
  | some pm, _ => Curve.init { y := some amt, plow := some lo, phigh := some hi, pmarg := some pm }
  | none, some z =>
    if z < amt then .error .value else Curve.init { y := some amt, plow := some lo, phigh := some hi, yint := some z }
  | none, none => Curve.init { y := some amt, plow := some lo, phigh := some hi, yint := some amt }

/-- The end of `_add_order_sell_tkn` (carbon_simulator.py:243-271): construction of the `Order`. -/
def buildOrder (pair : CarbonPair) (tkn : Str) (amt lo hi : K) (disabled : Bool) (id linked : Nat)
    (pmarg yint : Option K) : Py (SOrder K) := do
  let c ← buildCurve amt lo hi pmarg yint
  .ok ⟨c, tkn, pair, pair.pairIso, disabled, id, linked⟩

/-- `_add_order_sell_tkn` (carbon_simulator.py:174-273), up to the storing of the order. -/
def sellOrder (pair : CarbonPair) (tkn : Str) (amt plo phi : Option K) (id linked : Nat) (pmarg yint : Option K) :
    Py (SOrder K) :=
  if yint.isSome && pmarg.isSome then .error .value
  else
    match plo, phi with
    | none, none => buildOrder pair tkn (amt.getD 0) 0 0 true id linked pmarg yint
    | some lo, some hi =>
      if lo ≤ hi then buildOrder pair tkn (amt.getD 0) lo hi false id linked pmarg yint
      else buildOrder pair tkn (amt.getD 0) hi lo false id linked pmarg yint
    | _, _ => .error .value

/-- What is evaluated to report an order: `_to_pandas` (carbon_simulator.py:1080-1118) with `CarbonOrderUI.from_order`
(carbon_order_ui.py:244-263). Returns the reported holdings, capacity and prices. -/
def report (o : SOrder K) : Py (K × K × Option (K × K) × Option K) := do
  let u ← UICurve.make (.pair o.pair) o.tkn o.curve.B o.curve.S o.curve.yint o.curve.y
  let range ←
    if o.disabled then (.ok none : Py (Option (K × K)))
    else do
      match ← o.pair.convertPrice (some o.curve.phigh) o.tkn, ← o.pair.convertPrice (some o.curve.plow) o.tkn with
      | some a, some b => .ok (some (a, b))
      | _, _ => .error .type
  let m ← u.pMarg
  .ok (o.curve.y, o.curve.yint, range, m)

/-- The arguments of `add_strategy` (carbon_simulator.py:438-454). -/
structure StrategyArgs (K : Type) where
  tkn : Str
  amtSell : Option K := none
  psellStart : Option K := none
  psellEnd : Option K := none
  amtBuy : Option K := none
  pbuyStart : Option K := none
  pbuyEnd : Option K := none
  pair : CarbonPair.Arg := .none
  psellMarginal : Option K := none
  pbuyMarginal : Option K := none
  yintSell : Option K := none
  yintBuy : Option K := none

/-- `raise ValueError("Token not in pair", tkn, carbon_pair.slashpair, pair.slashpair)` (carbon_simulator.py:494): the
attribute `slashpair` does not exist on a string or `None`. -/
def notInPair : CarbonPair.Arg → Err
  | .pair _ => .value
  | _ => .attr

/-- The pair and the other token (carbon_simulator.py:491-494). -/
def pairTokens (s : Sim K) (pair : CarbonPair.Arg) (tkn : Str) : Py (CarbonPair × Str) := do
  let p ← s.getPair pair
  match p.other tkn with
  | none => .error (notInPair pair)
  | some tkn2 => .ok (p, tkn2)

/-- The two orders of a strategy: prices converted to the token sold (carbon_simulator.py:500-506), then both orders
built. The inner result is the second order, whose construction may fail after the first one is stored. -/
def strategyOrders (p : CarbonPair) (tkn2 : Str) (id1 id2 : Nat) (a : StrategyArgs K) :
    Py (SOrder K × Py (SOrder K)) := do
  let sm ← p.convertPrice a.psellMarginal a.tkn
  let ss ← p.convertPrice a.psellStart a.tkn
  let se ← p.convertPrice a.psellEnd a.tkn
  let bs ← p.convertPrice a.pbuyStart tkn2
  let be ← p.convertPrice a.pbuyEnd tkn2
  let bm ← p.convertPrice a.pbuyMarginal tkn2
  let o1 ← sellOrder p a.tkn a.amtSell se ss id1 id2 sm a.yintSell
  .ok (o1, sellOrder p tkn2 a.amtBuy be bs id2 id1 bm a.yintBuy)

/-- `add_strategy` (carbon_simulator.py:438-560). -/
def addStrategy (s : Sim K) (a : StrategyArgs K) : Py (Nat × Nat) × Sim K :=
  match s.pairTokens a.pair a.tkn with
  | .error e => (.error e, s)
  | .ok (p, tkn2) =>
    let id1 := s.nextId
    let id2 := s.nextId + 1
    let s1 := { s with nextId := s.nextId + 2 }
    match strategyOrders p tkn2 id1 id2 a with
    | .error e => (.error e, s1)
    | .ok (o1, r2) =>
      let s2 := { s1 with orders := Dict.set s1.orders id1 o1 }
      match r2 with
      | .error e => (.error e, s2)
      | .ok o2 =>
        let s3 := { s2 with orders := Dict.set s2.orders id2 o2 }
        match (do let _ ← report o1; report o2) with
        | .error e => (.error e, s3)
        | .ok _ => (.ok (id1, id2), s3)

/-- `add_order` (carbon_simulator.py:275-315). -/
def addOrder (s : Sim K) (tkn : Str) (amt pStart pEnd : Option K) (pair : CarbonPair.Arg) (pmarg yint : Option K) :
    Py (Nat × Nat) × Sim K :=
  s.addStrategy { tkn, amtSell := amt, psellStart := pStart, psellEnd := pEnd, psellMarginal := pmarg, yintSell := yint,
                  pair }

/-- `_add_replace_single_order` (carbon_simulator.py:317-413), not part of the public interface. -/
def addReplaceSingle (s : Sim K) (tkn : Str) (amt pStart pEnd pmarg yint : Option K) (pair : CarbonPair.Arg)
    (oid lid : Option Nat) : Py (Nat × Nat) × Sim K :=
  if yint.isSome then (.error .assertion, s)
  else if s.excludeFuture then (.error (.custom "ExcludedFutureFunctionality"), s)
  else
    match s.getPair pair with
    | .error e => (.error e, s)
    | .ok p =>
      if !p.hasToken tkn then (.error .value, s)
      else
        let id1 := oid.getD s.nextId
        let id2 := lid.getD id1
        let s1 := if oid.isSome then s else { s with nextId := s.nextId + 1 }
        match (do
          let ps ← p.convertPrice pStart tkn
          let pe ← p.convertPrice pEnd tkn
          sellOrder p tkn amt pe ps id1 id2 pmarg none) with
        | .error e => (.error e, s1)
        | .ok o =>
          let s2 := { s1 with orders := Dict.set s1.orders id1 o }
          match report o with
          | .error e => (.error e, s2)
          | .ok _ => (.ok (id1, id2), s2)

/-! ## Deleting orders -/

/-- `delete_order`, also `delete_strategy` (carbon_simulator.py:562-600). Line 588 tests the linked id for truth, so that
the id `0` counts as none. -/
def deleteOrder (s : Sim K) (k : Nat) : Py (List Nat) × Sim K :=
  match Dict.get s.orders k with
  | none => (.ok [], s)
  | some o =>
    let s1 := { s with orders := Dict.del s.orders k }
    if o.linked = k ∨ o.linked = 0 then (.ok [k], s1)
    else
      match Dict.get s1.orders o.linked with
      | none => (.error .key, s1)
      | some _ => (.ok [k, o.linked], { s1 with orders := Dict.del s1.orders o.linked })

/-! ## Trades -/

/-- The routers (carbon_simulator.py:84-91, 643-648, 693-697). -/
def route (m : Method) (orders : List (Curve K)) (x : K) (byTarget : Bool) (threshold : Option Nat)
    (supportPartial : Bool) : Py (List (Action K)) :=
  match m, byTarget with
  | .exact, _ => ExactRouter.matchExact orders x byTarget [] supportPartial
  | .fast, true => FastRouter.matchByTarget orders x
  | .fast, false => FastRouter.matchBySource orders x
  | .alpha, true => AlphaRouter.matchByTarget orders x threshold supportPartial
  | .alpha, false => AlphaRouter.matchBySrc orders x threshold supportPartial

/-- The arguments of `amm_buys` and `amm_sells` (carbon_simulator.py:920-933, 1000-1013). -/
structure TradeArgs (K : Type) where
  tkn : Str
  amt : K
  pair : CarbonPair.Arg := .none
  execute : Bool := true
  inpair : Bool := true
  limitPrice : Option K := none
  limitAmt : Option K := none
  threshold : Option Nat := some 10
  usePositions : Option (List Nat) := none
  supportPartial : Bool := false

/-- The conversion of `limit_amt` to a limit price (carbon_simulator.py:652-663). -/
def limitOf (p : CarbonPair) (tkn : Str) (amt : K) (byTarget : Bool) (a : TradeArgs K) : Py (Option K) :=
  match a.limitAmt with
  | none => .ok a.limitPrice
  | some l =>
    if a.limitPrice.isSome then .error .value
    else do
      let r ← pyDiv amt l
      match if byTarget then some tkn else p.other tkn with
      | none => .ok none
      | some t => p.convertPrice (some |r|) t

/-- `order_ids` (carbon_simulator.py:677-686): enabled, non-empty orders that sell `tkn` on the pair or its reverse. -/
def eligible (p r : CarbonPair) (tkn : Str) (o : SOrder K) : Bool :=
  (o.pairName = p.pairIso || o.pairName = r.pairIso) && o.tkn = tkn && !o.disabled && decide (0 < o.curve.y)

/-- `applicable_orders` (carbon_simulator.py:677-688). -/
def applicable (s : Sim K) (p r : CarbonPair) (tkn : Str) (usePositions : Option (List Nat)) : List (Nat × SOrder K) :=
  s.orders.filter fun e => eligible p r tkn e.2 && (match usePositions with
    | none => true
    | some l => decide (e.1 ∈ l))

/-- What is known before the first order is changed. -/
structure Plan (K : Type) where
  /-- `id_map`, by position. -/
  ids : List Nat
  routes : List (Action K)
  last : Action K
  price : Option K
  exec : Bool
  limitfail : Option Bool

/-- The first part of `_trade` (carbon_simulator.py:643-754), which changes nothing. `tkn` is the token sold by the AMM.
The average price is rounded in the code before it is compared to the limit (to 50 digits); not modelled. -/
def plan (s : Sim K) (p : CarbonPair) (tkn : Str) (amt : K) (byTarget : Bool) (a : TradeArgs K) : Py (Plan K) := do
  let limit ← limitOf p tkn amt byTarget a
  let r ← p.reverse
  if !a.inpair then .error (.custom "NotImplementedError")
  else
    let app := s.applicable p r tkn a.usePositions
    let routes ← route s.method (app.map fun e => e.2.curve) amt byTarget a.threshold a.supportPartial
    match routes.getLast? with
    | none => .error .index
    | some last =>
      let raw ← pyDiv (-last.totalOutput) last.totalInput
      let price ← p.convertPrice (some raw) tkn
      match limit, price with
      | none, _ => .ok ⟨app.map fun e => e.2.id, routes, last, price, a.execute, none⟩
      | some _, none => .error .type
      | some l, some pr =>
        let met := p.limitIsMet tkn l .buy pr == some true
        .ok ⟨app.map fun e => e.2.id, routes, last, price, a.execute && met, some (!met)⟩

/-- The amount sold by an order, in a route or in the totals: `output`, but `input` for the fast router by target
(carbon_simulator.py:744, 779-784). -/
def sold (swap : Bool) (inp out : K) : K := if swap then |inp| else |out|

/-- The amount received by the order. -/
def bought (swap : Bool) (inp out : K) : K := if swap then |out| else |inp|

/-- `self.orders[indx].y -= ...` (carbon_simulator.py:744). -/
def debit (o : SOrder K) (v : K) : SOrder K := { o with curve := { o.curve with y := o.curve.y - v } }

/-- `self.orders[linked].y += ...` and the raising of `y_int` (carbon_simulator.py:746-756). -/
def credit (o : SOrder K) (v : K) : SOrder K :=
  let y := o.curve.y + v
  { o with curve := { o.curve with y := y, yint := if y > o.curve.yint then y else o.curve.yint } }

/-- Execution of one route (carbon_simulator.py:743-756). -/
def execRoute (swap : Bool) (s : Sim K) (k : Nat) (a : Action K) : Py Unit × Sim K :=
  match Dict.get s.orders k with
  | none => (.error .key, s)
  | some o =>
    let s1 := { s with orders := Dict.set s.orders k (debit o (sold swap a.input a.output)) }
    if o.linked = k then (.ok (), s1)
    else
      match Dict.get s1.orders o.linked with
      | none => (.error .key, s1)
      | some l =>
        (.ok (), { s1 with orders := Dict.set s1.orders o.linked (credit l (bought swap a.input a.output)) })

/-- The reported price (carbon_simulator.py:797-799): the reciprocal for the fast router by target. A missing price is
a `TypeError` of `float`. -/
def logPrice (swap : Bool) : Option K → Py K
  | none => .error .type
  | some p => if swap then pyDiv 1 p else .ok p

/-- The loop over the routes (carbon_simulator.py:728-815). -/
def runRoutes (p : CarbonPair) (tkn : Str) (swap : Bool) (pl : Plan K) : Sim K → Nat → List (Action K) → Py Unit × Sim K
  | s, _, [] => (.ok (), s)
  | s, ct, a :: rest =>
    match pl.ids[a.index]? with
    | none => (.error .key, s)
    | some k =>
      match if pl.exec then execRoute swap s k a else (.ok (), s) with
      | (.error e, s1) => (.error e, s1)
      | (.ok _, s1) =>
        match logPrice swap pl.price with
        | .error e => (.error e, s1)
        | .ok price =>
          let uid := (s1.numtrades, some ct)
          let t : TradeRec K := ⟨uid, pl.exec, false, pl.limitfail, sold swap a.input a.output, tkn,
            bought swap a.input a.output, p.other tkn, p.pairIso, [k], price⟩
          runRoutes p tkn swap pl { s1 with trades := Dict.set s1.trades uid t } (ct + 1) rest

/-- `_trade` (carbon_simulator.py:605-918). The result are the log records of the trade. -/
def trade (s : Sim K) (p : CarbonPair) (tkn : Str) (amt : K) (byTarget : Bool) (a : TradeArgs K) :
    Py (List (TradeRec K)) × Sim K :=
  match s.plan p tkn amt byTarget a with
  | .error e => (.error e, s)
  | .ok pl =>
    let swap := byTarget && decide (s.method = .fast)
    match runRoutes p tkn swap pl s 0 pl.routes with
    | (.error e, s1) => (.error e, s1)
    | (.ok _, s1) =>
      match logPrice swap pl.price with
      | .error e => (.error e, s1)
      | .ok price =>
        let uid := (s1.numtrades, none)
        let t : TradeRec K := ⟨uid, pl.exec, decide (amt ≠ |pl.last.totalInput|), pl.limitfail,
          sold swap pl.last.totalInput pl.last.totalOutput, tkn, bought swap pl.last.totalInput pl.last.totalOutput,
          p.other tkn, p.pairIso, pl.routes.filterMap fun a => pl.ids[a.index]?, price⟩
        let trades := Dict.set s1.trades uid t
        let keys := uid :: (List.range pl.routes.length).map fun i => (s1.numtrades, some i)
        (.ok ((trades.filter fun e => e.1 ∈ keys).map Prod.snd),
          { s1 with trades := trades, numtrades := s1.numtrades + 1 })

/-- `_assert_position_is_valid` (carbon_simulator.py:1236-1260). -/
def positionValid (s : Sim K) (tkn : Option Str) (p : CarbonPair) : Py Unit := do
  if !(s.orders.any fun e => some e.2.tkn == tkn && decide (0 < e.2.curve.y)) then .error .value
  else
    let r ← p.reverse
    if s.orders.any fun e => (e.2.pairName == p.pairIso || e.2.pairName == r.pairIso) && decide (0 < e.2.curve.y) then
      .ok ()
    else .error .value

/-- `amm_buys` for an amount that is not negative (carbon_simulator.py:971-994). -/
def buysPos (s : Sim K) (a : TradeArgs K) : Py (List (TradeRec K)) × Sim K :=
  match (do
    let p ← s.getPair a.pair
    s.positionValid (p.other a.tkn) p
    match p.other a.tkn with
    | none => .error .value
    | some t => .ok (p, t)) with
  | .error e => (.error e, s)
  | .ok (p, tkno) => s.trade p tkno a.amt false a

/-- `amm_sells` for an amount that is not negative (carbon_simulator.py:1050-1074). -/
def sellsPos (s : Sim K) (a : TradeArgs K) : Py (List (TradeRec K)) × Sim K :=
  match (do
    let p ← s.getPair a.pair
    s.positionValid (some a.tkn) p
    .ok p) with
  | .error e => (.error e, s)
  | .ok p => s.trade p a.tkn (-a.amt) true a

/-- The arguments passed on for a negative amount (carbon_simulator.py:957-968, 1036-1047): `use_positions` is left
out. -/
def TradeArgs.flip (a : TradeArgs K) : TradeArgs K := { a with amt := -a.amt, usePositions := none }

/-- `amm_buys`, also `trader_sells` (carbon_simulator.py:920-998). -/
def ammBuys (s : Sim K) (a : TradeArgs K) : Py (List (TradeRec K)) × Sim K :=
  if a.amt < 0 then s.sellsPos a.flip else s.buysPos a

/-- `amm_sells`, also `trader_buys` (carbon_simulator.py:1000-1078). -/
def ammSells (s : Sim K) (a : TradeArgs K) : Py (List (TradeRec K)) × Sim K :=
  if a.amt < 0 then s.buysPos a.flip else s.sellsPos a

/-! ## Reading the state -/

/-- `state` (carbon_simulator.py:1120-1185): the reported orders. Every order's link is looked up among the orders
reported. -/
def state (s : Sim K) (pair : Option (List Str)) : Py (List (SOrder K)) := do
  let os := (s.orders.map Prod.snd).filter fun o => match pair with
    | none => true
    | some l => decide (o.pairName ∈ l)
  if s.orders = [] then .ok []
  else if os = [] then .error .value
  else do
    let _ ← os.mapM report
    if os.all fun o => os.any fun l => l.id == o.linked then .ok os else .error .key

/-- `liquidity` (carbon_simulator.py:1190-1218) for one pair name and token: the sum over the orders reported. -/
def liquidity (s : Sim K) (pair tkn : Str) : Py K := do
  let os ← s.state none
  .ok ((os.filter fun o => o.pairName = pair && o.tkn = tkn).map fun o => o.curve.y).sum

end

end Sim

end Carbon
