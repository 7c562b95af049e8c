import Verif.Carbon.Simulator
import Verif.Float.Rounding

/-!
# Trades with the rounding of the amounts

`Simulator.lean` books the amounts a router has calculated. The code books what the router reports, and a router reports
every amount as a float rounded to 12 decimals (`frmt`, carbon/routers/base_router.py:154-159, applied at
carbon/routers/exact_base_router.py:233-236 and carbon/routers/fast_router.py:216-219). Here is `_trade` with a function
`f` applied to every reported amount and a function `g` to the average price, which is calculated in floats. The
calculations inside of the routers (`Decimal` with 128 digits) stay exact.
-/

namespace Carbon

open CarbonPair (pyDiv)

/-- `frmt` (carbon/routers/base_router.py:154-159) with `d` decimals: conversion to a float, the nearest number with `d`
decimals (to even in the middle), and the float nearest to that. -/
def frmt {K : Type} [Field K] [LinearOrder K] [FloorRing K] (R : Rounding K) (d : Nat) (v : K) : K :=
  R.fl (Sdk.roundHE (R.fl v * 10 ^ d) / 10 ^ d)

namespace Sim

variable {K : Type} [Field K] [LinearOrder K] [PySqrt K]

/-- A route as reported. The fast router changes the sign of the last total after rounding (fast_router.py:221); rounding
is symmetric. -/
def roundAction (f : K → K) (a : Action K) : Action K := ⟨a.index, f a.input, f a.output, f a.totalInput, f a.totalOutput⟩

/-- `match_by_src` and `match_by_target` with rounded results. -/
def routeR (f : K → K) (m : Method) (orders : List (Curve K)) (x : K) (byTarget : Bool) (threshold : Option Nat)
    (supportPartial : Bool) : Py (List (Action K)) := do
  let l ← route m orders x byTarget threshold supportPartial
  .ok (l.map (roundAction f))

/-- The first part of `_trade` (carbon_simulator.py:643-777). The average price is a quotient of floats; a price converted
into the convention of the pair is one, too. The limit is not rounded here. -/
def planR (f g : K → K) (s : Sim K) (p : CarbonPair) (tkn : Str) (amt : K) (byTarget : Bool) (a : TradeArgs K) : Py (Plan K) := do
  let limit ← limitOf p tkn amt byTarget a
  let r ← p.reverse
  if !a.inpair then .error (.custom "NotImplementedError")
  else
    let app := s.applicable p r tkn a.usePositions
    let routes ← routeR f s.method (app.map fun e => e.2.curve) amt byTarget a.threshold a.supportPartial
    match routes.getLast? with
    | none => .error .index
    | some last =>
      let raw ← pyDiv (-last.totalOutput) last.totalInput
      let price ← p.convertPrice (some (g raw)) tkn
      match limit, price.map g with
      | none, pr => .ok ⟨app.map fun e => e.2.id, routes, last, pr, a.execute, none⟩
      | some _, none => .error .type
      | some l, some pr =>
        let met := p.limitIsMet tkn l .buy pr == some true
        .ok ⟨app.map fun e => e.2.id, routes, last, some pr, a.execute && met, some (!met)⟩

/-- The second part of `_trade` (carbon_simulator.py:779-918): the routes are executed and logged. -/
def settle (s : Sim K) (p : CarbonPair) (tkn : Str) (amt : K) (byTarget : Bool) (pl : Plan K) :
    Py (List (TradeRec K)) × Sim K :=
  let swap := byTarget && decide (s.method = .fast)
  match runRoutes p tkn swap pl s 0 pl.routes with
  | (.error e, s1) => (.error e, s1)
  | (.ok _, s1) =>
    match logPrice swap pl.price with
    | .error e => (.error e, s1)
    | .ok price =>
      let uid := (s1.numtrades, none)
      let t : TradeRec K := ⟨uid, pl.exec, decide (amt ≠ |pl.last.totalInput|), pl.limitfail,
        sold swap pl.last.totalInput pl.last.totalOutput, tkn, bought swap pl.last.totalInput pl.last.totalOutput,
        p.other tkn, p.pairIso, pl.routes.filterMap fun a => pl.ids[a.index]?, price⟩
      let trades := Dict.set s1.trades uid t
      let keys := uid :: (List.range pl.routes.length).map fun i => (s1.numtrades, some i)
      (.ok ((trades.filter fun e => e.1 ∈ keys).map Prod.snd),
        { s1 with trades := trades, numtrades := s1.numtrades + 1 })

theorem trade_eq_settle (s : Sim K) (p : CarbonPair) (tkn : Str) (amt : K) (byTarget : Bool) (a : TradeArgs K) :
    s.trade p tkn amt byTarget a = match s.plan p tkn amt byTarget a with
      | .error e => (.error e, s)
      | .ok pl => s.settle p tkn amt byTarget pl := rfl

/-- `_trade` (carbon_simulator.py:605-918) with rounding. -/
def tradeR (f g : K → K) (s : Sim K) (p : CarbonPair) (tkn : Str) (amt : K) (byTarget : Bool) (a : TradeArgs K) :
    Py (List (TradeRec K)) × Sim K :=
  match s.planR f g p tkn amt byTarget a with
  | .error e => (.error e, s)
  | .ok pl => s.settle p tkn amt byTarget pl

/-- `amm_buys` for an amount that is not negative (carbon_simulator.py:971-994). -/
def buysPosR (f g : K → K) (s : Sim K) (a : TradeArgs K) : Py (List (TradeRec K)) × Sim K :=
  match (do
    let p ← s.getPair a.pair
    s.positionValid (p.other a.tkn) p
    match p.other a.tkn with
    | none => .error .value
    | some t => .ok (p, t)) with
  | .error e => (.error e, s)
  | .ok (p, tkno) => s.tradeR f g p tkno a.amt false a

/-- `amm_sells` for an amount that is not negative (carbon_simulator.py:1050-1074). -/
def sellsPosR (f g : K → K) (s : Sim K) (a : TradeArgs K) : Py (List (TradeRec K)) × Sim K :=
  match (do
    let p ← s.getPair a.pair
    s.positionValid (some a.tkn) p
    .ok p) with
  | .error e => (.error e, s)
  | .ok p => s.tradeR f g p a.tkn (-a.amt) true a

/-- `amm_buys` or `amm_sells` (carbon_simulator.py:920-1078) with rounding. -/
def callR (f g : K → K) (s : Sim K) (buys : Bool) (a : TradeArgs K) : Py (List (TradeRec K)) × Sim K :=
  if buys then (if a.amt < 0 then s.sellsPosR f g a.flip else s.buysPosR f g a)
  else if a.amt < 0 then s.buysPosR f g a.flip else s.sellsPosR f g a

end Sim

end Carbon
