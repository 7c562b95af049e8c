import Verif.Carbon.Simulator
import Verif.Helpers.Strategy

/-!
# Model of `run_sim` of `carbon/helpers/simulation.py` (lines 39-128)

A path is the list of its prices in the order of their dates (the index of the series is assumed to be sorted). Numbers are real numbers
without rounding.
-/

namespace Carbon

/-- `slashpair` (carbon/helpers/strategym.py:409-412). -/
def Strat.slashpair (s : Strat ℝ) : Str := s.rsk ++ '/' :: s.csh

/-- `dct` (carbon/helpers/strategym.py:391-407). -/
def Strat.dct (s : Strat ℝ) : Sim.StrategyArgs ℝ :=
  { tkn := s.rsk, amtSell := s.amtRsk, psellStart := some s.pSellA, psellEnd := some s.pSellB, amtBuy := s.amtCsh,
    pbuyStart := some s.pBuyA, pbuyEnd := some s.pBuyB, pair := .str s.slashpair, psellMarginal := s.psellMarginal,
    pbuyMarginal := s.pbuyMarginal, yintSell := s.yIntSell, yintBuy := s.yIntBuy }

namespace RunSim

/-- `CarbonOrderUI.from_order` (carbon/carbon_order_ui.py:243-263). -/
noncomputable def fromOrder (o : SOrder ℝ) : Py (UICurve ℝ) :=
  UICurve.make (.pair o.pair) o.tkn o.curve.B o.curve.S o.curve.yint o.curve.y

/-- Lines 67-70: the strategies are added one after the other; a failed call is caught by the simulator, which reports no success. -/
noncomputable def addAll (s : Sim ℝ) : List (Strat ℝ) → Py (Sim ℝ)
  | [] => .ok s
  | t :: l =>
    match s.addStrategy t.dct with
    | (.ok _, s') => addAll s' l
    | (.error _, _) => .error .assertion

/-- The orders of a strategy. They follow one another in the book and each is linked to the other (`C96_links`), so that the objects of
line 71 are pairs of curves linked to each other. -/
abbrev Twins := UICurve ℝ × UICurve ℝ

/-- Consecutive elements in pairs. -/
def pairUp {α : Type} : List α → List (α × α)
  | a :: b :: l => (a, b) :: pairUp l
  | _ => []

/-- `Sim.state()["orderuis"]` (line 71). If `state` fails, its reply has no such entry. -/
noncomputable def positions (s : Sim ℝ) : Py (List Twins) :=
  match s.state none with
  | .error _ => .error .key
  | .ok os => do
    let us ← os.mapM fromOrder
    .ok (pairUp us)

/-- `oui.tradeto(spot)` (line 93) for a curve and the curve that is linked to it. -/
noncomputable def visit (a b : UICurve ℝ) (p : ℝ) : Py (UICurve ℝ × UICurve ℝ) :=
  match UICurve.tradeto ⟨a, some b⟩ p with
  | (.ok _, ⟨a', some b'⟩) => .ok (a', b')
  | (.ok _, ⟨_, none⟩) => .error .attr
  | (.error e, _) => .error e

/-- Both curves of a strategy, in the order of their ids. -/
noncomputable def visitTwins (t : Twins) (p : ℝ) : Py Twins := do
  let r ← visit t.1 t.2 p
  let q ← visit r.2 r.1 p
  .ok (q.2, q.1)

/-- Lines 92-93. -/
noncomputable def visitAll (p : ℝ) : List Twins → Py (List Twins)
  | [] => .ok []
  | t :: l => do
    let t' ← visitTwins t p
    let l' ← visitAll p l
    .ok (t' :: l')

/-- `bidask == "BID"` (carbon/carbon_order_ui.py:338-350). -/
def isBid (c : UICurve ℝ) : Bool := c.tkn = c.pair.tknb

/-- All curves, in the order of the book. -/
def curves (l : List Twins) : List (UICurve ℝ) := l.flatMap fun t => [t.1, t.2]

/-- `ouis_buy` and `ouis_sell` (lines 81-82). -/
noncomputable def side (bid : Bool) (l : List Twins) : List (UICurve ℝ) := (curves l).filter fun c => isBid c == bid

/-- What is recorded per price (lines 88-91, 94-98). -/
structure Snap where
  rsk : ℝ
  csh : ℝ
  margBuy : List (Option ℝ)
  margSell : List (Option ℝ)

/-- The record of the current state. -/
noncomputable def snap (l : List Twins) : Py Snap := do
  let mb ← (side true l).mapM UICurve.pMarg
  let ms ← (side false l).mapM UICurve.pMarg
  .ok ⟨((side true l).map (·.y)).sum, ((side false l).map (·.y)).sum, mb, ms⟩

/-- The loop over the prices after the first (lines 92-98): the records. -/
noncomputable def walk (l : List Twins) : List ℝ → Py (List Snap)
  | [] => .ok []
  | p :: ps => do
    let l' ← visitAll p l
    let s ← snap l'
    let r ← walk l' ps
    .ok (s :: r)

/-- `simresults` (lines 28-37). The marginal prices are recorded per price; the code transposes them (lines 103-104). -/
structure Result where
  strat : List (Strat ℝ)
  spot : List ℝ
  rsk : List ℝ
  csh : List ℝ
  value : List ℝ
  hodl : List ℝ
  margBuy : List (List (Option ℝ))
  margSell : List (List (Option ℝ))

/-- Lines 55-59: if the first price is not positive, all prices that are not positive are left out. -/
noncomputable def clean (path : List ℝ) : List ℝ :=
  match path with
  | [] => []
  | p :: ps => if 0 < p then p :: ps else ps.filter fun q => 0 < q

/-- Lines 105-106. -/
noncomputable def values (rsk csh path : List ℝ) : List ℝ := List.zipWith (· + ·) (List.zipWith (· * ·) rsk path) csh

/-- `run_sim` (lines 39-128). An empty path, and one without positive prices, raise `ValueError` (`min` of nothing). -/
noncomputable def runSim (strat : List (Strat ℝ)) (path : List ℝ) (shift : Option ℝ := none) : Py Result :=
  match strat with
  | [] => .error .index
  | s0 :: _ =>
    if strat.any fun s => s.slashpair ≠ s0.slashpair then .error .value
    else
      match clean path with
      | [] => .error .value
      | spot :: rest => do
        let ss ← strat.mapM fun s => s.rescaleStrat (spot * (1 + shift.getD 0)) 100
        let sim ← Sim.new (.str s0.slashpair) false .exact
        let sim ← addAll sim ss
        let ps ← positions sim
        let first ← snap ps
        let more ← walk ps rest
        let rec' := first :: more
        let rsk := rec'.map (·.rsk)
        let csh := rec'.map (·.csh)
        .ok ⟨ss, spot :: rest, rsk, csh, values rsk csh (spot :: rest), (spot :: rest).map fun p => first.rsk * p + first.csh,
          rec'.map (·.margBuy), rec'.map (·.margSell)⟩

end RunSim

end Carbon
