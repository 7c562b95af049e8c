import Verif.Bench.Match
import Verif.Bench.TradeSpec

/-!
# Model of the benchmark of the match functions: `benchmark/test_match.py`

What is printed is left out, except that printing needs an action. Numbers are kept where the file has their texts.
-/

namespace Carbon.Bench

/-- An order of a file of matches, with the rates as numerator and denominator. -/
structure FileOrder where
  liquidity : Nat
  lowest : Nat × Nat
  highest : Nat × Nat
  marginal : Nat × Nat
  deriving DecidableEq, Repr

/-- An entry of a file of matches; the method as a flag, and the fast and the best actions recorded by an earlier run. -/
structure MatchTest where
  bySource : Bool
  amount : Int
  orders : List FileOrder
  fast : List Action
  best : List Action
  deriving DecidableEq, Repr

/-- `encodeOrder(orders[id])` (benchmark/core/match/impl.py:175). -/
def FileOrder.encode (o : FileOrder) : Py EncOrder := encodeOrder o.liquidity o.lowest o.highest o.marginal

/-- `match_impl.execute` (benchmark/core/match/impl.py:161-175) with both types and the default filter: the fast and the best actions. -/
def executeMatch (bySource : Bool) (amount : Int) (orders : List FileOrder) : Py (List Action × List Action) := do
  let enc ← orders.mapM FileOrder.encode
  let fast ← (if bySource then matchFastBySource amount enc defaultFilter else matchFastByTarget amount enc defaultFilter)
  let best ← (if bySource then matchBestBySource amount enc defaultFilter else matchBestByTarget amount enc defaultFilter)
  .ok (fast, best)

/-- `assert`. -/
def assertThat (p : Prop) [Decidable p] : Py Unit := if p then .ok () else .error .assertion

/-- `max([...])` of lines 17-19 of benchmark/test_match.py, which raises for an empty list; the width itself is for printing only. -/
def widthOf (acts : List Action) : Py Unit := if acts = [] then .error .value else .ok ()

/-- The assertions about one action (benchmark/test_match.py:33-34). -/
def checkAction (bySource : Bool) (orders : List FileOrder) (a : Action) : Py Unit :=
  match orders[a.id]? with
  | none => .error .index
  | some o => do
    assertThat ((if bySource then a.output else a.input) ≤ o.liquidity)
    let out ← execute bySource a.input o.liquidity o.lowest o.highest o.marginal
    assertThat (a.output = out)

/-- The assertions about the actions of one type (benchmark/test_match.py:31-34). -/
def checkActions (bySource : Bool) (amount : Int) (orders : List FileOrder) (acts : List Action) : Py Unit := do
  assertThat ((acts.map Action.input).sum ≤ amount)
  acts.forM (checkAction bySource orders)

/-- One turn of the loop (benchmark/test_match.py:8-56). The comparisons of lines 25-28 are by the method. -/
def runMatch (t : MatchTest) : Py MatchTest := do
  let (fast, best) ← executeMatch t.bySource t.amount t.orders
  widthOf fast
  widthOf best
  checkActions t.bySource t.amount t.orders fast
  checkActions t.bySource t.amount t.orders best
  let bi := (best.map Action.input).sum
  let fi := (fast.map Action.input).sum
  let bo := (best.map Action.output).sum
  let fo := (fast.map Action.output).sum
  assertThat (if t.bySource then bi ≤ fi else bi ≥ fi)
  assertThat (if t.bySource then bo ≥ fo else bo ≤ fo)
  .ok { t with fast := fast, best := best }

/-- `run` (benchmark/test_match.py:5-58): the outcome and the file afterwards, which is written after the last test (line 58). -/
def runMatches (file : List MatchTest) : Py Unit × List MatchTest :=
  match file.mapM runMatch with
  | .ok tests => (.ok (), tests)
  | .error e => (.error e, file)

end Carbon.Bench
