import Verif.Bench.TradeSpec

/-!
# Model of the comparison of the benchmark: `benchmark/core/__init__.py`, `benchmark/test_trade.py` and `benchmark/util/__init__.py`

`Decimal` is replaced by exact real numbers. What is printed is left out.
-/

namespace Carbon.Bench

open CarbonPair (pyDiv)

/-- `assertAlmostEqual` (benchmark/core/__init__.py:8-17). -/
noncomputable def almostEqual (actual expected maxAbsErr maxRelErr : ℝ) : Py Unit :=
  if actual ≠ expected then do
    let absErr := |actual - expected|
    let relErr ← pyDiv absErr expected
    if absErr ≤ maxAbsErr ∨ relErr ≤ maxRelErr then .ok () else .error .assertion
  else .ok ()

/-- An entry of a file of trades. The two outputs are texts; rates are given as numerator and denominator, the method as a flag. -/
structure TradeTest where
  bySource : Bool
  amount : Int
  liquidity : Nat
  lowest : Nat × Nat
  highest : Nat × Nat
  marginal : Nat × Nat
  implOut : Str
  specOut : Str
  deriving DecidableEq, Repr

/-- One turn of the loop (benchmark/test_trade.py:9-13). `showI`, `showS` are the conversions to text of lines 12 and 13. -/
noncomputable def runTest (showI : Int → Str) (showS : ℝ → Str) (maxAbsErr maxRelErr : ℝ) (t : TradeTest) : Py TradeTest := do
  let i ← execute t.bySource t.amount t.liquidity t.lowest t.highest t.marginal
  let s ← Ref.execute t.bySource (t.amount : ℝ) (requested t.liquidity t.lowest t.highest t.marginal)
  almostEqual i s maxAbsErr maxRelErr
  .ok { t with implOut := showI i, specOut := showS s }

/-- `run` (benchmark/test_trade.py:5-16): the outcome and the file afterwards, which is written after the last test (line 16). -/
noncomputable def runTrades (showI : Int → Str) (showS : ℝ → Str) (maxAbsErr maxRelErr : ℝ) (file : List TradeTest) : Py Unit × List TradeTest :=
  match file.mapM (runTest showI showS maxAbsErr maxRelErr) with
  | .ok tests => (.ok (), tests)
  | .error e => (.error e, file)

end Carbon.Bench
