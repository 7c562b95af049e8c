import Mathlib.Algebra.Order.Field.Basic
import Verif.Carbon.Order
import Verif.Carbon.OrderUI
import Verif.Sdk.Token

/-!
# Model of `carbon/helpers/strategym.py`

Numbers are exact. The second `__post_init__` of the class (strategym.py:134-140) replaces the first one (strategym.py:60-64), so the check
of the first one never runs. The methods for data frames are left out.
-/

namespace Carbon

open CarbonPair (pyDiv)

/-- `strategy` (strategym.py:13-58). -/
structure Strat (K : Type) where
  pSellA : K
  pSellB : K
  pBuyA : K
  pBuyB : K
  amtRsk : Option K
  amtCsh : Option K
  psellMarginal : Option K
  pbuyMarginal : Option K
  yIntSell : Option K
  yIntBuy : Option K
  rsk : Str
  csh : Str
  rescale : Bool
  rescaledFctr : Option K
  deriving DecidableEq

namespace Strat

/-- The name used if none is given (strategym.py:139-140). -/
def orName (n : Option Str) (default : String) : Str := n.getD default.toList

section
variable {K : Type} [Field K] [LinearOrder K]

/-- `MIN_SEED_AMT` (strategym.py:66). -/
def minSeed : K := 1 / 10 ^ 10

/-- The constructor with the effective `__post_init__` (strategym.py:134-140). For `amt_rsk == 0` an attribute of another name is set and
`amt_rsk` stays 0. -/
def make (pSellA pSellB pBuyA pBuyB : K) (amtRsk amtCsh : Option K := none) (psellMarginal pbuyMarginal : Option K := none)
    (yIntSell yIntBuy : Option K := none) (rsk csh : Option Str := none) (rescale : Bool := true) (rescaledFctr : Option K := none) :
    Strat K :=
  { pSellA, pSellB, pBuyA, pBuyB, amtRsk, amtCsh := if amtCsh = some 0 then some minSeed else amtCsh, psellMarginal, pbuyMarginal,
    yIntSell, yIntBuy, rsk := orName rsk "RSK", csh := orName csh "CSH", rescale, rescaledFctr }

/-- `rescale_strat` (strategym.py:68-110). -/
def rescaleStrat (s : Strat K) (newspot oldspot : K) (force : Bool := false) : Py (Strat K) :=
  if s.rescale = false ∧ force = false then .ok s
  else do
    let f ← pyDiv newspot oldspot
    .ok (make (s.pSellA * f) (s.pSellB * f) (s.pBuyA * f) (s.pBuyB * f) s.amtRsk s.amtCsh (s.psellMarginal.map (· * f))
      (s.pbuyMarginal.map (· * f)) s.yIntSell (s.yIntBuy.map (· * f)) (some s.rsk) (some s.csh) false (some f))

/-- `set_tvl` (strategym.py:112-132). -/
def setTvl (s : Strat K) (spot cashpc tvl : K) : Py (Strat K) :=
  if s.amtRsk = none ∧ s.amtCsh = none then do
    let q ← pyDiv tvl spot
    .ok { s with amtRsk := some (q * (1 - cashpc)), amtCsh := some (tvl * cashpc) }
  else .ok s

/-- `MAX_UTIL` (strategym.py:192). -/
def maxUtil : K := 999 / 1000

/-- `_validate` (strategym.py:194-204). -/
def validate (u : K) : Py (Option K) :=
  if u = 0 then .ok none
  else if u < 0 then .error .value
  else if u > 1 then .error .value
  else if u > maxUtil then .ok (some maxUtil)
  else .ok (some u)

/-- `_sorted` (strategym.py:206-212). -/
def sorted (x1 x2 : K) (inverse : Bool := false) : K × K :=
  let invert := xor (decide (x2 > x1)) inverse
  if invert then (x1, x2) else (x2, x1)

/-- An argument that can be a number or two of them. -/
inductive Arg (K : Type) where
  | one (x : K)
  | two (x y : K)

/-- A range argument of `from_sb` (strategym.py:223-231). -/
def Arg.range (a : Arg K) (inverse : Bool) : K × K :=
  match a with
  | .one x => (x, x)
  | .two x y => sorted x y inverse

/-- `from_sb` (strategym.py:214-242). -/
def fromSb (sell buy : Arg K) (fixed : Bool := true) (overlapping : Bool := false) : Py (Strat K) :=
  let s := sell.range false
  let b := buy.range true
  if b.1 > s.1 ∧ overlapping = false then .error .value
  else .ok (make s.1 s.2 b.1 b.2 (rescale := !fixed))

/-- `usell, ubuy = ...` with its fallback (strategym.py:276-281, 284-287): if one of two values is not valid, the two together are
validated as one value, and their comparison with 0 raises `TypeError`. -/
def Arg.both (a : Arg K) : Py (Option K × Option K) :=
  match a with
  | .one x => do
    let u ← validate x
    .ok (u, u)
  | .two x y =>
    match validate x, validate y with
    | .ok u, .ok v => .ok (u, v)
    | _, _ => .error .type

/-- `if w==0: w=0.0001` (strategym.py:274); two numbers are not equal to 0. -/
def Arg.orSmall (a : Arg K) : Arg K :=
  match a with
  | .one x => .one (if x = 0 then 1 / 10000 else x)
  | .two x y => .two x y

/-- `1+w` (strategym.py:293, 295). -/
def onePlus (w : Option K) : Py K :=
  match w with
  | some w => .ok (1 + w)
  | none => .error .type

/-- The marginal price of a range (strategym.py:306-307). -/
def marginal (u : Option K) (a b : K) : Option K := u.map fun u => (1 - u) * a + u * b

/-- `from_mgw` (strategym.py:245-308). -/
def fromMgw (m g : K) (w u : Arg K) (amtRsk amtCsh : Option K := none) (rsk csh : Option Str := none) : Py (Strat K) := do
  let g := if g = 0 then 1 / 10000 else g
  let u ← u.both
  let w ← w.orSmall.both
  let g2 := 1 / 2 * g
  let pBuyA ← pyDiv m (1 + g2)
  let wb ← onePlus w.2
  let pBuyB ← pyDiv pBuyA wb
  let ws ← onePlus w.1
  let pSellA := m * (1 + g2)
  let pSellB := m * (1 + g2) * ws
  .ok (make pSellA pSellB pBuyA pBuyB amtRsk amtCsh (marginal u.1 pSellA pSellB) (marginal u.2 pBuyA pBuyB) (rsk := rsk) (csh := csh))

variable [PySqrt K]

/-- `math.sqrt`. -/
def pySqrt (x : K) : Py K := if x < 0 then .error .value else .ok (PySqrt.sqrt x)

/-- The shift of the prices by the fee, none without fee (strategym.py:337-347). -/
def feeShift (r : K) (feePc : Option K) : K :=
  match feePc with
  | some f => r * f * (1 / 2)
  | none => 0

/-- `from_u3` (strategym.py:310-374). -/
def fromU3 (pLo pHi : K) (startBelow : Bool) (tvlCsh feePc : Option K := none) (rsk csh : Option Str := none) : Py (Strat K) :=
  if ¬ pHi ≥ pLo then .error .value
  else do
    let tvl := tvlCsh.getD 1000
    let r ← pySqrt (pLo * pHi)
    let shift := feeShift r feePc
    let y ← pyDiv tvl r
    let amtRsk := if startBelow then y else 0
    let amtCsh := if startBelow then 0 else tvl
    .ok (make (pLo + shift) (pHi + shift) (pHi - shift) (pLo - shift) (some amtRsk) (some amtCsh) none none (some y) (some tvl) rsk csh false)

end

end Strat

end Carbon
