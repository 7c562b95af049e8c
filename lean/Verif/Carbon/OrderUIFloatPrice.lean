import Verif.Carbon.OrderUIFloat
import Verif.Float.Root

/-!
# Model of the functions of `carbon/carbon_order_ui.py` that take square roots, in floating-point arithmetic
-/

namespace Carbon

namespace FloatUI

open UICurve (failWith Sale World)

variable {K : Type} [Field K] [LinearOrder K] {R : Rounding K} (Q : R.Root)

/-- A raw price in the convention of the attributes (carbon/carbon_order_ui.py:97-98). -/
def conv (R : Rounding K) (c : UICurve K) (raw : K) : Py K := if c.reverseq then R.div 1 raw else .ok raw

/-- `__post_init__` (carbon/carbon_order_ui.py:81-107): token check and computation of the prices. -/
def make (R : Rounding K) (pair : CarbonPair.Arg) (tkn : Str) (B S yint y : K) : Py (UICurve K) := do
  let p ← CarbonPair.make pair none none
  let c : UICurve K := ⟨p, upper tkn, B, S, yint, y⟩
  if !p.hasToken c.tkn then .error .value
  else if disabled R c then .ok c
  else do
    let _ ← conv R c (paRaw R c)
    let _ ← conv R c (pbRaw R c)
    .ok c

/-- Inversion of a price for curves selling the base token (carbon/carbon_order_ui.py:191-193). -/
def invertIf (R : Rounding K) (b : Bool) (p : K) : Py K := if b then R.div 1 p else .ok p

/-- Exchange of the two prices if out of order (carbon/carbon_order_ui.py:195-199). -/
def orderPrices (pa pb : K) : K × K := if pa < pb then (pb, pa) else (pa, pb)

/-- `from_prices` (carbon/carbon_order_ui.py:166-211). -/
def fromPrices (pair : CarbonPair.Arg) (tkn : Str) (pa pb yint y : K) : Py (UICurve K) := do
  let p ← CarbonPair.make pair none none
  if yint < 0 then .error .value
  else if y > yint then .error .value
  else if y < 0 then .error .value
  else do
    let pa1 ← invertIf R (p.hasBase tkn) pa
    let pb1 ← invertIf R (p.hasBase tkn) pb
    let ab := orderPrices pa1 pb1
    let B ← Q.sqrt ab.2
    let A ← Q.sqrt ab.1
    make R (.pair p) tkn B (R.sub A B) yint y

/-- `dydx` of `yfromp_f` (carbon/carbon_order_ui.py:613). -/
def rawPrice (R : Rounding K) (c : UICurve K) (p : K) : Py K := if c.pair.hasQuote c.tkn then .ok p else R.div 1 p

/-- `yfromp_f` (carbon/carbon_order_ui.py:601-631). -/
def yfrompF (c : UICurve K) (p : K) (checkbounds := true) (raiseonerror := false) : Py (Option K) := do
  let dydx ← rawPrice R c p
  if checkbounds && decide (dydx > paRaw R c) then failWith raiseonerror (.custom "BeyondStart")
  else if checkbounds && decide (dydx < pbRaw R c) then
    (if raiseonerror then .error (.custom "BeyondEnd") else .ok (some 0))
  else do
    let s ← Q.sqrt dydx
    let y ← R.div (R.mul c.yint (R.sub s c.B)) c.S
    if checkbounds && decide (y > c.y) then failWith raiseonerror (.custom "BeyondMarg")
    else .ok (some y)

/-- `dyfromp_f` (carbon/carbon_order_ui.py:641-657). -/
def dyfrompF (c : UICurve K) (p : K) (checkbounds := true) (raiseonerror := false) : Py K :=
  if c.B = 0 ∧ c.S = 0 then (if raiseonerror then .error .value else .ok 0)
  else do
    let y ← yfrompF Q c p checkbounds raiseonerror
    match y with
    | none => .ok 0
    | some y => .ok (R.sub c.y y)

/-- The amount `tradeto` sells (carbon/carbon_order_ui.py:1046-1052). -/
def tradetoAmount (c : UICurve K) (p : K) : Py K :=
  match dyfrompF Q c p true true with
  | .ok dy => .ok dy
  | .error (.custom "BeyondStart") => .ok 0
  | .error (.custom "BeyondMarg") => .ok 0
  | .error (.custom "BeyondEnd") => do
    let e ← conv R c (pbRaw R c)
    dyfrompF Q c e false false
  | .error e => .error e

/-- `tradeto` (carbon/carbon_order_ui.py:1036-1057). -/
def tradeto (w : World K) (p : K) (execute := true) : Py (Sale K) × World K :=
  let w0 : World K := if w.self.yint = 0 then { w with self := { w.self with yint := R.fl (1 / 10 ^ 50) } } else w
  match tradetoAmount Q w0.self p with
  | .error e => (.error e, w0)
  | .ok dy =>
    let r := selly R w0 dy execute false false true
    match r.1 with
    | .error e => (.error e, r.2)
    | .ok none => (.error (.custom "RuntimeError"), r.2)
    | .ok (some s) => (.ok s, r.2)

end FloatUI

end Carbon
