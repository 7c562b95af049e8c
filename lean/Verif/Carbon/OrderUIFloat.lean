import Verif.Carbon.OrderUI
import Verif.Float.Rounding

/-!
# Model of `carbon/carbon_order_ui.py` in floating-point arithmetic

The same functions as in `Verif/Carbon/OrderUI.lean`, with every operation followed by a rounding, in the order in which the program
carries them out. Comparisons, negation and `abs` of floats are exact.
-/

namespace Carbon

namespace FloatUI

open UICurve (failWith Sale World)

variable {K : Type} [Field K] [LinearOrder K] (R : Rounding K)

/-- `pb_raw` (carbon/carbon_order_ui.py:86). -/
def pbRaw (c : UICurve K) : K := R.mul c.B c.B

/-- `pa_raw` (carbon/carbon_order_ui.py:87). -/
def paRaw (c : UICurve K) : K := R.sq (R.add c.S c.B)

/-- `disabled` (carbon/carbon_order_ui.py:88-93). -/
def disabled (c : UICurve K) : Bool := paRaw R c = 0 && pbRaw R c = 0

/-- `dydx if self.pair.has_quotetoken(self.tkn) else 1/dydx` (carbon/carbon_order_ui.py:554, 593). -/
def quotePrice (c : UICurve K) (dydx : K) : Py (Option K) :=
  if c.pair.hasQuote c.tkn then .ok (some dydx) else do let r ← R.div 1 dydx; .ok (some r)

/-- `p_marg_f` (carbon/carbon_order_ui.py:521-555). -/
def pMargF (c : UICurve K) (dy : K) (fullcurve := false) (checkbounds := true) (raiseonerror := false) : Py (Option K) :=
  if disabled R c then .ok none
  else
    let y := if fullcurve then R.sub c.yint dy else R.sub c.y dy
    if checkbounds && decide (dy < 0) then failWith raiseonerror .value
    else if checkbounds && decide (y < 0) then failWith raiseonerror .value
    else if c.yint = 0 then
      if ¬ c.y = 0 ∧ dy = 0 then .error (.custom "NameError")
      else quotePrice R c (R.sq (R.add c.B c.S))
    else do
      let q ← R.div (R.mul c.S y) c.yint
      quotePrice R c (R.sq (R.add c.B q))

/-- `p_marg` (carbon/carbon_order_ui.py:514-519). -/
def pMarg (c : UICurve K) : Py (Option K) := pMargF R c 0

/-- `xfromy_f` (carbon/carbon_order_ui.py:733-760). -/
def xfromyF (c : UICurve K) (y : K) (checkbounds := true) (raiseonerror := false) : Py (Option K) :=
  if checkbounds && decide (y > c.yint) then failWith raiseonerror .value
  else if checkbounds && decide (y < 0) then failWith raiseonerror .value
  else do
    let num := R.mul c.yint (R.sub c.yint y)
    let denom := R.add (R.add (R.add (R.mul (R.sq c.B) c.yint) (R.mul (R.mul c.B c.S) y)) (R.mul (R.mul c.B c.S) c.yint))
      (R.mul (R.sq c.S) y)
    let r ← R.div num denom
    .ok (some r)

/-- `xint` (carbon/carbon_order_ui.py:633-639). -/
def xint (c : UICurve K) : Py K := R.div c.yint (R.add (R.sq c.B) (R.mul c.B c.S))

/-- `self.S*self.y + self.B*self.yint` (carbon/carbon_order_ui.py:687, 689, 729). -/
def scaled (c : UICurve K) : K := R.add (R.mul c.S c.y) (R.mul c.B c.yint)

/-- `dyfromdx_f` (carbon/carbon_order_ui.py:659-697). -/
def dyfromdxF (c : UICurve K) (dx : K) (checkbounds := true) (raiseonerror := false) : Py (Option K) :=
  if c.B = 0 ∧ c.S = 0 then (if raiseonerror then .error .value else .ok (some 0))
  else if checkbounds && decide (dx < 0) then failWith raiseonerror .value
  else
    let num := R.sq (scaled R c)
    let denom := R.add (R.mul (R.mul c.S dx) (scaled R c)) (R.sq c.yint)
    if checkbounds && decide (num < 0) then failWith raiseonerror (.custom "NameError")
    else do
      let q ← R.div num denom
      .ok (some (R.mul dx q))

/-- `dxfromdy_f` (carbon/carbon_order_ui.py:699-731). -/
def dxfromdyF (c : UICurve K) (dy : K) (checkbounds := true) (raiseonerror := false) : Py (Option K) :=
  if c.B = 0 ∧ c.S = 0 then (if raiseonerror then .error .value else .ok (some 0))
  else if checkbounds && decide (dy < 0) then failWith raiseonerror .value
  else if checkbounds && decide (dy > c.y) then failWith raiseonerror .value
  else do
    let num := R.sq c.yint
    let denom := R.mul (scaled R c) (R.sub (scaled R c) (R.mul c.S dy))
    let q ← R.div num denom
    .ok (some (R.mul dy q))

/-- The difference in the denominator of line 591 (carbon/carbon_order_ui.py:591); `None` operands raise `TypeError`. -/
def subOpt (a b : Option K) : Py K :=
  match a, b with
  | some a, some b => .ok (R.sub a b)
  | _, _ => .error .type

/-- `p_eff_f` (carbon/carbon_order_ui.py:557-594). -/
def pEffF (c : UICurve K) (dy : K) (fullcurve := false) (checkbounds := true) (raiseonerror := false) : Py (Option K) :=
  if disabled R c then .ok none
  else
    let y0 := if fullcurve then c.yint else c.y
    let y := R.sub y0 dy
    if checkbounds && decide (dy < 0) then failWith raiseonerror .value
    else if checkbounds && decide (y < 0) then failWith raiseonerror .value
    else if c.yint = 0 then
      if ¬ y0 = 0 ∧ dy = 0 then .error (.custom "NameError")
      else quotePrice R c (R.sq (R.add c.B c.S))
    else if dy = 0 then pMargF R c (R.sub c.yint y) true false
    else do
      let x1 ← xfromyF R c y
      let x0 ← xfromyF R c y0
      let d ← subOpt R x1 x0
      let dydx ← R.div dy d
      quotePrice R c dydx

/-- `addliqy` (carbon/carbon_order_ui.py:1059-1090): outcome and curve after the call. -/
def addliqy (c : UICurve K) (dy : K) (expandcurve := true) : Py Unit × UICurve K :=
  if dy < 0 then (.error .value, c)
  else
    match pMarg R c with
    | .error e => (.error e, c)
    | .ok _ =>
      let newy := R.add c.y dy
      if newy > c.yint then
        if !expandcurve then (.error .value, c)
        else
          let c' := { c with yint := newy, y := newy }
          ((pMarg R c').map fun _ => (), c')
      else
        let c' := { c with y := newy }
        ((pMarg R c').map fun _ => (), c')

/-- `EPSILON = 1e-10` (carbon/carbon_order_ui.py:934), the float next to it. -/
def eps : K := R.fl (1 / 10 ^ 10)

/-- carbon/carbon_order_ui.py:990-993. -/
def creditLinked (w : World K) (dx : K) : Py Unit × World K :=
  match w.linked with
  | none => (.ok (), w)
  | some l =>
    let r := addliqy R l dx
    (r.1, { w with linked := some r.2 })

/-- carbon/carbon_order_ui.py:986-1017. -/
def sellyFinish (w : World K) (dy ynew : K) (execute expanded : Bool) (yold : K) (pold pnew : Option K) :
    Py (Option (Sale K)) × World K :=
  match dxfromdyF R w.self dy false true with
  | .error e => (.error e, w)
  | .ok none => (.error .type, w)
  | .ok (some dx) =>
    let w1 : World K := if execute then { w with self := { w.self with y := ynew } } else w
    let cr := creditLinked R w1 dx
    match cr.1 with
    | .error e => (.error e, cr.2)
    | .ok () =>
      match xfromyF R cr.2.self ynew with
      | .error e => (.error e, cr.2)
      | .ok x => (.ok (some ⟨execute, yold, ynew, dy, dx, expanded, x, pold, pnew⟩), cr.2)

/-- carbon/carbon_order_ui.py:960-984. -/
def sellyCore (w : World K) (dy : K) (execute expandcurve raiseonerror : Bool) : Py (Option (Sale K)) × World K :=
  let yold := w.self.y
  match pMarg R w.self, pMargF R w.self dy false false with
  | .error e, _ => (.error e, w)
  | _, .error e => (.error e, w)
  | .ok pold, .ok pnew =>
    let ynew := R.sub w.self.y dy
    if ynew < -eps R then (failWith raiseonerror .value, w)
    else if ynew > w.self.yint then
      if !expandcurve then (failWith raiseonerror .value, w)
      else
        let w1 : World K := if execute then { w with self := { w.self with yint := ynew } } else w
        sellyFinish R w1 dy ynew execute true yold pold pnew
    else sellyFinish R w dy (if ynew < 0 then 0 else ynew) execute false yold pold pnew

/-- `selly` (carbon/carbon_order_ui.py:935-1017): outcome and both curves after the call. -/
def selly (w : World K) (dy : K) (execute := true) (allowneg := true) (expandcurve := false) (raiseonerror := false) :
    Py (Option (Sale K)) × World K :=
  if dy < 0 ∧ !allowneg ∧ dy < -eps R then (failWith raiseonerror .value, w)
  else
    let dy1 := if dy < 0 ∧ !allowneg then 0 else dy
    if |dy1| < eps R then sellyCore R w 0 false expandcurve raiseonerror
    else sellyCore R w dy1 execute expandcurve raiseonerror

/-- `buyx` (carbon/carbon_order_ui.py:1019-1034). -/
def buyx (w : World K) (dx : K) (execute := true) (allowneg := true) (expandcurve := false) (raiseonerror := false) :
    Py (Sale K) × World K :=
  match dyfromdxF R w.self dx false true with
  | .error e => (.error e, w)
  | .ok none => (.error .type, w)
  | .ok (some dy) =>
    let r := selly R w dy execute allowneg expandcurve raiseonerror
    match r.1 with
    | .error e => (.error e, r.2)
    | .ok none => (.error .type, r.2)
    | .ok (some s) => (.ok s, r.2)

end FloatUI

end Carbon
