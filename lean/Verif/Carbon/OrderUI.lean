import Mathlib.Analysis.SpecialFunctions.Pow.Real
import Verif.Carbon.Pair

/-!
# Model of `carbon/carbon_order_ui.py` (`CarbonOrderUI`)

Numbers are elements of an ordered field `K`; the functions that take square roots are over `ℝ`.  Division by zero
raises.  Float rounding is not modelled.  Display-only members (`descr`, `__repr__`, the text entries of the result
dictionaries) are not modelled.
-/

namespace Carbon

open CarbonPair (pyDiv)

/-- `CarbonOrderUI` (carbon/carbon_order_ui.py:72-79). The attribute `linked` is an object reference and lives in
`UIWorld`. -/
structure UICurve (K : Type) where
  pair : CarbonPair
  tkn : Str
  B : K
  S : K
  yint : K
  y : K
  deriving DecidableEq, Repr

namespace UICurve

section Field
variable {K : Type} [Field K] [LinearOrder K]

/-- `pb_raw` (carbon/carbon_order_ui.py:86). -/
def pbRaw (c : UICurve K) : K := c.B * c.B

/-- `pa_raw` (carbon/carbon_order_ui.py:87); on a disabled curve the attribute is overwritten with `None` (89), which
only matters for code that tests `disabled` first or is guarded by it. -/
def paRaw (c : UICurve K) : K := (c.S + c.B) ^ 2

/-- `disabled` (carbon/carbon_order_ui.py:88-93). -/
def disabled (c : UICurve K) : Bool := c.paRaw = 0 && c.pbRaw = 0

/-- `reverseq` (carbon/carbon_order_ui.py:94). -/
def reverseq (c : UICurve K) : Bool := c.pair.hasBase c.tkn

/-- A raw price in the convention of the constructor's lines 97-98: inverted if the curve sells the base token. -/
def conv (c : UICurve K) (raw : K) : Py K := if c.reverseq then pyDiv 1 raw else .ok raw

/-- `__post_init__` (carbon/carbon_order_ui.py:81-107): token check and computation of the prices, which raises if a
price has to be inverted and is zero. -/
def make (pair : CarbonPair.Arg) (tkn : Str) (B S yint y : K) : Py (UICurve K) := do
  let p ← CarbonPair.make pair none none
  let c : UICurve K := ⟨p, upper tkn, B, S, yint, y⟩
  if !p.hasToken c.tkn then .error .value
  else if c.disabled then .ok c
  else do
    let _ ← c.conv c.paRaw
    let _ ← c.conv c.pbRaw
    .ok c

/-- `pa` (carbon/carbon_order_ui.py:97), also `py`, `p_start`. -/
def pa (c : UICurve K) : K := if c.reverseq then 1 / c.paRaw else c.paRaw

/-- `pb` (carbon/carbon_order_ui.py:98), also `px`, `p_end`. -/
def pb (c : UICurve K) : K := if c.reverseq then 1 / c.pbRaw else c.pbRaw

/-- `pmin` (carbon/carbon_order_ui.py:99-104). -/
def pmin (c : UICurve K) : K := if c.pa < c.pb then c.pa else c.pb

/-- `pmax` (carbon/carbon_order_ui.py:99-104). -/
def pmax (c : UICurve K) : K := if c.pa < c.pb then c.pb else c.pa

/-- `result = dydx if self.pair.has_quotetoken(self.tkn) else 1/dydx` (carbon/carbon_order_ui.py:554, 593). -/
def quotePrice (c : UICurve K) (dydx : K) : Py (Option K) :=
  if c.pair.hasQuote c.tkn then .ok (some dydx) else do let r ← pyDiv 1 dydx; .ok (some r)

/-- The failure convention: raise if `raiseonerror`, else return `None`. -/
def failWith {α : Type} (raiseonerror : Bool) (e : Err) : Py (Option α) := if raiseonerror then .error e else .ok none

/-- `p_marg_f` (carbon/carbon_order_ui.py:521-555). The `raise` at line 550 evaluates an undefined name, hence
`NameError`. -/
def pMargF (c : UICurve K) (dy : K) (fullcurve := false) (checkbounds := true) (raiseonerror := false) :
    Py (Option K) :=
  if c.disabled then .ok none
  else
    let y := if fullcurve then c.yint - dy else c.y - dy
    if checkbounds && decide (dy < 0) then failWith raiseonerror .value
    else if checkbounds && decide (y < 0) then failWith raiseonerror .value
    else if c.yint = 0 then
      if ¬ c.y = 0 ∧ dy = 0 then .error (.custom "NameError")
      else c.quotePrice ((c.B + c.S) ^ 2)
    else c.quotePrice ((c.B + c.S * y / c.yint) ^ 2)

/-- `p_marg` (carbon/carbon_order_ui.py:514-519). -/
def pMarg (c : UICurve K) : Py (Option K) := c.pMargF 0

/-- `xfromy_f` (carbon/carbon_order_ui.py:733-760). -/
def xfromyF (c : UICurve K) (y : K) (checkbounds := true) (raiseonerror := false) : Py (Option K) :=
  if checkbounds && decide (y > c.yint) then failWith raiseonerror .value
  else if checkbounds && decide (y < 0) then failWith raiseonerror .value
  else do
    let num := c.yint * (c.yint - y)
    let denom := c.B ^ 2 * c.yint + c.B * c.S * y + c.B * c.S * c.yint + c.S ^ 2 * y
    let r ← pyDiv num denom
    .ok (some r)

/-- `yfromx_f` (carbon/carbon_order_ui.py:769-803); line 801 evaluates the undefined name `xint`. -/
def yfromxF (c : UICurve K) (x : K) (checkbounds := true) (raiseonerror := false) : Py (Option K) :=
  if checkbounds && decide (x < 0) then failWith raiseonerror .value
  else do
    let num := c.yint * (-c.B ^ 2 * x - c.B * c.S * x + c.yint)
    let denom := c.B * c.S * x + c.S ^ 2 * x + c.yint
    let y ← pyDiv num denom
    if checkbounds && decide (y < 0) then failWith raiseonerror (.custom "NameError")
    else .ok (some y)

/-- The difference of two `xfromy_f` results in the denominator of line 591; `None` operands raise `TypeError`. -/
def subOpt (a b : Option K) : Py K :=
  match a, b with
  | some a, some b => .ok (a - b)
  | _, _ => .error .type

/-- `p_eff_f` (carbon/carbon_order_ui.py:557-594). -/
def pEffF (c : UICurve K) (dy : K) (fullcurve := false) (checkbounds := true) (raiseonerror := false) :
    Py (Option K) :=
  if c.disabled then .ok none
  else
    let y0 := if fullcurve then c.yint else c.y
    let y := y0 - dy
    if checkbounds && decide (dy < 0) then failWith raiseonerror .value
    else if checkbounds && decide (y < 0) then failWith raiseonerror .value
    else if c.yint = 0 then
      if ¬ y0 = 0 ∧ dy = 0 then .error (.custom "NameError")
      else c.quotePrice ((c.B + c.S) ^ 2)
    else if dy = 0 then c.pMargF (c.yint - y) true false
    else do
      let x1 ← c.xfromyF y
      let x0 ← c.xfromyF y0
      let d ← subOpt x1 x0
      let dydx ← pyDiv dy d
      c.quotePrice dydx

/-- `xint` (carbon/carbon_order_ui.py:633-639). -/
def xint (c : UICurve K) : Py K := pyDiv c.yint (c.B ^ 2 + c.B * c.S)

/-- `dyfromdx_f` (carbon/carbon_order_ui.py:659-697). -/
def dyfromdxF (c : UICurve K) (dx : K) (checkbounds := true) (raiseonerror := false) : Py (Option K) :=
  if c.B = 0 ∧ c.S = 0 then (if raiseonerror then .error .value else .ok (some 0))
  else if checkbounds && decide (dx < 0) then failWith raiseonerror .value
  else
    let num := (c.S * c.y + c.B * c.yint) ^ 2
    let denom := c.S * dx * (c.S * c.y + c.B * c.yint) + c.yint ^ 2
    if checkbounds && decide (num < 0) then failWith raiseonerror (.custom "NameError")
    else do
      let q ← pyDiv num denom
      .ok (some (dx * q))

/-- `dxfromdy_f` (carbon/carbon_order_ui.py:699-731). -/
def dxfromdyF (c : UICurve K) (dy : K) (checkbounds := true) (raiseonerror := false) : Py (Option K) :=
  if c.B = 0 ∧ c.S = 0 then (if raiseonerror then .error .value else .ok (some 0))
  else if checkbounds && decide (dy < 0) then failWith raiseonerror .value
  else if checkbounds && decide (dy > c.y) then failWith raiseonerror .value
  else do
    let num := c.yint ^ 2
    let denom := (c.S * c.y + c.B * c.yint) * (c.S * c.y + c.B * c.yint - c.S * dy)
    let q ← pyDiv num denom
    .ok (some (dy * q))

/-- `addliqy` (carbon/carbon_order_ui.py:1059-1090): outcome and curve after the call. `p_marg` is evaluated before
and after the change and may raise. -/
def addliqy (c : UICurve K) (dy : K) (expandcurve := true) : Py Unit × UICurve K :=
  if dy < 0 then (.error .value, c)
  else
    match c.pMarg with
    | .error e => (.error e, c)
    | .ok _ =>
      let newy := c.y + dy
      if newy > c.yint then
        if !expandcurve then (.error .value, c)
        else
          let c' := { c with yint := newy, y := newy }
          (c'.pMarg.map fun _ => (), c')
      else
        let c' := { c with y := newy }
        (c'.pMarg.map fun _ => (), c')

/-- The numerical content of the dictionary returned by `selly` (carbon/carbon_order_ui.py:995-1016). -/
structure Sale (K : Type) where
  executed : Bool
  yOld : K
  y : K
  dy : K
  dx : K
  expanded : Bool
  x : Option K
  pOld : Option K
  pNew : Option K
  deriving DecidableEq, Repr

/-- The two curve objects a sale can touch: the curve itself and its `linked` curve. That a curve is linked to itself
(possible through `set_linked`) is modelled in `Carbon/OrderUIHeap.lean`. -/
structure World (K : Type) where
  self : UICurve K
  linked : Option (UICurve K)
  deriving DecidableEq, Repr

/-- `EPSILON = 1e-10` (carbon/carbon_order_ui.py:934). -/
def EPS : K := 1 / 10 ^ 10

/-- carbon/carbon_order_ui.py:990-993: the linked curve receives `dx`, whatever `execute` says. -/
def creditLinked (w : World K) (dx : K) : Py Unit × World K :=
  match w.linked with
  | none => (.ok (), w)
  | some l =>
    let r := l.addliqy dx
    (r.1, { w with linked := some r.2 })

/-- carbon/carbon_order_ui.py:986-1017: compute `dx`, update the curve, credit the linked curve, build the result
(which evaluates `xfromy_f`, line 1004). -/
def sellyFinish (w : World K) (dy ynew : K) (execute expanded : Bool) (yold : K) (pold pnew : Option K) :
    Py (Option (Sale K)) × World K :=
  match w.self.dxfromdyF dy false true with
  | .error e => (.error e, w)
  | .ok none => (.error .type, w)
  | .ok (some dx) =>
    let w1 : World K := if execute then { w with self := { w.self with y := ynew } } else w
    let cr := creditLinked w1 dx
    match cr.1 with
    | .error e => (.error e, cr.2)
    | .ok () =>
      match cr.2.self.xfromyF ynew with
      | .error e => (.error e, cr.2)
      | .ok x => (.ok (some ⟨execute, yold, ynew, dy, dx, expanded, x, pold, pnew⟩), cr.2)

/-- carbon/carbon_order_ui.py:960-984. -/
def sellyCore (w : World K) (dy : K) (execute expandcurve raiseonerror : Bool) : Py (Option (Sale K)) × World K :=
  let yold := w.self.y
  match w.self.pMarg, w.self.pMargF dy false false with
  | .error e, _ => (.error e, w)
  | _, .error e => (.error e, w)
  | .ok pold, .ok pnew =>
    let ynew := w.self.y - dy
    if ynew < -EPS then (failWith raiseonerror .value, w)
    else if ynew > w.self.yint then
      if !expandcurve then (failWith raiseonerror .value, w)
      else
        let w1 : World K := if execute then { w with self := { w.self with yint := ynew } } else w
        sellyFinish w1 dy ynew execute true yold pold pnew
    else sellyFinish w dy (if ynew < 0 then 0 else ynew) execute false yold pold pnew

/-- `selly` (carbon/carbon_order_ui.py:935-1017): outcome and both curves after the call. -/
def selly (w : World K) (dy : K) (execute := true) (allowneg := true) (expandcurve := false)
    (raiseonerror := false) : Py (Option (Sale K)) × World K :=
  if dy < 0 ∧ !allowneg ∧ dy < -EPS then (failWith raiseonerror .value, w)
  else
    let dy1 := if dy < 0 ∧ !allowneg then 0 else dy
    if |dy1| < EPS then sellyCore w 0 false expandcurve raiseonerror
    else sellyCore w dy1 execute expandcurve raiseonerror

/-- `buyx` (carbon/carbon_order_ui.py:1019-1034). If `selly` returns `None`, the item assignment at line 1033 raises
`TypeError`. -/
def buyx (w : World K) (dx : K) (execute := true) (allowneg := true) (expandcurve := false)
    (raiseonerror := false) : Py (Sale K) × World K :=
  match w.self.dyfromdxF dx false true with
  | .error e => (.error e, w)
  | .ok none => (.error .type, w)
  | .ok (some dy) =>
    let r := selly w dy execute allowneg expandcurve raiseonerror
    match r.1 with
    | .error e => (.error e, r.2)
    | .ok none => (.error .type, r.2)
    | .ok (some s) => (.ok s, r.2)

/-- `liquidity_approx(..., asperc=True)` (carbon/carbon_order_ui.py:814-888). -/
def liquidityPerc (c : UICurve K) (price1 price2 : K) : K :=
  let p1 := if price1 > price2 then price2 else price1
  let p2 := if price1 > price2 then price1 else price2
  if c.disabled then 0
  else if c.pmax = c.pmin then
    if p1 = p2 then (if p1 = c.pmax then 1 else 0)
    else (if p1 ≤ c.pmax ∧ p2 > c.pmax then 1 else 0)
  else if p1 ≥ c.pmax ∨ p2 ≤ c.pmin then 0
  else
    let q1 := if p1 < c.pmin then c.pmin else p1
    let q2 := if p2 > c.pmax then c.pmax else p2
    (q2 - q1) / (c.pmax - c.pmin)

end Field

section Real

/-- `math.sqrt`: raises `ValueError` on negative arguments. -/
noncomputable def pySqrt (x : ℝ) : Py ℝ := if x < 0 then .error .value else .ok (Real.sqrt x)

/-- `dydx` of `yfromp_f` (carbon/carbon_order_ui.py:613). -/
noncomputable def rawPrice (c : UICurve ℝ) (p : ℝ) : Py ℝ :=
  if c.pair.hasQuote c.tkn then .ok p else pyDiv 1 p

/-- `yfromp_f` (carbon/carbon_order_ui.py:601-631). -/
noncomputable def yfrompF (c : UICurve ℝ) (p : ℝ) (checkbounds := true) (raiseonerror := false) : Py (Option ℝ) := do
  let dydx ← c.rawPrice p
  if checkbounds && decide (dydx > c.paRaw) then failWith raiseonerror (.custom "BeyondStart")
  else if checkbounds && decide (dydx < c.pbRaw) then
    (if raiseonerror then .error (.custom "BeyondEnd") else .ok (some 0))
  else do
    let s ← pySqrt dydx
    let y ← pyDiv (c.yint * (s - c.B)) c.S
    if checkbounds && decide (y > c.y) then failWith raiseonerror (.custom "BeyondMarg")
    else .ok (some y)

/-- `dyfromp_f` (carbon/carbon_order_ui.py:641-657). -/
noncomputable def dyfrompF (c : UICurve ℝ) (p : ℝ) (checkbounds := true) (raiseonerror := false) : Py ℝ :=
  if c.B = 0 ∧ c.S = 0 then (if raiseonerror then .error .value else .ok 0)
  else do
    let y ← c.yfrompF p checkbounds raiseonerror
    match y with
    | none => .ok 0
    | some y => .ok (c.y - y)

/-- The amount `tradeto` sells (carbon/carbon_order_ui.py:1046-1052). -/
noncomputable def tradetoAmount (c : UICurve ℝ) (p : ℝ) : Py ℝ :=
  match c.dyfrompF p true true with
  | .ok dy => .ok dy
  | .error (.custom "BeyondStart") => .ok 0
  | .error (.custom "BeyondMarg") => .ok 0
  | .error (.custom "BeyondEnd") => c.dyfrompF c.pb false false
  | .error e => .error e

/-- `tradeto` (carbon/carbon_order_ui.py:1036-1057). The first step may change `yint` (1044-1045). -/
noncomputable def tradeto (w : World ℝ) (p : ℝ) (execute := true) : Py (Sale ℝ) × World ℝ :=
  let w0 : World ℝ := if w.self.yint = 0 then { w with self := { w.self with yint := 1 / 10 ^ 50 } } else w
  match w0.self.tradetoAmount p with
  | .error e => (.error e, w0)
  | .ok dy =>
    let r := selly w0 dy execute false false true
    match r.1 with
    | .error e => (.error e, r.2)
    | .ok none => (.error (.custom "RuntimeError"), r.2)
    | .ok (some s) => (.ok s, r.2)

/-- Exchange of the two prices if out of order (carbon/carbon_order_ui.py:195-199). -/
noncomputable def orderPrices (pa pb : ℝ) : ℝ × ℝ := if pa < pb then (pb, pa) else (pa, pb)

/-- Inversion of a price for curves selling the base token (carbon/carbon_order_ui.py:191-193). -/
noncomputable def invertIf (b : Bool) (p : ℝ) : Py ℝ := if b then pyDiv 1 p else .ok p

/-- `from_prices` (carbon/carbon_order_ui.py:166-211). -/
noncomputable def fromPrices (pair : CarbonPair.Arg) (tkn : Str) (pa pb yint y : ℝ) : Py (UICurve ℝ) := do
  let p ← CarbonPair.make pair none none
  if yint < 0 then .error .value
  else if y > yint then .error .value
  else if y < 0 then .error .value
  else do
    let pa1 ← invertIf (p.hasBase tkn) pa
    let pb1 ← invertIf (p.hasBase tkn) pb
    let ab := orderPrices pa1 pb1
    let B ← pySqrt ab.2
    let A ← pySqrt ab.1
    make (.pair p) tkn B (A - B) yint y

/-- `from_Qxy` (carbon/carbon_order_ui.py:213-241). -/
noncomputable def fromQxy (pair : CarbonPair.Arg) (tkn : Str) (Q xint yint y : ℝ) : Py (UICurve ℝ) := do
  let p ← CarbonPair.make pair none none
  if !p.hasToken tkn then .error .value
  else if xint ≤ 0 then .error .value
  else if yint ≤ 0 then .error .value
  else if y > yint then .error .value
  else if y < 0 then .error .value
  else do
    let p0 := yint / xint
    let B ← pySqrt (p0 * Q)
    let q ← pyDiv p0 Q
    let A ← pySqrt q
    make (.pair p) tkn B (A - B) yint y

/-- `Q` (carbon/carbon_order_ui.py:381-384). -/
noncomputable def Q (c : UICurve ℝ) : ℝ := Real.sqrt (c.pbRaw / c.paRaw)

/-- `Gamma` (carbon/carbon_order_ui.py:386-389). -/
noncomputable def Gamma (c : UICurve ℝ) : ℝ := 1 - Real.sqrt c.Q

/-- `x0` (carbon/carbon_order_ui.py:411-418), with `xint` of lines 633-639. -/
noncomputable def x0 (c : UICurve ℝ) : ℝ := c.yint / (c.B ^ 2 + c.B * c.S) * (1 - c.Gamma) / (2 - c.Gamma)

/-- `y0` (carbon/carbon_order_ui.py:420-427). -/
noncomputable def y0 (c : UICurve ℝ) : ℝ := c.yint * (1 - c.Gamma) / (2 - c.Gamma)

/-- `xasym` (carbon/carbon_order_ui.py:436-441). -/
noncomputable def xasym (c : UICurve ℝ) : ℝ := c.x0 * (1 - 1 / c.Gamma)

/-- `yasym` (carbon/carbon_order_ui.py:443-448). -/
noncomputable def yasym (c : UICurve ℝ) : ℝ := c.y0 * (1 - 1 / c.Gamma)

/-- `kappa` (carbon/carbon_order_ui.py:450-459). -/
noncomputable def kappa (c : UICurve ℝ) : ℝ := c.x0 * c.y0 / c.Gamma ^ 2

end Real

end UICurve

end Carbon
