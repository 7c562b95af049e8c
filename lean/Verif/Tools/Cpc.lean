import Mathlib.Data.List.Lex
import Mathlib.Data.Char
import Verif.Carbon.Order
import Verif.Carbon.OrderUI

/-!
# Model of `carbon/tools/cpc.py`: `Pair`, `ConstantProductCurve`, `CPCInverter`

Numbers are elements of an ordered field `K` with a square root (`PySqrt`).  Float rounding is not modelled.  The members
`fee`, `descr`, `params` and `tokenscale` are passed through by the code without influence on the numbers and are left out here
(see `Tools/CpcHeap.lean`); printed messages too.
-/

namespace Carbon

open CarbonPair (pyDiv)

/-! ## Pairs -/

/-- `Pair` (cpc.py:51-182), also `SimplePair` (simplepair.py:13-133). -/
structure TPair where
  tknb : Str
  tknq : Str
  deriving DecidableEq, Repr

/-- `str.split(c)[0]`. -/
def beforeChar (c : Char) (s : Str) : Str := s.takeWhile (· ≠ c)

namespace TPair

/-- `Pair("B/Q")` (cpc.py:64-65, simplepair.py:26-27). -/
def ofStr (s : Str) : Py TPair := do
  let bq ← CarbonPair.unpack s
  .ok ⟨bq.1, bq.2⟩

/-- `from_tokens` (cpc.py:75-80). -/
def fromTokens (tknb tknq : Str) : TPair := ⟨tknb, tknq⟩

/-- `pair` (cpc.py:85-88). -/
def pair (p : TPair) : Str := p.tknb ++ '/' :: p.tknq

/-- `pairr` (cpc.py:95-98). -/
def pairr (p : TPair) : Str := p.tknq ++ '/' :: p.tknb

/-- `prettify_tkn` (cpc.py:105-108). -/
def prettify (tkn : Str) : Str := beforeChar '-' tkn

/-- `n` (simplepair.py:79-81). -/
def normalize (tkn : Str) : Str := beforeChar '(' (beforeChar '-' tkn)

/-- `other` (cpc.py:139-141). -/
def other (p : TPair) (tkn : Str) : Py Str :=
  if tkn = p.tknb ∨ tkn = p.tknq then .ok (if tkn = p.tknb then p.tknq else p.tknb) else .error .assertion

/-- `NUMERAIRE_TOKENS` (cpc.py:146-148, simplepair.py:75-77). -/
def numeraires : List Str :=
  ["USDC", "USDT", "DAI", "TUSD", "BUSD", "PAX", "GUSD", "USDS", "sUSD", "mUSD", "HUSD", "USDN", "USDP", "USDQ", "ETH",
    "WETH", "WBTC", "BTC"].map String.toList

/-- `NUMERAIRE_TOKENS.get(tkn, 1e10)` (cpc.py:153-154): the position in the list. -/
def rank (tkn : Str) : Nat := if tkn ∈ numeraires then numeraires.idxOf tkn else 10 ^ 10

/-- `isprimary` (cpc.py:150-157, simplepair.py:99-106), which differ in the normalisation of the names. The comparison of
strings is lexicographic by code points. -/
def isprimary (norm : Str → Str) (p : TPair) : Bool :=
  if rank (norm p.tknq) = rank (norm p.tknb) then decide (p.tknb < p.tknq)
  else decide (rank (norm p.tknq) < rank (norm p.tknb))

/-- `primary` (cpc.py:164-167). -/
def primary (norm : Str → Str) (p : TPair) : Str := if p.isprimary norm then p.pair else p.pairr

/-- `secondary` (cpc.py:169-172). -/
def secondary (norm : Str → Str) (p : TPair) : Str := if p.isprimary norm then p.pairr else p.pair

/-- `primary_price` (cpc.py:159-161). The variant of simplepair.py:108-111 returns a NaN for zero. -/
def primaryPrice {K : Type} [Field K] [LinearOrder K] (norm : Str → Str) (p : TPair) (pr : K) : Py K :=
  if p.isprimary norm then .ok pr else pyDiv 1 pr

end TPair

/-! ## Curves -/

/-- A curve id (cpc.py:211): anything; the container assigns integers (cpc.py:896), `execute` strings (cpc.py:558). -/
inductive Cid where
  | int (n : Nat)
  | str (s : Str)
  deriving DecidableEq, Repr

/-- `str(cid)`, with `None` for a missing one. -/
def Cid.show : Option Cid → Str
  | none => "None".toList
  | some (.int n) => (toString n).toList
  | some (.str s) => s

/-- `ConstantProductCurve` (cpc.py:185-222). -/
structure CPC (K : Type) where
  k : K
  x : K
  xAct : K
  yAct : K
  pair : Str
  cid : Option Cid
  constr : Str
  deriving DecidableEq, Repr

namespace CPC

section
variable {K : Type} [Field K] [LinearOrder K] [PySqrt K]

/-- `__post_init__` (cpc.py:217-247). The test at 244 evaluates `self.y`, so that `x = 0` always raises. That `x_act > x` or
`y_act > y` is only printed. -/
def make (k x : K) (xAct yAct : Option K := none) (pair : Option Str := none) (cid : Option Cid := none)
    (constr : Str := "default".toList) : Py (CPC K) := do
  let ya ← yAct.elim (pyDiv k x) Except.ok
  let pr := pair.getD "TKNB/TKNQ".toList
  let _ ← TPair.ofStr pr
  let _ ← pyDiv k x
  .ok ⟨k, x, xAct.getD x, ya, pr, cid, constr⟩

/-- `y` (cpc.py:602-605). `x` is not zero in a curve that was constructed. -/
def y (c : CPC K) : K := c.k / c.x

/-- `p` (cpc.py:607-610). -/
def p (c : CPC K) : K := c.y / c.x

/-- The arguments common to the constructors. -/
structure Meta (K : Type) where
  xAct : Option K := none
  yAct : Option K := none
  pair : Option Str := none
  cid : Option Cid := none

/-- `from_kx` (cpc.py:308-311). -/
def fromKX (k x : K) (m : Meta K := {}) : Py (CPC K) := make k x m.xAct m.yAct m.pair m.cid "kx".toList

/-- `from_ky` (cpc.py:313-316). -/
def fromKY (k y : K) (m : Meta K := {}) : Py (CPC K) := do
  let x ← pyDiv k y
  make k x m.xAct m.yAct m.pair m.cid "ky".toList

/-- `from_xy` (cpc.py:318-321). -/
def fromXY (x y : K) (m : Meta K := {}) : Py (CPC K) := make (x * y) x m.xAct m.yAct m.pair m.cid "xy".toList

/-- `from_pk` (cpc.py:323-326). -/
def fromPK (p k : K) (m : Meta K := {}) : Py (CPC K) := do
  let q ← pyDiv k p
  let x ← Curve.sqrtE q
  make k x m.xAct m.yAct m.pair m.cid "pk".toList

/-- `from_px` (cpc.py:328-331). -/
def fromPX (p x : K) (m : Meta K := {}) : Py (CPC K) := make (x * x * p) x m.xAct m.yAct m.pair m.cid "px".toList

/-- `from_py` (cpc.py:333-336). -/
def fromPY (p y : K) (m : Meta K := {}) : Py (CPC K) := do
  let k ← pyDiv (y * y) p
  let x ← pyDiv y p
  make k x m.xAct m.yAct m.pair m.cid "py".toList

/-- `from_pkpp` (cpc.py:338-348). Line 347 assigns the name of the constructor to a variable that line 348 does not use. -/
def fromPKPP (p k : K) (pMin pMax : Option K) (pair : Option Str := none) (cid : Option Cid := none)
    (constr : Option Str := none) : Py (CPC K) := do
  let lo := pMin.getD p
  let hi := pMax.getD p
  let q ← pyDiv k p
  let x0 ← Curve.sqrtE q
  let y0 ← Curve.sqrtE (k * p)
  let q2 ← pyDiv k hi
  let a ← Curve.sqrtE q2
  let b ← Curve.sqrtE (k * lo)
  let _constr := constr.getD "pkpp".toList
  make k x0 (some (x0 - a)) (some (y0 - b)) pair cid "pkpp".toList

/-- `from_univ2` (cpc.py:350-381). `others` says that `cid`, `descr` and `fee` are all given. -/
def fromUniV2 (x y k : Option K) (pair : Option Str) (cid : Option Cid) (others : Bool := true) : Py (CPC K) :=
  if pair.isNone ∨ cid.isNone ∨ others = false then .error .assertion
  else
    match k, x, y with
    | none, some x, some y => make (x * y) x (some x) (some y) pair cid "uv2".toList
    | none, _, _ => .error .assertion
    | some k, none, some y => do
      let x ← pyDiv k y
      make k x (some x) (some y) pair cid "uv2".toList
    | some _, none, none => .error .assertion
    | some k, some x, none => do
      let y ← pyDiv k x
      make k x (some x) (some y) pair cid "uv2".toList
    | some _, some _, some _ => .error .assertion

/-- `from_univ3` (cpc.py:383-413). -/
def fromUniV3 (pmarg uniL uniPa uniPb : K) (pair : Str) (cid : Option Cid) : Py (CPC K) :=
  if ¬ uniPa < uniPb then .error .assertion
  else if ¬ (uniPa < pmarg ∧ pmarg < uniPb) then .error .assertion
  else fromPKPP pmarg (uniL * uniL) (some uniPa) (some uniPb) (some pair) cid (some "uv3".toList)

/-- The arguments of `from_carbon` (cpc.py:415-514). -/
structure CarbonArgs (K : Type) where
  yint : Option K := none
  y : Option K := none
  pa : Option K := none
  pb : Option K := none
  A : Option K := none
  B : Option K := none
  pair : Option Str := none
  tkny : Option Str := none
  cid : Option Cid := none
  isdydx : Bool := true

/-- A price of `from_carbon`, inverted unless it is quoted in dy/dx already (cpc.py:471-474). -/
def carbonPrice (isdydx tknyIsQuote : Bool) (v : K) : Py K := if !isdydx && !tknyIsQuote then pyDiv 1 v else .ok v

/-- The prices of `from_carbon` in dy/dx, widened if equal, and the parameters `A`, `B` (cpc.py:471-490). -/
def carbonAB (isdydx tknyIsQuote : Bool) (pa pb : K) : Py (K × K) := do
  let a ← carbonPrice isdydx tknyIsQuote pa
  let b ← carbonPrice isdydx tknyIsQuote pb
  let w : K := 1 + 1 / 10 ^ 7
  let (a, b) := if a = b then (a * w, b / w) else (a, b)
  if ¬ b < a then .error .assertion
  else do
    let sa ← Curve.sqrtE a
    let sb ← Curve.sqrtE b
    .ok (sa - sb, sb)

/-- The end of `from_carbon` (lines 492-514). -/
def carbonCurve (yint y A B : K) (tknx tkny : Str) (cid : Option Cid) : Py (CPC K) := do
  let yasym ← pyDiv (yint * B) A
  let kappa ← pyDiv (yint ^ 2) (A ^ 2)
  let x ← pyDiv kappa (y + yasym)
  make kappa x (some 0) (some y) (some (tknx ++ '/' :: tkny)) cid "carb".toList

/-- `from_carbon` (cpc.py:415-514). -/
def fromCarbon (a : CarbonArgs K) : Py (CPC K) :=
  match a.yint, a.y, a.pair, a.tkny with
  | some yint, some y, some pair, some tkny =>
    if ¬ y ≤ yint then .error .assertion
    else if ¬ 0 ≤ y then .error .assertion
    else
      match a.A, a.B, a.pa, a.pb with
      | none, none, some pa, some pb => do
        let bq ← CarbonPair.unpack pair
        if ¬ (tkny = bq.1 ∨ tkny = bq.2) then .error .assertion
        else do
          let AB ← carbonAB a.isdydx (decide (tkny = bq.2)) pa pb
          carbonCurve yint y AB.1 AB.2 (if tkny = bq.2 then bq.1 else bq.2) tkny a.cid
      | some A, some B, none, none =>
        if a.isdydx = false then .error .assertion
        else if ¬ 0 ≤ A then .error .assertion
        else do
          let bq ← CarbonPair.unpack pair
          if ¬ (tkny = bq.1 ∨ tkny = bq.2) then .error .assertion
          else carbonCurve yint y A B (if tkny = bq.2 then bq.1 else bq.2) tkny a.cid
      | _, _, _, _ => .error .assertion
  | _, _, _, _ => .error .assertion

/-- The curve after a trade (cpc.py:552-562). -/
def executed (c : CPC K) (newx newy : K) : Py (CPC K) :=
  make c.k newx (some (c.xAct + newx - c.x)) (some (c.yAct + newy - c.y)) (some c.pair)
    (some (.str (Cid.show c.cid ++ "-x".toList)))

/-- `execute` (cpc.py:516-562). -/
def execute (c : CPC K) (dx dy : Option K) (ignorebounds := false) : Py (CPC K) :=
  match dx, dy with
  | some _, some _ => .error .value
  | none, some dy =>
    if ¬ -c.yAct ≤ dy ∧ ignorebounds = false then .error .value
    else do
      let newy := c.y + dy
      let newx ← pyDiv c.k newy
      c.executed newx newy
  | dx, none =>
    let dx := dx.getD 0
    if ¬ -c.xAct ≤ dx ∧ ignorebounds = false then .error .value
    else do
      let newx := c.x + dx
      let newy ← pyDiv c.k newx
      c.executed newx newy

/-- `tknb`, `tknx` (cpc.py:564-567). -/
def tknb (c : CPC K) : Str := (splitSlash c.pair).getD 0 []

/-- `tknq`, `tkny` (cpc.py:570-573). -/
def tknq (c : CPC K) : Str := (splitSlash c.pair).getD 1 []

/-- `pairo` (cpc.py:239). -/
def pairo (c : CPC K) : TPair := ⟨c.tknb, c.tknq⟩

/-- `tvl` (cpc.py:612-634), without `incltkn`. -/
def tvl (c : CPC K) (tkn : Option Str := none) (mult : K := 1) (raiseonerror := true) : Py (Option K) :=
  let tkn := tkn.getD c.tknq
  if ¬ (tkn = c.tknb ∨ tkn = c.tknq) then (if raiseonerror then .error .value else .ok none)
  else
    let v := (c.p * c.xAct + c.yAct) * mult
    if tkn = c.tknq then .ok (some v)
    else do
      let r ← pyDiv v c.p
      .ok (some r)

/-- `pp` (cpc.py:640-643). -/
def pp (c : CPC K) : Py K := c.pairo.primaryPrice TPair.prettify c.p

/-- `x_min` (cpc.py:650-653). -/
def xMin (c : CPC K) : K := c.x - c.xAct

/-- `y_min` (cpc.py:676-679). -/
def yMin (c : CPC K) : K := c.y - c.yAct

/-- `x_max` (cpc.py:681-687). -/
def xMax (c : CPC K) : Option K := if 0 < c.yMin then some (c.k / c.yMin) else none

/-- `y_max` (cpc.py:689-695). -/
def yMax (c : CPC K) : Option K := if 0 < c.xMin then some (c.k / c.xMin) else none

/-- `p_max` (cpc.py:697-703). -/
def pMax (c : CPC K) : Option K :=
  if 0 < c.xMin then c.yMax.map (· / c.xMin) else none

/-- `p_min` (cpc.py:705-711). -/
def pMin (c : CPC K) : Option K :=
  match c.xMax with
  | none => none
  | some m => if 0 < m then some (c.yMin / m) else none

/-- `at_xmin` (cpc.py:655-660). -/
def atXmin (c : CPC K) : Bool := if c.xMin = 0 then false else decide (|c.x / c.xMin - 1| < 1 / 10 ^ 6)

/-- `at_xmax` (cpc.py:663-668). A maximum of zero (only for `k = 0`) raises in the code. -/
def atXmax (c : CPC K) : Bool :=
  match c.xMax with
  | none => false
  | some m => decide (|c.x / m - 1| < 1 / 10 ^ 6)

/-- `at_boundary` (cpc.py:671-674). -/
def atBoundary (c : CPC K) : Bool := c.atXmin || c.atXmax

/-- One of the pairs of clamps of `xyfromp_f` (cpc.py:731-763). -/
def clamp (v lo : K) (hi : Option K) : K :=
  let v := if v < lo then lo else v
  match hi with
  | none => v
  | some h => if h < v then h else v

/-- `xyfromp_f` (cpc.py:731-763), without units. -/
def xyfromp (c : CPC K) (pr : Option K) (ignorebounds := false) : Py (K × K × K) := do
  let pr := pr.getD c.p
  let sp ← Curve.sqrtE pr
  let sk ← Curve.sqrtE c.k
  let x ← pyDiv sk sp
  let y := sk * sp
  if ignorebounds then .ok (x, y, pr)
  else .ok (clamp x c.xMin c.xMax, clamp y c.yMin c.yMax, pr)

/-- `dxdyfromp_f` (cpc.py:765-772), without units. -/
def dxdyfromp (c : CPC K) (pr : Option K) (ignorebounds := false) : Py (K × K × K) := do
  let r ← c.xyfromp pr ignorebounds
  .ok (r.1 - c.x, r.2.1 - c.y, r.2.2)

/-- `inrange` (cpc.py:833-842). -/
def inrange (v lo : K) (hi : Option K) : Bool :=
  if v < lo then false
  else
    match hi with
    | none => true
    | some h => if h < v then false else true

/-- `yfromx_f` (cpc.py:775-782). -/
def yfromx (c : CPC K) (x : K) (ignorebounds := false) : Py (Option K) := do
  let y ← pyDiv c.k x
  if ignorebounds then .ok (some y)
  else if inrange y c.yMin c.yMax = false then .ok none
  else .ok (some y)

/-- `xfromy_f` (cpc.py:784-791). -/
def xfromy (c : CPC K) (y : K) (ignorebounds := false) : Py (Option K) := do
  let x ← pyDiv c.k y
  if ignorebounds then .ok (some x)
  else if inrange x c.xMin c.xMax = false then .ok none
  else .ok (some x)

/-- `dyfromdx_f` (cpc.py:793-798). -/
def dyfromdx (c : CPC K) (dx : K) (ignorebounds := false) : Py (Option K) := do
  match ← c.yfromx (c.x + dx) ignorebounds with
  | none => .ok none
  | some y => .ok (some (y - c.y))

/-- `dxfromdy_f` (cpc.py:800-805). -/
def dxfromdy (c : CPC K) (dy : K) (ignorebounds := false) : Py (Option K) := do
  match ← c.xfromy (c.y + dy) ignorebounds with
  | none => .ok none
  | some x => .ok (some (x - c.x))

/-- `dy_max` (cpc.py:817-823). -/
def dyMax (c : CPC K) : Py (Option K) := if c.xAct < c.x then c.dyfromdx (-c.xAct) else .ok none

/-- `dx_max` (cpc.py:825-831). -/
def dxMax (c : CPC K) : Py (Option K) := if c.yAct < c.y then c.dxfromdy (-c.yAct) else .ok none

end

end CPC

/-! ## Inverted view of a curve -/

/-- `CPCInverter` (cpc.py:1692-1697): wraps a curve. -/
structure Inv (K : Type) where
  curve : CPC K

namespace Inv

section
variable {K : Type} [Field K] [LinearOrder K] [PySqrt K]

/-- `tknb`, `tknx` (cpc.py:1743-1745). -/
def tknb (i : Inv K) : Str := i.curve.tknq

/-- `tknq`, `tkny` (cpc.py:1747-1749). -/
def tknq (i : Inv K) : Str := i.curve.tknb

/-- `pair` (cpc.py:1779-1781). -/
def pair (i : Inv K) : Str := i.tknb ++ '/' :: i.tknq

/-- `pairo` (cpc.py:1819-1821). -/
def pairo (i : Inv K) : TPair := TPair.fromTokens i.tknb i.tknq

/-- `k` (cpc.py:1775-1777). -/
def k (i : Inv K) : K := i.curve.k

/-- `x` (cpc.py:1767-1769). -/
def x (i : Inv K) : K := i.curve.y

/-- `y` (cpc.py:1771-1773). -/
def y (i : Inv K) : K := i.curve.x

/-- `p` (cpc.py:1759-1761). -/
def p (i : Inv K) : Py K := pyDiv 1 i.curve.p

/-- `x_min` (cpc.py:1787-1789). -/
def xMin (i : Inv K) : K := i.curve.yMin

/-- `x_max` (cpc.py:1791-1793). -/
def xMax (i : Inv K) : Option K := i.curve.yMax

/-- `y_min` (cpc.py:1795-1797). -/
def yMin (i : Inv K) : K := i.curve.xMin

/-- `y_max` (cpc.py:1799-1801). -/
def yMax (i : Inv K) : Option K := i.curve.xMax

/-- `x_act` (cpc.py:1803-1805). -/
def xAct (i : Inv K) : K := i.curve.yAct

/-- `y_act` (cpc.py:1815-1817). -/
def yAct (i : Inv K) : K := i.curve.xAct

/-- `1/v` for a value that may be `None`, which raises `TypeError`. -/
def recip : Option K → Py K
  | none => .error .type
  | some v => pyDiv 1 v

/-- `p_min` (cpc.py:1807-1809). -/
def pMin (i : Inv K) : Py K := recip i.curve.pMax

/-- `p_max` (cpc.py:1811-1813). -/
def pMax (i : Inv K) : Py K := recip i.curve.pMin

/-- `yfromx_f` (cpc.py:1823-1824). -/
def yfromx (i : Inv K) (x : K) (ignorebounds := false) : Py (Option K) := i.curve.xfromy x ignorebounds

/-- `xfromy_f` (cpc.py:1826-1827). -/
def xfromy (i : Inv K) (y : K) (ignorebounds := false) : Py (Option K) := i.curve.yfromx y ignorebounds

/-- `dyfromdx_f` (cpc.py:1829-1830). -/
def dyfromdx (i : Inv K) (dx : K) (ignorebounds := false) : Py (Option K) := i.curve.dxfromdy dx ignorebounds

/-- `dxfromdy_f` (cpc.py:1832-1833). -/
def dxfromdy (i : Inv K) (dy : K) (ignorebounds := false) : Py (Option K) := i.curve.dyfromdx dy ignorebounds

/-- `1/p if not p is None else None` (cpc.py:1836, 1842). -/
def recipArg : Option K → Py (Option K)
  | none => .ok none
  | some v => do
    let r ← pyDiv 1 v
    .ok (some r)

/-- `xyfromp_f` (cpc.py:1835-1839). -/
def xyfromp (i : Inv K) (pr : Option K) (ignorebounds := false) : Py (K × K × K) := do
  let r ← i.curve.xyfromp (← recipArg pr) ignorebounds
  let q ← pyDiv 1 r.2.2
  .ok (r.2.1, r.1, q)

/-- `dxdyfromp_f` (cpc.py:1841-1845). -/
def dxdyfromp (i : Inv K) (pr : Option K) (ignorebounds := false) : Py (K × K × K) := do
  let r ← i.curve.dxdyfromp (← recipArg pr) ignorebounds
  let q ← pyDiv 1 r.2.2
  .ok (r.2.1, r.1, q)

/-- `execute` (cpc.py:1847-1850). -/
def execute (i : Inv K) (dx dy : Option K) (ignorebounds := false) : Py (Inv K) := do
  let c ← i.curve.execute dy dx ignorebounds
  .ok ⟨c⟩

end

end Inv

/-- A curve or its inverted view, as produced by `CPCInverter.wrap`. -/
inductive Wrapped (K : Type) where
  | plain (c : CPC K)
  | inv (i : Inv K)

namespace Wrapped

section
variable {K : Type} [Field K] [LinearOrder K] [PySqrt K]

/-- `wrap` (cpc.py:1699-1711). -/
def wrap (cs : List (CPC K)) : List (Wrapped K) :=
  cs.map fun c => if c.pairo.isprimary TPair.prettify then .plain c else .inv ⟨c⟩

/-- `c.curve if isinstance(c, cls) else c` (cpc.py:1718). -/
def unwrap1 : Wrapped K → CPC K
  | .plain c => c
  | .inv i => i.curve

/-- `unwrap` (cpc.py:1713-1721). -/
def unwrap (ws : List (Wrapped K)) : List (CPC K) := ws.map unwrap1

/-- `pairo` of a curve or view. -/
def pairo : Wrapped K → TPair
  | .plain c => c.pairo
  | .inv i => i.pairo

end

end Wrapped

namespace UICurve

/-- `as_cpc` (carbon/carbon_order_ui.py:1124-1150). `kappa` divides by `Gamma`, which is zero for a flat curve. A disabled
curve has no marginal price and raises. -/
noncomputable def asCpc (c : UICurve ℝ) : Py (CPC ℝ) := do
  match ← c.pMarg with
  | none => .error .type
  | some p =>
    if c.Gamma = 0 then .error .zeroDiv
    else if c.pair.hasBase c.tkn then CPC.fromPKPP p c.kappa (some p) (some c.pb) (some c.pair.slashpair)
    else CPC.fromPKPP p c.kappa (some c.pb) (some p) (some c.pair.slashpair)

end UICurve

end Carbon
