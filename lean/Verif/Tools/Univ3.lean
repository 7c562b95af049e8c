import Mathlib.Algebra.Order.Field.Power
import Verif.Tools.CpcContainer

/-!
# Model of `carbon/tools/univ3calc.py` and `carbon/tools/tokenscale.py`

Numbers are elements of an ordered field `K` with a square root (`PySqrt`); float rounding is not modelled. The contract values are
integers already, so that the conversions of lines 71-74 do nothing. `info` is printed text and is left out.
-/

namespace Carbon

open CarbonPair (pyDiv)

/-- `Univ3Calculator` after `__post_init__` (univ3calc.py:18-38, 58-77). -/
structure Univ3 where
  tkn0 : Str
  tkn1 : Str
  sp96 : ℤ
  tick : ℤ
  liquidity : ℤ
  feeConst : ℤ
  dec0 : ℤ
  dec1 : ℤ
  deriving DecidableEq, Repr

namespace Univ3

/-- `ADDRDEC` (univ3calc.py:52-55): name, address and decimals. -/
def addrdec : List (Str × Str × ℤ) :=
  [("USDC".toList, "0xA0b86991c6218b36c1d19D4a2e9Eb0cE3606eB48".toList, 6),
    ("WETH".toList, "0xC02aaA39b223FE8D0A0e5C4F27eAD9083C756Cc2".toList, 18)]

/-- `ADDRR[addr]` (univ3calc.py:56); `none` is `KeyError`. -/
def nameOf (addr : Str) : Option Str := (addrdec.find? fun r => r.2.1 == addr).map (·.1)

/-- `ADDRDEC[tkn][1]` (univ3calc.py:66, 70). -/
def decOf (tkn : Str) : Py ℤ :=
  match addrdec.find? fun r => r.1 == tkn with
  | some r => .ok r.2.2
  | none => .error .key

/-- The renaming of lines 59-63: the second assignment is not reached if the first look-up fails. -/
def rename (tkn0 tkn1 : Str) : Str × Str :=
  match nameOf tkn0, nameOf tkn1 with
  | none, _ => (tkn0, tkn1)
  | some n0, none => (n0, tkn1)
  | some n0, some n1 => (n0, n1)

/-- `TICKSZ` (univ3calc.py:28). -/
def ticksz : List (ℤ × ℤ) := [(100, 1), (500, 10), (3000, 60), (10000, 200)]

/-- The constructor (univ3calc.py:31-38, 58-77). -/
def new (tkn0 tkn1 : Str) (sp96 tick liquidity feeConst : ℤ) (dec0 dec1 : Option ℤ := none) : Py Univ3 := do
  let t := rename tkn0 tkn1
  let d0 ← dec0.elim (decOf t.1) Except.ok
  let d1 ← dec1.elim (decOf t.2) Except.ok
  if feeConst ∈ ticksz.map Prod.fst then .ok ⟨t.1, t.2, sp96, tick, liquidity, feeConst, d0, d1⟩ else .error .assertion

/-- `pair` (univ3calc.py:79-82). -/
def pair (u : Univ3) : Str := u.tkn0 ++ '/' :: u.tkn1

/-- `ticksize` (univ3calc.py:89-92). The constructor admits the keys of the table only. -/
def ticksize (u : Univ3) : ℤ := ((ticksz.find? fun r => r.1 == u.feeConst).map (·.2)).getD 0

/-- `tickab` (univ3calc.py:94-98). -/
def tickab (u : Univ3) : ℤ × ℤ :=
  let a := Int.fdiv u.tick u.ticksize * u.ticksize
  (a, a + u.ticksize)

section
variable {K : Type} [Field K] [LinearOrder K] [PySqrt K]

/-- `fee` (univ3calc.py:84-87). -/
def fee (u : Univ3) : K := (u.feeConst : K) / 1000000

/-- The base of the ticks (univ3calc.py:114). -/
def tickBase (K : Type) [Field K] : K := 10001 / 10000

/-- `papb_raw` (univ3calc.py:110-114). -/
def papbRaw (u : Univ3) : K × K := (tickBase K ^ u.tickab.1, tickBase K ^ u.tickab.2)

/-- `dec_factor_wei0_per_wei1` (univ3calc.py:129-133). -/
def decf (u : Univ3) : K := 10 ^ (u.dec0 - u.dec1)

/-- `papb_tkn1_per_tkn0` (univ3calc.py:116-121). -/
def papb (u : Univ3) : K × K := ((u.papbRaw.1 : K) * u.decf, (u.papbRaw.2 : K) * u.decf)

/-- `papb_tkn0_per_tkn1` (univ3calc.py:123-127). -/
def papbInv (u : Univ3) : K × K := (1 / (u.papb : K × K).1, 1 / (u.papb : K × K).2)

/-- `_price_f` (univ3calc.py:135-138). -/
def priceF (sp96 : ℤ) : K := (sp96 : K) ^ 2 / 2 ^ 192

/-- `price_tkn1_per_tkn0` (univ3calc.py:140-144). -/
def price (u : Univ3) : K := priceF u.sp96 * u.decf

/-- `price_tkn0_per_tkn1` (univ3calc.py:146-149). -/
def priceInv (u : Univ3) : Py K := pyDiv 1 u.price

/-- `sp96_from_price` (univ3calc.py:155-158). -/
def sp96FromPrice (p : K) : Py K := do
  let s ← Curve.sqrtE p
  .ok (s * 2 ^ 96)

/-- `L` (univ3calc.py:160-163): ten to the power of half an integer is the square root of the power. -/
def L (u : Univ3) : K := (u.liquidity : K) / PySqrt.sqrt (10 ^ (u.dec0 + u.dec1))

/-- `tkn0reserve` (univ3calc.py:181-190), without `incltoken`. -/
def reserve0 (u : Univ3) : Py K := do
  let sb ← Curve.sqrtE (u.papb : K × K).2
  let s ← Curve.sqrtE (u.price : K)
  let r ← pyDiv ((u.liquidity : K) * (sb - s)) (s * sb)
  .ok (r * u.decf)

/-- `tkn1reserve` (univ3calc.py:192-201), without `incltoken`. -/
def reserve1 (u : Univ3) : Py K := do
  let sa ← Curve.sqrtE (u.papb : K × K).1
  let s ← Curve.sqrtE (u.price : K)
  .ok ((u.liquidity : K) * (s - sa) * u.decf)

/-- `tvl` (univ3calc.py:203-210), without `incltoken`. -/
def tvl (u : Univ3) (astkn0 : Bool := false) : Py K := do
  let r0 ← (u.reserve0 : Py K)
  let r1 ← (u.reserve1 : Py K)
  let q ← (u.priceInv : Py K)
  let v := r0 + r1 * q
  .ok (if astkn0 then v else v * u.price)

/-- `CPC.from_univ3(**u.cpc_params(cid=...))` (univ3calc.py:212-228, cpc.py:383-413). -/
def curve (u : Univ3) (cid : Option Cid := none) : Py (CPC K) :=
  CPC.fromUniV3 u.price u.L (u.papb : K × K).1 (u.papb : K × K).2 u.pair cid

end

end Univ3

/-! ## Scales of tokens -/

/-- `TokenScale` (tokenscale.py:56-77): the dictionary. -/
structure TokenScale (K : Type) where
  dct : List (Str × K) := []

namespace TokenScale

section
variable {K : Type} [Field K]

/-- `DEFAULT_SCALE` (tokenscale.py:22). -/
def default (K : Type) [Field K] : K := 1 / 100

/-- `from_tokenscales` (tokenscale.py:63-66): the keywords are distinct. -/
def ofScales (l : List (Str × K)) : TokenScale K := ⟨l⟩

/-- `add_scale` (tokenscale.py:68-72). -/
def addScale (s : TokenScale K) (t : Str) (v : K) : TokenScale K := ⟨dictSet s.dct t v⟩

/-- `scale` (tokenscale.py:23-36, 74-76). -/
def scale (s : TokenScale K) (t : Str) : K := (dictGet s.dct t).getD (default K)

end

end TokenScale

end Carbon
