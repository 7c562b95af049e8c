import Mathlib.Algebra.Order.Field.Basic
import Verif.Basic

/-!
# Model of `carbon/pair.py` (`CarbonPair`)

Strings are lists of characters.  `str.upper` is modelled by ASCII upper-casing of every character (token names in
the project are ASCII); Unicode case mapping is not modelled.
-/

namespace Carbon

/-- Python strings. -/
abbrev Str := List Char

/-- `str.upper()` for ASCII strings. -/
def upper (s : Str) : Str := s.map Char.toUpper

/-- `str.split("/")`. -/
def splitSlash : Str → List Str
  | [] => [[]]
  | c :: s =>
    if c = '/' then [] :: splitSlash s
    else
      match splitSlash s with
      | [] => [[c]]
      | h :: t => (c :: h) :: t

/-- A value stored as the decimals of a token: an integer, or (by mistake of `from_slashpair`, see below) a tuple. -/
inductive DecV where
  | int (n : Int)
  | tuple (a b : Int)
  deriving DecidableEq, Repr

/-- `CarbonPair` (carbon/pair.py:20-85): the fields after `__post_init__`. `slashpair` is a function of the two token
names (carbon/pair.py:79) and is therefore not stored. -/
structure CarbonPair where
  tknb : Str
  tknq : Str
  tknbOrig : Str
  tknqOrig : Str
  displayOrig : Bool := false
  decB : Option DecV := none
  decQ : Option DecV := none
  deriving DecidableEq, Repr

namespace CarbonPair

/-- `slashpair` attribute after construction (carbon/pair.py:79), also `pair_slash` (299-302). -/
def slashpair (p : CarbonPair) : Str := p.tknb ++ '/' :: p.tknq

/-- `pair_iso` (carbon/pair.py:290-297). -/
def pairIso (p : CarbonPair) : Str := p.tknb ++ p.tknq

/-- What can be passed as `slashpair` (carbon/pair.py:25-26): nothing, a string, another pair. -/
inductive Arg where
  | none
  | str (s : Str)
  | pair (p : CarbonPair)
  deriving DecidableEq, Repr

/-- Python truth of an optional string: neither `None` nor empty. -/
def truthy : Option Str → Bool
  | .none => false
  | some s => s ≠ []

/-- The unpacking `self.tknb, self.tknq = self.slashpair.split("/")` (carbon/pair.py:62-65). -/
def unpack (s : Str) : Py (Str × Str) :=
  match splitSlash s with
  | [b, q] => .ok (b, q)
  | _ => .error .value

/-- carbon/pair.py:73-85: originals kept, names upper-cased, decimals copied from the source pair if there is one. -/
def finish (b q : Str) (displayOrig : Bool) (decB decQ : Option DecV) : CarbonPair :=
  { tknb := upper b, tknq := upper q, tknbOrig := b, tknqOrig := q, displayOrig, decB, decQ }

/-- The branch of `__post_init__` without a (truthy) slashpair (carbon/pair.py:68-71). -/
def fromTokens (tknb tknq : Option Str) (displayOrig : Bool) : Py CarbonPair :=
  match tknb, tknq with
  | some b, some q => .ok (finish b q displayOrig .none .none)
  | _, _ => .error .value

/-- `CarbonPair(slashpair, tknb, tknq, display_orig)`, i.e. `__post_init__` (carbon/pair.py:45-85). -/
def make (slashpair : Arg) (tknb tknq : Option Str) (displayOrig : Bool := false) : Py CarbonPair :=
  match slashpair with
  | .none => fromTokens tknb tknq displayOrig
  | .str [] => fromTokens tknb tknq displayOrig
  | .str s =>
    if truthy tknb || truthy tknq then .error .value
    else do
      let bq ← unpack s
      .ok (finish bq.1 bq.2 displayOrig .none .none)
  | .pair p =>
    if truthy tknb || truthy tknq then .error .value
    else do
      let bq ← unpack p.slashpair
      .ok (finish bq.1 bq.2 displayOrig p.decB p.decQ)

/-- `create` (carbon/pair.py:235-257); the outer `Option` is the `None` result for two missing arguments. A string
`arg1` goes to the constructor, as slashpair or as base token. -/
def create (arg1 : Arg) (arg2 : Option Str) : Py (Option CarbonPair) :=
  match arg1, arg2 with
  | .none, .none => .ok .none
  | .pair p, .none => .ok (some p)
  | .pair _, some _ => .error .value
  | .none, some q => do let p ← make .none .none (some q); .ok (some p)
  | .str s, .none => do let p ← make (.str s) .none .none; .ok (some p)
  | .str s, some q => do let p ← make .none (some s) (some q); .ok (some p)

/-- `set_decimals` (carbon/pair.py:88-99). -/
def setDecimals (p : CarbonPair) (decB decQ : Option DecV) (dct : Str → Option DecV := fun _ => .none) : CarbonPair :=
  { p with
    decB := match decB with | some d => some d | .none => dct p.tknb
    decQ := match decQ with | some d => some d | .none => dct p.tknq }

/-- `has_decimals` (carbon/pair.py:130-133). -/
def hasDecimals (p : CarbonPair) : Bool := p.decB.isSome && p.decQ.isSome

/-- `decdiffqb` (carbon/pair.py:122-128); the bare `except` turns any failure of the subtraction into `None`. -/
def decdiffqb (p : CarbonPair) : Option Int :=
  match p.decB, p.decQ with
  | some (.int b), some (.int q) => some (q - b)
  | _, _ => .none

/-- `str.strip()` restricted to blanks, tabs and newlines. -/
def strip (s : Str) : Str :=
  let ws : Char → Bool := fun c => c = ' ' || c = '\t' || c = '\n' || c = '\r'
  ((s.dropWhile ws).reverse.dropWhile ws).reverse

/-- `from_slashpair` (carbon/pair.py:216-232). The `decimals` tuple is passed, whole, as the first argument of
`set_decimals` (line 231). -/
def fromSlashpair (slashpair : Str) (decimals : Option (Int × Int)) : Py CarbonPair :=
  match splitSlash (upper slashpair) with
  | [b, q] => do
    let p ← make (.str (strip b ++ '/' :: strip q)) .none .none
    .ok (p.setDecimals (decimals.map fun d => .tuple d.1 d.2) .none)
  | _ => .error .value

/-- `reverse` (carbon/pair.py:304-309): a new pair from the (upper-cased) names; decimals and display mode are not
carried over. -/
def reverse (p : CarbonPair) : Py CarbonPair := make .none (some p.tknq) (some p.tknb)

/-- `str.replace(tkn, ".")` for a non-empty `tkn`: leftmost non-overlapping occurrences. -/
def replaceDot (tkn : Str) : Str → Str
  | [] => []
  | c :: s =>
    if tkn ≠ [] ∧ tkn <+: (c :: s) then '.' :: replaceDot tkn ((c :: s).drop tkn.length)
    else c :: replaceDot tkn s
  termination_by s => s.length
  decreasing_by
    · rename_i h
      have := List.length_pos_iff.mpr h.1
      simp only [List.length_drop, List.length_cons]; omega
    · simp

/-- `str.replace(tkn, ".")` including Python's treatment of the empty pattern (a dot around every character). -/
def pyReplaceDot (tkn s : Str) : Str :=
  if tkn = [] then '.' :: s.flatMap (fun c => [c, '.']) else replaceDot tkn s

/-- `from_isopair_and_tkn` without a token (carbon/pair.py:182-194). -/
def fromIso (isopair : Str) : Py CarbonPair :=
  let iso := upper isopair
  if iso.length = 6 then make .none (some (iso.take 3)) (some (iso.drop 3))
  else if iso.length = 8 then make .none (some (iso.take 4)) (some (iso.drop 4))
  else .error .value

/-- `from_isopair_and_tkn` with a token (carbon/pair.py:182, 195-214). -/
def fromIsoTkn (isopair tkn : Str) : Py CarbonPair :=
  let iso := upper isopair
  let tkn2 := pyReplaceDot tkn iso
  if tkn2 = iso then .error .value
  else
    match tkn2.head?, tkn2.getLast? with
    | .none, _ => .error .index
    | some h, l =>
      if h = '.' then make .none (some tkn) (some (tkn2.drop 1))
      else if l = some '.' then make .none (some tkn2.dropLast) (some tkn)
      else .error .value

/-- `has_basetoken` (carbon/pair.py:316-320). -/
def hasBase (p : CarbonPair) (tkn : Str) : Bool := tkn = p.tknb

/-- `has_quotetoken` (carbon/pair.py:327-331). -/
def hasQuote (p : CarbonPair) (tkn : Str) : Bool := tkn = p.tknq

/-- `has_token` (carbon/pair.py:333-339). -/
def hasToken (p : CarbonPair) (tkn : Str) : Bool := if p.hasQuote tkn then true else p.hasBase tkn

/-- `other` (carbon/pair.py:341-349). -/
def other (p : CarbonPair) (tkn : Str) : Option Str :=
  if p.hasBase tkn then some p.tknq
  else if p.hasQuote tkn then some p.tknb
  else .none

section Price
variable {K : Type} [Field K] [LinearOrder K]

/-- `a / b` of Decimals or floats: raises on a zero divisor. -/
def pyDiv (a b : K) : Py K := if b = 0 then .error .zeroDiv else .ok (a / b)

/-- `convert` (carbon/pair.py:351-371). -/
def convert (p : CarbonPair) (amt : K) (tknfrom tknto : Str) (price : K) : Py (Option K) :=
  if !p.hasToken tknfrom then .ok .none
  else if !p.hasToken tknto then .ok .none
  else if tknfrom = tknto then .ok (some amt)
  else if p.hasBase tknfrom then .ok (some (amt * price))
  else do let r ← pyDiv amt price; .ok (some r)

/-- `price` (carbon/pair.py:373-392). -/
def price (p : CarbonPair) (price0 : K) (tknb0 tknq0 : Str) : Py (Option K) :=
  if !p.hasToken tknb0 then .ok .none
  else if !p.hasToken tknq0 then .ok .none
  else if tknb0 = tknq0 then .ok .none
  else if p.hasBase tknq0 then do let r ← pyDiv 1 price0; .ok (some r)
  else .ok (some price0)

/-- `convert_price` (carbon/pair.py:394-409). -/
def convertPrice (p : CarbonPair) (price : Option K) (tknq : Str) : Py (Option K) :=
  match price with
  | .none => .ok .none
  | some pr =>
    if !p.hasToken tknq then .ok .none
    else if p.hasQuote tknq then .ok (some pr)
    else do let r ← pyDiv 1 pr; .ok (some r)

/-- The `buysell` argument of `limit_is_met`: the constants `BUY`/`SELL` (carbon/pair.py:411-420), or any other string. -/
inductive Side where
  | buy
  | sell
  | other
  deriving DecidableEq, Repr

/-- `limit_is_met` with `asphrase=False` (carbon/pair.py:422-477). The argument `reverse` is overwritten at line 455
before it is used. The printed messages are not modelled. -/
def limitIsMet (p : CarbonPair) (tkn : Str) (limit : K) (side : Side) (current : K) (_reverse : Bool := false) :
    Option Bool :=
  if !p.hasToken tkn then .none
  else if current = limit then some true
  else
    let reverse := p.hasQuote tkn
    match side with
    | .buy => if !reverse then some (current < limit) else some (current > limit)
    | .sell => if !reverse then some (current > limit) else some (current < limit)
    | .other => .none

end Price

end CarbonPair

end Carbon
