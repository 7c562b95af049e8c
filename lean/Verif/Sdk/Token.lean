import Mathlib.Algebra.Order.Field.Basic
import Mathlib.Algebra.Order.Floor.Ring
import Verif.Tools.CpcContainer

/-!
# Model of `carbon/sdk/sdktoken.py`

Text is ASCII. The constructor of a token takes the decimals as a number or as text; the model takes either. The token table at the end
of the file is data and is left out, and so are the printed forms and the hash.
-/

namespace Carbon

/-- `str.lower()` for ASCII strings. -/
def lower (s : Str) : Str := s.map Char.toLower

/-- The value of a digit of a base up to 16. -/
def digitVal (c : Char) : Option ℕ :=
  if '0' ≤ c ∧ c ≤ '9' then some (c.toNat - 48)
  else if 'a' ≤ c ∧ c ≤ 'f' then some (c.toNat - 87)
  else if 'A' ≤ c ∧ c ≤ 'F' then some (c.toNat - 55)
  else none

/-- Digits with single underscores between them; `ok` says whether the last character was a digit. -/
def digitsGo (base acc : ℕ) (ok : Bool) : Str → Option ℕ
  | [] => if ok then some acc else none
  | c :: s =>
    if c = '_' then (if ok then digitsGo base acc false s else none)
    else match digitVal c with
      | some d => if d < base then digitsGo base (acc * base + d) true s else none
      | none => none

/-- The number after the sign: for base 16 a leading `0x` and an underscore after it are skipped. -/
def unsignedInt (base : ℕ) (s : Str) : Option ℕ :=
  match s with
  | '0' :: x :: t =>
    if base = 16 ∧ (x = 'x' ∨ x = 'X') then
      (match t with
      | '_' :: u => digitsGo base 0 false u
      | _ => digitsGo base 0 false t)
    else digitsGo base 0 false s
  | _ => digitsGo base 0 false s

/-- `int(s, base)`; `none` is `ValueError`. -/
def pyInt (base : ℕ) (s : Str) : Option ℤ :=
  match CarbonPair.strip s with
  | '-' :: t => (unsignedInt base t).map fun n => -(n : ℤ)
  | '+' :: t => (unsignedInt base t).map fun n => (n : ℤ)
  | t => (unsignedInt base t).map fun n => (n : ℤ)

/-- `SDKToken` (sdktoken.py:9-26). -/
structure SdkTkn where
  token : Str
  address : Str
  decimals : Option ℤ
  name : Str
  deriving DecidableEq

namespace SdkTkn

/-- The `decimals` argument: absent, a number or text. -/
inductive Dec where
  | absent
  | num (n : ℤ)
  | str (s : Str)

/-- `int(self.decimals)` if given (sdktoken.py:28-29). -/
def Dec.int : Dec → Py (Option ℤ)
  | .absent => .ok none
  | .num n => .ok (some n)
  | .str s => match pyInt 10 s with
    | some n => .ok (some n)
    | none => .error .value

/-- The constructor (sdktoken.py:27-36). -/
def make (token address : Str) (decimals : Dec := .absent) (name : Option Str := none) : Py SdkTkn := do
  let d ← decimals.int
  let token := upper (CarbonPair.strip token)
  let address := lower (CarbonPair.strip address)
  if (pyInt 16 address).isNone then .error .value
  else .ok ⟨token, address, d, name.getD token⟩

/-- `NULTKN` (sdktoken.py:72). -/
def nul : SdkTkn := ⟨"NULTKN".toList, "0x0000000000000000000000000000000000000000".toList, none, "NULTKN".toList⟩

/-- `isnul` (sdktoken.py:61-64). -/
def isNul (t : SdkTkn) : Bool := t.token = "NULTKN".toList

section
variable {K : Type} [Field K] [LinearOrder K] [FloorRing K]

/-- `w2t` (sdktoken.py:53-55). -/
def w2t (t : SdkTkn) (wei : K) : Py K :=
  match t.decimals with
  | none => .error .type
  | some d => .ok (wei / (10 : K) ^ d)

/-- `int(x)` cuts off towards zero. -/
def toInt (x : K) : ℤ := if 0 ≤ x then ⌊x⌋ else ⌈x⌉

/-- `t2w` (sdktoken.py:57-59). -/
def t2w (t : SdkTkn) (amt : K) : Py ℤ :=
  match t.decimals with
  | none => .error .type
  | some d => .ok (toInt (amt * (10 : K) ^ d))

end

end SdkTkn

/-- `TokenContainer` (sdktoken.py:74-91). -/
structure TokenC where
  raiseonerror : Bool
  byTicker : List (Str × SdkTkn)
  byAddr : List (Str × SdkTkn)
  deriving DecidableEq

namespace TokenC

/-- The dictionary of tokens by a key: a later token replaces an earlier one with the same key (sdktoken.py:87-88). -/
def index (key : SdkTkn → Str) (ts : List SdkTkn) : List (Str × SdkTkn) := ts.foldl (fun d t => dictSet d (key t) t) []

/-- The constructor (sdktoken.py:84-91). -/
def make (ts : List SdkTkn) (raiseonerror : Option Bool := none) : Py TokenC :=
  let bt := index SdkTkn.token ts
  let ba := index SdkTkn.address ts
  if bt.length ≠ ba.length then .error .value else .ok ⟨raiseonerror.getD true, bt, ba⟩

/-- The token of a row of two, three or four fields (sdktoken.py:96). -/
def rowToken : List Str → Py SdkTkn
  | [t, a] => SdkTkn.make t a
  | [t, a, d] => SdkTkn.make t a (.str d)
  | [t, a, d, n] => SdkTkn.make t a (.str d) (some n)
  | _ => .error .type

/-- `fromlist` (sdktoken.py:93-96) for rows of text. -/
def fromList (rows : List (List Str)) (raiseonerror : Option Bool := none) : Py TokenC := do
  let ts ← rows.mapM rowToken
  make ts raiseonerror

/-- `str.split(c)`. -/
def splitChar (c : Char) : Str → List Str
  | [] => [[]]
  | a :: s =>
    if a = c then [] :: splitChar c s
    else match splitChar c s with
      | [] => [[a]]
      | w :: ws => (a :: w) :: ws

/-- `str.splitlines()` for lines ended by a newline character. -/
def splitLines (s : Str) : List Str :=
  match (splitChar '\n' s).reverse with
  | [] :: ls => ls.reverse
  | ls => ls.reverse

/-- `fromcsv` (sdktoken.py:98-101). -/
def fromCsv (csv : Str) (raiseonerror : Option Bool := none) : Py TokenC :=
  fromList ((splitLines (CarbonPair.strip csv)).map (splitChar ',')) raiseonerror

/-- `restore` of a token or of text (sdktoken.py:103-118). It is a class method and calls the lookups on the class, where the text takes the
place of the container and the key is missing: both calls raise `TypeError`, which is caught. -/
def restore (x : SdkTkn ⊕ Str) (raiseonerror : Option Bool := none) : Py (Option SdkTkn) :=
  match x with
  | .inl t => .ok (some t)
  | .inr _ => if raiseonerror = some true then .error .value else .ok none

/-- What a lookup gives for an unknown key (sdktoken.py:127-133, 148-154). -/
def missing (c : TokenC) (raiseonerror : Option Bool) (returnnultkn : Bool) : Py (Option SdkTkn) :=
  if raiseonerror.getD c.raiseonerror then .error .key
  else if returnnultkn then .ok (some SdkTkn.nul)
  else .ok none

/-- `byticker` (sdktoken.py:120-133), also `c[token]` and `c.token` with the default arguments (sdktoken.py:180-184). -/
def ticker (c : TokenC) (token : Str) (raiseonerror : Option Bool := none) (returnnultkn : Bool := true) : Py (Option SdkTkn) :=
  match dictGet c.byTicker (upper token) with
  | some t => .ok (some t)
  | none => c.missing raiseonerror returnnultkn

/-- `byaddr` (sdktoken.py:135-154). -/
def addr (c : TokenC) (a : Str) (raiseonerror : Option Bool := none) (returnnultkn : Bool := true) : Py (Option SdkTkn) :=
  match dictGet c.byAddr (lower a) with
  | some t => .ok (some t)
  | none => c.missing raiseonerror returnnultkn

/-- `byaddr1` (sdktoken.py:156-169) without `tknonly`, also `c(addr)`. -/
def addr1 (c : TokenC) (a : Str) : SdkTkn ⊕ Str :=
  match dictGet c.byAddr (lower a) with
  | some t => .inl t
  | none => .inr (lower a)

/-- `byaddr1` with `tknonly` (sdktoken.py:156-169). -/
def addr1Name (c : TokenC) (a : Str) : Str :=
  match dictGet c.byAddr (lower a) with
  | some t => t.token
  | none => lower a

/-- `containsall` (sdktoken.py:171-173). -/
def containsAll (c : TokenC) (tokens : List Str) : Bool := tokens.all fun t => t ∈ c.byTicker.map Prod.fst

/-- `_all`, also the iteration (sdktoken.py:175-178, 189-190). -/
def all (c : TokenC) : List SdkTkn := c.byTicker.map Prod.snd

end TokenC

end Carbon
