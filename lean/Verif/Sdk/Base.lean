import Mathlib.Data.Int.Log
import Mathlib.Data.Nat.Digits.Defs
import Verif.Sdk.Token

/-!
# Model of `carbon/sdk/sdkbase.py`

Text is ASCII. The network is a function from requests to replies; headers, the printed messages and the disclaimer are left out.
-/

namespace Carbon

namespace Sdk

/-! ### Text -/

/-- `join` (sdkbase.py:165-170); `url[-1]` and `path[0]` raise on empty text. -/
def join (url path : Str) : Py Str :=
  match url.getLast?, path with
  | none, _ => .error .index
  | _, [] => .error .index
  | some l, c :: p =>
    .ok ((if l = '/' then url.dropLast else url) ++ '/' :: (if c = '/' then p else c :: p))

/-- One character of `c2s` (sdkbase.py:175). -/
def snakeChar (c : Char) : Str := if c.isUpper then ['_', c.toLower] else [c]

/-- `c2s` (sdkbase.py:172-175). -/
def c2s (s : Str) : Str := (s.flatMap snakeChar).dropWhile (· = '_')

/-- `str.title()` for ASCII text; `prev` says whether the last character was a letter. -/
def titleGo (prev : Bool) : Str → Str
  | [] => []
  | c :: s => if c.isAlpha then (if prev then c.toLower else c.toUpper) :: titleGo true s else c :: titleGo false s

/-- `s2c` (sdkbase.py:177-181). -/
def s2c (s : Str) : Str :=
  match TokenC.splitChar '_' s with
  | [] => []
  | f :: fs => f ++ (fs.map (titleGo false)).flatten

/-! ### Numbers -/

/-- The digit character of a number below 16. -/
def digitChar (d : ℕ) : Char := Char.ofNat (if d < 10 then 48 + d else 87 + d)

/-- The digits of a natural number. -/
def natStr (base n : ℕ) : Str := if n = 0 then ['0'] else ((Nat.digits base n).map digitChar).reverse

/-- `hex(i)`. -/
def hexStr (i : ℤ) : Str := if i < 0 then '-' :: '0' :: 'x' :: natStr 16 i.natAbs else '0' :: 'x' :: natStr 16 i.natAbs

/-- `str(i)` of an integer. -/
def intStr (i : ℤ) : Str := if i < 0 then '-' :: natStr 10 i.natAbs else natStr 10 i.natAbs

/-- The entries of the replies: the dictionaries hold text. -/
inductive Val (K : Type) where
  | none
  | int (n : ℤ)
  | float (x : K)
  | str (s : Str)
  | dict (d : List (Str × Str))
  deriving DecidableEq

section Vals
variable {K : Type} [Field K] [LinearOrder K] [FloorRing K]

/-- `bn2int` (sdkbase.py:201-212). -/
def bn2int : Val K → Py (Val K)
  | .dict d =>
    if dictGet d "type".toList ≠ some "BigNumber".toList then .ok (.dict d)
    else match dictGet d "hex".toList with
      | Option.none => .error .key
      | some h =>
        match pyInt 16 h with
        | Option.none => .error .value
        | some n => .ok (.int n)
  | v => .ok v

/-- `bn2intd` (sdkbase.py:214-220). -/
def bn2intd (d : List (Str × Val K)) : Py (List (Str × Val K)) := d.mapM fun kv => do
  let v ← bn2int kv.2
  .ok (kv.1, v)

/-- `int2str` (sdkbase.py:222-228). -/
def int2str : Val K → Val K
  | .int n => .str (intStr n)
  | v => v

/-- `int2strd` (sdkbase.py:230-235). -/
def int2strd (d : List (Str × Val K)) : List (Str × Val K) := d.map fun kv => (kv.1, int2str kv.2)

/-- `int2bn` of an integer or a float (sdkbase.py:237-242). -/
def int2bn (i : ℤ ⊕ K) : Val K :=
  .dict [("type".toList, "BigNumber".toList), ("hex".toList, hexStr (i.elim id SdkTkn.toInt))]

/-- `round` of an exact number: to the nearest integer, halves to the even one. -/
def roundHE (x : K) : ℤ :=
  if x - ⌊x⌋ < 1 / 2 then ⌊x⌋
  else if 1 / 2 < x - ⌊x⌋ then ⌊x⌋ + 1
  else if ⌊x⌋ % 2 = 0 then ⌊x⌋ else ⌊x⌋ + 1

/-- `round(x, n)`. -/
def roundTo (x : K) (n : ℤ) : K := roundHE (x * 10 ^ n) / 10 ^ n

/-- `roundsd` of a number (sdkbase.py:183-199). `log10` raises for zero and below, and the value is returned as it is. -/
def roundsd (x : K) (nsd : ℤ := 6) : K :=
  if x ≤ 0 then x
  else
    let m := Int.log 10 x
    if m ≤ nsd then roundTo x (nsd - m - 1)
    else 10 ^ (m - nsd) * roundTo (x / 10 ^ (m - nsd)) 0

end Vals

/-! ### Requests -/

/-- The JSON of a reply: the fields the code looks at, absent or present. -/
structure Body (α : Type) where
  success : Option Bool := none
  reqid : Option Str := none
  data : Option α := none
  awaiting : Option Bool := none
  deriving DecidableEq

/-- A reply; `body` is `none` when it is not JSON. -/
structure Resp (α : Type) where
  status : ℤ
  body : Option (Body α)
  deriving DecidableEq

/-- The methods (sdkbase.py:50-51). -/
inductive Method where
  | get
  | post
  | unknown
  deriving DecidableEq, Repr

/-- What is sent. -/
structure Request (P : Type) where
  method : Method
  url : Str
  params : Option P
  deriving DecidableEq

/-- The object (sdkbase.py:22-48): `clsUrl` is the class attribute, `url` the argument of the constructor or its default. -/
structure Client where
  clsUrl : Str
  url : Str
  apibase : Str
  syncdefault : Bool
  raiseonerror : Bool
  deriving DecidableEq

section Http
variable {P α : Type}

/-- A failing connection becomes an `ErrorResponse` (sdkbase.py:72-84, 106-115); its JSON has none of the fields. -/
def received : Option (Resp α) → Resp α
  | some r => r
  | none => ⟨900, some {}⟩

/-- `req0` (sdkbase.py:87-117): the address begins with the class attribute. The parameters of a `GET` must be empty; here an empty
dictionary of parameters counts as a dictionary and is told apart by `isEmpty`. The second result is what was sent. -/
def req0 (c : Client) (net : Request P → Option (Resp α)) (isEmpty : P → Bool) (path : Str) (params : Option P := none)
    (method : Option Method := none) : Py (Request P × Resp α) :=
  let m := method.getD (if params.isNone then .get else .post)
  if m = .get ∧ (params.any fun p => !isEmpty p) then .error (.custom "CarbonSDKValueError")
  else do
    let url ← join c.clsUrl path
    match m with
    | .get => .ok (⟨.get, url, none⟩, received (net ⟨.get, url, none⟩))
    | .post => .ok (⟨.post, url, params⟩, received (net ⟨.post, url, params⟩))
    | .unknown => .error (.custom "CarbonSDKValueError")

/-- `req` (sdkbase.py:119-127). -/
def req (c : Client) (net : Request P → Option (Resp α)) (isEmpty : P → Bool) (ep : Str) (params : Option P := none)
    (method : Option Method := none) : Py (Request P × Resp α) := do
  let path ← join c.apibase ep
  req0 c net isEmpty path params method

/-- `callapi0` (sdkbase.py:160-163). -/
def callapi0 (c : Client) (sync : Option Bool) : Str := if sync.getD c.syncdefault then "scall".toList else "ascall".toList

/-- What `call` returns. -/
inductive Called (α : Type) where
  | resp (r : Resp α)
  | reqid (s : Str)
  | no
  deriving DecidableEq

/-- The reply to an asynchronous call (sdkbase.py:148-158). -/
def asyncReply (c : Client) (r : Resp α) : Py (Called α) :=
  match r.body with
  | none => .error (.custom "APICallError")
  | some b =>
    if b.success = some true then
      (match b.reqid with
      | some i => .ok (.reqid i)
      | none => .error .key)
    else if c.raiseonerror then .error (.custom "AsyncAPICallError")
    else .ok .no

/-- `call` (sdkbase.py:132-158): the branch is on the argument `sync`, not on the default. An exception of `req` in the second branch is
replaced by the `UnboundLocalError` of the handler, which names the reply. -/
def call (c : Client) (net : Request P → Option (Resp α)) (isEmpty : P → Bool) (ep : Str) (params : Option P := none)
    (method : Option Method := none) (sync : Option Bool := none) : Py (Request P × Called α) := do
  let url ← join (callapi0 c sync) ep
  if sync = some true then
    let r ← req c net isEmpty url params method
    .ok (r.1, .resp r.2)
  else
    match req c net isEmpty url params method with
    | .error _ => .error (.custom "UnboundLocalError")
    | .ok r => do
      let a ← asyncReply c r.2
      .ok (r.1, a)

/-- `_checkresult` (carbonsdk0.py:583-598); the message for a reply that is not JSON asks for a missing attribute. -/
def checkresult (r : Resp α) : Py α :=
  if r.status ≠ 200 then .error (.custom "RuntimeError")
  else
    match r.body with
    | none => .error .attr
    | some b =>
      match b.data with
      | some d => .ok d
      | none => .error (.custom "RuntimeError")

/-- A wrapped call of the interface: parameters are posted, the call is synchronous and the reply checked (for instance
carbonsdk0.py:198-203). -/
def fetch (c : Client) (net : Request P → Option (Resp α)) (isEmpty : P → Bool) (ep : Str) (params : P) : Py (Request P × α) := do
  let r ← call c net isEmpty (c2s ep) (some params) none (some true)
  match r.2 with
  | .resp a => do
    let d ← checkresult a
    .ok (r.1, d)
  | _ => .error .attr

end Http

end Sdk

end Carbon
