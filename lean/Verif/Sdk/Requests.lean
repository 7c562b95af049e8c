import Verif.Sdk.Base

/-!
# Model of the requests and replies of `carbon/sdk/carbonsdk0.py`

The parameters are the entries of the JSON object that is posted. A call returns what was sent together with what the method gives back. The
values that the code passes through `str` are numbers or texts (`Val`); the text of a float is an arbitrary function. Replies have the shape
the method expects: lists where it iterates, objects where it looks for keys.
-/

namespace Carbon

namespace Sdk

/-- A dictionary of values. -/
abbrev Dict (K : Type) := List (Str × Val K)

/-- A value in the parameters. -/
inductive Json (K : Type) where
  | null
  | bool (b : Bool)
  | str (s : Str)
  | strs (l : List Str)
  | dict (d : Dict K)
  | dicts (l : List (Dict K))
  deriving DecidableEq

/-- The parameters of a request. -/
abbrev Params (K : Type) := List (Str × Json K)

section
variable {K : Type} [Field K] [LinearOrder K]

/-- `bool(v)`. -/
def Val.truthy : Val K → Bool
  | .none => false
  | .int n => n ≠ 0
  | .float x => x ≠ 0
  | .str s => s ≠ []
  | .dict d => d ≠ []

/-- `str(v)`; the texts of floats are given, dictionaries are not passed. -/
def Val.text (fl : K → Str) : Val K → Str
  | .none => "None".toList
  | .int n => intStr n
  | .float x => fl x
  | .str s => s
  | .dict _ => []

/-- The lines on the overrides (carbonsdk0.py:324-325, 353-354, 432-433, 508-509, 529-530): the dictionary that is sent. It is the object the
caller gave, so this is also what the caller holds afterwards. -/
def withGas (o : Option (Dict K)) : Dict K :=
  let d := o.getD []
  if (dictGet d "gasLimit".toList).any Val.truthy then d else dictSet d "gasLimit".toList (.int 999999999)

/-- `MAXDEADLINE` (carbonsdk0.py:286). -/
def maxDeadline : Str := intStr (2 ^ 32 - 1)

/-- `MAXMAXINPUT` (carbonsdk0.py:287). -/
def maxMaxInput : Str := intStr (2 ^ 128 - 1)

/-- An optional argument with a text as its default. -/
def textOr (fl : K → Str) (v : Option (Val K)) (default : Str) : Str := (v.map (Val.text fl)).getD default

/-! ### What is sent -/

/-- The parameters of `composeTradeByTargetTransaction` (carbonsdk0.py:322-335). -/
def byTargetParams (fl : K → Str) (source target : Str) (actions : Option (List (Dict K))) (deadline maxInput : Option (Val K))
    (overrides : Option (Dict K)) : Params K :=
  [("sourceToken".toList, .str source), ("targetToken".toList, .str target),
    ("tradeActions".toList, .dicts ((actions.getD []).map int2strd)), ("deadline".toList, .str (textOr fl deadline maxDeadline)),
    ("maxInput".toList, .str (textOr fl maxInput maxMaxInput)), ("overrides".toList, .dict (withGas overrides))]

/-- The parameters of `composeTradeBySourceTransaction` (carbonsdk0.py:351-364). -/
def bySourceParams (fl : K → Str) (source target : Str) (actions : Option (List (Dict K))) (deadline minReturn : Option (Val K))
    (overrides : Option (Dict K)) : Params K :=
  [("sourceToken".toList, .str source), ("targetToken".toList, .str target),
    ("tradeActions".toList, .dicts ((actions.getD []).map int2strd)), ("deadline".toList, .str (textOr fl deadline maxDeadline)),
    ("minReturn".toList, .str (textOr fl minReturn (intStr 1))), ("overrides".toList, .dict (withGas overrides))]

/-- The parameters of `createBuySellStrategy` (carbonsdk0.py:432-444). -/
def createParams (fl : K → Str) (base quote : Str) (buyPriceLow buyPriceHigh buyBudget sellPriceLow sellPriceHigh sellBudget : Val K)
    (overrides : Option (Dict K)) : Params K :=
  [("baseToken".toList, .str base), ("quoteToken".toList, .str quote), ("buyPriceLow".toList, .str (buyPriceLow.text fl)),
    ("buyPriceHigh".toList, .str (buyPriceHigh.text fl)), ("buyBudget".toList, .str (buyBudget.text fl)),
    ("sellPriceLow".toList, .str (sellPriceLow.text fl)), ("sellPriceHigh".toList, .str (sellPriceHigh.text fl)),
    ("sellBudget".toList, .str (sellBudget.text fl)), ("overrides".toList, .dict (withGas overrides))]

/-- The parameters of `deleteStrategy` (carbonsdk0.py:529-534). -/
def deleteParams (fl : K → Str) (strategyId : Val K) (overrides : Option (Dict K)) : Params K :=
  [("strategyId".toList, .str (strategyId.text fl)), ("overrides".toList, .dict (withGas overrides))]

/-- `StrategyUpdate` (carbonsdk0.py:447-471); a field is `None` unless it is set. -/
structure StrategyUpdate (K : Type) where
  buyPriceLow : Val K := .none
  buyPriceHigh : Val K := .none
  buyBudget : Val K := .none
  sellPriceLow : Val K := .none
  sellPriceHigh : Val K := .none
  sellBudget : Val K := .none
  buyMarginalPrice : Val K := .none
  sellMarginalPrice : Val K := .none
  deriving DecidableEq

/-- `asdict` of the `dataclasses` module: the fields in their order. -/
def StrategyUpdate.fields (u : StrategyUpdate K) : List (Str × Val K) :=
  [("buyPriceLow".toList, u.buyPriceLow), ("buyPriceHigh".toList, u.buyPriceHigh), ("buyBudget".toList, u.buyBudget),
    ("sellPriceLow".toList, u.sellPriceLow), ("sellPriceHigh".toList, u.sellPriceHigh), ("sellBudget".toList, u.sellBudget),
    ("buyMarginalPrice".toList, u.buyMarginalPrice), ("sellMarginalPrice".toList, u.sellMarginalPrice)]

/-- `str(v) if not v is None else None` (carbonsdk0.py:481, 487, 492). -/
def textOrNone (fl : K → Str) (v : Val K) : Val K := if v = .none then .none else .str (v.text fl)

/-- `StrategyUpdate.asdict` (carbonsdk0.py:473-482). -/
def StrategyUpdate.asdict (fl : K → Str) (u : StrategyUpdate K) (omitMarginalPrices : Bool := true) (omitNone : Bool := true) : Dict K :=
  let dct := if omitMarginalPrices then
    u.fields.filter fun kv => kv.1 ≠ "buyMarginalPrice".toList ∧ kv.1 ≠ "sellMarginalPrice".toList else u.fields
  let dct := if omitNone then dct.filter fun kv => kv.2 ≠ .none else dct
  dct.map fun kv => (kv.1, textOrNone fl kv.2)

/-- A text or `None` as a parameter (carbonsdk0.py:484-492). -/
def jsonOrNull (fl : K → Str) (v : Val K) : Json K := if v = .none then .null else .str (v.text fl)

/-- The parameters of `updateStrategy` (carbonsdk0.py:508-519). The arguments `buyMarginalPrice` and `sellMarginalPrice` of the method are not
used. -/
def updateParams (fl : K → Str) (strategyId : Val K) (encoded base quote : Str) (update : StrategyUpdate K)
    (_buyMarginalPrice _sellMarginalPrice : Val K) (overrides : Option (Dict K)) : Params K :=
  [("strategyId".toList, .str (strategyId.text fl)), ("encoded".toList, .str encoded), ("baseToken".toList, .str base),
    ("quoteToken".toList, .str quote), ("update".toList, .dict (update.asdict fl)),
    ("buyMarginalPrice".toList, jsonOrNull fl update.buyMarginalPrice),
    ("sellMarginalPrice".toList, jsonOrNull fl update.sellMarginalPrice), ("overrides".toList, .dict (withGas overrides))]

/-- The parameters of `signsubmittx` (carbonsdk0.py:578): the second key is the value of `sign`, which JSON writes as a text. -/
def signParams (tx : Json K) (sign : Bool) : Params K :=
  [("tx".toList, tx), (if sign then "true".toList else "false".toList, .bool sign)]

/-- The parameters of `hasLiquidityByPair` (carbonsdk0.py:174-184). -/
def hasLiquidityParams (fl : K → Str) (source target : Val K) (pairs : Option (List (Dict K))) : Py (Params K) :=
  match pairs with
  | some ps =>
    if ¬(source = .none ∧ target = .none) then .error .value
    else .ok [("pairList".toList, .dicts (ps.map fun p => p.map fun kv => (kv.1, .str (kv.2.text fl))))]
  | none => .ok [("sourceToken".toList, .str (source.text fl)), ("targetToken".toList, .str (target.text fl))]

end

/-! ### Methods -/

section
variable {K α : Type}

/-- The parameters that count as missing for a `GET`. -/
def noParams (p : Params K) : Bool := p.isEmpty

/-- `self.req(ep, params)` followed by `_checkresult` (carbonsdk0.py:44-48, 60-63, 81-84, 578-579). -/
def submit (c : Client) (net : Request (Params K) → Option (Resp α)) (ep : Str) (params : Params K) : Py (Request (Params K) × α) := do
  let r ← req c net noParams ep (some params)
  let d ← checkresult r.2
  .ok (r.1, d)

variable [Field K] [LinearOrder K] [FloorRing K]

/-- A balance in units of the token (carbonsdk0.py:49-50): `t.w2t` divides, which raises for anything but a number. -/
def balance (t : SdkTkn) (v : Val K) : Py K := do
  let b ← bn2int v
  match b with
  | .int n => t.w2t (n : K)
  | .float x => t.w2t x
  | _ => .error .type

/-- A dictionary comprehension (carbonsdk0.py:50, 64, 85): later entries replace earlier ones with the same key. -/
def dictOf {β : Type} (l : List (Str × β)) : List (Str × β) := l.foldl (fun d kv => dictSet d kv.1 kv.2) []

/-- `getERC20Balance` (carbonsdk0.py:36-51). -/
def getERC20Balance (c : Client) (net : Request (Params K) → Option (Resp (List (Val K)))) (tokens : List SdkTkn) (address : Str) :
    Py (Request (Params K) × List (Str × K)) := do
  let r ← submit c net "erc20/balance_of".toList [("tokens".toList, .strs (tokens.map SdkTkn.address)), ("address".toList, .str address)]
  let l ← (tokens.zip r.2).mapM fun tb => do
    let x ← balance tb.1 tb.2
    .ok (tb.1.token, x)
  .ok (r.1, dictOf l)

omit [Field K] [LinearOrder K] [FloorRing K] in
/-- `getERC20Decimals` (carbonsdk0.py:53-65). -/
def getERC20Decimals (c : Client) (net : Request (Params K) → Option (Resp (List α))) (tokens : List SdkTkn) :
    Py (Request (Params K) × List (Str × α)) := do
  let r ← submit c net "erc20/decimals".toList [("tokens".toList, .strs (tokens.map SdkTkn.address))]
  .ok (r.1, dictOf ((tokens.map SdkTkn.token).zip r.2))

omit [Field K] [LinearOrder K] [FloorRing K] in
/-- `getERC20Symbol` (carbonsdk0.py:67-86) of tokens or of addresses. -/
def getERC20Symbol (c : Client) (net : Request (Params K) → Option (Resp (List α))) (tokens : List SdkTkn ⊕ List Str) :
    Py (Request (Params K) × List (Str × α)) := do
  let addrs := tokens.elim (List.map SdkTkn.address) id
  let names := tokens.elim (List.map SdkTkn.token) id
  let r ← submit c net "erc20/symbol".toList [("tokens".toList, .strs addrs)]
  .ok (r.1, dictOf (names.zip r.2))

omit [Field K] [LinearOrder K] [FloorRing K] in
/-- `addr` (carbonsdk0.py:127-138): the replies are not checked; a missing field raises `KeyError` and a reply that is not JSON the error of
the library. -/
def addr (c : Client) (net : Request (Params K) → Option (Resp Str)) : Py (Request (Params K) × Option Str) := do
  let r ← req c net noParams (c2s "addr".toList)
  match r.2.body with
  | none => .error (.custom "JSONDecodeError")
  | some b =>
    match b.success with
    | none => .error .key
    | some true =>
      (match b.data with
      | some d => .ok (r.1, some d)
      | none => .error .key)
    | some false => .ok (r.1, none)

/-- `f"{p[0].T}/{p[1].T}"` (carbonsdk0.py:157); a text has no `T`. -/
def pairText : (SdkTkn ⊕ Str) × (SdkTkn ⊕ Str) → Py Str
  | (.inl a, .inl b) => .ok (a.token ++ '/' :: b.token)
  | _ => .error .attr

/-- `", ".join(l)`. -/
def commaJoin : List Str → Str
  | [] => []
  | [s] => s
  | s :: l => s ++ ',' :: ' ' :: commaJoin l

omit [Field K] [LinearOrder K] [FloorRing K] in
/-- `pairs` (carbonsdk0.py:140-159). The table is that of the module, `global`; the one given to the client, `_own`, is not used. -/
def pairs (c : Client) (net : Request (Params K) → Option (Resp (List (Str × Str)))) (_own : Option TokenC) (global : TokenC)
    (inclstr : Bool := false) : Py (Request (Params K) × List ((SdkTkn ⊕ Str) × (SdkTkn ⊕ Str)) × Option Str) := do
  let r ← fetch c net noParams "pairs".toList []
  let ps := r.2.map fun p => (global.addr1 p.1, global.addr1 p.2)
  if !inclstr then .ok (r.1, ps, none)
  else do
    let ts ← ps.mapM pairText
    .ok (r.1, ps, some (commaJoin ts))

omit [Field K] [LinearOrder K] [FloorRing K] in
/-- `signsubmittx` (carbonsdk0.py:570-579). -/
def signsubmittx (c : Client) (net : Request (Params K) → Option (Resp α)) (tx : Json K) (sign : Bool := true) :
    Py (Request (Params K) × α) := submit c net (c2s "signsubmittx".toList) (signParams tx sign)

/-- What `result` returns. -/
inductive Outcome (α : Type) where
  | value (a : α)
  | bool (b : Bool)
  deriving DecidableEq

omit [Field K] [LinearOrder K] [FloorRing K] in
/-- `result` (carbonsdk0.py:545-568). If the address cannot be made the handler names variables that do not exist yet. -/
def result (c : Client) (net : Request (Params K) → Option (Resp α)) (reqid : Str) : Py (Request (Params K) × Outcome α) :=
  match join "result".toList reqid with
  | .error _ => .error (.custom "UnboundLocalError")
  | .ok url =>
    match req c net noParams url with
    | .error _ => .error (.custom "UnboundLocalError")
    | .ok r =>
      match r.2.body with
      | none => .error (.custom "APICallError")
      | some b =>
        match b.success with
        | none => .error .key
        | some true =>
          (match b.data with
          | some d => .ok (r.1, .value d)
          | none => .error .key)
        | some false =>
          match b.awaiting with
          | none => .error .key
          | some true => .ok (r.1, .bool true)
          | some false => if c.raiseonerror then .error (.custom "UnknownReqIdError") else .ok (r.1, .bool false)

/-- `composeTradeByTargetTransaction` (carbonsdk0.py:311-336). -/
def composeByTarget (c : Client) (net : Request (Params K) → Option (Resp α)) (fl : K → Str) (source target : Str)
    (actions : Option (List (Dict K)) := none) (deadline maxInput : Option (Val K) := none) (overrides : Option (Dict K) := none) :
    Py (Request (Params K) × α) :=
  fetch c net noParams "composeTradeByTargetTransaction".toList (byTargetParams fl source target actions deadline maxInput overrides)

/-- `composeTradeBySourceTransaction` (carbonsdk0.py:338-365). -/
def composeBySource (c : Client) (net : Request (Params K) → Option (Resp α)) (fl : K → Str) (source target : Str)
    (actions : Option (List (Dict K))) (deadline minReturn : Option (Val K) := none) (overrides : Option (Dict K) := none) :
    Py (Request (Params K) × α) :=
  fetch c net noParams "composeTradeBySourceTransaction".toList (bySourceParams fl source target actions deadline minReturn overrides)

/-- `createBuySellStrategy` (carbonsdk0.py:416-445). -/
def createBuySell (c : Client) (net : Request (Params K) → Option (Resp α)) (fl : K → Str) (base quote : Str)
    (buyPriceLow buyPriceHigh buyBudget sellPriceLow sellPriceHigh sellBudget : Val K) (overrides : Option (Dict K) := none) :
    Py (Request (Params K) × α) :=
  fetch c net noParams "createBuySellStrategy".toList
    (createParams fl base quote buyPriceLow buyPriceHigh buyBudget sellPriceLow sellPriceHigh sellBudget overrides)

/-- `deleteStrategy` (carbonsdk0.py:521-535). -/
def deleteStrategy (c : Client) (net : Request (Params K) → Option (Resp α)) (fl : K → Str) (strategyId : Val K)
    (overrides : Option (Dict K) := none) : Py (Request (Params K) × α) :=
  fetch c net noParams "deleteStrategy".toList (deleteParams fl strategyId overrides)

/-- `updateStrategy` (carbonsdk0.py:494-519): unlike the other transactions it goes through `call` with the argument `sync` as it is, and the
reply is not checked. -/
def updateStrategy (c : Client) (net : Request (Params K) → Option (Resp α)) (fl : K → Str) (strategyId : Val K) (encoded base quote : Str)
    (update : StrategyUpdate K) (buyMarginalPrice sellMarginalPrice : Val K := .none) (overrides : Option (Dict K) := none)
    (sync : Option Bool := none) : Py (Request (Params K) × Called α) :=
  call c net noParams (c2s "updateStrategy".toList)
    (some (updateParams fl strategyId encoded base quote update buyMarginalPrice sellMarginalPrice overrides)) none sync

/-- `hasLiquidityByPair` (carbonsdk0.py:161-185). -/
def hasLiquidity (c : Client) (net : Request (Params K) → Option (Resp α)) (fl : K → Str) (source target : Val K := .none)
    (pairs : Option (List (Dict K)) := none) : Py (Request (Params K) × α) := do
  let p ← hasLiquidityParams fl source target pairs
  fetch c net noParams "hasLiquidityByPair".toList p

end

end Sdk

end Carbon
