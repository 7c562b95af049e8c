import Verif.Sdk.Requests

/-!
# Model of the requests about matches of `carbon/sdk/carbonsdk0.py`

The conventions are those of `Sdk/Requests.lean`. The flag that chooses between target and source is any value; the orders are dictionaries.
-/

namespace Carbon

namespace Sdk

variable {K α : Type} [Field K] [LinearOrder K]

/-- The parameters of `getMatchActions` (carbonsdk0.py:99-103). The orders are sent as they are. -/
def matchActionsParams (fl : K → Str) (amountWei byTarget : Val K) (orders : List (Dict K)) : Params K :=
  [("amountWei".toList, .str (amountWei.text fl)), ("tradeByTargetAmount".toList, .bool byTarget.truthy), ("orders".toList, .dicts orders)]

/-- The parameters of `getMatchParams` (carbonsdk0.py:386-391). -/
def matchParamsParams (fl : K → Str) (source target amount byTarget : Val K) : Params K :=
  [("sourceToken".toList, .str (source.text fl)), ("targetToken".toList, .str (target.text fl)), ("amount".toList, .str (amount.text fl)),
    ("tradeByTargetAmount".toList, .bool byTarget.truthy)]

/-- The parameters of `getTradeDataFromActions` (carbonsdk0.py:405-412). -/
def fromActionsParams (fl : K → Str) (source target byTarget : Val K) (actionsWei : Option (List (Dict K))) : Params K :=
  [("sourceToken".toList, .str (source.text fl)), ("targetToken".toList, .str (target.text fl)),
    ("tradeByTargetAmount".toList, .bool byTarget.truthy), ("actionsWei".toList, .dicts ((actionsWei.getD []).map int2strd))]

/-- `getMatchActions` (carbonsdk0.py:90-103). -/
def getMatchActions (c : Client) (net : Request (Params K) → Option (Resp α)) (fl : K → Str) (amountWei byTarget : Val K)
    (orders : List (Dict K)) (sync : Option Bool := none) : Py (Request (Params K) × Called α) :=
  call c net noParams (c2s "getMatchActions".toList) (some (matchActionsParams fl amountWei byTarget orders)) none sync

/-- `getMatchParams` (carbonsdk0.py:370-391). -/
def getMatchParams (c : Client) (net : Request (Params K) → Option (Resp α)) (fl : K → Str) (source target amount byTarget : Val K)
    (sync : Option Bool := none) : Py (Request (Params K) × Called α) :=
  call c net noParams (c2s "getMatchParams".toList) (some (matchParamsParams fl source target amount byTarget)) none sync

/-- `getTradeDataFromActions` (carbonsdk0.py:393-412). -/
def getTradeDataFromActions (c : Client) (net : Request (Params K) → Option (Resp α)) (fl : K → Str) (source target byTarget : Val K)
    (actionsWei : Option (List (Dict K)) := none) (sync : Option Bool := none) : Py (Request (Params K) × Called α) :=
  call c net noParams (c2s "getTradeDataFromActions".toList) (some (fromActionsParams fl source target byTarget actionsWei)) none sync

end Sdk

end Carbon
