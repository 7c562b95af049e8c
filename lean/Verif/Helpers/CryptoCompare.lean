import Verif.Helpers.DataTools
import Verif.Tools.CpcContainer

/-!
# Model of the queries and the cache of `carbon/helpers/cryptocompare.py`

The service is a function from requests to replies; every call gives the list of the requests that were sent besides its result. The cache
is a dictionary from names to data. Printed messages are left out. `RuntimeError` and `FileNotFoundError` are exceptions given by name.
-/

namespace Carbon

namespace CC0

/-- The value of a parameter of a request. -/
inductive Val where
  | str (s : Str)
  | int (n : Int)
  deriving DecidableEq

/-- A request that was sent: endpoint and parameters. -/
structure Request where
  endpoint : Str
  params : List (Str × Val)
  deriving DecidableEq

/-- One of the records of a price history; a record is assumed to have a time and all six fields. -/
structure Row (K : Type) where
  time : Int
  open_ : K
  close : K
  high : K
  low : K
  volumefrom : K
  volumeto : K

/-- A reply: whether its status is a success, whether it says `"Response": "Error"`, its `"Data"`, and the records therein. -/
structure Reply (δ K : Type) where
  success : Bool
  isError : Bool
  data : Option δ
  records : List (Row K)

/-- `CryptoCompare` (cryptocompare.py:16-52): the key, none for use without key, and `raiseonerror`. -/
structure Client where
  apikey : Option Str
  raiseonerror : Bool

/-- `RuntimeError`. -/
def runtimeError : Err := .custom "RuntimeError"

/-- `FileNotFoundError`. -/
def notFound : Err := .custom "FileNotFoundError"

variable {δ K : Type}

/-- The service. -/
abbrev Api (δ K : Type) := Request → Reply δ K

/-- The argument `apikey` of the constructor: nothing, a text, `True`, or something else. -/
inductive KeyArg where
  | none
  | text (s : Str)
  | anonymous
  | other

/-- The constructor (cryptocompare.py:38-52); `env` gives the environment variables. -/
def new (env : Str → Option Str) (apikeyname : Option Str) (apikey : KeyArg) (raiseonerror : Option Bool) : Py Client :=
  match apikey with
  | .other => .error .value
  | .text k => .ok ⟨some k, raiseonerror.getD true⟩
  | .anonymous => .ok ⟨none, raiseonerror.getD true⟩
  | .none =>
    match env (apikeyname.getD "CCAPIKEY".toList) with
    | none => .error runtimeError
    | some k => .ok ⟨some k, raiseonerror.getD true⟩

/-- `paramsq` (cryptocompare.py:114-117). -/
def sent (c : Client) (params : List (Str × Option Val)) : List (Str × Val) :=
  let l := params.filterMap fun kv => kv.2.map fun v => (kv.1, v)
  match c.apikey with
  | some k => dictSet l "api_key".toList (.str k)
  | none => l

/-- `query` (cryptocompare.py:99-131). If the status is no success then the text of the exception asks for the attribute `status`, which the
reply does not have (line 128). -/
def query (c : Client) (api : Api δ K) (endpoint : Str) (params : List (Str × Option Val) := []) (method : Option Str := none) :
    Py (Option (Reply δ K)) × List Request :=
  if method.getD "GET".toList = "GET".toList then
    let rq : Request := ⟨endpoint, sent c params⟩
    if (api rq).success then (.ok (some (api rq)), [rq])
    else if c.raiseonerror then (.error .attr, [rq])
    else (.ok none, [rq])
  else (.error .value, [])

/-- `query_allexchanges`, `query_ratelimit`, `query_coinlist`, `query_indexlist` (cryptocompare.py:133-143, 182-204, 213-223). -/
def queryList (c : Client) (api : Api δ K) (endpoint : Str) : Py (Option δ) × List Request :=
  match query c api endpoint with
  | (.ok none, l) => (.ok none, l)
  | (.ok (some r), l) => (.ok r.data, l)
  | (.error e, l) => (.error e, l)

/-- The files with cached data; a file can hold `None`. -/
abbrev Store (δ : Type) := List (Str × Option δ)

/-- `cache` (cryptocompare.py:71-82). -/
def cache (c : Client) (s : Store δ) (item : Str) : Py (Option δ) :=
  match dictGet s item with
  | some d => .ok d
  | none => if c.raiseonerror then .error notFound else .ok none

/-- `write_cache` (cryptocompare.py:84-97); writing is assumed to succeed. -/
def writeCache (s : Store δ) (item : Str) (d : Option δ) : Store δ := dictSet s item d

/-- `_cache_xxx` (cryptocompare.py:146-173): the result, the requests sent and the cache afterwards. -/
def cacheXxx (c : Client) (s : Store δ) (item : Str) (update : Py (Option δ) × List Request) (readonfail : Bool := true)
    (updateonfail : Bool := false) : Py (Option δ) × List Request × Store δ :=
  match cache c s item with
  | .ok d => (.ok d, [], s)
  | .error e =>
    if updateonfail || readonfail then
      match update.1 with
      | .error e => (.error e, update.2, s)
      | .ok d => (.ok d, update.2, if updateonfail then writeCache s item d else s)
    else if c.raiseonerror then (.error e, [], s)
    else (.ok none, [], s)

/-- `cache_allexchanges`, `cache_coinlist`, `cache_indexlist` (cryptocompare.py:175-180, 206-211, 225-230): the arguments are not passed on. -/
def cacheList (c : Client) (api : Api δ K) (s : Store δ) (item endpoint : Str) (_readonfail : Bool := true) (_updateonfail : Bool := false) :
    Py (Option δ) × List Request × Store δ := cacheXxx c s item (queryList c api endpoint)

/-- The argument `limit`: `False`, `None` or a number. -/
inductive Limit where
  | default
  | none
  | num (n : Int)

/-- `params["limit"]` (cryptocompare.py:279). -/
def Limit.value : Limit → Option Val
  | .default => some (.int 2000)
  | .none => Option.none
  | .num n => some (.int n)

/-- The columns of a table (cryptocompare.py:301). -/
def fields : List Str := ["open".toList, "close".toList, "high".toList, "low".toList, "volumefrom".toList, "volumeto".toList]

/-- The cells of a line of a table. -/
def Row.cells (r : Row K) : List (Str × K) := fields.zip [r.open_, r.close, r.high, r.low, r.volumefrom, r.volumeto]

/-- A table: lines with their date (in seconds) and their cells. -/
abbrev Table (K : Type) := List (Int × List (Str × K))

/-- The table of a history (cryptocompare.py:290-302). Without records the table has no column `time`; only `RuntimeError` is caught. -/
def table (l : List (Row K)) : Py (Table K) :=
  match l with
  | [] => .error .key
  | _ => .ok (l.map fun r => (r.time, r.cells))

/-- The frequencies (cryptocompare.py:248-254). -/
def freqs : List Str := ["day".toList, "hour".toList, "minute".toList]

/-- `query_freqlypair` (cryptocompare.py:255-306). With `aspandas` false the decoded reply is called like a function (line 288). -/
def queryPair (c : Client) (api : Api δ K) (freq : Str) (fsym tsym e : Option Str := none) (limit : Limit := .default) (toTs : Option Val := none)
    (aspandas : Bool := true) : Py (Option (Table K)) × List Request :=
  if freq ∉ freqs then (.error .value, [])
  else
    match query c api ("/data/v2/histo".toList ++ freq) [("fsym".toList, fsym.map .str), ("tsym".toList, some (.str (tsym.getD "usd".toList))),
        ("e".toList, e.map .str), ("limit".toList, limit.value), ("toTs".toList, toTs)] with
    | (.error e, l) => (.error e, l)
    | (.ok none, l) => (.ok none, l)
    | (.ok (some r), l) =>
      if r.isError then (if c.raiseonerror then .error runtimeError else .ok none, l)
      else if !aspandas then (.error .type, l)
      else ((table r.records).map some, l)

/-- A table with aligned dates (`pandas.concat(..., axis=1)`): its dates and its columns, which give a value or none (`NaN`) per date. The
order of the dates is left open. -/
structure Frame (κ K : Type) where
  index : List Int
  cols : List (κ × (Int → Option K))

/-- The value of a field at a date. Dates are assumed to be different within a table. -/
def cell (t : Table K) (field : Str) (d : Int) : Option K := (t.lookup d).bind fun l => l.lookup field

/-- The dictionary comprehension of lines 430-433: all queries, up to the first that raises. -/
def queryAll (c : Client) (api : Api δ K) (freq : Str) (d : List ((Str × Str) × Option (Table K))) :
    List (Str × Str) → Py (List ((Str × Str) × Option (Table K))) × List Request
  | [] => (.ok d, [])
  | p :: ps =>
    match queryPair c api freq (fsym := some p.1) (tsym := some p.2) with
    | (.error e, l) => (.error e, l)
    | (.ok t, l) =>
      let r := queryAll c api freq (dictSet d p t) ps
      (r.1, l ++ r.2)

/-- The tables that are not `None`; `pandas.concat` leaves the others out. -/
def present {κ : Type} (d : List (κ × Option (Table K))) : List (κ × Table K) := d.filterMap fun kv => kv.2.map fun t => (kv.1, t)

/-- All dates of some tables. -/
def dates {κ : Type} (l : List (κ × Table K)) : List Int := (l.flatMap fun kv => kv.2.map Prod.fst).dedup

/-- `pandas.concat(raw_tables, axis=1)` and `pandas.concat(result_raw, axis=1)` (cryptocompare.py:434, 439). Without any table `ValueError` is
raised. -/
def concat {κ : Type} (d : List (κ × Option (Table K))) : Py (Frame (κ × Str) K) :=
  match present d with
  | [] => .error .value
  | l => .ok ⟨dates l, l.flatMap fun kv => fields.map fun fd => ((kv.1, fd), cell kv.2 fd)⟩

/-- `reformat_raw_df` (cryptocompare.py:473-498): the columns of one field. The pairs come from a set (`Data.pairsFields`), whose order is
unspecified; here it is that of last occurrence. `Series.rename(..., inplace=True)` returns the renamed series. -/
def reformat (df : Frame ((Str × Str) × Str) K) (field : Str) : Py (Frame (Str × Str) K) := do
  let cols ← (Data.pairsFields (df.cols.map fun c => (c.1.1.1, c.1.1.2, c.1.2))).1.mapM fun p =>
    match df.cols.find? fun c => c.1 = (p, field) with
    | some c => (.ok ((field, Data.pairFromPt p), c.2) : Py _)
    | none => .error .key
  .ok ⟨df.index, cols⟩

/-- The result of `aggr_query` (cryptocompare.py:422-427). With `incl_grand_aggr` false the names of the columns in `aggr` have no field; the
model keeps it. -/
structure Aggr (K : Type) where
  gaggr : Option (Frame (Str × Str) K)
  aggr : List (Str × Frame (Str × Str) K)
  rawaggr : Option (Frame (Str × Str) K)
  raw : Option (List (Str × Option (Table K)))

/-- `aggr_query` (cryptocompare.py:375-452) for a list of pairs; `_e`, `_limit` and `_toTs` stand for the keyword arguments, which are not used.
The grand aggregate of no fields raises `ValueError`. -/
def aggrQuery (c : Client) (api : Api δ K) (pairs : List (Str × Str)) (flds : Option (List Str) := none) (inclRaw inclRawAggr inclGrand : Bool := true)
    (freq : Option Str := none) (_e : Option Str := none) (_limit : Limit := .default) (_toTs : Option Val := none) : Py (Aggr K) × List Request :=
  let q := queryAll c api (freq.getD "day".toList) [] pairs
  (do
    let raw ← q.1
    let df ← concat raw
    let named := raw.foldl (fun d kv => dictSet d (Data.pairFromPt kv.1) kv.2) []
    let rawaggr ← concat named
    let aggr ← (flds.getD ["close".toList]).mapM fun f => (reformat df f).map fun r => (f, r)
    let aggr := aggr.foldl (fun d kv => dictSet d kv.1 kv.2) []
    if inclGrand ∧ aggr = [] then .error .value
    else .ok ⟨if inclGrand then some ⟨df.index, aggr.flatMap fun kv => kv.2.cols⟩ else none, aggr, if inclRawAggr then some rawaggr else none,
      if inclRaw then some named else none⟩,
    q.2)

end CC0

end Carbon
