import Mathlib.Data.List.Sort
import Verif.Helpers.Strategy

/-!
# Model of `pdread.py`, `pathgenerator.py`, `helpers.py`, the token lists of `cryptocompare.py` and the records of `strategym.py`

Data frames are lists of rows with a time stamp, counted in days. Reading files, queries and plots are left out.
-/

namespace Carbon.Data

open CarbonPair (pyDiv)

section Pdread
variable {K V : Type} [Field K] [LinearOrder K]

/-- `df.index[0]` and `df.index[-1]`. -/
def bounds (rows : List (K × V)) : Py (K × K) :=
  match rows.head?, rows.getLast? with
  | some a, some b => .ok (a.1, b.1)
  | _, _ => .error .index

/-- `min_dt` (carbon/helpers/pdread.py:53). -/
def notBefore (rows : List (K × V)) (minDt : Option K) : List (K × V) :=
  match minDt with
  | none => rows
  | some m => rows.filter fun r => m ≤ r.1

/-- The period in days (carbon/helpers/pdread.py:55-58). -/
def periodOf (df : List (K × V)) (periodDays periodPc : Option K) : Py (Option K) :=
  if periodDays.isSome && periodPc.isSome then .error .value
  else match periodPc with
    | none => .ok periodDays
    | some p => do
      let b ← bounds df
      .ok (some (p * (b.2 - b.1)))

/-- The start (carbon/helpers/pdread.py:61-64). -/
def startOf (df : List (K × V)) (fromTs fromPc : Option K) : Py (Option K) :=
  if fromTs.isSome && fromPc.isSome then .error .value
  else match fromPc with
    | none => .ok fromTs
    | some p => do
      let b ← bounds df
      .ok (some (b.1 + p * (b.2 - b.1)))

/-- The limits of the observation period (carbon/helpers/pdread.py:66-80): the end is counted from the start after the start has been
moved to the first time stamp. -/
def limits (b : K × K) (start period : Option K) : K × K :=
  let a := match start with
    | none => b.1
    | some s => if s < b.1 then b.1 else s
  (a, match period with
    | none => b.2
    | some d => a + d)

/-- The rows selected by `pdread` (carbon/helpers/pdread.py:52-83). -/
def window (rows : List (K × V)) (minDt fromTs fromPc periodDays periodPc : Option K) : Py (List (K × V)) := do
  let df := notBefore rows minDt
  let period ← periodOf df periodDays periodPc
  let start ← startOf df fromTs fromPc
  let b ← bounds df
  let l := limits b start period
  .ok (df.filter fun r => l.1 ≤ r.1 ∧ r.1 ≤ l.2)

/-- `tknpair` (carbon/helpers/pdread.py:13-22). -/
def tknpair (slashpair : Str) (invert : Bool) : Str × Str :=
  let r := match splitSlash slashpair with
    | [a, b] => (CarbonPair.strip a, CarbonPair.strip b)
    | _ => ("RSK".toList, "CSH".toList)
  if invert then (r.2, r.1) else r

/-- The series and the token names returned for a named column (carbon/helpers/pdread.py:89-94). Simplification: the inverse of 0 is 0
(pandas has an infinite value). -/
def column (name : Str) (invert : Bool) (rows : List (K × K)) : List (K × K) × (Str × Str) :=
  (if invert then rows.map fun r => (r.1, 1 / r.2) else rows, tknpair name invert)

/-- `pathtime_days` (carbon/helpers/pdread.py:131-135). -/
def pathtimeDays (path : List (K × V)) : Py K := do
  let b ← bounds path
  .ok (b.2 - b.1)

/-- `pathtime_yrs` and `pathtime` (carbon/helpers/pdread.py:115-129). -/
def pathtimeYrs (path : List (K × V)) : Py K := do
  let d ← pathtimeDays path
  .ok (d / (36525 / 100))

end Pdread

section Generator
variable {K : Type} [Field K] [LinearOrder K]

/-- `np.cumprod` continued from a product. -/
def cumprodFrom (acc : K) : List K → List K
  | [] => []
  | x :: l => (acc * x) :: cumprodFrom (acc * x) l

/-- `path` (carbon/helpers/pathgenerator.py:71-85) for given increments; their random choice is not modelled. -/
def path (s0 : K) (increments : List K) : List K := cumprodFrom 1 (s0 :: increments)

/-- `dt` (carbon/helpers/pathgenerator.py:60). -/
def stepLength (time : K) (n : Nat) : Py K := pyDiv time n

/-- `times` (carbon/helpers/pathgenerator.py:65). -/
def times (time : K) (n : Nat) : Py (List K) := do
  let dt ← stepLength time n
  .ok ((List.range (n + 1)).map fun (i : Nat) => i * dt)

/-- `_datetime_r` (carbon/helpers/pathgenerator.py:61, 100-112) with dates counted in days. -/
def datetimes (start time : K) (n : Nat) : Py (List K) := do
  let dt ← stepLength time n
  .ok ((List.range (n + 1)).map fun (i : Nat) => start + i * (dt * (36525 / 100)))

end Generator

/-- The names listed by `listdir` (carbon/helpers/helpers.py:17-22) before sorting, for the names of the files in the directory. -/
def listing (files : List Str) (ext : Option Str) : List Str :=
  match ext with
  | none => files
  | some e =>
    let e := e.map Char.toLower
    let l := e.length
    (files.filter fun fn => (if l = 0 then fn else fn.drop (fn.length - l)).map Char.toLower = e).map
      fun fn => if l = 0 then [] else fn.take (fn.length - l)

/-- `listdir` (carbon/helpers/helpers.py:9-24). -/
def listdir (files : List Str) (ext : Option Str) : List Str := (listing files ext).insertionSort fun a b => a ≤ b

/-- `join` (carbon/helpers/cryptocompare.py:352-356) for texts. -/
def join (tpl : List Str) (sep : Str := ", ".toList) : Str := sep.intercalate tpl

/-- `unjoin` without filter (carbon/helpers/cryptocompare.py:358-373) and `coinlist` for a text (lines 514-528), separated by a character. -/
def unjoin (jstr : Str) (sep : Char := ',') : List Str := (TokenC.splitChar sep jstr).map CarbonPair.strip

/-- `pt_from_pair` (carbon/helpers/cryptocompare.py:500-505). -/
def ptFromPair (pair : Str) : Py (Str × Str) :=
  match splitSlash pair with
  | [a, b] => .ok (a, b)
  | _ => .error .type

/-- `pair_from_pt` (carbon/helpers/cryptocompare.py:507-512). -/
def pairFromPt (p : Str × Str) : Str := p.1 ++ '/' :: p.2

/-- `create_pairs` (carbon/helpers/cryptocompare.py:530-546) for lists of coins. -/
def createPairs (coins : List Str) (quotecoins : Option (List Str)) : List (Str × Str) :=
  ((quotecoins.getD coins).flatMap fun q => coins.map fun c => (c, q)).filter fun p => p.1 ≠ p.2

/-- `pairs_fields_from_df` (carbon/helpers/cryptocompare.py:454-466). Simplification: the sets are listed in order of their last
occurrence. -/
def pairsFields (columns : List (Str × Str × Str)) : List (Str × Str) × List Str :=
  ((columns.map fun c => (c.1, c.2.1)).dedup, (columns.map fun c => c.2.2).dedup)

section Records
variable {α : Type} [DecidableEq α]

/-- A record, `{field -> value}`; `none` is Python's `None`. -/
abbrev Rec (α : Type) := List (Str × Option α)

/-- `r[k]`. -/
def Rec.get (r : Rec α) (k : Str) : Py (Option α) :=
  match r.lookup k with
  | none => .error .key
  | some v => .ok v

/-- The dict comprehension of `dr` (carbon/helpers/strategym.py:441). -/
def changed (r : Rec α) : Rec α → Py (Rec α)
  | [] => .ok []
  | (k, v0) :: rest => do
    let v ← r.get k
    let t ← changed r rest
    .ok ((k, if v ≠ v0 then v else none) :: t)

/-- `dr` (carbon/helpers/strategym.py:431-443). -/
def dr (r r0 : Rec α) (purge : Bool := true) : Py (Rec α) := do
  let result ← changed r r0
  if !purge then .ok result
  else .ok (result.filter fun kv => kv.2 ≠ none ∧ kv.1 ≠ "id0".toList ∧ kv.1 ≠ "comment".toList)

/-- `r0` (carbon/helpers/strategym.py:424-429). -/
def firstRecord (rr : List (Str × Rec α)) : Py (Rec α) :=
  match rr with
  | [] => .error .index
  | kv :: _ => .ok kv.2

/-- `drr` (carbon/helpers/strategym.py:445-472). It calls `dr` without the name of the class, which is not defined there. -/
def drr (rr : List (Str × Rec α)) : Py (List (Str × Rec α)) := do
  let _ ← firstRecord rr
  .error (.custom "NameError")

end Records

section FromDct
variable {K : Type} [Field K] [LinearOrder K] [PySqrt K]

/-- A value in the description of a scenario. -/
inductive DVal (K : Type) where
  | num (x : K)
  | two (x y : K)
  | text (s : Str)
  | flag (b : Bool)
  deriving DecidableEq, Repr

/-- `r[k]` in the description of a scenario. -/
def dget (d : List (Str × DVal K)) (k : String) : Py (DVal K) :=
  match d.lookup k.toList with
  | none => .error .key
  | some v => .ok v

/-- A number is needed. Simplification: other values raise where they are passed instead of where they are used. -/
def dnum (d : List (Str × DVal K)) (k : String) : Py K := do
  let v ← dget d k
  match v with
  | .num x => .ok x
  | _ => .error .type

/-- A number or two of them. -/
def darg (d : List (Str × DVal K)) (k : String) : Py (Strat.Arg K) := do
  let v ← dget d k
  match v with
  | .num x => .ok (.one x)
  | .two x y => .ok (.two x y)
  | _ => .error .type

/-- The two `try` blocks (carbon/helpers/strategym.py:160-167): two fields, or else one. -/
def dpair (d : List (Str × DVal K)) (sell buy both : String) : Py (Strat.Arg K) :=
  match dnum d sell, dnum d buy with
  | .ok x, .ok y => .ok (.two x y)
  | _, _ => darg d both

/-- `bool(x)`. -/
def dbool (d : List (Str × DVal K)) (k : String) : Py Bool := do
  let v ← dget d k
  match v with
  | .num x => .ok (decide (x ≠ 0))
  | .two _ _ => .ok true
  | .text s => .ok (!s.isEmpty)
  | .flag b => .ok b

/-- The body of `from_dct` (carbon/helpers/strategym.py:157-186). -/
def fromDctE (d : List (Str × DVal K)) : Py (Strat K) := do
  let t ← dget d "strat_type"
  match t with
  | .text t =>
    let t := t.map Char.toLower
    if t = "mgw".toList then do
      let w ← dpair d "strat_wsell" "strat_wbuy" "strat_w"
      let u ← dpair d "strat_usell" "strat_ubuy" "strat_u"
      let m ← dnum d "strat_m"
      let g ← dnum d "strat_g"
      Strat.fromMgw m g w u
    else if t = "fixed".toList then do
      let a ← dnum d "p_sell_a"
      let b ← dnum d "p_sell_b"
      let c ← dnum d "p_buy_a"
      let e ← dnum d "p_buy_b"
      .ok (Strat.make a b c e (rescale := false))
    else if t = "uv3".toList then do
      let lo ← dnum d "p_lo"
      let hi ← dnum d "p_hi"
      let below ← dbool d "start_below"
      let fee ← dnum d "fee_pc"
      Strat.fromU3 lo hi below (feePc := some fee)
    else .error .value
  | _ => .error .attr

/-- `from_dct` (carbon/helpers/strategym.py:142-190). -/
def fromDct (d : List (Str × DVal K)) (raiseonerror : Bool := true) : Py (Option (Strat K)) :=
  match fromDctE d with
  | .ok s => .ok (some s)
  | .error e => if raiseonerror then .error e else .ok none

end FromDct

end Carbon.Data
