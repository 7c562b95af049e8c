import Verif.Tools.CpcContainer

/-!
# Model of the analysis of a container

`pairs_analysis`, `make_symmetric`, `xystats` and `price_estimates` of `carbon/tools/cpc.py`. A dataframe is modelled by what its users
read from it: the labels and the cells, where a cell may be missing (NaN). The order of the labels, the `pretty` variants (which replace
zeroes by empty strings) and the target `AT_SD` (whose meaning depends on how the version of pandas treats `np.std`) are left out.
-/

namespace Carbon

open CarbonPair (pyDiv)

/-! ## Tables -/

/-- A dataframe with labelled rows and columns. A cell without a value holds a NaN. -/
structure Tbl (α : Type) where
  rows : List Str
  cols : List Str
  cell : Str → Str → Option α

namespace Tbl

variable {α β : Type}

/-- `df.loc[i, j]`; there is no result if one of the labels does not exist or the cell is a NaN. -/
def get? (t : Tbl α) (i j : Str) : Option α := if i ∈ t.rows ∧ j ∈ t.cols then t.cell i j else none

/-- The values of the lines with the given labels. -/
def group (lines : List (Str × Str × β)) (i j : Str) : List β :=
  (lines.filter fun l => decide (l.1 = i) && decide (l.2.1 = j)).map fun l => l.2.2

/-- `df.pivot_table(index=, columns=, values=, aggfunc=)`: the lines with the same two labels are aggregated to one cell. -/
def pivot (lines : List (Str × Str × β)) (agg : List β → α) : Tbl α :=
  { rows := (lines.map fun l => l.1).dedup
    cols := (lines.map fun l => l.2.1).dedup
    cell := fun i j => if group lines i j = [] then none else some (agg (group lines i j)) }

/-- `df.fillna(v)`. -/
def fillna (t : Tbl α) (v : α) : Tbl α := { t with cell := fun i j => some ((t.cell i j).getD v) }

/-- `df.reindex(index=fields, columns=fields)` (cpc.py:1069). -/
def reindex (t : Tbl α) (fields : List Str) : Tbl α := { rows := fields, cols := fields, cell := t.get? }

/-- A sum with a NaN is a NaN. -/
def nanAdd [Add α] : Option α → Option α → Option α
  | some a, some b => some (a + b)
  | _, _ => none

/-- `df + df.T` (cpc.py:1070), for a table with the same labels for rows and columns. -/
def addTranspose [Add α] (t : Tbl α) : Tbl α := { t with cell := fun i j => nanAdd (t.cell i j) (t.cell j i) }

/-- `make_symmetric` (cpc.py:1065-1072). -/
def makeSymmetric (t : Tbl Nat) : Tbl Nat := ((t.reindex (t.rows ++ t.cols).dedup).addTranspose).fillna 0

end Tbl

/-! ## Aggregators -/

namespace AF

section
variable {K : Type} [Field K] [LinearOrder K] [PySqrt K]

/-- `np.mean` of a list that is not empty. -/
def mean (l : List K) : K := l.sum / (l.length : K)

/-- `np.max` of a list that is not empty. -/
def npMax : List K → K
  | [] => 0
  | a :: l => l.foldl max a

/-- `np.min` of a list that is not empty. -/
def npMin : List K → K
  | [] => 0
  | a :: l => l.foldl min a

/-- `np.std` of a list that is not empty (the square root of the mean of the squared deviations from the mean). -/
def std (l : List K) : K := PySqrt.sqrt (mean (l.map fun v => (v - mean l) ^ 2))

/-- `sdpc` (cpc.py:1672-1674), for a mean that is not zero. -/
def sdpc (l : List K) : K := std l / mean l

/-- `sdpc100` (cpc.py:1676-1678). -/
def sdpc100 (l : List K) : K := sdpc l * 100

/-- `range` (cpc.py:1657-1659). -/
def range (l : List K) : K := npMax l - npMin l

/-- `rangepc` (cpc.py:1661-1666). -/
def rangepct (l : List K) : K := if npMax l = 0 then 0 else (npMax l - npMin l) / npMax l

/-- `rangepc100` (cpc.py:1668-1670). -/
def rangepc100 (l : List K) : K := rangepct l * 100

end

end AF

namespace CC

section
variable {K : Type} [Field K] [LinearOrder K] [PySqrt K]

/-! ## The analysis of the pairs -/

/-- `pairs()` (cpc.py:1039-1050), as a list. -/
def pairs (cc : CC K) (standardize := true) : List Str :=
  if standardize then cc.curves.map primaryOf else cc.curves.map CPC.pair

/-- The curves that are analysed (cpc.py:1198-1200). -/
def analysed (cc : CC K) (ps : Option (List Str) := none) : Py (List (CPC K)) := do
  let r ← cc.bypairs (some (ps.getD cc.pairs))
  .ok r.curves

/-- A line of the list of curves (cpc.py:1149-1151). -/
structure Record (K : Type) where
  tknx : Str
  tkny : Str
  tknb : Str
  tknq : Str
  pair : Str
  primary : Str
  isprimary : Bool
  p : K
  pp : K
  x : K
  xa : K
  y : K
  ya : K
  cid : Option Cid

/-- `_record` (cpc.py:1144-1149). -/
def record (c : CPC K) : Py (Record K) := do
  let p ← TPair.ofStr c.pair
  let pp ← p.primaryPrice TPair.prettify c.p
  .ok ⟨c.tknb, c.tknq, c.tknb, c.tknq, p.pair, p.primary TPair.prettify, p.isprimary TPair.prettify, c.p, pp, c.x, c.xAct, c.y,
    c.yAct, c.cid⟩

/-- The list of curves, `AT_LIST` and `AT_LISTDF` (cpc.py:1200-1205). All other targets start from it. -/
def records (cc : CC K) (ps : Option (List Str) := none) : Py (List (Record K)) := do
  let cs ← cc.analysed ps
  cs.mapM record

/-- `AT_PIVOTXY` (cpc.py:1231-1233). -/
def pivotXY (rs : List (Record K)) : Tbl Nat := (Tbl.pivot (rs.map fun r => (r.tknx, r.tkny, r.tknb)) List.length).fillna 0

/-- `AT_PIVOTBQ` (cpc.py:1236-1240). -/
def pivotBQ (rs : List (Record K)) : Tbl Nat := (Tbl.pivot (rs.map fun r => (r.tknb, r.tknq, r.tknx)) List.length).fillna 0

/-- `AT_PIVOTBQS` (cpc.py:1241-1243). -/
def pivotBQS (rs : List (Record K)) : Tbl Nat := (pivotBQ rs).makeSymmetric

/-- The lines of the price tables. -/
def priceLines (rs : List (Record K)) : List (Str × Str × K) := rs.map fun r => (r.tknb, r.tknq, r.p)

/-- `AT_PRICES` (cpc.py:1245-1249). -/
def pivotMean (rs : List (Record K)) : Tbl K := (Tbl.pivot (priceLines rs) AF.mean).fillna 0

/-- `AT_MAX` (cpc.py:1251-1255). -/
def pivotMax (rs : List (Record K)) : Tbl K := (Tbl.pivot (priceLines rs) AF.npMax).fillna 0

/-- `AT_MIN` (cpc.py:1257-1261). -/
def pivotMin (rs : List (Record K)) : Tbl K := (Tbl.pivot (priceLines rs) AF.npMin).fillna 0

/-- `AT_SDPC` (cpc.py:1269-1272). -/
def pivotSdpc (rs : List (Record K)) : Tbl K := Tbl.pivot (priceLines rs) AF.sdpc

/-- An aggregate of `AT_PRICELISTAGG`: the columns for the prices of the primary pair. -/
structure PriceAggr (K : Type) where
  primary : Str
  mean : K
  count : Nat
  sdpc100 : K
  minv : K
  maxv : K
  rangepc100 : K

/-- `AT_PRICELISTAGG` (cpc.py:1282-1289), without the concentration: the line for a pair, if there is one. -/
def priceAggr (rs : List (Record K)) (b q : Str) : Option (PriceAggr K) :=
  match rs.filter fun r => decide (r.tknb = b) && decide (r.tknq = q) with
  | [] => none
  | r :: l =>
    let pps := (r :: l).map fun r => r.pp
    some ⟨r.primary, AF.mean pps, pps.length, AF.sdpc100 pps, AF.npMin pps, AF.npMax pps, AF.rangepc100 pps⟩

/-- `AT_PRICELIST` (cpc.py:1274-1280), the columns `p` and `pp`: the line for a curve, if there is one. -/
def priceList (rs : List (Record K)) (b q : Str) (cid : Option Cid) : Option (K × K) :=
  match rs.filter fun r => decide (r.tknb = b) && decide (r.tknq = q) && decide (r.cid = cid) with
  | [] => none
  | r :: l => some (AF.mean ((r :: l).map fun r => r.p), AF.mean ((r :: l).map fun r => r.pp))

/-- A line of `AT_VOLUMES`. -/
structure Volume (K : Type) where
  tkn : Str
  cid : Option Cid
  amtv : K
  amt : K

/-- The virtual over the actual amount (cpc.py:1214); no number if there is nothing. -/
def Volume.lvg (v : Volume K) : Option K := if v.amt = 0 then none else some (v.amtv / v.amt)

/-- `AT_VOLUMES` (cpc.py:1207-1215), in any order: every curve has a line for its base and one for its quote token. -/
def volumes (rs : List (Record K)) : List (Volume K) :=
  rs.map (fun r => ⟨r.tknb, r.cid, r.x, r.xa⟩) ++ rs.map (fun r => ⟨r.tknq, r.cid, r.y, r.ya⟩)

/-- A line of `AT_VOLSAGG`, without the concentrations. -/
structure VolumeAggr (K : Type) where
  amtv : K
  amt : K
  n : Nat
  priceEth : Option K

/-- `T.ETH` (cpc.py:1866). -/
def tknEth : Str := "WETH-6Cc2".toList

/-- The price in ether (cpc.py:1224), of all curves of the container; none if there is no curve with the two tokens. -/
def priceEth (cc : CC K) (t : Str) : Py (Option K) := if t ≠ tknEth then cc.price t tknEth else .ok (some 1)

/-- `AT_VOLSAGG` (cpc.py:1216-1229): the line of one token. -/
def volumeAggr (cc : CC K) (rs : List (Record K)) (t : Str) : Py (VolumeAggr K) := do
  let l := (volumes rs).filter fun v => decide (v.tkn = t)
  let pr ← cc.priceEth t
  .ok ⟨(l.map Volume.amtv).sum, (l.map Volume.amt).sum, l.length, pr⟩

/-- `amtv_eth` (cpc.py:1226). -/
def VolumeAggr.amtvEth (v : VolumeAggr K) : Option K := v.priceEth.map fun p => v.amtv * p

/-- `amt_eth` (cpc.py:1227). -/
def VolumeAggr.amtEth (v : VolumeAggr K) : Option K := v.priceEth.map fun p => v.amt * p

/-- `lvg` (cpc.py:1228); not a number without price or amount. -/
def VolumeAggr.lvg (v : VolumeAggr K) : Option K := do
  let a ← v.amtvEth
  let b ← v.amtEth
  if b = 0 then none else some (a / b)

/-! ## Statistics and price matrices -/

/-- `xystatsd` (cpc.py:1406-1411). -/
structure Stats (K : Type) where
  mean : K
  minv : K
  maxv : K
  sdev : K

/-- The four numbers (cpc.py:1424-1425). -/
def stats (l : List K) : Stats K := ⟨AF.mean l, AF.npMin l, AF.npMax l, AF.std l⟩

/-- `xystats` (cpc.py:1413-1426). -/
def xystats (cs : List (CPC K)) : Py (Stats K × Stats K) :=
  if (cs.map CPC.tknq).dedup.length = 0 ∨ (cs.map CPC.tknb).dedup.length = 0 then .error .assertion
  else if (cs.map CPC.tknq).dedup.length ≠ 1 ∨ (cs.map CPC.tknb).dedup.length ≠ 1 then .error .assertion
  else .ok (stats (cs.map CPC.x), stats (cs.map CPC.y))

/-- One row of the matrix of `price_estimates` (cpc.py:1492-1494): the prices of the base tokens in one quote token. -/
def estimateRow (cc : CC K) (q : Str) : List Str → Py (List (Option K))
  | [] => .ok []
  | b :: bs => do
    let v ← cc.priceEstimate b q false
    let vs ← estimateRow cc q bs
    .ok (v :: vs)

/-- The matrix of `price_estimates` (cpc.py:1492-1494). -/
def estimateRows (cc : CC K) (bs : List Str) : List Str → Py (List (List (Option K)))
  | [] => .ok []
  | q :: qs => do
    let r ← cc.estimateRow q bs
    let rs ← estimateRows cc bs qs
    .ok (r :: rs)

/-- The result of `price_estimates`: a matrix, or a row if there is only one quote token. -/
inductive Estimates (K : Type) where
  | matrix (m : List (List (Option K)))
  | row (r : List (Option K))

/-- The row instead of the matrix, for a single quote token (cpc.py:1515-1516). -/
def unwrapped : Bool → List (List (Option K)) → Estimates K
  | true, [r] => .row r
  | _, m => .matrix m

/-- `price_estimates` (cpc.py:1473-1517) for prices. -/
def priceEstimates (cc : CC K) (qs bs : List Str) (triangulate := false) (unwrapsingle := true) (raiseonerror := true) :
    Py (Estimates K) := do
  let m ← cc.estimateRows bs qs
  if triangulate then .error (.custom "NotImplementedError")
  else if raiseonerror && m.any (fun r => r.any Option.isNone) then .error .value
  else .ok (unwrapped unwrapsingle m)

end

end CC

end Carbon
