import Verif.Tools.Optimizer

/-!
# Tables of trade instructions
-/

namespace Carbon

open CarbonPair (pyDiv)

namespace Opt

section
variable {K : Type} [Field K] [LinearOrder K] [PySqrt K]

/-- A cell of a table. -/
inductive Cell (K : Type) where
  | str (s : Str)
  | num (v : K)
  deriving DecidableEq

/-- A data frame: its index, its columns and its lines; a missing value (`NaN`) is `none`. -/
structure Frame (K : Type) where
  index : List (Cell K)
  columns : List Str
  rows : List (List (Option (Cell K)))
  deriving DecidableEq

/-- The different elements of a list in the order of their first occurrence. -/
def firsts : List Str → List Str
  | [] => []
  | a :: l => a :: (firsts l).filter fun b => decide (b ≠ a)

/-- `pd.DataFrame.from_dict(dicts).set_index("cid")` (optimizer.py:1539, 482), by the specification of pandas: the columns are the keys in the
order of their first occurrence. -/
def frameOf (dicts : List (List (Str × Cell K))) : Frame K :=
  let cols := (firsts (dicts.flatMap fun d => d.map Prod.fst)).filter fun c => decide (c ≠ "cid".toList)
  ⟨dicts.map fun d => (dictGet d "cid".toList).getD (.str []), cols, dicts.map fun d => cols.map fun c => dictGet d c⟩

/-- A `TradeInstruction` (optimizer.py:1459-1470) with the pairs of its curve, if it has one. -/
structure TIC (K : Type) where
  ti : TI K
  pairs : Option (Str × Str) := none
  deriving DecidableEq

/-- The line of an instruction (optimizer.py:1528-1536); later keys replace earlier ones of the same name. -/
def TIC.line (t : TIC K) : List (Str × Cell K) :=
  dictSet (dictSet
    [("cid".toList, .str t.ti.cid), ("pair".toList, .str (t.pairs.map Prod.fst |>.getD [])),
      ("pairp".toList, .str (t.pairs.map Prod.snd |>.getD [])), ("tknin".toList, .str t.ti.tknIn), ("tknout".toList, .str t.ti.tknOut)]
    t.ti.tknIn (.num t.ti.amtIn)) t.ti.tknOut (.num t.ti.amtOut)

/-- `asdict` of an instruction (optimizer.py:46-47, 1518-1520). -/
def TIC.dict (t : TIC K) : List (Str × Cell K) :=
  [("cid".toList, .str t.ti.cid), ("tknin".toList, .str t.ti.tknIn), ("amtin".toList, .num t.ti.amtIn), ("tknout".toList, .str t.ti.tknOut),
    ("amtout".toList, .num t.ti.amtOut)]

/-- The number in a cell after `fillna(0)` (optimizer.py:1544). The columns of the tokens hold numbers only. -/
def Cell.value : Option (Cell K) → K
  | some (.num v) => v
  | _ => 0

/-- The column sums of some lines, of which only those values are used that pass the test. -/
def sums3 (cols : List Str) (rows : List (List (Option (Cell K)))) (test : K → Bool) : List (Option (Cell K)) :=
  (List.range cols.length).map fun i => some (.num ((rows.map fun r => Cell.value (r.getD i none)).filter test).sum)

/-- The aggregated table (optimizer.py:1542-1548). -/
def Frame.aggregate (f : Frame K) : Frame K :=
  let cols := f.columns.drop 4
  let rows := f.rows.map fun r => r.drop 4
  ⟨f.index ++ [.str "AMMIn".toList, .str "AMMOut".toList, .str "TOTAL NET".toList], cols,
    rows ++ [sums3 cols rows (fun v => decide (0 < v)), sums3 cols rows (fun v => decide (v < 0)), sums3 cols rows (fun _ => true)]⟩

/-- `fillna("")` (optimizer.py:1551). -/
def Frame.pretty (f : Frame K) : Frame K := { f with rows := f.rows.map fun r => r.map fun c => some (c.getD (.str [])) }

/-- `to_df` (optimizer.py:1523-1552). Without instructions there is no column `cid`. -/
def tiDf (l : List (TIC K)) (format : Option Str := none) : Py (Frame K) :=
  let f := frameOf (l.map TIC.line)
  let format := format.getD "dfraw".toList
  if l = [] then .error .key
  else if format = "dfraw".toList then .ok f
  else if format = "dfaggr".toList then .ok f.aggregate
  else if format = "dfp".toList then .ok f.pretty
  else .error .value

/-- What `to_format` returns. -/
inductive TIOut (K : Type) where
  | objects (l : List (TIC K))
  | dicts (l : List (List (Str × Cell K)))
  | frame (f : Frame K)
  deriving DecidableEq

/-- `to_format` (optimizer.py:1562-1576). -/
def tiFormat (l : List (TIC K)) (format : Option Str := none) : Py (TIOut K) :=
  let format := format.getD "objects".toList
  if format = "objects".toList then .ok (.objects l)
  else if format = "dicts".toList then .ok (.dicts (l.map TIC.dict))
  else if format.take 2 = "df".toList then
    if l.length = 0 then .ok (.frame ⟨[], [], []⟩)
    else do
      let f ← tiDf l (some format)
      .ok (.frame f)
  else .error .value

/-- The lines of `dxdydf` (optimizer.py:465-478). -/
def dxdyLine (inclk : Bool) (r : CPC K × K × K) : List (Str × Cell K) :=
  let c := r.1
  let kpost := (c.x + r.2.1) * (c.y + r.2.2)
  dictSet (dictSet
    ([("cid".toList, .str (Cid.show c.cid)), ("pair".toList, .str c.pair), ("tknx".toList, .str c.tknb), ("tkny".toList, .str c.tknq),
      ("x".toList, .num c.x), ("y".toList, .num c.y), ("xa".toList, .num c.xAct), ("ya".toList, .num c.yAct)] ++
     (if inclk then [("k".toList, .num c.k), ("kpost".toList, .num kpost), ("kk".toList, .num (kpost / c.k))]
      else [("kk".toList, .num (kpost / c.k))]))
    c.tknb (.num r.2.1)) c.tknq (.num r.2.2)

/-- `dxdydf` (optimizer.py:463-491), not pretty, for the values of a convex optimization. The total is in a line without values in the other
columns. -/
def dxdyDf (rows : List (CPC K × K × K)) (inclk := false) : Py (Frame K) :=
  let f := frameOf (rows.map (dxdyLine inclk))
  let cols := f.columns.drop 8
  if rows = [] then .error .key
  else .ok ⟨f.index ++ [.str "total".toList], f.columns,
    f.rows ++ [(List.replicate (min 8 f.columns.length) none) ++ sums3 cols (f.rows.map fun r => r.drop 8) (fun _ => true)]⟩

end

end Opt

end Carbon
