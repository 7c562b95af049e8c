import Mathlib.Data.List.Sort
import Verif.Tools.ArbPrice

/-!
# Model of `carbon/tools/arbgraphs.py`: the table of the edges

Dataframes are lists of lines. The pandas functions are modelled by what they do to such lists: `groupby(keys).sum()` and `pivot_table` make
one line per key that occurs, in the order of the keys; the mean leaves NaN out; `concat(axis=1)` puts the lines side by side by their
position. A NaN is `none`. The choice between an index and a column (`resetindex`) is left out.
-/

namespace Carbon

open CarbonPair (pyDiv)

namespace Arb

section
variable {K : Type} [Field K] [LinearOrder K]

/-- A line of the table of an amount-type graph (arbgraphs.py:1794-1800). -/
structure AmtRow (K : Type) where
  pair : Str
  tknIn : Str
  tknOut : Str
  amountIn : K
  amountOut : K
  deriving DecidableEq

/-- A line of the table of a connection-type graph (arbgraphs.py:1814-1822). -/
structure ConnRow (K : Type) where
  pair : Str
  tknIn : Str
  tknOut : Str
  n : K
  isReverse : Bool
  priceOutIn : K
  price : Option K
  deriving DecidableEq

/-- A line of the consolidated table of a connection-type graph (arbgraphs.py:1834). -/
structure ConnLine (K : Type) where
  pair : Option Str
  n : Option K
  nRev : Option K
  price : Option K
  deriving DecidableEq

/-- The tables that `edgedf` returns: with `uid` and the lines of the edges or consolidated, for either type of graph. -/
inductive EdgeTable (K : Type) where
  | amountEdges (rows : List (Option Str × AmtRow K))
  | amounts (rows : List (AmtRow K))
  | connectionEdges (rows : List (ConnRow K))
  | connections (lines : List (ConnLine K))
  deriving DecidableEq

/-- `pp` of a `SimplePair` (simplepair.py:108-112). -/
def primaryPrice (p : TPair) (x : K) : Option K :=
  if x = 0 then none else if p.isprimary TPair.normalize then some x else some (1 / x)

/-- The different keys in ascending order. Keys are tuples of strings, compared as such. -/
def sortedKeys (ks : List (List Str)) : List (List Str) := ks.dedup.insertionSort (· ≤ ·)

/-- The mean of a column without its NaNs, which is a NaN if nothing is left. -/
def nanmean (l : List (Option K)) : Option K :=
  if l.filterMap id = [] then none else some ((l.filterMap id).sum / (l.filterMap id).length)

namespace AmtRow

/-- The grouping key (arbgraphs.py:1806). -/
def key (r : AmtRow K) : List Str := [r.pair, r.tknIn, r.tknOut]

/-- `groupby([...]).sum()` (arbgraphs.py:1806). -/
def grouped (rows : List (AmtRow K)) : List (AmtRow K) :=
  (sortedKeys (rows.map key)).filterMap fun k =>
    (rows.find? fun r => decide (r.key = k)).map fun r =>
      { r with
        amountIn := ((rows.filter fun r => decide (r.key = k)).map AmtRow.amountIn).sum
        amountOut := ((rows.filter fun r => decide (r.key = k)).map AmtRow.amountOut).sum }

end AmtRow

namespace ConnRow

/-- The grouping key (arbgraphs.py:1827): `False` comes before `True`. -/
def key (r : ConnRow K) : List Str := [r.pair, r.tknIn, r.tknOut, if r.isReverse then "True".toList else "False".toList]

/-- `pivot_table` (arbgraphs.py:1826-1830). The column `price_outin`, which is not among the values, is kept here and not used. -/
def pivot (rows : List (ConnRow K)) : List (ConnRow K) :=
  (sortedKeys (rows.map key)).filterMap fun k =>
    (rows.find? fun r => decide (r.key = k)).map fun r =>
      { r with
        n := ((rows.filter fun r => decide (r.key = k)).map ConnRow.n).sum
        price := nanmean ((rows.filter fun r => decide (r.key = k)).map ConnRow.price) }

/-- The two halves of the table side by side (arbgraphs.py:1831-1834): the lines are matched by position. -/
def sideBySide (rows : List (ConnRow K)) : List (ConnLine K) :=
  let dff := rows.filter fun r => !r.isReverse
  let dft := rows.filter fun r => r.isReverse
  (List.range (max dff.length dft.length)).map fun i =>
    { pair := (dff[i]?).map ConnRow.pair
      n := (dff[i]?).map ConnRow.n
      nRev := (dft[i]?).map ConnRow.n
      price := (dff[i]?).bind ConnRow.price }

end ConnRow

namespace AG

/-- A line of the table of an amount-type graph (arbgraphs.py:1794-1800). -/
def amtRow (g : AG K) (e : Edge K) : Py (AmtRow K) :=
  match g.tknOf e.nodeIn, g.tknOf e.nodeOut with
  | some a, some b => .ok ⟨TPair.primary TPair.normalize ⟨a, b⟩, a, b, e.amountIn, e.amountOut⟩
  | _, _ => .error .attr

/-- A line of the table of a connection-type graph (arbgraphs.py:1814-1822). -/
def connRow (g : AG K) (e : Edge K) : Py (ConnRow K) :=
  match g.tknOf e.nodeIn, g.tknOf e.nodeOut with
  | some a, some b => do
    let q ← pyDiv e.amountOut e.amountIn
    .ok
      { pair := TPair.primary TPair.normalize ⟨a, b⟩, tknIn := a, tknOut := b, n := -e.amountIn
        isReverse := !TPair.isprimary TPair.normalize ⟨a, b⟩, priceOutIn := q, price := primaryPrice ⟨a, b⟩ q }
  | _, _ => .error .attr

/-- `edgedf` (arbgraphs.py:1784-1838). Without edges the dataframe has no columns, and grouping it raises a `KeyError`. -/
def edgedf (g : AG K) (edges : Option (List (Edge K)) := none) (consolidated : Bool := true) : Py (EdgeTable K) :=
  let es := edges.getD g.edgeList
  if g.edgeType = some true then do
    let rows ← es.mapM g.amtRow
    if ¬ consolidated then .ok (.amountEdges ((es.map Edge.uid).zip rows))
    else if rows = [] then .error .key
    else .ok (.amounts (AmtRow.grouped rows))
  else do
    let rows ← es.mapM g.connRow
    if ¬ consolidated then .ok (.connectionEdges rows)
    else if rows = [] then .error .key
    else .ok (.connections (ConnRow.sideBySide (ConnRow.pivot rows)))

end AG

end

end Arb

end Carbon
