import Verif.Carbon.Analytics

/-!
# Model of the units and of the data of the charts of `OrderBook` in `carbon/simulators/sim_analytics.py`

A chart is the record of what its dictionary holds; entries that the dictionary repeats under a second key are there once. A data frame is the
list of its columns with their names. The drawing is not modelled.
-/

namespace Carbon

/-- `OrderBook` with the names of its tokens (carbon/simulators/sim_analytics.py:301-314). -/
structure NamedBook (K : Type) where
  book : OrderBook K
  srcTkn : Str
  trgTkn : Str
  deriving DecidableEq, Repr

/-- `f"{a} per {b}"` (carbon/simulators/sim_analytics.py:409, 416). -/
def perUnit (a b : Str) : Str := a ++ " per ".toList ++ b

namespace NamedBook
open Analytics
variable {K : Type} [Field K] [LinearOrder K]

/-- `prices_u`, also the unit of the prices of the order book chart (carbon/simulators/sim_analytics.py:404-410, 454). -/
def pricesU (n : NamedBook K) : Str := perUnit n.trgTkn n.srcTkn

/-- `pricesr_u` (carbon/simulators/sim_analytics.py:412-417). -/
def pricesrU (n : NamedBook K) (rev : Bool := true) : Str := if rev then perUnit n.srcTkn n.trgTkn else n.pricesU

/-- `ob_liquidity_u` (carbon/simulators/sim_analytics.py:441-445). -/
def obLiquidityU (n : NamedBook K) : Str := n.trgTkn

/-- `amm_buysell_src` (carbon/simulators/sim_analytics.py:350-352). -/
def ammBuysellSrc (n : NamedBook K) : Str := if n.book.reverseBook then "buys".toList else "sells".toList

end NamedBook

/-- A series with its unit. -/
structure Quoted (K : Type) where
  values : List (Flt K)
  unit : Str
  deriving DecidableEq, Repr

/-- What `data_tokenamount_chart` returns (carbon/simulators/sim_analytics.py:567-576). -/
structure TokenChart (K : Type) where
  src : Quoted K
  trg : Quoted K
  deriving DecidableEq, Repr

/-- What `data_price_chart` returns (carbon/simulators/sim_analytics.py:631-647). -/
structure PriceChart (K : Type) where
  size1 : Quoted K
  price1Eff : Quoted K
  size2 : Quoted K
  price2Marg : Quoted K
  ammBuysellSrc : Str
  deriving DecidableEq, Repr

/-- What `data_orderbook_chart` returns (carbon/simulators/sim_analytics.py:695-704). -/
structure BookChart (K : Type) where
  liquidity : Quoted K
  prices : Quoted K
  deriving DecidableEq, Repr

namespace NamedBook
open Analytics
variable {K : Type} [Field K] [LinearOrder K]

/-- `data_tokenamount_chart()` (carbon/simulators/sim_analytics.py:561-577). -/
def tokenChart (n : NamedBook K) : TokenChart K := ⟨⟨n.book.src, n.srcTkn⟩, ⟨n.book.trg, n.trgTkn⟩⟩

/-- `data_price_chart(reverse)` (carbon/simulators/sim_analytics.py:625-649). -/
def priceChart (n : NamedBook K) (rev : Bool := false) : PriceChart K :=
  ⟨⟨n.book.src, n.srcTkn⟩, ⟨n.book.pricesr rev, n.pricesrU rev⟩, ⟨midpoints n.book.src, n.srcTkn⟩,
    ⟨n.book.margPricesr rev, n.pricesrU rev⟩, n.ammBuysellSrc⟩

/-- `data_orderbook_chart()` (carbon/simulators/sim_analytics.py:689-706). -/
def bookChart (n : NamedBook K) : BookChart K := ⟨⟨n.book.obLiquidity, n.obLiquidityU⟩, ⟨n.book.obPrices, n.pricesU⟩⟩

end NamedBook

namespace Quoted
variable {K : Type}

/-- `pd.Series(x, name=f"{name} [{unit}]")` (carbon/simulators/sim_analytics.py:579-580, 651-654, 708-709). -/
def column (name : Str) (q : Quoted K) : Str × List (Flt K) := (name ++ " [".toList ++ q.unit ++ "]".toList, q.values)

/-- `pd.DataFrame([...]).T` of series that are numbered from zero (carbon/simulators/sim_analytics.py:581, 655, 710): the shorter ones are filled
up with NaN. -/
def frame (cols : List (Str × List (Flt K))) : List (Str × List (Flt K)) :=
  let len := (cols.map fun c => c.2.length).foldr max 0
  cols.map fun c => (c.1, c.2 ++ List.replicate (len - c.2.length) .nan)

end Quoted

namespace NamedBook
variable {K : Type} [Field K] [LinearOrder K]

/-- `data_tokenamount_chart(aspandas=True)` (carbon/simulators/sim_analytics.py:578-581). -/
def tokenFrame (n : NamedBook K) : List (Str × List (Flt K)) :=
  Quoted.frame [n.tokenChart.src.column "src_amt".toList, n.tokenChart.trg.column "trg_amt".toList]

/-- `data_price_chart(reverse, aspandas=True)` (carbon/simulators/sim_analytics.py:650-655). -/
def priceFrame (n : NamedBook K) (rev : Bool := false) : List (Str × List (Flt K)) :=
  Quoted.frame [(n.priceChart rev).size1.column "size1".toList, (n.priceChart rev).price1Eff.column "price1_eff".toList,
    (n.priceChart rev).size2.column "size2".toList, (n.priceChart rev).price2Marg.column "price2_marg".toList]

/-- `data_orderbook_chart(aspandas=True)` (carbon/simulators/sim_analytics.py:707-710). -/
def bookFrame (n : NamedBook K) : List (Str × List (Flt K)) :=
  Quoted.frame [n.bookChart.prices.column "Price".toList, n.bookChart.liquidity.column "Liquidity".toList]

end NamedBook

end Carbon
