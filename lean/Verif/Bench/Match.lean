import Verif.Bench.Trade

/-!
# Model of `benchmark/core/match/impl.py`
-/

namespace Carbon.Bench

open Carbon

/-- `Rate` (benchmark/core/match/impl.py:7-10). -/
structure Rate where
  input : Int
  output : Int
  deriving DecidableEq, Repr

/-- `Quote` (benchmark/core/match/impl.py:12-15). -/
structure Quote where
  id : Nat
  rate : Rate
  deriving DecidableEq, Repr

/-- `Action` (benchmark/core/match/impl.py:17-21). -/
structure Action where
  id : Nat
  input : Int
  output : Int
  deriving DecidableEq, Repr

/-- The `while output > order['y']` loop of benchmark/core/match/impl.py:29-31, as the value of `input` on exit.
For `y ≥ 0` the loop stops at the latest at input 0, where the output is 0.  Liquidities are non-negative in the
code (`int(order['liquidity'])`); for a negative `y` Python would not terminate, which is not modelled. -/
def reduceInput (order : EncOrder) : Nat → Nat
  | 0 => 0
  | n + 1 => if tradeBySourceAmount ((n + 1 : Nat) : Int) order > order.y then reduceInput order n else n + 1

/-- `rateBySourceAmount` (benchmark/core/match/impl.py:23-32). -/
def rateBySourceAmount (sourceAmount : Int) (order : EncOrder) : Rate :=
  let output := tradeBySourceAmount sourceAmount order
  if output > order.y then
    let input : Int := reduceInput order (tradeByTargetAmount order.y order).toNat
    ⟨input, tradeBySourceAmount input order⟩
  else ⟨sourceAmount, output⟩

/-- `rateByTargetAmount` (benchmark/core/match/impl.py:34-37). -/
def rateByTargetAmount (targetAmount : Int) (order : EncOrder) : Rate :=
  let input := min targetAmount order.y
  ⟨input, tradeByTargetAmount input order⟩

/-- `sortByMinRate` (benchmark/core/match/impl.py:39-47), the three-way comparison. -/
def sortByMinRate (q1 q2 : Quote) : Int :=
  let lhs := q1.rate.output * q2.rate.input
  let rhs := q2.rate.output * q1.rate.input
  let lt := decide (lhs < rhs)
  let gt := decide (lhs > rhs)
  let eq := !lt && !gt
  let is_lt := lt || (eq && decide (q1.rate.output < q2.rate.output))
  let is_gt := gt || (eq && decide (q1.rate.output > q2.rate.output))
  (if is_lt then 1 else 0) - (if is_gt then 1 else 0)

/-- `sortByMaxRate` (benchmark/core/match/impl.py:49-50). -/
def sortByMaxRate (q1 q2 : Quote) : Int := sortByMinRate q2 q1

/-- `getLimit` (benchmark/core/match/impl.py:56-58). -/
def getLimit (o : EncOrder) : Int :=
  if o.z > 0 then (o.y * decodeFloat o.A + o.z * decodeFloat o.B).fdiv o.z else 0

/-- `equalizeByTargetAmount` (benchmark/core/match/impl.py:60-62). -/
def equalizeByTargetAmount (o : EncOrder) (limit : Int) : Int :=
  if (decodeFloat o.A : Int) > 0 then
    (o.y * decodeFloat o.A + o.z * (decodeFloat o.B - limit)).fdiv (decodeFloat o.A)
  else o.y

/-- `equalizeBySourceAmount` (benchmark/core/match/impl.py:64-65). -/
def equalizeBySourceAmount (o : EncOrder) (limit : Int) : Int :=
  tradeByTargetAmount (equalizeByTargetAmount o limit) o

/-- The quotes before sorting (benchmark/core/match/impl.py:78); ids are list positions, as built by `execute`
(benchmark/core/match/impl.py:175). -/
def quotesOf (amount : Int) (orders : List EncOrder) (trade : Int → EncOrder → Rate) : List Quote :=
  orders.zipIdx.map fun p => ⟨p.2, trade amount p.1⟩

/-- `sortedQuotes` (benchmark/core/match/impl.py:77-78).  Both Python's `sorted` and `mergeSort` are stable merge
sorts; they agree whenever the comparison is consistent.  The property theorems hold for *every* ordering. -/
def sortedQuotes (amount : Int) (orders : List EncOrder) (trade : Int → EncOrder → Rate)
    (sort : Quote → Quote → Int) : List Quote :=
  (quotesOf amount orders trade).mergeSort fun a b => decide (sort a b ≤ 0)

/-- `orders[id]`. Ids of quotes always are positions in the list; the dict lookup raises `KeyError` otherwise. -/
def lookup (orders : List EncOrder) (id : Nat) : Py EncOrder :=
  match orders[id]? with
  | some o => .ok o
  | none => .error .key

/-- `matchFast` (benchmark/core/match/impl.py:88-106). -/
def matchFast (amount : Int) (orders : List EncOrder) (quotes : List Quote) (filter : Rate → Bool)
    (trade : Int → EncOrder → Rate) : Py (List Action) :=
  match quotes with
  | [] => .ok []
  | quote :: rest =>
    if amount > quote.rate.input then
      if filter quote.rate then do
        let acts ← matchFast (amount - quote.rate.input) orders rest filter trade
        .ok (⟨quote.id, quote.rate.input, quote.rate.output⟩ :: acts)
      else matchFast amount orders rest filter trade
    else if amount = quote.rate.input then
      if filter quote.rate then .ok [⟨quote.id, quote.rate.input, quote.rate.output⟩] else .ok []
    else do
      let o ← lookup orders quote.id
      let rate : Rate := ⟨amount, (trade amount o).output⟩
      if filter rate then .ok [⟨quote.id, rate.input, rate.output⟩] else .ok []

/-- The default filter of `execute` (benchmark/core/match/impl.py:174). -/
def defaultFilter (r : Rate) : Bool := decide (r.input > 0) && decide (r.output > 0)

/-- The all-zero sentinel order of benchmark/core/match/impl.py:119. -/
def sentinel : EncOrder := ⟨0, 0, 0, 0⟩

/-- The rates of line 123/134: bring each order to `limit`. -/
def ratesAt (trade : Int → EncOrder → Rate) (equalize : EncOrder → Int → Int)
    (orders : List EncOrder) (limit : Int) : List Rate :=
  orders.map fun o => trade (equalize o limit) o

/-- `sum(rate.input for rate in rates)`. -/
def totalInput (rates : List Rate) : Int := (rates.map Rate.input).sum

/-- The `for n in range(1, len(orders))` loop of benchmark/core/match/impl.py:121-127.
`done` are the orders before position `n`, `todo` the ones from `n` on.  Returns `(done, order n - 1 is last of
done, limit, rates, delta)` at the break or after the last iteration; `none` if the loop body never ran. -/
def bestScan (amount : Int) (trade : Int → EncOrder → Rate) (equalize : EncOrder → Int → Int) :
    List EncOrder → List EncOrder → Option (List EncOrder × Int × List Rate × Int)
  | _, [] => none
  | done, o :: todo =>
    let limit := getLimit o
    let rates := ratesAt trade equalize done limit
    let delta := totalInput rates - amount
    if delta ≥ 0 then some (done, limit, rates, delta)
    else match bestScan amount trade equalize (done ++ [o]) todo with
      | some r => some r
      | none => some (done, limit, rates, delta)

/-- The bisection of benchmark/core/match/impl.py:132-142.  `fuel = hi - lo` suffices because the interval
shrinks in every round. -/
def bestBisect (amount : Int) (trade : Int → EncOrder → Rate) (equalize : EncOrder → Int → Int)
    (orders : List EncOrder) : Nat → Int → Int → List Rate → Int → List Rate × Int
  | 0, _, _, rates, delta => (rates, delta)
  | fuel + 1, lo, hi, rates, delta =>
    if lo + 1 < hi then
      let limit := (lo + hi).fdiv 2
      let rates := ratesAt trade equalize orders limit
      let delta := totalInput rates - amount
      if delta > 0 then bestBisect amount trade equalize orders fuel limit hi rates delta
      else if delta < 0 then bestBisect amount trade equalize orders fuel lo limit rates delta
      else (rates, delta)
    else (rates, delta)

/-- The surplus correction of benchmark/core/match/impl.py:145-150, on the reversed list of (order, rate). -/
def bestReduce (trade : Int → EncOrder → Rate) : List (EncOrder × Rate) → Int → List (EncOrder × Rate)
  | [], _ => []
  | (o, r) :: rest, delta =>
    let rate := trade (r.input - delta) o
    let delta' := delta + (rate.input - r.input)
    if delta' ≤ 0 then (o, rate) :: rest else (o, rate) :: bestReduce trade rest delta'

/-- The deficit correction of benchmark/core/match/impl.py:152-157. -/
def bestIncrease (trade : Int → EncOrder → Rate) : List (EncOrder × Rate) → Int → List (EncOrder × Rate)
  | [], _ => []
  | (o, r) :: rest, delta =>
    let rate := trade (r.input - delta) o
    let delta' := delta + (rate.input - r.input)
    if delta' > 0 then (o, r) :: rest else (o, rate) :: bestIncrease trade rest delta'

/-- `getLimit(orders[n - 1])` (benchmark/core/match/impl.py:131); `done` is `orders[:n]`, never empty. -/
def lastLimit (done : List EncOrder) : Int :=
  match done.getLast? with
  | some o => getLimit o
  | none => 0

/-- The `rates` of `matchBest` just before the final filtering (benchmark/core/match/impl.py:118-157).
`sorted` are the orders in quote order. -/
def matchBestRates (amount : Int) (sorted : List EncOrder) (trade : Int → EncOrder → Rate)
    (equalize : EncOrder → Int → Int) : Py (List Rate) :=
  match sorted ++ [sentinel] with
  | [] => .error (.custom "UnboundLocalError")
  | first :: rest =>
    match bestScan amount trade equalize [first] rest with
    | none => .error (.custom "UnboundLocalError")   -- no order at all: `delta` is unbound
    | some (done, limit, rates, delta) =>
      let hi := lastLimit done
      let (rates, delta) :=
        if delta > 0 then bestBisect amount trade equalize done (hi - limit).toNat limit hi rates delta
        else (rates, delta)
      .ok <|
        if delta > 0 then ((bestReduce trade (done.zip rates).reverse delta).reverse).map Prod.snd
        else if delta < 0 then (bestIncrease trade (done.zip rates) delta).map Prod.snd
        else rates

/-- `matchBest` (benchmark/core/match/impl.py:118-159). -/
def matchBest (amount : Int) (orders : List EncOrder) (quotes : List Quote) (filter : Rate → Bool)
    (trade : Int → EncOrder → Rate) (equalize : EncOrder → Int → Int) : Py (List Action) := do
  let sorted ← quotes.mapM fun q => lookup orders q.id
  let rates ← matchBestRates amount sorted trade equalize
  .ok (((quotes.zip rates).filter fun p => filter p.2).map fun p => ⟨p.1.id, p.2.input, p.2.output⟩)

/-- Fast part of `matchBySourceAmount` (benchmark/core/match/impl.py:161-169). -/
def matchFastBySource (amount : Int) (orders : List EncOrder) (filter : Rate → Bool) : Py (List Action) :=
  matchFast amount orders (sortedQuotes amount orders rateBySourceAmount sortByMinRate) filter rateBySourceAmount

/-- Fast part of `matchByTargetAmount` (benchmark/core/match/impl.py:171-172). -/
def matchFastByTarget (amount : Int) (orders : List EncOrder) (filter : Rate → Bool) : Py (List Action) :=
  matchFast amount orders (sortedQuotes amount orders rateByTargetAmount sortByMaxRate) filter rateByTargetAmount

/-- Best part of `matchBySourceAmount`. -/
def matchBestBySource (amount : Int) (orders : List EncOrder) (filter : Rate → Bool) : Py (List Action) :=
  matchBest amount orders (sortedQuotes amount orders rateBySourceAmount sortByMinRate) filter rateBySourceAmount
    equalizeBySourceAmount

/-- Best part of `matchByTargetAmount`. -/
def matchBestByTarget (amount : Int) (orders : List EncOrder) (filter : Rate → Bool) : Py (List Action) :=
  matchBest amount orders (sortedQuotes amount orders rateByTargetAmount sortByMaxRate) filter rateByTargetAmount
    equalizeByTargetAmount

end Carbon.Bench
