import Mathlib.Data.List.Sort
import Verif.Carbon.Order

/-!
# Model of `carbon/routers/fast_router.py` (`FastRouter`)

With `use_floor_division=False`, the default and the only mode the simulator uses: then `ONE` is `1`
(fast_router.py:260-265).  For the rounding of the reported amounts to 12 decimals (`frmt`, base_router.py:154-159) see
`SimulatorRounded.lean`; `match_method` and the other text fields of an action are not modelled.
-/

namespace Carbon

/-- `Rate` (carbon/routers/base_router.py:20-27). -/
structure FRate (K : Type) where
  input : K
  output : K
  deriving DecidableEq, Repr

/-- `Quote` (carbon/routers/base_router.py:30-37). -/
structure FQuote (K : Type) where
  index : Nat
  rate : FRate K
  deriving DecidableEq, Repr

/-- `Action` (carbon/routers/base_router.py:40-56): the fields with numerical content; totals
are filled in at the end. -/
structure Action (K : Type) where
  index : Nat
  input : K
  output : K
  totalInput : K
  totalOutput : K
  deriving DecidableEq, Repr

namespace FastRouter

section
variable {K : Type} [Field K] [LinearOrder K]

/-- `get_trade_amounts_by_source_amount` (carbon/routers/fast_router.py:94-105). -/
def rateBySource (x : K) (o : Curve K) : Py (FRate K) := do
  let t ← o.amtByTarget x
  let output := min t o.y
  let i ← o.amtBySrc output
  .ok ⟨i, output⟩

/-- `get_trade_amounts_by_target_amount` (carbon/routers/fast_router.py:107-116). -/
def rateByTarget (x : K) (o : Curve K) : Py (FRate K) := do
  let i := min x o.y
  let output ← o.amtBySrc i
  .ok ⟨i, output⟩

/-- `cmp_min` (carbon/routers/fast_router.py:118-128). -/
def cmpMin (x y : FQuote K) : Int :=
  let lhs := x.rate.output * y.rate.input
  let rhs := y.rate.output * x.rate.input
  let lt := decide (lhs < rhs)
  let gt := decide (lhs > rhs)
  let eq := !lt && !gt
  let isLt := lt || (eq && decide (x.rate.output < y.rate.output))
  let isGt := gt || (eq && decide (x.rate.output > y.rate.output))
  (if isLt then 1 else 0) - (if isGt then 1 else 0)

/-- `cmp_max` (carbon/routers/fast_router.py:130-132). -/
def cmpMax (x y : FQuote K) : Int := cmpMin y x

/-- `_filter` (carbon/routers/fast_router.py:134-137) with the limits of lines 19-28. -/
def filter (r : FRate K) : Bool := decide (r.input > 0) && decide (r.output > 0)

/-- The list of quotes (carbon/routers/fast_router.py:175). -/
def quotes (trade : K → Curve K → Py (FRate K)) (x : K) (orders : List (Curve K)) : Py (List (FQuote K)) :=
  orders.zipIdx.mapM fun p => do
    let r ← trade x p.1
    .ok ⟨p.2, r⟩

/-- `self.orders[subject]`. -/
def lookup (orders : List (Curve K)) (i : Nat) : Py (Curve K) :=
  match orders[i]? with
  | some o => .ok o
  | none => .error .index

/-- The loop of `match` (carbon/routers/fast_router.py:174-205). -/
def loop (trade : K → Curve K → Py (FRate K)) (orders : List (Curve K)) : K → List (FQuote K) → Py (List (Action K))
  | _, [] => .ok []
  | x, q :: rest =>
    if x > q.rate.input then
      if filter q.rate then do
        let acts ← loop trade orders (x - q.rate.input) rest
        .ok (⟨q.index, q.rate.input, q.rate.output, 0, 0⟩ :: acts)
      else loop trade orders x rest
    else if x = q.rate.input then
      if filter q.rate then .ok [⟨q.index, q.rate.input, q.rate.output, 0, 0⟩]
      else loop trade orders x rest
    else
      if filter q.rate then do
        let o ← lookup orders q.index
        let r ← trade x o
        .ok [⟨q.index, x, r.output, 0, 0⟩]
      else loop trade orders x rest

/-- Running totals (carbon/routers/fast_router.py:209-214), and the sign change of the last one (line 223). -/
def totals : K → K → List (Action K) → List (Action K)
  | _, _, [] => []
  | ti, tot, [a] => [{ a with totalInput := ti + a.input, totalOutput := -(tot + a.output) }]
  | ti, tot, a :: b :: rest =>
    { a with totalInput := ti + a.input, totalOutput := tot + a.output } ::
      totals (ti + a.input) (tot + a.output) (b :: rest)

/-- `match` (carbon/routers/fast_router.py:139-223), for a given outcome of the sort. `actions[0]` raises if there is
no action. -/
def matchQuotes (trade : K → Curve K → Py (FRate K)) (orders : List (Curve K)) (x : K) (qs : List (FQuote K)) :
    Py (List (Action K)) := do
  let acts ← loop trade orders x qs
  if acts.isEmpty then .error .index else .ok (totals 0 0 acts)

/-- `match` with the sort. Python's `sorted` and insertion sort are both stable, so they agree whenever the comparison
is consistent; the property theorems hold for every ordering of the quotes. -/
def matchAmount (trade : K → Curve K → Py (FRate K)) (cmp : FQuote K → FQuote K → Int) (orders : List (Curve K))
    (x : K) : Py (List (Action K)) := do
  let qs ← quotes trade |x| orders
  matchQuotes trade orders |x| (qs.insertionSort fun a b => cmp a b ≤ 0)

/-- `match_by_src` (carbon/routers/fast_router.py:225-241). -/
def matchBySource (orders : List (Curve K)) (x : K) : Py (List (Action K)) :=
  matchAmount rateBySource cmpMin orders x

/-- `match_by_target` (carbon/routers/fast_router.py:243-258). -/
def matchByTarget (orders : List (Curve K)) (x : K) : Py (List (Action K)) :=
  matchAmount rateByTarget cmpMax orders x

end

end FastRouter

end Carbon
