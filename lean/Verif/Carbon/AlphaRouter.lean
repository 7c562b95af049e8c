import Verif.Carbon.ExactRouter

/-!
# Model of `carbon/routers/alpha_router.py` (`AlphaRouter`)

The pandas frames are lists here; sorting a frame by amount (descending) and then index (ascending) is a stable sort of
the indices.
-/

namespace Carbon.AlphaRouter

open CarbonPair (pyDiv)

section
variable {K : Type} [Field K] [LinearOrder K] [PySqrt K]

/-- `list(enumerate(numbers))` from a start index (carbon/routers/alpha_router.py:71). -/
def enumFrom {α : Type} : Nat → List α → List (Nat × α)
  | _, [] => []
  | j, a :: l => (j, a) :: enumFrom (j + 1) l

/-- `sum_me` (carbon/routers/alpha_router.py:26-27). -/
def sumMe (l : List (Nat × K)) : K := (l.map Prod.snd).sum

/-- `min_item` (carbon/routers/alpha_router.py:30-36): the first of the smallest, `ValueError` if there is none. -/
def minItem : List (Nat × K) → Py (Nat × K)
  | [] => .error .value
  | a :: l => .ok (l.foldl (fun m x => if x.2 < m.2 then x else m) a)

/-- `max_item` (carbon/routers/alpha_router.py:39-45); only the value is used. -/
def maxVal : List (Nat × K) → Py K
  | [] => .error .value
  | a :: l => .ok (l.foldl (fun m x => if m < x.2 then x.2 else m) a.2)

/-- `get_i` (carbon/routers/alpha_router.py:47-48). -/
def getI (l : List (Nat × K)) (wanted : Nat) : Py (Nat × K) :=
  match l.find? (fun p => p.1 == wanted) with
  | none => .error .index
  | some p => .ok p

/-- `assertion_checks` (carbon/routers/alpha_router.py:56-65). -/
def assertionChecks (full : Bool) (cs threshold maxFill : K) (tl : List (Nat × K)) (num : Nat) : Py Unit :=
  if full ∧ ¬ threshold ≤ cs then .error .assertion
  else if full = false ∧ cs ≠ maxFill then .error .assertion
  else if num ≤ tl.length ∧ (tl.map Prod.fst).dedup.length ≠ num then .error .assertion
  else .ok ()

/-- The loop of `gen_one_order_selector` (carbon/routers/alpha_router.py:86-134) over the remaining `indexed_values`.
`none` is the implicit `return None` after the loop. `len` is `len(numbers)`. -/
def selLoop (len : Nat) (threshold maxFill mx : K) (full : Bool) (num : Nat) :
    List (Nat × K) → List (Nat × K) → Py (Option (List Nat))
  | [], _ => .ok none
  | (j, v) :: rest, tl =>
    let cs := sumMe tl
    let exit : Py (Option (List Nat)) := do
      assertionChecks full cs threshold maxFill tl num
      .ok (some (tl.map Prod.fst))
    if full = false ∧ cs = maxFill then exit
    else if threshold ≤ cs then exit
    else if j + num < len then do
      let m ← minItem tl
      let next ← getI ((j, v) :: rest) (j + num)
      if mx ≤ m.2 then exit
      else if m.2 < next.2 then selLoop len threshold maxFill mx full num rest (tl.erase m ++ [next])
      else selLoop len threshold maxFill mx full num rest tl
    else exit

/-- `gen_one_order_selector` (carbon/routers/alpha_router.py:68-134). -/
def selector (numbers : List K) (threshold : K) (num : Nat) : Py (Option (List Nat)) := do
  let indexed := enumFrom 0 numbers
  let mx ← maxVal indexed
  let maxFill := ((numbers.insertionSort (· ≥ ·)).take num).sum
  selLoop numbers.length threshold maxFill mx (decide (threshold ≤ maxFill)) num indexed (indexed.take num)

/-- Positions by hypothetical amount, descending, then by index (carbon/routers/alpha_router.py:235-237, 377-379). -/
def rank (hyp : List K) : List Nat :=
  (List.range hyp.length).insertionSort fun i j =>
    hyp.getD j 0 < hyp.getD i 0 ∨ (hyp.getD i 0 = hyp.getD j 0 ∧ i ≤ j)

/-- The amount after the adjustment for partial fills (carbon/routers/alpha_router.py:257-261, 385-389). -/
def adjust (x tot : K) (supportPartial : Bool) : K :=
  if supportPartial ∧ tot < |x| then
    if x < 0 then -tot + 1 / 10 ^ 10 else tot - 1 / 10 ^ 10
  else x

/-- The positions for the indices returned by the selector (carbon/routers/alpha_router.py:262-263, 390-391); iterating
over `None` is a `TypeError`. -/
def selected (ranked : List Nat) (sel : Option (List Nat)) : Py (List Nat) :=
  match sel with
  | none => .error .type
  | some l => .ok (l.map fun i => ranked.getD i 0)

/-- `match_by_target` (carbon/routers/alpha_router.py:174-276) without floor division. -/
def matchByTarget (orders : List (Curve K)) (x : K) (thresholdOrders : Option Nat) (supportPartial : Bool) :
    Py (List (Action K)) := do
  let num := thresholdOrders.getD 10
  let hyp ← orders.mapM (·.alphaByTarget x)
  let ranked := rank hyp
  let liquidity := ranked.map fun i => ((orders[i]?).map (·.y)).getD 0
  let x := adjust x liquidity.sum supportPartial
  let sel ← selector liquidity |x| num
  let ps ← selected ranked sel
  ExactRouter.matchExact orders x true ps supportPartial

/-- The `available_value` of an order (carbon/routers/alpha_router.py:345-356). -/
def availableValue (c : Curve K) (x v : K) : Py K :=
  if c.y < v then do
    let price ← c.geoprice
    .ok (price * c.y)
  else do
    let price ← pyDiv x v
    .ok (price * v)

/-- `match_by_src` (carbon/routers/alpha_router.py:307-403) with `match` (405-426), without floor division. Without
`threshold_orders` the arithmetic with `None` in line 89 is a `TypeError`. -/
def matchBySrc (orders : List (Curve K)) (x : K) (thresholdOrders : Option Nat) (supportPartial : Bool) :
    Py (List (Action K)) := do
  let hyp ← orders.mapM (·.alphaBySrc x)
  let values ← (orders.zip hyp).mapM fun p => availableValue p.1 x p.2
  let ranked := rank hyp
  let liquidity := ranked.map fun i => values.getD i 0
  let x := adjust x liquidity.sum supportPartial
  match thresholdOrders with
  | none => if liquidity.isEmpty then .error .value else .error .type
  | some num => do
    let sel ← selector liquidity |x| num
    let ps ← selected ranked sel
    ExactRouter.matchExact orders x false ps supportPartial

end

end Carbon.AlphaRouter
