import Verif.Carbon.ExactRouter

/-!
# The exact router without its check of the liquidity, and its two other entries

Model of `ExactBase.match` of `carbon/routers/exact_base_router.py` with the argument `check_sufficient_liquidity`, and of `match_by_src` and
`match_by_target` of the same class.
-/

namespace Carbon.ExactRouter

open CarbonPair (pyDiv)

section
variable {K : Type} [Field K] [LinearOrder K] [PySqrt K]

/-- `ExactBase.match` (carbon/routers/exact_base_router.py:77-241). Without the check the positions given are only compared with the existing
ones, and the amount is left as it is. -/
def matchWith (check : Bool) (orders : List (Curve K)) (x : K) (byTarget : Bool) (matchlevel : List Nat) (supportPartial : Bool) :
    Py (List (Action K)) := do
  let ps ← orders.mapM par
  let o : Nat → Par K := fun i => ps.getD i ⟨0, 0, 0, 0, 0⟩
  let indexes := List.range orders.length
  let avail := if matchlevel.isEmpty then indexes else indexes.filter (· ∈ matchlevel)
  let liquidity := ((if matchlevel.isEmpty then indexes else matchlevel).map fun i => (o i).y).sum
  -- lines 94-98, with `sufficient_liquidity_exists` (base_router.py:168-186)
  if check ∧ byTarget ∧ matchlevel.any (fun i => decide (orders.length ≤ i)) then .error .index
  else if check ∧ byTarget ∧ liquidity - |x| < 0 ∧ !supportPartial then .error .assertion
  else do
    let x := if check ∧ byTarget ∧ liquidity - |x| < 0 ∧ liquidity = 0 then 0 else x
    let outs ← distribute o avail x byTarget
    let ins ← outs.mapM fun p => dxdy o p.1 p.2
    -- lines 183-223
    let actual := if byTarget then (outs.map Prod.snd).sum else ins.sum
    let q ← pyDiv x actual
    if !byTarget ∧ actual - x < 0 ∧ !supportPartial then .error .assertion
    else if !supportPartial ∧ |q - 1| ≥ 1 / 20 then .error (.custom "RuntimeError")
    else .ok (runTotals 0 0 ((outs.zip ins).map fun p => ⟨p.1.1, p.2, p.1.2, 0, 0⟩))

/-- `match_by_src` (carbon/routers/exact_base_router.py:41-57): the number of orders is not passed on. -/
def matchBySrc (orders : List (Curve K)) (x : K) (byTarget : Bool := false) (check : Bool := true) (_thresholdOrders : Nat := 100)
    (supportPartial : Bool := false) : Py (List (Action K)) :=
  matchWith check orders x byTarget [] supportPartial

/-- `match_by_target` (carbon/routers/exact_base_router.py:59-75): the number of orders is not passed on. -/
def matchByTarget (orders : List (Curve K)) (x : K) (byTarget : Bool := true) (check : Bool := true) (_thresholdOrders : Nat := 100)
    (supportPartial : Bool := false) : Py (List (Action K)) :=
  matchWith check orders x byTarget [] supportPartial

end

end Carbon.ExactRouter
