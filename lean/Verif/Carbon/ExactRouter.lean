import Verif.Carbon.FastRouter

/-!
# Model of `carbon/routers/exact_base_router.py` and `exact_router_x0y0n.py` (`ExactRouterX0Y0N`)

Logging is not modelled; for the rounding of the reported amounts (`frmt`) see `SimulatorRounded.lean`.
-/

namespace Carbon.ExactRouter

open CarbonPair (pyDiv)

/-- The numbers the router reads from an order: `n`, `x0`, `y0`, `y`, `x` (carbon/order.py:94-139). -/
structure Par (K : Type) where
  n : K
  x0 : K
  y0 : K
  y : K
  x : K
  deriving DecidableEq, Repr

section
variable {K : Type} [Field K] [LinearOrder K] [PySqrt K]

/-- Reading the numbers from an order. In the code they are recomputed at every use; here an exception in one of them
is raised at the start. -/
def par (c : Curve K) : Py (Par K) := do
  let n ← c.n
  let x0 ← c.x0
  let y0 ← c.y0
  let x ← c.x
  .ok ⟨n, x0, y0, c.y, x⟩

/-- `k` (carbon/order.py:107-111). -/
def Par.k (p : Par K) : K := p.x0 * p.y0

/-- `a` (carbon/order.py:113-115). -/
def Par.a (p : Par K) : K := p.k * (p.n - 1) - p.n * p.x0 * p.y

/-- `dxdy` (carbon/routers/exact_base_router.py:18-29). -/
def dxdy (o : Nat → Par K) (i : Nat) (dy : K) : Py K :=
  let p := o i
  pyDiv (-p.x0 * p.y0 * dy) ((p.n * p.y + p.y0 * (1 - p.n)) * (p.n * (p.y + dy) + p.y0 * (1 - p.n)))

/-- `subject_free_indexes` (carbon/routers/exact_router_x0y0n.py:91, 119). -/
def free (subject : Nat) (subset : List Nat) : List Nat := subset.filter (· ≠ subject)

/-- Product of the `n` of the other orders except `j` (carbon/routers/exact_router_x0y0n.py:97-100, 124-126). -/
def prodN (o : Nat → Par K) (l : List Nat) (j : Nat) : K := ((l.filter (· ≠ j)).map fun i => (o i).n).prod

/-- `amt_by_target` (carbon/routers/exact_router_x0y0n.py:53-83) with `handle_subfunctions_target` (113-158). -/
def amtByTarget (o : Nat → Par K) (subject : Nat) (dx : K) (subset : List Nat) : Py K :=
  let s := o subject
  let f := free subject subset
  let a := (f.map fun i => (o i).n).prod
  let b := (f.map fun i => (o i).y).sum - (f.map fun i => (o i).y0).sum
  let c := (f.map fun j => prodN o f j * (o j).y0).sum
  let d := -(s.n * s.y + s.y0 * (1 - s.n))
  let e := (f.map fun j => prodN o f j * PySqrt.sqrt ((o j).x0 * (o j).y0 * s.x0 * s.y0)).sum
  pyDiv (s.x0 * s.y0 * (a * (b + dx) + c) + d * e) (s.n * e + s.x0 * s.y0 * a)

/-- `amt_by_src` (carbon/routers/exact_router_x0y0n.py:21-51) with `handle_subfunctions_src` (85-111) and `b_src`
(160-188). -/
def amtBySrc (o : Nat → Par K) (subject : Nat) (dx : K) (subset : List Nat) : Py K :=
  let s := o subject
  let f := free subject subset
  let c := (f.map fun i => prodN o f i * (o i).x0).sum
  let e := (f.map fun i => prodN o f i * PySqrt.sqrt (s.k * (o i).k)).sum
  let ff := s.k * (f.map fun i => (o i).n).prod
  let g := -dx + (f.map fun i => (o i).x0 - (o i).x).sum
  let d := -s.n * s.x0 + s.n * s.x + s.x0
  let b := -c * s.k + d * e + ff * g
  pyDiv (s.a ^ 2 * b) (s.x0 * (s.a * b * s.n + s.k * s.x0 * (e * s.n + ff)))

/-- The inner loop (carbon/routers/exact_base_router.py:122-144): the partial swaps of the current subset; orders with
a positive one are dropped and the rest recomputed. `prev` are the partial swaps of the previous round, which survive
if no order is left. The first argument bounds the number of rounds; every round but the last drops an order. -/
def inner (swap : Nat → List Nat → Py K) : Nat → List Nat → List (Nat × K) → Py (List (Nat × K))
  | 0, _, _ => .error (.custom "diverges")
  | fuel + 1, subset, prev =>
    if subset.isEmpty then .ok prev
    else do
      let part ← subset.mapM fun i => do
        let v ← swap i subset
        .ok (i, v)
      if part.all fun p => p.2 ≤ 0 then .ok part
      else inner swap fuel (subset.filter fun i => !(part.any fun p => p.1 == i && decide (0 < p.2))) part

/-- The outer loop (carbon/routers/exact_base_router.py:101-160): orders that would be overdrawn are fixed at their
whole content, and the rest of the amount is distributed again. `avail` are the usable positions. The number of rounds
is bounded because every round but the last fixes an order. -/
def outer (swap : K → Nat → List Nat → Py K) (flow : Nat → K → Py K) (y : Nat → K) (avail : List Nat) (x : K) :
    Nat → List (Nat × K) → Py (List (Nat × K))
  | 0, _ => .error (.custom "diverges")
  | fuel + 1, final => do
    let fl ← final.mapM fun p => flow p.1 p.2
    let amt := x - fl.sum
    let subset := avail.filter fun i => !(final.any fun p => p.1 == i) && decide (y i ≠ 0)
    let part ← inner (swap amt) (subset.length + 1) subset []
    let ex := part.filter fun p => y p.1 + p.2 < 0
    if ex.isEmpty then .ok (final ++ part)
    else outer swap flow y avail x fuel (final ++ ex.map fun p => (p.1, -y p.1))

/-- The distribution of `x` over the usable positions: loops of `match` plus the removal of zero amounts
(carbon/routers/exact_base_router.py:101-165). By target the amounts already fixed count as they are (line 108), by
source with what they cost (line 110). -/
def distribute (o : Nat → Par K) (avail : List Nat) (x : K) (byTarget : Bool) : Py (List (Nat × K)) := do
  let swap := fun amt i s => if byTarget then amtByTarget o i amt s else amtBySrc o i amt s
  let flow := fun i v => if byTarget then .ok v else dxdy o i v
  let swaps ← outer swap flow (fun i => (o i).y) avail x (avail.length + 1) []
  .ok (swaps.filter fun p => p.2 ≠ 0)

/-- Running totals (carbon/routers/exact_base_router.py:166-180, 226-240). -/
def runTotals : K → K → List (Action K) → List (Action K)
  | _, _, [] => []
  | ti, tot, a :: rest =>
    { a with totalInput := ti + a.input, totalOutput := tot + a.output } ::
      runTotals (ti + a.input) (tot + a.output) rest

/-- `ExactBase.match` (carbon/routers/exact_base_router.py:77-241) with `check_sufficient_liquidity=True`, the default.
`matchlevel` is `use_positions_matchlevel`. -/
def matchExact (orders : List (Curve K)) (x : K) (byTarget : Bool) (matchlevel : List Nat) (supportPartial : Bool) :
    Py (List (Action K)) := do
  let ps ← orders.mapM par
  let o : Nat → Par K := fun i => ps.getD i ⟨0, 0, 0, 0, 0⟩
  let indexes := List.range orders.length
  let avail := if matchlevel.isEmpty then indexes else indexes.filter (· ∈ matchlevel)
  let liquidity := ((if matchlevel.isEmpty then indexes else matchlevel).map fun i => (o i).y).sum
  -- lines 94-98, with `sufficient_liquidity_exists` (base_router.py:168-186)
  if byTarget ∧ matchlevel.any (fun i => decide (orders.length ≤ i)) then .error .index
  else if byTarget ∧ liquidity - |x| < 0 ∧ !supportPartial then .error .assertion
  else do
    let x := if byTarget ∧ liquidity - |x| < 0 ∧ liquidity = 0 then 0 else x
    let outs ← distribute o avail x byTarget
    let ins ← outs.mapM fun p => dxdy o p.1 p.2
    -- lines 183-223
    let actual := if byTarget then (outs.map Prod.snd).sum else ins.sum
    let q ← pyDiv x actual
    if !byTarget ∧ actual - x < 0 ∧ !supportPartial then .error .assertion
    else if !supportPartial ∧ |q - 1| ≥ 1 / 20 then .error (.custom "RuntimeError")
    else .ok (runTotals 0 0 ((outs.zip ins).map fun p => ⟨p.1.1, p.2, p.1.2, 0, 0⟩))

end

end Carbon.ExactRouter
