import Verif.Tools.Optimizer

/-!
# Results of the optimizer for one pair
-/

namespace Carbon

open CarbonPair (pyDiv)

namespace Opt

section
variable {K : Type} [Field K] [LinearOrder K] [PySqrt K]

/-- `dxdyfromp_valy_f` (optimizer.py:971). -/
def valY (ws : List (Wrapped K)) (p : K) : Py K := do
  let v ← sumTrade ws p
  .ok (v.1 * p + v.2)

/-- `dxdyfromp_valx_f` (optimizer.py:975). -/
def valX (ws : List (Wrapped K)) (p : K) : Py K := do
  let v ← valY ws p
  pyDiv v p

/-- `deriv` (optimizer.py:224-229) of a function that may raise. -/
def derivE (f : K → Py K) (x : K) : Py K := do
  let a ← f (x + derivEps)
  let b ← f (x - derivEps)
  .ok ((a - b) / (2 * derivEps))

/-- `deriv2` (optimizer.py:232-237) of a function that may raise. -/
def deriv2E (f : K → Py K) (x : K) : Py K := do
  let a ← f (x + derivEps)
  let b ← f x
  let c ← f (x - derivEps)
  .ok ((a - 2 * b + c) / (derivEps * derivEps))

/-- One step of Newton's method (optimizer.py:269). A second derivative of zero raises; Python's floats do, NumPy's only warn. -/
def newton (f : K → Py K) (x : K) : Py K := do
  let d ← derivE f x
  let e ← deriv2E f x
  let q ← pyDiv d e
  .ok (x - q)

/-- `findmax`, which is `findminmax_nr` (optimizer.py:260-277), of a function that may raise; `none` is the error result. -/
def findmaxE (f : K → Py K) (x0 : K) : Nat → Option K
  | 0 => some x0
  | n + 1 =>
    match findmaxE f x0 n with
    | none => none
    | some x =>
      match newton f x with
      | .ok y => some y
      | .error _ => none

/-- What `simple_optimizer` is asked for (optimizer.py:940-947). -/
inductive SoResult where
  | vecFunc
  | sumFunc
  | valxFunc
  | valyFunc
  | pmax
  | globalmax
  | targettkn
  | unknown
  deriving DecidableEq

/-- What it returns. -/
inductive SoOut (K : Type) where
  | vec (f : K → Py (List (K × K)))
  | sum (f : K → Py (K × K))
  | val (f : K → Py K)
  | price (p : K)
  | result (s : Simple K)

/-- The search without a target (optimizer.py:985-993). The error result of the search raises when it is converted to a number
(optimizer.py:988, 194-197), before it can be returned as an error (optimizer.py:1009-1022). -/
def globalRun (ws : List (Wrapped K)) (result : SoResult) : Py (SoOut K) := do
  let ps ← ws.mapM wrappedP
  let p := ps.sum / ps.length
  match findmaxE (valX ws) p 20 with
  | none => .error .value
  | some q => do
    let v ← valX ws q
    if result = .pmax then .ok (.price q)
    else if result ≠ .globalmax then .error .value
    else .ok (.result ⟨ws, q, v⟩)

/-- `simple_optimizer(targettkn, result)` (optimizer.py:934-1034); at most `n` rounds of the goal seek. -/
def simpleRun (cs : List (CPC K)) (target : Option Str) (result : Option SoResult) (n : Nat) : Option (Py (SoOut K)) :=
  let ws := Wrapped.wrap cs
  match ws with
  | [] => some (.error .assertion)
  | w :: _ =>
    if ¬ ws.all (fun v => decide (wrappedPair v = wrappedPair w)) then some (.error .assertion)
    else if target = none ∧ result = some .targettkn then some (.error .assertion)
    else if target ≠ none ∧ result = some .globalmax then some (.error .assertion)
    else
      match result with
      | some .vecFunc => some (.ok (.vec fun p => ws.mapM (wrappedTrade p)))
      | some .sumFunc => some (.ok (.sum (sumTrade ws)))
      | some .valyFunc => some (.ok (.val (valY ws)))
      | some .valxFunc => some (.ok (.val (valX ws)))
      | r =>
        match r.getD (if target = none then .globalmax else .targettkn), target with
        | .targettkn, some t => (simpleOptimizer cs t n).map fun o => o.map .result
        | r, _ => some (globalRun ws r)

/-- `cid` of a curve or view (cpc.py:1723-1725). -/
def wrappedCid (w : Wrapped K) : Option Cid := w.unwrap1.cid

/-- `tknx` of a curve or view (cpc.py:1735-1737). -/
def wrappedX : Wrapped K → Str
  | .plain c => c.tknb
  | .inv i => i.curve.tknq

/-- `tkny` of a curve or view (cpc.py:1739-1741). -/
def wrappedY : Wrapped K → Str
  | .plain c => c.tknq
  | .inv i => i.curve.tknb

namespace Simple

/-- `tknx` (optimizer.py:866-868). -/
def tknx (s : Simple K) : Py Str :=
  match s.curves with
  | [] => .error .index
  | w :: _ => .ok (wrappedX w)

/-- `tkny` (optimizer.py:870-872). -/
def tkny (s : Simple K) : Py Str :=
  match s.curves with
  | [] => .error .index
  | w :: _ => .ok (wrappedY w)

/-- `dxdy_vec` (optimizer.py:904-906). -/
def dxdyVec (s : Simple K) : Py (List (K × K)) := s.curves.mapM (wrappedTrade s.price)

/-- `dxvalues` (optimizer.py:890-897). -/
def dxvalues (s : Simple K) : Py (List K) := do
  let v ← s.dxdyVec
  if v = [] then .error .index else .ok (v.map Prod.fst)

/-- `dyvalues` (optimizer.py:899-902). -/
def dyvalues (s : Simple K) : Py (List K) := do
  let v ← s.dxdyVec
  if v = [] then .error .index else .ok (v.map Prod.snd)

/-- `dxdy_sum` (optimizer.py:908-910). -/
def dxdySum (s : Simple K) : Py (K × K) := sumTrade s.curves s.price

/-- `dxdy_valx` (optimizer.py:912-915). -/
def valx (s : Simple K) : Py K := valX s.curves s.price

/-- `dxdy_valy` (optimizer.py:917-920). -/
def valy (s : Simple K) : Py K := valY s.curves s.price

end Simple

/-- The instructions for the curves that trade (optimizer.py:924-927). -/
def simpleInstructions (X Y : Str) : List (Wrapped K × K × K) → Py (List (TI K))
  | [] => .ok []
  | (w, dx, dy) :: l =>
    if dx ≠ 0 ∨ dy ≠ 0 then do
      let t ← TI.new (Cid.show (wrappedCid w)) X dx Y dy
      let ts ← simpleInstructions X Y l
      .ok (t :: ts)
    else simpleInstructions X Y l

/-- `trade_instructions` (optimizer.py:922-928), as objects. -/
def Simple.tradeInstructions (s : Simple K) : Py (List (TI K)) := do
  let dxs ← s.dxvalues
  let dys ← s.dyvalues
  let X ← s.tknx
  let Y ← s.tkny
  simpleInstructions X Y (s.curves.zip (dxs.zip dys))

end

end Opt

end Carbon
