import Verif.Tools.ConvexOpt
import Verif.Tools.TITable

/-!
# Model of the result of the convex optimizer (`carbon/tools/optimizer.py`, lines 80-126, 162-199 and 360-492)

The solver is a parameter: what it leaves behind is the status of the problem, the returned value and the values of the variables.
-/

namespace Carbon

open CarbonPair (pyDiv)

namespace Opt

section
variable {K : Type} [Field K] [LinearOrder K] [PySqrt K]

/-- `problem_result` (optimizer.py:778-795): nothing with `nosolve`, the value of the objective, or the text of a `SolverError`. -/
inductive Outcome (K : Type) where
  | nothing
  | value (v : K)
  | message (m : Str)
  deriving DecidableEq

/-- What is left after the call of the solver (optimizer.py:776-795): `status` of the problem (`None` if it has not been solved), the result,
and the values of the variables (`None` if there are none). -/
structure Solved (K : Type) where
  status : Option Str
  outcome : Outcome K
  dx : Option (List K)
  dy : Option (List K)

/-- The scale of a `ScaledVariable` (optimizer.py:87): a number or one for each entry. -/
inductive Scale (K : Type) where
  | one (s : K)
  | each (l : List K)

/-- `ScaledVariable` (optimizer.py:81-101). -/
structure ScaledVar (K : Type) where
  raw : Option (List K)
  scale : Scale K

/-- `ScaledVariable(variable, scale, token)` (optimizer.py:90-101): without values nothing is checked. -/
def ScaledVar.make (raw : Option (List K)) (scale : Scale K) (token : Option (List Str)) : Py (ScaledVar K) :=
  match raw with
  | none => .ok ⟨none, scale⟩
  | some v =>
    match scale with
    | .one s => if ∃ t ∈ token, t.length ≠ v.length then .error .value else .ok ⟨some v, .one s⟩
    | .each l =>
      if l.length ≠ v.length then .error .value
      else if ∃ t ∈ token, t.length ≠ v.length then .error .value
      else .ok ⟨some v, .each l⟩

/-- `value` (optimizer.py:103-121); `np.array(None)` divided by a scale raises, and the value `None` itself is returned. Scales that are zero
(`inf` or `nan` in numpy) are not modelled. -/
def ScaledVar.value (s : ScaledVar K) : Option (List K) :=
  match s.raw, s.scale with
  | none, _ => none
  | some v, .one c => some (v.map fun a => a / c)
  | some v, .each l => some ((v.zip l).map fun al => al.1 / al.2)

/-- `NofeesOptimizerResult` (optimizer.py:395-423), as `nofees_optimizer` makes it. (The assertions of its constructor that `problem`, `dx` and
`dy` are set do not notice that one is left out: the default is then the property of the same name.) -/
structure NofeesResult (K : Type) where
  curves : CC K
  status : Option Str
  outcome : Outcome K
  dx : ScaledVar K
  dy : ScaledVar K

/-- The result of `nofees_optimizer` (optimizer.py:796-812). -/
def nofeesResult (s : SCC K) (r : Solved K) : Py (NofeesResult K) := do
  let rows := s.cc.curves.zip s.own
  let dx ← ScaledVar.make r.dx (.each (rows.map fun c => c.2 c.1.tknb)) (some (rows.map fun c => c.1.tknb))
  let dy ← ScaledVar.make r.dy (.each (rows.map fun c => c.2 c.1.tknq)) (some (rows.map fun c => c.1.tknq))
  .ok ⟨s.cc, r.status, r.outcome, dx, dy⟩

namespace NofeesResult

/-- `float(result)` (optimizer.py:177-178). The text of an error is not a number. -/
def toFloat (r : NofeesResult K) : Py K :=
  match r.outcome with
  | .nothing => .error .type
  | .value v => .ok v
  | .message _ => .error .value

/-- `isinstance(self.result, str)` (optimizer.py:384, 391). -/
def isMessage (r : NofeesResult K) : Bool :=
  match r.outcome with
  | .message _ => true
  | _ => false

/-- `is_error` (optimizer.py:381-384). -/
def isError (r : NofeesResult K) : Bool := decide (r.status ≠ some "optimal".toList) || r.isMessage

/-- The status in a text. -/
def statusText (r : NofeesResult K) : Str := r.status.getD "None".toList

/-- `error` (optimizer.py:386-393). -/
def error (r : NofeesResult K) : Option Str :=
  if ¬ r.isError then none
  else
    match r.outcome with
    | .message m => some (m ++ " [".toList ++ r.statusText ++ "]".toList)
    | _ => some r.statusText

/-- `dxvalues` (optimizer.py:453-456). -/
def dxvalues (r : NofeesResult K) : Option (List K) := r.dx.value

/-- `dyvalues` (optimizer.py:458-461). -/
def dyvalues (r : NofeesResult K) : Option (List K) := r.dy.value

/-- `curves_new` (optimizer.py:428-432), with the test for `None` of `adjust_curves` (optimizer.py:1424-1429). -/
def curvesNew (r : NofeesResult K) : Py (Option (CC K)) :=
  if r.isError then .error .assertion
  else
    match r.dxvalues with
    | none => .ok none
    | some v => adjustCurves r.curves v

/-- `zip(self.curves, self.dxvalues, self.dyvalues)` (optimizer.py:448, 472, 479): `TypeError` for `None`. -/
def lines (r : NofeesResult K) : Py (List (CPC K × K × K)) :=
  match r.dxvalues, r.dyvalues with
  | some dx, some dy => .ok (r.curves.curves.zip (dx.zip dy))
  | _, _ => .error .type

/-- `trade_instructions` (optimizer.py:434-450), the list of objects. -/
def tradeInstructions (r : NofeesResult K) : Py (List (TI K)) := do
  let l ← r.lines
  instructions l

/-- `dxdydf` (optimizer.py:463-492), not pretty. -/
def dxdydf (r : NofeesResult K) (inclk := false) : Py (Frame K) := do
  let l ← r.lines
  dxdyDf l inclk

end NofeesResult

end

end Opt

end Carbon
