import Mathlib.Logic.Function.Basic
import Verif.Carbon.OrderUI

/-!
# Order curves as objects that refer to each other

`CarbonOrderUI` (carbon/carbon_order_ui.py) with its attributes `id` and `linked`, without simplifying the links: a curve may be linked to any
other curve or to itself, several curves may be linked to the same one. A heap gives the contents of every object; references are numbers.
The attribute `linked` is set by `set_linked` and by the constructor's argument of that name, which is not modelled.
-/

namespace Carbon.UICurve

/-- The contents of a `CarbonOrderUI` object (carbon/carbon_order_ui.py:72-79). -/
structure Cell (K : Type) where
  curve : UICurve K
  id : Option Nat
  link : Option Nat
  deriving DecidableEq, Repr

/-- All objects. References that are not in use hold arbitrary contents. -/
abbrev Heap (K : Type) := Nat → Cell K

namespace Heap

section
variable {K : Type} [Field K] [LinearOrder K]

/-- Assignment to attributes of the curve. -/
def put (h : Heap K) (i : Nat) (c : UICurve K) : Heap K := Function.update h i { h i with curve := c }

/-- `set_id` (carbon/carbon_order_ui.py:109-114). -/
def setId (h : Heap K) (i : Nat) (id : Nat) : Py Unit × Heap K :=
  match (h i).id with
  | some _ => (.error .value, h)
  | none => (.ok (), Function.update h i { h i with id := some id })

/-- `set_linked` (carbon/carbon_order_ui.py:123-140). -/
def setLinked (h : Heap K) (i j : Nat) : Py Unit × Heap K :=
  match (h i).link with
  | some _ => (.error .value, h)
  | none => (.ok (), Function.update h i { h i with link := some j })

/-- `lid` (carbon/carbon_order_ui.py:116-121). -/
def lid (h : Heap K) (i : Nat) : Option Nat :=
  match (h i).link with
  | none => none
  | some j => (h j).id

/-- `addliqy` (carbon/carbon_order_ui.py:1059-1090). -/
def addliqy (h : Heap K) (i : Nat) (dy : K) (expandcurve := true) : Py Unit × Heap K :=
  let r := (h i).curve.addliqy dy expandcurve
  (r.1, put h i r.2)

/-- carbon/carbon_order_ui.py:990-993. An object counts as true, so that the test is for `None`. -/
def credit (h : Heap K) (i : Nat) (dx : K) : Py Unit × Heap K :=
  match (h i).link with
  | none => (.ok (), h)
  | some j => addliqy h j dx

/-- carbon/carbon_order_ui.py:986-1017. -/
def finish (h : Heap K) (i : Nat) (dy ynew : K) (execute expanded : Bool) (yold : K) (pold pnew : Option K) :
    Py (Option (Sale K)) × Heap K :=
  match (h i).curve.dxfromdyF dy false true with
  | .error e => (.error e, h)
  | .ok none => (.error .type, h)
  | .ok (some dx) =>
    let h1 := if execute then put h i { (h i).curve with y := ynew } else h
    let cr := credit h1 i dx
    match cr.1 with
    | .error e => (.error e, cr.2)
    | .ok () =>
      match (cr.2 i).curve.xfromyF ynew with
      | .error e => (.error e, cr.2)
      | .ok x => (.ok (some ⟨execute, yold, ynew, dy, dx, expanded, x, pold, pnew⟩), cr.2)

/-- carbon/carbon_order_ui.py:960-984. -/
def core (h : Heap K) (i : Nat) (dy : K) (execute expandcurve raiseonerror : Bool) : Py (Option (Sale K)) × Heap K :=
  let c := (h i).curve
  match c.pMarg, c.pMargF dy false false with
  | .error e, _ => (.error e, h)
  | _, .error e => (.error e, h)
  | .ok pold, .ok pnew =>
    let ynew := c.y - dy
    if ynew < -EPS then (failWith raiseonerror .value, h)
    else if ynew > c.yint then
      if !expandcurve then (failWith raiseonerror .value, h)
      else
        let h1 := if execute then put h i { c with yint := ynew } else h
        finish h1 i dy ynew execute true c.y pold pnew
    else finish h i dy (if ynew < 0 then 0 else ynew) execute false c.y pold pnew

/-- `selly` (carbon/carbon_order_ui.py:935-1017). -/
def selly (h : Heap K) (i : Nat) (dy : K) (execute := true) (allowneg := true) (expandcurve := false)
    (raiseonerror := false) : Py (Option (Sale K)) × Heap K :=
  if dy < 0 ∧ !allowneg ∧ dy < -EPS then (failWith raiseonerror .value, h)
  else
    let dy1 := if dy < 0 ∧ !allowneg then 0 else dy
    if |dy1| < EPS then core h i 0 false expandcurve raiseonerror
    else core h i dy1 execute expandcurve raiseonerror

/-- `buyx` (carbon/carbon_order_ui.py:1019-1034). -/
def buyx (h : Heap K) (i : Nat) (dx : K) (execute := true) (allowneg := true) (expandcurve := false)
    (raiseonerror := false) : Py (Sale K) × Heap K :=
  match (h i).curve.dyfromdxF dx false true with
  | .error e => (.error e, h)
  | .ok none => (.error .type, h)
  | .ok (some dy) =>
    let r := selly h i dy execute allowneg expandcurve raiseonerror
    match r.1 with
    | .error e => (.error e, r.2)
    | .ok none => (.error .type, r.2)
    | .ok (some s) => (.ok s, r.2)

/-- `==` of `CarbonPair` objects, generated by `@dataclass` (carbon/pair.py:20-43): the declared fields, of which `slashpair` is a function of
the two names. -/
def pairEq (p q : CarbonPair) : Bool := decide (p.tknb = q.tknb) && decide (p.tknq = q.tknq) && (p.displayOrig == q.displayOrig)

/-- `==` of `CarbonOrderUI` objects, generated by `@dataclass` (carbon/carbon_order_ui.py:33, 72-79): the tuples of the fields are compared, for
each of which identical objects count as equal. The first argument is the remaining depth of the interpreter's stack. -/
def eq : Nat → Heap K → Nat → Nat → Py Bool
  | 0, _, _, _ => .error (.custom "RecursionError")
  | fuel + 1, h, i, j =>
    let a := h i
    let b := h j
    if pairEq a.curve.pair b.curve.pair && decide (a.curve.tkn = b.curve.tkn) && decide (a.curve.B = b.curve.B) &&
        decide (a.curve.S = b.curve.S) && decide (a.curve.yint = b.curve.yint) && decide (a.curve.y = b.curve.y) &&
        decide (a.id = b.id) then
      match a.link, b.link with
      | none, none => .ok true
      | some k, some l => if k = l then .ok true else eq fuel h k l
      | _, _ => .ok false
    else .ok false

/-- Calls of the methods that change objects. -/
inductive Op (K : Type) where
  | setId (i id : Nat)
  | setLinked (i j : Nat)
  | addliqy (i : Nat) (dy : K) (expandcurve : Bool)
  | selly (i : Nat) (dy : K) (execute allowneg expandcurve raiseonerror : Bool)
  | buyx (i : Nat) (dx : K) (execute allowneg expandcurve raiseonerror : Bool)

/-- The objects after a call, whether or not it raises. -/
def step (h : Heap K) : Op K → Heap K
  | .setId i id => (setId h i id).2
  | .setLinked i j => (setLinked h i j).2
  | .addliqy i dy e => (addliqy h i dy e).2
  | .selly i dy ex an ec r => (selly h i dy ex an ec r).2
  | .buyx i dx ex an ec r => (buyx h i dx ex an ec r).2

/-- The objects after a sequence of calls. -/
def run (h : Heap K) (ops : List (Op K)) : Heap K := ops.foldl step h

end

end Heap

end Carbon.UICurve
