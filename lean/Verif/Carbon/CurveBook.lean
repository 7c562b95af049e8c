import Verif.Carbon.OrderUI

/-!
# Model of the order book calculations of `CarbonCurves.py` (lines 170-255)

The amounts that a list of orders releases, and receives, when the market moves to a price.
-/

namespace Carbon.UICurve

/-- `dy_f = lambda p: sum(o.dyfromp_f(p) for o in orders)` (CarbonCurves.py:214). -/
noncomputable def bookDy (orders : List (UICurve ℝ)) (p : ℝ) : Py ℝ :=
  orders.foldlM (fun s o => do let dy ← o.dyfrompF p; .ok (s + dy)) 0

/-- `dx_f = lambda p: sum(o.dxfromdy_f(o.dyfromp_f(p)) for o in orders)` (CarbonCurves.py:216). A `None` among the terms makes the sum raise `TypeError`. -/
noncomputable def bookDx (orders : List (UICurve ℝ)) (p : ℝ) : Py ℝ :=
  orders.foldlM (fun s o => do
    let dy ← o.dyfrompF p
    match ← o.dxfromdyF dy with
    | some dx => .ok (s + dx)
    | none => .error .type) 0

/-- The effective price of a release (CarbonCurves.py:236, 251): nothing if nothing is released. -/
noncomputable def effective (dx dy : ℝ) : Option ℝ := if dy > 0 then some (dx / dy) else none

end Carbon.UICurve
