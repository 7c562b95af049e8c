import Verif.Carbon.OrderUI

/-!
# Model of the goal seek of `carbon/carbon_order_ui.py`
-/

namespace Carbon

open CarbonPair (pyDiv)

namespace UICurve

section
variable {K : Type} [Field K] [LinearOrder K]

/-- The loop of `goalseek` (carbon/carbon_order_ui.py:921-932), at most `n` rounds of it; `none` if it is not finished then. `fa` is
the value at the initial lower end; it is not updated. -/
def seekLoop (f : K → Py K) (fa eps : K) : Nat → K → K → Option (Py K)
  | 0, _, _ => none
  | n + 1, a, b =>
    let m := (a + b) / 2
    match f m with
    | .error e => some (.error e)
    | .ok fm =>
      let a' := if 0 < fm * fa then m else a
      let b' := if 0 < fm * fa then b else m
      match pyDiv b' a' with
      | .error e => some (.error e)
      | .ok q => if q - 1 < eps then some (.ok m) else seekLoop f fa eps n a' b'

/-- `goalseek` (carbon/carbon_order_ui.py:903-932), at most `n` rounds of its loop. -/
def goalseek (f : K → Py K) (a b : K) (n : Nat) (eps : K := 1 / 10 ^ 7) : Option (Py K) :=
  if ¬ a < b then some (.error .value)
  else
    match f a with
    | .error e => some (.error e)
    | .ok fa =>
      match f b with
      | .error e => some (.error e)
      | .ok fb => if ¬ fa * fb < 0 then some (.error .value) else seekLoop f fa eps n a b

end

end UICurve

end Carbon
