import Mathlib.Analysis.SpecialFunctions.Log.Basic
import Mathlib.Analysis.Real.Sqrt
import Verif.Sdk.Base

/-!
# Model of `carbon/helpers/pathinterpolation.py`

Numbers are reals; times and periods are numbers of days (rounding of timestamps to nanoseconds is left out). A series with timestamps is a
list of times with values. The draws of the random generator are arbitrary numbers, one for every place.
-/

namespace Carbon

namespace PathInt

open Sdk (roundHE)

/-- The increments of the bridge (pathinterpolation.py:36-37) for standard normal draws `z`. -/
noncomputable def increments (a b sig : ℝ) (n : ℕ) (z : ℕ → ℝ) : List ℝ :=
  let raw := (List.range n).map fun i => Real.sqrt (1 / n) * sig * (a + b) / 2 * z i
  raw.map (· + (-raw.sum + b - a) / n)

/-- `gaussian_bridge` (pathinterpolation.py:20-41). `normal` refuses a negative scale. The division by `b` in the assertion is one of numpy: for
zero it gives no number, and the assertion fails. `cumsum` after the insertion of `a` is `scanl`. -/
noncomputable def gaussianBridge (a b sig : ℝ) (n : ℕ) (z : ℕ → ℝ) : Py (List ℝ) :=
  if n = 0 then .ok [a, b]
  else if Real.sqrt (1 / n) * sig * (a + b) / 2 < 0 then .error .value
  else
    let path := (increments a b sig n z).scanl (· + ·) a
    match path.getLast? with
    | none => .error .index
    | some l =>
      if b ≠ 0 ∧ |l / b - 1| < 1 / 10 ^ 8 then .ok (path.dropLast ++ [b]) else .error .assertion

/-- `np.diff`. -/
def diffs (p : List ℝ) : List ℝ := p.zipWith (fun x y => y - x) p.tail

/-- `np.std`: the root of the mean squared distance from the mean. -/
noncomputable def std (l : List ℝ) : ℝ :=
  Real.sqrt ((l.map fun x => (x - l.sum / l.length) ^ 2).sum / l.length)

/-- `estimate_vol_np` (pathinterpolation.py:43-59). `math.sqrt` raises for a negative time, and the time of a single point is divided by zero;
zero times and paths that are not positive give no numbers in numpy, which is an error here. -/
noncomputable def estimateVolNp (path : List ℝ) (period : ℝ := 1) : Py (ℝ × ℝ) :=
  if path.length = 1 then .error .zeroDiv
  else if path.length = 0 then .error .value
  else
    let dt := period / (path.length - 1)
    if dt ≤ 0 then .error .value
    else if path.any (· ≤ 0) then .error .value
    else .ok (std (diffs path) / Real.sqrt dt, std (diffs (path.map Real.log)) / Real.sqrt dt)

/-- `estimate_vol` (pathinterpolation.py:61-72). -/
noncomputable def estimateVol (path : List (ℝ × ℝ)) : Py (ℝ × ℝ) :=
  match path.head?, path.getLast? with
  | some f, some l => estimateVolNp (path.map Prod.snd) ((l.1 - f.1) / 365.25)
  | _, _ => .error .index

/-- `interpolate_segment` (pathinterpolation.py:74-96) of two points. -/
noncomputable def segment (p q : ℝ × ℝ) (sig period : ℝ) (z : ℕ → ℝ) : Py (List (ℝ × ℝ)) :=
  let td := q.1 - p.1
  if td < period then .ok [p]
  else if period = 0 then .error .zeroDiv
  else
    let n := roundHE (td / period)
    if n = 0 then .error .zeroDiv
    else if td < 0 ∨ n < 0 then .error .value
    else do
      let vals ← gaussianBridge p.2 q.2 (sig * Real.sqrt (td / 365.25)) n.toNat z
      .ok (((List.range (n.toNat + 1)).map fun i : ℕ => p.1 + i * (td / n)).zip vals)

/-- The segments of `interpolate` without their last points (pathinterpolation.py:118-119); `z` has the draws of the segments. -/
noncomputable def segments (sig period : ℝ) : List (ℝ × ℝ) → (ℕ → ℕ → ℝ) → Py (List (ℝ × ℝ))
  | p :: q :: l, z => do
    let s ← segment p q sig period (z 0)
    let r ← segments sig period (q :: l) fun i => z (i + 1)
    .ok (s.dropLast ++ r)
  | _, _ => .ok []

/-- The volatility that `interpolate` uses (pathinterpolation.py:112-115). -/
noncomputable def sigma (path : List (ℝ × ℝ)) (sig sigfctr : Option ℝ) : Py ℝ :=
  match sig with
  | some s => .ok s
  | none => do
    let v ← estimateVol path
    .ok (v.2 * sigfctr.getD 1)

/-- `interpolate` (pathinterpolation.py:98-121); `concat` of nothing raises. -/
noncomputable def interpolate (path : List (ℝ × ℝ)) (period : ℝ) (z : ℕ → ℕ → ℝ) (sig sigfctr : Option ℝ := none) (enable : Bool := true) :
    Py (List (ℝ × ℝ)) :=
  if !enable then .ok path
  else do
    let s ← sigma path sig sigfctr
    if path.length ≤ 1 then .error .value
    else do
      let r ← segments s period path z
      .ok (r ++ path.getLast?.toList)

end PathInt

end Carbon
