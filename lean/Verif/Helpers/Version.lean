import Verif.Sdk.Token

/-!
# Model of `carbon/helpers/version.py`
-/

namespace Carbon.Version

open TokenC (splitChar)

/-- The characters matched by `[0-9\.]` (carbon/helpers/version.py:13). -/
def verChar (c : Char) : Bool := c.isDigit || c = '.'

/-- `int(x)` for the pieces of a version number: digits only, at least one (carbon/helpers/version.py:16). -/
def intOf (s : Str) : Py Nat := if s ≠ [] ∧ s.all Char.isDigit = true then .ok (Nat.ofDigitChars 10 s 0) else .error .value

/-- `split_version_str` (carbon/helpers/version.py:11-17). The pattern can match nothing, so that the test of line 14 never fires. -/
def splitVersion (vstr : Str) : Py (List Nat) :=
  (splitChar '.' ((CarbonPair.strip vstr).takeWhile verChar)).mapM intOf

/-- `_require_version` (carbon/helpers/version.py:40-54). -/
def requireLists (rl al : List Nat) : Bool := loop (rl.zip al)
where
  /-- The loop of lines 48-53 and the final comparison. -/
  loop : List (Nat × Nat) → Bool
    | [] => decide (rl.length ≤ al.length)
    | (r, a) :: rest => if a < r then false else if r < a then true else loop rest

/-- `require_version` (carbon/helpers/version.py:19-38). `own` is the version of the package. The result is the value returned, `none` for
Python's `None`. -/
def requireVersion (own required : Str) (actual : Option Str) (raiseonfail : Bool) : Py (Option Bool) := do
  let rl ← splitVersion required
  let al ← splitVersion (actual.getD own)
  if !raiseonfail then .ok (some (requireLists rl al))
  else if !requireLists rl al then .error (.custom "VersionRequirementNotMetError")
  else .ok none

end Carbon.Version
