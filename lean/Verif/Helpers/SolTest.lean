import Verif.Carbon.Pair
import Mathlib.Algebra.Order.Field.Basic
import Mathlib.Analysis.SpecialFunctions.Log.Base
import Mathlib.Algebra.Order.Floor.Ring
import Mathlib.Data.Rat.Floor

/-!
# Model of `carbon/helpers/soltest.py` and of the comparison functions in `carbon/helpers/stdimports.py`
-/

namespace Carbon.SolTest

/-- `SolTestBase` (carbon/helpers/soltest.py:25-33): the three levels; the context is not modelled. -/
structure T where
  printLvl : Int
  raiseLvl : Int
  storeLvl : Int
  deriving DecidableEq, Repr

/-- `__init__` with the defaults of carbon/helpers/soltest.py:26-28, 51-58. -/
def T.make (printLvl raiseLvl storeLvl : Option Int) : T := ⟨printLvl.getD 1, raiseLvl.getD 9, storeLvl.getD 9⟩

/-- `bindig` (carbon/helpers/soltest.py:46-49). -/
noncomputable def bindig (num : Int) : Int := ⌈Real.logb 2 ((num : ℝ) + 1)⌉

/-- A printed message: level and overflow flag. -/
structure Msg where
  level : Int
  overflow : Bool
  deriving DecidableEq, Repr

/-- The exception raised for a level and a flag, `_EXCEPTIONS` (carbon/helpers/soltest.py:67-76). -/
def exception (level : Int) (overflow : Bool) : Err :=
  if level = 1 then (if overflow then .custom "OverflowWarning" else .custom "UnderflowWarning")
  else if level = 2 then (if overflow then .custom "OverflowError" else .custom "UnderflowError")
  else .key

/-- `raise_f` (carbon/helpers/soltest.py:92-97). -/
def raiseF (t : T) (level : Int) (overflow : Bool) : Py Unit :=
  if level < t.raiseLvl then .ok () else .error (exception level overflow)

/-- `print_f` (carbon/helpers/soltest.py:99-106): what is printed. -/
def printF (t : T) (level : Int) (overflow : Bool) : List Msg := if level < t.printLvl then [] else [⟨level, overflow⟩]

/-- `print_raise_f` (carbon/helpers/soltest.py:108-111): what is printed and whether it raises. -/
def printRaiseF (t : T) (level : Int) (overflow : Bool) : List Msg × Py Unit := (printF t level overflow, raiseF t level overflow)

/-- The branches of `check_uint256` (carbon/helpers/soltest.py:131-145): level, flag and the number returned unless `log_f` raises.
Simplification: the threshold `OVERFLOW_ERR/UNDERFLOW_WARN` is exact. -/
def branch (n : Int) : Int × Bool × Int :=
  if n < 0 then (2, true, 0)
  else if n < 100 then (2, false, n)
  else if n < 10000 then (1, false, n)
  else if n ≥ 2 ^ 256 then (2, true, n)
  else if (n : ℚ) ≥ 2 ^ 256 / 10000 then (1, true, n)
  else (0, false, n)

/-- `int(number)`. -/
def toInt (x : ℚ) : Int := if 0 ≤ x then ⌊x⌋ else ⌈x⌉

/-- `check_uint256` with the default `log_f`, and `__call__` (carbon/helpers/soltest.py:118-150). -/
def check (t : T) (number : ℚ) : List Msg × Py Int :=
  let b := branch (toInt number)
  let o := printRaiseF t b.1 b.2.1
  (o.1, o.2.bind fun _ => .ok b.2.2)

end Carbon.SolTest

namespace Carbon.StdImports

/-- Numbers and other values compared by `iseq`. -/
inductive PyVal (K : Type) where
  | num (x : K)
  | other (s : Str)
  deriving DecidableEq, Repr

variable {K : Type} [Field K] [LinearOrder K]

/-- `iseq` (carbon/helpers/stdimports.py:25-50). The `return True` of lines 40 and 44 is inside the loop. -/
def iseq (arg0 : PyVal K) (args : List (PyVal K)) (eps : K) : Py Bool :=
  match args, arg0 with
  | [], _ => .error .value
  | .num a :: _, .num b => if b = 0 then .ok (!decide (eps < |a|)) else .ok (!decide (eps < |a / b - 1|))
  | .other _ :: _, .num _ => .error .type
  | _, .other s => .ok (args.all fun a => decide (a = .other s))

/-- What `raises` returns: `False` or the text of the exception (carbon/helpers/stdimports.py:52-64). -/
def raises {α : Type} (result : Except Str α) : Option Str :=
  match result with
  | .ok _ => none
  | .error msg => some msg

/-- The truth value of what `raises` returns, as used by `assert raises(...)`: an empty text is false. -/
def truthy (r : Option Str) : Bool :=
  match r with
  | none => false
  | some s => !s.isEmpty

end Carbon.StdImports
