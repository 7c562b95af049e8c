import Verif.Sdk.Base

/-!
# Model of `pickle` and `unpickle` of `carbon/tools/optimizer.py`

The files of a directory are a function from names to contents. That `pickle.load` gives what `pickle.dump` wrote is taken as given, so that a
content is the object itself. The reading of the clock, `int(time.time()*100)`, is an argument. A name that cannot be opened for writing is
left out.
-/

namespace Carbon.Pickle

open Carbon

variable {α : Type}

/-- The files: what is there under a name. -/
abbrev Files (α : Type) := Str → Option α

/-- The extension of the names (optimizer.py:146, 148, 157). -/
def ext : Str := ".optimizer.pickle".toList

/-- The name that `pickle` writes to (optimizer.py:145-148). -/
def nameFor (base : Str) (addts : Bool) (clock : ℤ) : Str :=
  if addts then base ++ '.' :: (Sdk.intStr clock ++ ext) else base ++ ext

/-- `pickle` (optimizer.py:141-150); a file of the name is overwritten. -/
def pickle (fs : Files α) (obj : α) (base : Str) (clock : ℤ) (addts : Bool := true) : Files α :=
  fun n => if n = nameFor base addts clock then some obj else fs n

/-- `unpickle` (optimizer.py:153-160); `inst` says whether an object is of the class that is asked. -/
def unpickle (fs : Files α) (inst : α → Bool) (base : Str) : Py α :=
  match fs (base ++ ext) with
  | none => .error (.custom "FileNotFoundError")
  | some o => if inst o then .ok o else .error .assertion

end Carbon.Pickle
