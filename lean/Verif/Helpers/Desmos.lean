import Verif.Helpers.Formulas

/-!
# Model of `to_desmos` of `resources/whitepaper/formulalib.py`

A formula is the text that `str` gives for it; an equation has two sides, each a formula or an equation.
-/

namespace Carbon

/-- `str.replace` for a text that is not empty: from left to right, without overlaps (used in formulalib.py:310-314). -/
def replaceAll (old new : Str) : Str → Str
  | [] => []
  | c :: t =>
    if old ≠ [] ∧ old.isPrefixOf (c :: t) then new ++ replaceAll old new (t.drop (old.length - 1)) else c :: replaceAll old new t
termination_by s => s.length
decreasing_by
  · simp only [List.length_drop, List.length_cons]; omega
  · simp

/-- A SymPy formula, as its text, or equation. -/
inductive Formula where
  | text (s : Str)
  | eq (lhs rhs : Formula)

/-- What `to_desmos` returns: a text, or the two sides of an equation. -/
inductive Desmos where
  | text (s : Str)
  | pair (lhs rhs : Desmos)

/-- The replacements of `to_desmos` (formulalib.py:309-315). -/
def desmosText (s : Str) : Str :=
  let s := replaceAll "**".toList "^".toList s
  let s := replaceAll "*".toList " ".toList s
  let s := replaceAll "/".toList " / ".toList s
  let s := replaceAll "(".toList " (".toList s
  replaceAll ")".toList ") ".toList s

/-- `to_desmos` of a formula (formulalib.py:304-315). -/
def toDesmos : Formula → Desmos
  | .text s => .text (desmosText s)
  | .eq l r => .pair (toDesmos l) (toDesmos r)

/-- `to_desmos` of a key (formulalib.py:300-303). -/
def Formulas.toDesmos (s : Formulas Formula) (key : Str) : Py Desmos := do
  match ← s.getitem key (some true) with
  | some f => .ok (Carbon.toDesmos f)
  | none => .error .attr

end Carbon
