import Mathlib.Algebra.Order.Field.Basic
import Verif.Tools.CpcContainer

/-!
# Model of `carbon/helpers/widgets.py`

The texts of the choices (`str(x)`) are given. The widgets of the library are records: a check box holds a truth value, a slider a number that is
moved into its bounds whenever it is set (`_BoundedFloat` of ipywidgets, which refuses a lower bound above the upper one), a drop-down list the
position of the selected entry (`_Selection`, which refuses positions and values it does not have). Boxes, layout and display are left out.
-/

namespace Carbon

namespace Widgets

/-- Choices (widgets.py:27-31, 147-151, 281-290): a list, or a dictionary with the displayed texts. -/
inductive Choices where
  | seq (l : List Str)
  | dict (l : List (Str × Str))
  deriving DecidableEq

/-- `tuple(str(x) for x in choices)`. -/
def Choices.ids : Choices → List Str
  | .seq l => l
  | .dict l => l.map Prod.fst

/-- `tuple(str(x) for x in choices.values())`, or the same as the ids. -/
def Choices.descr : Choices → List Str
  | .seq l => l
  | .dict l => l.map Prod.snd

/-! ### Check boxes -/

/-- A check box of the library. -/
structure Box where
  value : Bool
  descr : Str
  disabled : Bool
  deriving DecidableEq

/-- Flags: `None`, one for all, or one each. -/
inductive Flags where
  | none
  | all (b : Bool)
  | each (l : List Bool)
  deriving DecidableEq

/-- The flags of `n` items (widgets.py:39-47, 175-182). -/
def Flags.get (n : ℕ) : Flags → Py (List Bool)
  | .none => .ok (List.replicate n false)
  | .all b => .ok (List.replicate n b)
  | .each l => if l.length = n then .ok l else .error .value

/-- The argument `disabled` (widgets.py:49-55, 168-173). -/
def disabledOf (n : ℕ) : Option (List Bool) → Py (List Bool)
  | none => .ok (List.replicate n false)
  | some l => if l.length ≠ n then .error .value else .ok l

/-- `CheckboxManager` (widgets.py:9-24); an object is one of the caller's or a displayed text. -/
structure Checkboxes (O : Type) where
  ids : List Str
  descr : List Str
  objs : List (Str ⊕ O)
  initial : List Bool
  boxes : List Box
  deriving DecidableEq

section
variable {O : Type}

/-- The objects (widgets.py:33-38). -/
def objectsOf (c : Choices) : Option (List O) → Py (List (Str ⊕ O))
  | none => .ok (c.descr.map .inl)
  | some l => if l.length ≠ c.ids.length then .error .value else .ok (l.map .inr)

/-- The boxes (widgets.py:57-65). -/
def boxesOf (vals : List Bool) (descr : List Str) (dis : List Bool) : List Box :=
  ((vals.zip descr).zip dis).map fun x => ⟨x.1.1, x.1.2, x.2⟩

/-- `CheckboxManager(choices, values, objects, disabled)` (widgets.py:25-65). -/
def Checkboxes.make (c : Choices) (values : Flags := .none) (objects : Option (List O) := none) (disabled : Option (List Bool) := none) :
    Py (Checkboxes O) := do
  let objs ← objectsOf c objects
  let vals ← values.get c.ids.length
  let dis ← disabledOf c.ids.length disabled
  .ok ⟨c.ids, c.descr, objs, vals, boxesOf vals c.descr dis⟩

/-- `from_idvdct` (widgets.py:67-75): the keys and values of a dictionary of truth values. -/
def Checkboxes.fromIdvdct (d : List (Str × Bool)) (disabled : Option (List Bool) := none) : Py (Checkboxes O) :=
  Checkboxes.make (.seq (d.map Prod.fst)) (.each (d.map Prod.snd)) none disabled

/-- `values_dct` (widgets.py:94-97). -/
def Checkboxes.valuesDct (m : Checkboxes O) : List (Str × Bool) :=
  (m.ids.zip (m.boxes.map Box.value)).foldl (fun d kv => dictSet d kv.1 kv.2) []

/-- `values` (widgets.py:99-102). -/
def Checkboxes.values (m : Checkboxes O) : List Bool := m.boxes.map Box.value

/-- `checked` (widgets.py:108-111). -/
def Checkboxes.checked (m : Checkboxes O) : List Str := (m.valuesDct.filter fun kv => kv.2 = true).map Prod.fst

/-- `unchecked` (widgets.py:113-116). -/
def Checkboxes.unchecked (m : Checkboxes O) : List Str := (m.valuesDct.filter fun kv => kv.2 = false).map Prod.fst

/-- `objects` (widgets.py:118-120). -/
def Checkboxes.objects (m : Checkboxes O) (checked : Bool := true) : List (Str ⊕ O) :=
  ((m.objs.zip m.boxes).filter fun x => x.2.value = checked).map Prod.fst

/-- A click, or an assignment to `checkboxes[i].value`. -/
def Checkboxes.set (m : Checkboxes O) (i : ℕ) (v : Bool) : Checkboxes O :=
  { m with boxes := m.boxes.modify i fun b => { b with value := v } }

end

/-! ### Sliders -/

section
variable {K : Type} [Field K] [LinearOrder K]

/-- A slider of the library. -/
structure Slider (K : Type) where
  value : K
  min : K
  max : K
  descr : Str
  disabled : Bool
  deriving DecidableEq

/-- The nearest number within the bounds. -/
def clamp (lo hi x : K) : K := if x < lo then lo else if hi < x then hi else x

/-- `FloatSlider(value, min, max, ...)`. -/
def Slider.make (value lo hi : K) (descr : Str) (disabled : Bool) : Py (Slider K) :=
  if hi < lo then .error (.custom "TraitError") else .ok ⟨clamp lo hi value, lo, hi, descr, disabled⟩

/-- Moving a slider. -/
def Slider.set (s : Slider K) (x : K) : Slider K := { s with value := clamp s.min s.max x }

/-- The argument `values`: missing, a number, or one each. -/
inductive Vals (K : Type) where
  | none
  | one (x : K)
  | each (l : List K)
  deriving DecidableEq

/-- The initial values (widgets.py:153-166). -/
def Vals.get (n : ℕ) : Vals K → Py (List K)
  | .none => .ok (List.replicate n 0)
  | .one x => if x ≥ 0 ∧ x ≤ 1 then .ok (List.replicate n x) else .error .value
  | .each l => if l.length = n then .ok l else .error .value

/-- The argument `range`: a pair of bounds, or a list of such pairs. -/
inductive RangeArg (K : Type) where
  | one (lo hi : K)
  | each (l : List (K × K))
  deriving DecidableEq

/-- The bounds of the sliders (widgets.py:184-194, 199-200). The `except` at 191 also catches the exception about a wrong number of pairs; the
list of pairs then serves as bounds, which fails when the second bound does not exist or when the library is given a pair for a number. -/
def rangesOf (n : ℕ) (pm : List Bool) : Option (RangeArg K) → Py (List (K × K))
  | none => .ok (pm.map fun b => if b then (-1, 1) else (0, 1))
  | some (.one lo hi) => .ok (List.replicate n (lo, hi))
  | some (.each l) =>
    if l.length = n ∧ l ≠ [] then .ok l
    else if n = 0 then .ok []
    else if l.length ≤ 1 then .error .index
    else .error (.custom "TraitError")

/-- The attribute `range` after the sliders were made (widgets.py:184-194, 213): without the argument it is a generator, and used up. -/
def rangeAfter (n : ℕ) : Option (RangeArg K) → List (RangeArg K)
  | none => []
  | some (.one lo hi) => List.replicate n (.one lo hi)
  | some (.each l) => if l.length = n then l.map fun r => .one r.1 r.2 else List.replicate n (.each l)

/-- `PcSliderManager` (widgets.py:125-141). -/
structure Sliders (K : Type) where
  ids : List Str
  initial : List K
  pm : List Bool
  range : List (RangeArg K)
  sliders : List (Slider K)
  deriving DecidableEq

/-- `PcSliderManager(choices, values, pm, range, disabled)` (widgets.py:142-215). -/
def Sliders.make (c : Choices) (values : Vals K := .none) (pm : Flags := .none) (range : Option (RangeArg K) := none)
    (disabled : Option (List Bool) := none) : Py (Sliders K) :=
  if range ≠ none ∧ pm ≠ .none then .error .value
  else do
    let n := c.ids.length
    let vals ← values.get n
    let dis ← disabledOf n disabled
    let pms ← pm.get n
    let rgs ← rangesOf n pms range
    let sl ← (((vals.zip c.descr).zip dis).zip rgs).mapM fun x =>
      Slider.make (x.1.1.1 * 100) (x.2.1 * 100) (x.2.2 * 100) x.1.1.2 x.1.2
    .ok ⟨c.ids, vals, pms, rangeAfter n range, sl⟩

/-- `values` (widgets.py:249-252). -/
def Sliders.values (m : Sliders K) : List K := m.sliders.map fun s => s.value / 100

/-- `values_dct` (widgets.py:244-247). -/
def Sliders.valuesDct (m : Sliders K) : List (Str × K) :=
  (m.ids.zip m.values).foldl (fun d kv => dictSet d kv.1 kv.2) []

/-- Moving slider `i`. -/
def Sliders.set (m : Sliders K) (i : ℕ) (x : K) : Sliders K := { m with sliders := m.sliders.modify i fun s => s.set x }

end

/-! ### Drop-down lists -/

/-- A value the caller gives: its text, and whether it is a text itself. -/
structure Opt where
  text : Str
  isStr : Bool
  deriving DecidableEq

/-- The options: a list, or a dictionary with the labels. -/
inductive Options where
  | seq (l : List Opt)
  | dict (l : List (Opt × Str))
  deriving DecidableEq

/-- `tuple(str(x) for x in options)` (widgets.py:281, 292). -/
def Options.texts : Options → List Str
  | .seq l => l.map Opt.text
  | .dict l => l.map fun x => x.1.text

/-- The labels (widgets.py:282-290). -/
def labelsOf (o : Options) (labels : Option (List Str)) : Py (List Str) :=
  match o with
  | .dict l => if labels ≠ none then .error .value else .ok (l.map Prod.snd)
  | .seq _ => .ok (labels.getD o.texts)

/-- `DropdownManager` (widgets.py:262-275); `index` is the selected entry. -/
structure Dropdown where
  options : List Str
  labels : List Str
  entries : List (Str × Str)
  index : ℕ
  deriving DecidableEq

/-- `Dropdown(options, value)` of the library: the first entry that equals the value. -/
def findValue (entries : List (Str × Str)) (v : Opt) : Py ℕ :=
  if v.isStr ∧ v.text ∈ entries.map Prod.snd then .ok ((entries.map Prod.snd).idxOf v.text) else .error (.custom "TraitError")

/-- `Dropdown(options, index)` of the library. -/
def checkIndex (entries : List (Str × Str)) (i : ℤ) : Py ℕ :=
  if 0 ≤ i ∧ i < entries.length then .ok i.toNat else .error (.custom "TraitError")

/-- `DropdownManager(options, labels, defaultval, defaultix)` (widgets.py:276-319). The test at 310 is `(not ix >= 0) and (ix < n)`. -/
def Dropdown.make (o : Options) (labels : Option (List Str) := none) (defaultval : Option Opt := none) (defaultix : Option ℤ := none) :
    Py Dropdown :=
  if defaultval ≠ none ∧ defaultix ≠ none then .error .value
  else do
    let ls ← labelsOf o labels
    let entries := ls.zip o.texts
    match defaultval with
    | some v => do
      let i ← findValue entries v
      .ok ⟨o.texts, ls, entries, i⟩
    | none => do
      let ix := defaultix.getD 0
      if ¬ ix ≥ 0 ∧ ix < o.texts.length then .error .value
      else do
        let i ← checkIndex entries ix
        .ok ⟨o.texts, ls, entries, i⟩

/-- `value` (widgets.py:326-329). -/
def Dropdown.value (m : Dropdown) : Option Str := (m.entries[m.index]?).map Prod.snd

/-- `label` (widgets.py:331-334). -/
def Dropdown.label (m : Dropdown) : Option Str := (m.entries[m.index]?).map Prod.fst

/-- `result` (widgets.py:336-339). -/
def Dropdown.result (m : Dropdown) : Option Str × Option Str := (m.value, m.label)

/-- Choosing entry `i`; the library refuses positions that do not exist. -/
def Dropdown.choose (m : Dropdown) (i : ℕ) : Py Dropdown := do
  let j ← checkIndex m.entries i
  .ok { m with index := j }

end Widgets

end Carbon
