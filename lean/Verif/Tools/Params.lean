import Verif.Tools.CpcContainer

/-!
# Model of `carbon/tools/params.py`

A parameter object is mutable; a method that changes it is a function from the object to its result and the changed object. Keyword
arguments are lists of names and values. `None` as the answer for an unknown name is `none`. The printed form is left out.
-/

namespace Carbon

/-- `Params` (params.py:7-42). -/
structure Params (V : Type) where
  params : List (Str × V)
  defaults : Option (List (Str × V))
  deriving DecidableEq

namespace Params

variable {V : Type}

/-- The constructor (params.py:40-42). -/
def new (kw : List (Str × V)) : Params V := ⟨kw, none⟩

/-- What can be given to `construct`: nothing, a dictionary or a parameter object. -/
inductive Source (V : Type) where
  | nothing
  | dict (d : List (Str × V))
  | obj (p : Params V)

/-- The defaults are stored if they are not empty (params.py:67-68). -/
def withDefaults (p : Params V) (defaults : Option (List (Str × V))) : Params V :=
  match defaults with
  | some (kv :: d) => { p with defaults := some (kv :: d) }
  | _ => p

/-- `construct` (params.py:44-69). -/
def construct (src : Source V) (defaults : Option (List (Str × V)) := none) : Py (Params V) :=
  match src with
  | .nothing => .ok (withDefaults (new []) defaults)
  | .dict d => .ok (withDefaults (new d) defaults)
  | .obj p =>
    if p.defaults.isSome ∧ defaults.isSome then .error .value
    else .ok (withDefaults (new p.params) defaults)

/-- `set` (params.py:121-134). -/
def set (p : Params V) (item : Str) (value : V) (allowupdate := true) : Py Unit × Params V :=
  if allowupdate = false ∧ (dictGet p.params item).isSome then (.error .value, p)
  else (.ok (), { p with params := dictSet p.params item value })

/-- `__setitem__` (params.py:142-143). -/
def setItem (p : Params V) (item : Str) (value : V) : Py Unit × Params V := p.set item value false

/-- `add` (params.py:71-79). -/
def add (p : Params V) : List (Str × V) → Py Unit × Params V
  | [] => (.ok (), p)
  | (k, v) :: kw =>
    match p.setItem k v with
    | (.error e, p) => (.error e, p)
    | (.ok (), p) => p.add kw

/-- `set_default` (params.py:92-103). -/
def setDefault (p : Params V) (kw : List (Str × V)) : Params V :=
  match p.defaults with
  | none => { p with defaults := some [] }
  | some d => { p with defaults := some (kw.foldl (fun d kv => dictSet d kv.1 kv.2) d) }

/-- `if self._defaults is None: self.set_default()` (params.py:85-86, 117-118). -/
def ensureDefaults (p : Params V) : Params V := if p.defaults.isNone then p.setDefault [] else p

/-- `get_default` (params.py:81-90). -/
def getDefault (p : Params V) (item : Str) (raiseonerror := false) : Py (Option V) × Params V :=
  let p := p.ensureDefaults
  match dictGet (p.defaults.getD []) item with
  | some v => (.ok (some v), p)
  | none => if raiseonerror then (.error .key, p) else (.ok none, p)

/-- `defaults` (params.py:112-119). -/
def getDefaults (p : Params V) : List (Str × V) × Params V :=
  let p := p.ensureDefaults
  (p.defaults.getD [], p)

/-- `__getitem__` (params.py:136-140). -/
def getItem (p : Params V) (item : Str) : Py (Option V) × Params V :=
  match dictGet p.params item with
  | some v => (.ok (some v), p)
  | none => p.getDefault item false

/-- The public attributes of the class; for these `__getattr__` is not called. -/
def reserved : List Str := ["construct", "add", "get_default", "set_default", "params", "defaults", "set"].map String.toList

/-- What an attribute access gives: an attribute of the class or a parameter. -/
inductive Attr (V : Type) where
  | own
  | value (v : Option V)
  deriving DecidableEq

/-- Attribute access: an attribute of the class if there is one, else `__getattr__` (params.py:145-154). For a name with an underscore
the latter raises `AttributeError`; the attributes with underscore that exist are left out. -/
def getAttr (p : Params V) (item : Str) : Py (Attr V) × Params V :=
  if item ∈ reserved then (.ok .own, p)
  else if item.head? = some '_' then (.error .attr, p)
  else
    match dictGet p.params item with
    | some v => (.ok (.value (some v)), p)
    | none =>
      let r := p.getDefault item true
      (r.1.map .value, r.2)

end Params

end Carbon
