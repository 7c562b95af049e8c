import Verif.Tools.CpcContainer
import Verif.Sdk.Token

/-!
# Model of `resources/whitepaper/formulalib.py` and `resources/whitepaper/taglib.py`

A formula is an element of a type `ι`; its LaTeX form is given by a function. A set of tags is the list of its elements. `str.lower` is
modelled for ASCII letters. `to_desmos` is in `Helpers/Desmos.lean`; `eval` and the representations are left out.
-/

namespace Carbon

/-- `Tags.normalize` (taglib.py:75-83). -/
def normTag (t : Str) : Str := (CarbonPair.strip t).map Char.toLower

/-- `Tags` (taglib.py:15-26). -/
structure Tags where
  tagset : List Str

namespace Tags

/-- `fromstr` (taglib.py:30-40). -/
def fromstr (s : Option Str) : Tags :=
  match s with
  | none => ⟨[]⟩
  | some s => ⟨((TokenC.splitChar ',' s).map normTag).dedup⟩

/-- `str` (taglib.py:42-47), for the order of the set that the list gives. -/
def str (t : Tags) : Str := [','].intercalate t.tagset

/-- `add` (taglib.py:59-67). -/
def add (t u : Tags) : Tags := ⟨t.tagset ∪ u.tagset⟩

/-- `addstr` (taglib.py:49-57). -/
def addstr (t : Tags) (s : Option Str) : Tags := t.add (fromstr s)

/-- `has` (taglib.py:69-76). -/
def has (t : Tags) (tag : Str) : Bool := normTag tag ∈ t.tagset

end Tags

/-- `itemnt` (formulalib.py:30-38). -/
structure FItem (ι : Type) where
  item : ι
  title : Option Str
  comment : Option Str
  mainkey : Str
  isvariable : Bool
  tags : Tags

/-- `Formulas` (formulalib.py:40-63), without version and date. -/
structure Formulas (ι : Type) where
  fdict : List (Str × FItem ι)
  raiseonerror : Bool
  defaultns : Option Str

namespace Formulas

variable {ι : Type}

/-- The constructor (formulalib.py:58-63); the argument `defaultns` is not used. -/
def new (raiseonerror : Bool := true) (_defaultns : Option Str := none) : Formulas ι := ⟨[], raiseonerror, none⟩

/-- `setdefaultns` (formulalib.py:65-74): the previous value and the new object. -/
def setdefaultns (s : Formulas ι) (ns : Option Str) : Option Str × Formulas ι := (s.defaultns, { s with defaultns := ns })

/-- `f"{ns}.{key}"`. -/
def dotted (ns key : Str) : Str := ns ++ '.' :: key

/-- `alias` (formulalib.py:114-130). -/
def addAlias (s : Formulas ι) (aliaskey key : Str) (ns : Option Str := none) : Py ι × Formulas ι :=
  let a := match ns with
    | some n => dotted n aliaskey
    | none => aliaskey
  let k := match ns with
    | some n => dotted n key
    | none => key
  match dictGet s.fdict k with
  | some i => (.ok i.item, { s with fdict := dictSet s.fdict a i })
  | none => (.error .key, s)

/-- `for alias in aliases: s.alias(alias, key, ns)` (formulalib.py:103-105). -/
def aliasAll (s : Formulas ι) (key : Str) (ns : Option Str) : List Str → Py Unit × Formulas ι
  | [] => (.ok (), s)
  | a :: as =>
    match s.addAlias a key ns with
    | (.ok _, s') => aliasAll s' key ns as
    | (.error e, s') => (.error e, s')

/-- The namespace that is used (formulalib.py:95-96). -/
def nsOr (s : Formulas ι) (ns : Option Str) : Option Str := ns.or s.defaultns

/-- The key that is used (formulalib.py:97-98). -/
def fullkey (ns : Option Str) (key : Str) : Str :=
  match ns with
  | none => key
  | some [] => key
  | some n => dotted n key

/-- `add` (formulalib.py:76-106). -/
def add (s : Formulas ι) (key : Str) (item : ι) (title comment tagstr ns : Option Str := none) (isvariable : Bool := false)
    (aliases : Option (List Str) := none) : Py ι × Formulas ι :=
  let n := s.nsOr ns
  let k := fullkey n key
  let s' : Formulas ι := { s with fdict := dictSet s.fdict k ⟨item, title, comment, k, isvariable, Tags.fromstr tagstr⟩ }
  match aliases with
  | none => (.ok item, s')
  | some l =>
    match aliasAll s' k n l with
    | (.ok _, s'') => (.ok item, s'')
    | (.error e, s'') => (.error e, s'')

/-- `addvar` (formulalib.py:108-112). -/
def addvar (s : Formulas ι) (key : Str) (item : ι) (title comment tagstr ns : Option Str := none) : Py ι × Formulas ι :=
  s.add key item title comment tagstr ns true none

/-- `getfullitem` (formulalib.py:198-211). -/
def getfullitem (s : Formulas ι) (key : Str) (raiseonerror : Option Bool := none) : Py (Option (FItem ι)) :=
  match dictGet s.fdict key with
  | some i => .ok (some i)
  | none => if raiseonerror.getD s.raiseonerror then .error .key else .ok none

/-- `isalias` (formulalib.py:132-138). -/
def isalias (s : Formulas ι) (key : Str) : Option Bool := (dictGet s.fdict key).map fun i => key ≠ i.mainkey

/-- `getitem`, `getcomment` and `gettitle` (formulalib.py:225-235, 250-272): a field of the full item. -/
def field {α : Type} (s : Formulas ι) (f : FItem ι → Option α) (key : Str) (raiseonerror : Option Bool := none) : Py (Option α) := do
  let i ← s.getfullitem key raiseonerror
  .ok (i.bind f)

/-- `getitem` (formulalib.py:225-235). -/
def getitem (s : Formulas ι) (key : Str) (raiseonerror : Option Bool := none) : Py (Option ι) := s.field (fun i => some i.item) key raiseonerror

/-- `get` and `__getitem__` (formulalib.py:237-248, 384-385). -/
def get (s : Formulas ι) (key : Str) (onerr : Option ι := none) : Option ι :=
  match s.getitem key (some true) with
  | .ok x => x
  | .error _ => onerr

/-- `hastag` (formulalib.py:274-284). -/
def hastag (s : Formulas ι) (key tag : Str) : Option Bool := (dictGet s.fdict key).map fun i => i.tags.has tag

/-- `nskey` (formulalib.py:178-187): the parts of the key. -/
def nskey (key : Str) : List Str :=
  match TokenC.splitChar '.' key with
  | [k] => [[], k]
  | l => l

/-- `ns` (formulalib.py:189-196). -/
def ns (key : Str) : Str := (nskey key).headD []

/-- `keys` (formulalib.py:165-176). -/
def keys (s : Formulas ι) (vars : Option Bool := none) (nsp : Option Str := none) : List Str :=
  (s.fdict.filter fun kv => (match vars with | some v => kv.2.isvariable == v | none => true) &&
    (match nsp with | some n => ns kv.1 == n | none => true)).map Prod.fst

/-- `getall` (formulalib.py:213-223). -/
def getall (s : Formulas ι) (keylist : Option (List Str) := none) (raiseonerror : Option Bool := none) :
    Py (List (Str × Option (FItem ι))) := do
  let l ← (keylist.getD s.keys).mapM fun k => (s.getfullitem k raiseonerror).map fun i => (k, i)
  .ok (l.foldl (fun d kv => dictSet d kv.1 kv.2) [])

/-- The key under which `addfrom` puts an item (formulalib.py:157-161). -/
def newkey (nsp : Option Str) (key : Str) : Str :=
  if (TokenC.splitChar '.' key).length = 1 then fullkey nsp key else key

/-- `addfrom` (formulalib.py:140-163); `getall` without arguments gives the dictionary itself (`C141_getall`). -/
def addfrom (s o : Formulas ι) (nsp : Option Str := none) : Formulas ι :=
  { s with fdict := o.fdict.foldl (fun d kv => dictSet d (newkey nsp kv.1) kv.2) s.fdict }

/-- `[A-Za-z0-9_\.]` (formulalib.py:343). -/
def keyChar (c : Char) : Bool :=
  ('A' ≤ c && c ≤ 'Z') || ('a' ≤ c && c ≤ 'z') || ('0' ≤ c && c ≤ '9') || c = '_' || c = '.'

/-- A match of the pattern (formulalib.py:343) at the beginning of a text: the key and the rest. No character of a key is the equals sign
that ends it, so there is one way to match. -/
def matchTag (s : Str) : Option (Str × Str) :=
  match s with
  | '$' :: '$' :: '=' :: t =>
    let k := t.takeWhile keyChar
    match k, t.dropWhile keyChar with
    | _ :: _, '=' :: '$' :: '$' :: r => some (k, r)
    | _, _ => none
  | _ => none

theorem matchTag_lt {s k r : Str} (h : matchTag s = some (k, r)) : r.length < s.length := by
  unfold matchTag at h
  split at h
  · rename_i t
    dsimp only at h
    split at h
    · rename_i c k' r' e1 e2
      cases h
      have : (t.dropWhile keyChar).length ≤ t.length := (List.dropWhile_sublist _).length_le
      rw [e2] at this
      simp only [List.length_cons] at this ⊢
      omega
    · cases h
  · cases h

/-- `_replacefunc` (formulalib.py:359-370). -/
def replacement (s : Formulas ι) (latex : ι → Str) (key : Str) : Str :=
  match dictGet s.fdict key with
  | none => "$$!=ERROR[".toList ++ key ++ "]=$$".toList
  | some i => "$$\n".toList ++ latex i.item ++ "\n$$".toList

/-- `filter` and `__call__` with the default pattern (formulalib.py:346-357, 372-376): from left to right, without overlaps. -/
def filter (s : Formulas ι) (latex : ι → Str) (text : Str) : Str :=
  match text with
  | [] => []
  | c :: t =>
    match _h : matchTag (c :: t) with
    | some (k, r) => s.replacement latex k ++ filter s latex r
    | none => c :: filter s latex t
termination_by text.length
decreasing_by
  · exact matchTag_lt _h
  · simp

end Formulas

end Carbon
