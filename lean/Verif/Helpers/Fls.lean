import Verif.Carbon.Pair

/-!
# Model of `carbon/helpers/fls.py`

Files are a map from the name given to `open` to bytes. The standard library enters as a structure of functions with the properties that its
documentation states: texts are written and read as UTF-8, `gzip` and `json` undo themselves, and `json` writes no carriage return (control
characters are escaped). Text mode is that of POSIX: nothing is translated on writing, and carriage returns are read as newlines. Texts with
lone surrogates, which have no UTF-8 encoding, are not modelled.
-/

namespace Carbon.Fls

/-- What the functions use of the standard library. `J` are objects that `json` knows and that are not texts, `B` are bytes. -/
structure Lib (J B : Type) where
  /-- `str.encode` -/
  enc : Str → B
  /-- `bytes.decode` -/
  dec : B → Py Str
  dec_enc : ∀ s, dec (enc s) = .ok s
  /-- `b""` -/
  nil : B
  /-- `gzip.compress` -/
  gz : B → B
  /-- `gzip.decompress` -/
  gunzip : B → Py B
  gunzip_gz : ∀ b, gunzip (gz b) = .ok b
  /-- `json.dumps` -/
  dumps : Str ⊕ J → Str
  /-- `json.loads` of a text -/
  loads : Str → Py (Str ⊕ J)
  loads_dumps : ∀ v, loads (dumps v) = .ok v
  dumps_cr : ∀ v, '\r' ∉ dumps v
  /-- `str` of an object -/
  strObj : J → Str
  /-- `str` of bytes -/
  strBytes : B → Str

/-- What is saved and loaded. -/
inductive Data (J B : Type) where
  | text (s : Str)
  | bytes (b : B)
  | obj (j : J)
  deriving DecidableEq

/-- The options of both functions; a wrapper is the text before and after its one pair of braces. -/
structure Opts where
  binary : Bool := false
  json : Bool := false
  yaml : Bool := false
  wrapper : Option (Str × Str) := none
  compressed : Bool := false

/-- The files, and whether a name can be opened for writing. -/
structure Disk (B : Type) where
  file : Str → Option B
  writable : Str → Bool

variable {J B : Type}

/-- `os.path.join` of two texts, as on POSIX; `join` (carbon/helpers/fls.py:117-119). -/
def join (path fn : Str) : Str :=
  if fn.head? = some '/' then fn
  else if path = [] ∨ path.getLast? = some '/' then path ++ fn
  else path ++ "/".toList ++ fn

/-- The name given to `open` (carbon/helpers/fls.py:46-48, 89-91). -/
def fullName (path : Option Str) (fn : Str) : Str := join (path.getD ".".toList) fn

/-- Reading in text mode: `\r\n` and `\r` become `\n`. -/
def newlines : Str → Str
  | [] => []
  | '\r' :: '\n' :: l => '\n' :: newlines l
  | '\r' :: l => '\n' :: newlines l
  | c :: l => c :: newlines l

/-- `wrapper.format(data)` (carbon/helpers/fls.py:61-62, 109-110). -/
def wrap (L : Lib J B) (w : Str × Str) : Data J B → Str
  | .text s => w.1 ++ s ++ w.2
  | .bytes b => w.1 ++ L.strBytes b ++ w.2
  | .obj j => w.1 ++ L.strObj j ++ w.2

/-- `json.dumps` (carbon/helpers/fls.py:55-56): bytes are no JSON. -/
def dumps (L : Lib J B) : Data J B → Py Str
  | .text s => .ok (L.dumps (.inl s))
  | .obj j => .ok (L.dumps (.inr j))
  | .bytes _ => .error .type

/-- `json.loads` (carbon/helpers/fls.py:103-104) of what has been read: bytes are decoded. -/
def loads (L : Lib J B) (d : Data J B) : Py (Data J B) := do
  let s ← (match d with
    | .text s => .ok s
    | .bytes b => L.dec b
    | .obj _ => .error .type : Py Str)
  match ← L.loads s with
  | .inl s => .ok (.text s)
  | .inr j => .ok (.obj j)

/-- `open` for writing and `write` (carbon/helpers/fls.py:67-68): opening empties the file, whatever the writing then does. -/
def write (L : Lib J B) (k : Disk B) (name : Str) (binary : Bool) (d : Data J B) : Py Unit × Disk B :=
  if !k.writable name then (.error (.custom "OSError"), k)
  else
    let put := fun b => { k with file := fun n => if n = name then some b else k.file n }
    match binary, d with
    | true, .bytes b => (.ok (), put b)
    | false, .text s => (.ok (), put (L.enc s))
    | _, _ => (.error .type, put L.nil)

/-- The data as they are written (carbon/helpers/fls.py:55-65). Only texts have `encode`. -/
def prepare (L : Lib J B) (o : Opts) (d : Data J B) : Py (Data J B) := do
  let d ← (if o.json then do
    let s ← dumps L d
    .ok (.text s)
  else .ok d : Py (Data J B))
  let d := match o.wrapper with
    | some w => .text (wrap L w d)
    | none => d
  if o.compressed then
    match d with
    | .text s => .ok (.bytes (L.gz (L.enc s)))
    | _ => .error .attr
  else .ok d

/-- `fsave` (carbon/helpers/fls.py:29-68). -/
def fsave (L : Lib J B) (k : Disk B) (d : Data J B) (fn : Str) (path : Option Str) (o : Opts) : Py Unit × Disk B :=
  if o.yaml then (.error .assertion, k)
  else match prepare L o d with
    | .error e => (.error e, k)
    | .ok d => write L k (fullName path fn) (o.compressed || o.binary) d

/-- `fload` (carbon/helpers/fls.py:72-111). -/
def fload (L : Lib J B) (k : Disk B) (fn : Str) (path : Option Str) (o : Opts) : Py (Data J B) :=
  if o.yaml then .error .assertion
  else do
    let b ← (match k.file (fullName path fn) with
      | none => .error (.custom "FileNotFoundError")
      | some b => .ok b : Py B)
    let d ← (if o.compressed || o.binary then .ok (.bytes b) else do
      let s ← L.dec b
      .ok (.text (newlines s)) : Py (Data J B))
    let d ← (if o.compressed then do
      let b ← L.gunzip b
      .ok (.bytes b)
    else .ok d : Py (Data J B))
    let d ← if o.json then loads L d else .ok d
    match o.wrapper with
    | some w => .ok (.text (wrap L w d))
    | none => .ok d

end Carbon.Fls
