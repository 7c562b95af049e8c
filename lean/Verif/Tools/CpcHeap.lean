import Mathlib.Logic.Function.Basic
import Verif.Tools.CpcContainer
import Verif.Sdk.Token

/-!
# Curves and containers as objects (`carbon/tools/cpc.py`)

`CpcContainer.lean` treats curves as values. In the code a container holds references: constructing a container gives ids to the curves that have
none and replaces their token scale, also for the other containers that hold the same curves. Here is a heap of curve objects, with the members
`fee`, `descr`, `params` and `tokenscale`. Views (`CPCInverter`) are unwrapped before anything else happens and are left out.
-/

namespace Carbon.CpcHeap

/-- A value in the parameters of a curve; lists and numbers are `atom`. -/
inductive PVal where
  | atom
  | str (s : Str)
  | dict (l : List (Str × PVal))

/-- A number, `None` or a NaN. -/
inductive Num (K : Type) where
  | none
  | nan
  | val (x : K)
  deriving DecidableEq

/-- The fields of `ConstantProductCurve` (cpc.py:206-215). -/
structure Curve (K : Type) where
  core : CPC K
  fee : Num K
  descr : Option Str
  params : List (Str × PVal)

/-- A curve object: the fields and the attribute `tokenscale` (cpc.py:273-277), as the function `scale`. -/
structure Obj (K : Type) where
  curve : Curve K
  scale : Str → K

/-- All curve objects. References that are not in use hold arbitrary contents. -/
abbrev Heap (K : Type) := Nat → Obj K

section
variable {K : Type} [Field K] [LinearOrder K] [PySqrt K]

/-- `TokenScale1Data` (carbon/tools/tokenscale.py:46-52, 93), the default (cpc.py:269, 912). -/
def unitScale : Str → K := fun _ => 1

/-! ### Parameters -/

/-- `val[field]`: only dictionaries have string keys. -/
def PVal.item (f : Str) : PVal → Py PVal
  | .dict l => match dictGet l f with
    | some v => .ok v
    | none => .error .key
  | _ => .error .type

/-- The loop of `P` (cpc.py:262-267); the result `none` stands for the default value. -/
def walk : PVal → List Str → Py (Option PVal)
  | v, [] => .ok (some v)
  | v, f :: fs => match v.item f with
    | .ok w => walk w fs
    | .error .key => .ok none
    | .error e => .error e

/-- `P` (cpc.py:249-267). -/
def Curve.P (c : Curve K) (pstr : Str) : Py (Option PVal) := walk (.dict c.params) (TokenC.splitChar ':' (CarbonPair.strip pstr))

/-! ### Containers -/

/-- `==` of curves, generated by `@dataclass` (cpc.py:185, 206-215): all fields but `constr` and `params`. No two NaN are the same object. -/
def keyEq (a b : Curve K) : Bool :=
  decide (a.core.k = b.core.k) && decide (a.core.x = b.core.x) && decide (a.core.xAct = b.core.xAct) && decide (a.core.yAct = b.core.yAct) &&
    decide (a.core.pair = b.core.pair) && decide (a.core.cid = b.core.cid) && decide (a.fee = b.fee) && decide (a.fee ≠ .nan) &&
    decide (a.descr = b.descr)

/-- The comparison of keys in a dictionary: identical, or equal. -/
def rel (h : Heap K) (i j : Nat) : Bool := decide (i = j) || keyEq (h i).curve (h j).curve

/-- Assignment to a key that is an object; an equal key is kept. The dictionary stores the hash of the key at the time of the assignment; that it
stays the hash of the key is `C153_frame`. -/
def ixSet (r : Nat → Nat → Bool) : List (Nat × Nat) → Nat → Nat → List (Nat × Nat)
  | [], c, i => [(c, i)]
  | (k, v) :: d, c, i => if r k c then (k, i) :: d else (k, v) :: ixSet r d c i

/-- Lookup of an object. -/
def ixGet (r : Nat → Nat → Bool) : List (Nat × Nat) → Nat → Option Nat
  | [], _ => none
  | (k, v) :: d, x => if r x k then some v else ixGet r d x

/-- `CPCContainer` (cpc.py:863-880). -/
structure Cont (K : Type) where
  curves : List Nat
  byCid : List (Option Cid × Nat)
  ix : List (Nat × Nat)
  byPrimary : List (Str × List Nat)
  scale : Str → K

/-- The id of an object. -/
def cidOf (h : Heap K) (c : Nat) : Option Cid := (h c).curve.core.cid

/-- `if c.cid is None: c.setcid(i)` (cpc.py:894-899, 964-969). -/
def setCid (h : Heap K) (c i : Nat) : Heap K :=
  Function.update h c { h c with curve := { (h c).curve with core := CC.withCid i (h c).curve.core } }

/-- The first loop of `__post_init__` (cpc.py:893-901). -/
def numberAll (s : Str → K) : Heap K → List Nat → Nat → Heap K
  | h, [], _ => h
  | h, c :: cs, i =>
    let h1 := setCid h c i
    numberAll s (Function.update h1 c { h1 c with scale := s }) cs (i + 1)

/-- The entry in `curves_by_primary_pair` (cpc.py:906-910, 974-977). -/
def addPrimary (h : Heap K) (d : List (Str × List Nat)) (c : Nat) : List (Str × List Nat) :=
  let p := CC.primaryOf (h c).curve.core
  dictSet d p ((dictGet d p).getD [] ++ [c])

/-- `__post_init__` (cpc.py:882-910). -/
def make (h : Heap K) (cs : List Nat) (scale : Option (Str → K) := none) : Cont K × Heap K :=
  let s := scale.getD unitScale
  let h1 := numberAll s h cs 0
  (⟨cs, cs.foldl (fun d c => dictSet d (cidOf h1 c) c) [], cs.zipIdx.foldl (fun d ci => ixSet (rel h1) d ci.1 ci.2) [],
    cs.foldl (addPrimary h1) [], s⟩, h1)

/-- `add` of a curve (cpc.py:958-979). -/
def add (h : Heap K) (cc : Cont K) (c : Nat) : Cont K × Heap K :=
  let h1 := setCid h c cc.curves.length
  (⟨cc.curves ++ [c], dictSet cc.byCid (cidOf h1 c) c, ixSet (rel h1) cc.ix c cc.curves.length, addPrimary h1 cc.byPrimary c, cc.scale⟩, h1)

/-- `add` of a list (cpc.py:950-956). -/
def addAll (h : Heap K) (cc : Cont K) : List Nat → Cont K × Heap K
  | [] => (cc, h)
  | c :: cs => addAll (add h cc c).2 (add h cc c).1 cs

/-- `add` of the container itself (cpc.py:950-956), at position `pos` of the list that is iterated and appended to; `none` if the loop has not
ended after the given number of rounds. -/
def addSelf : Nat → Heap K → Cont K → Nat → Option (Cont K × Heap K)
  | 0, _, _, _ => none
  | n + 1, h, cc, pos =>
    match cc.curves[pos]? with
    | none => some (cc, h)
    | some c => addSelf n (add h cc c).2 (add h cc c).1 (pos + 1)

/-- `curveix` (cpc.py:1300-1302). -/
def curveix (h : Heap K) (cc : Cont K) (c : Nat) : Option Nat := ixGet (rel h) cc.ix c

/-- `__contains__` (cpc.py:1003-1004). -/
def contains (h : Heap K) (cc : Cont K) (c : Nat) : Bool := (curveix h cc c).isSome

/-- `bycid` (cpc.py:1304-1306). -/
def bycid (cc : Cont K) (cid : Cid) : Option Nat := dictGet cc.byCid (some cid)

/-- `copy` (cpc.py:1358-1360), through `bypairs` (1353) and `_convert` (1292-1298). -/
def copy (h : Heap K) (cc : Cont K) : Cont K × Heap K := make h cc.curves (some cc.scale)

/-- `bypair` (cpc.py:1324-1330). -/
def bypair (h : Heap K) (cc : Cont K) (pair : Str) (directed := false) : Cont K × Heap K :=
  let r := cc.curves.filter fun c => decide ((h c).curve.core.pair = pair)
  make h (if directed then r else r ++ cc.curves.filter fun c => decide ((h c).curve.core.pair = CC.reversePair pair)) (some cc.scale)

/-- Objects and containers of a program. -/
structure Sys (K : Type) where
  heap : Heap K
  conts : List (Cont K)

/-- Operations: a new container; adding curves to a container; a new container with some curves of another one and its scale, which is what
`copy`, `bycids`, `bypair`, `bypairs`, `bytknx` and `bytkny` do. Numbers of containers that do not exist do nothing. -/
inductive Op (K : Type) where
  | make (cs : List Nat) (scale : Option (Str → K))
  | add (n : Nat) (cs : List Nat)
  | select (n : Nat) (cs : List Nat)

def step (s : Sys K) : Op K → Sys K
  | .make cs sc => let r := make s.heap cs sc; ⟨r.2, s.conts ++ [r.1]⟩
  | .add n cs => match s.conts[n]? with
    | none => s
    | some cc => let r := addAll s.heap cc cs; ⟨r.2, s.conts.set n r.1⟩
  | .select n cs => match s.conts[n]? with
    | none => s
    | some cc => let r := make s.heap cs (some cc.scale); ⟨r.2, s.conts ++ [r.1]⟩

def run (s : Sys K) (ops : List (Op K)) : Sys K := ops.foldl step s

/-! ### Dictionaries and tables -/

/-- A value in a dictionary that represents a curve. -/
inductive FVal (K : Type) where
  | none
  | nan
  | num (x : K)
  | int (n : Nat)
  | str (s : Str)
  | dict (l : List (Str × PVal))

/-- The id as a value. -/
def FVal.ofCid : Option Cid → FVal K
  | .none => .none
  | some (.int n) => .int n
  | some (.str s) => .str s

/-- A number as a value. -/
def FVal.ofNum : Num K → FVal K
  | .none => .none
  | .nan => .nan
  | .val x => .num x

/-- A text as a value. -/
def FVal.ofStr : Option Str → FVal K
  | .none => .none
  | some s => .str s

/-- `asdict` (cpc.py:293-295). -/
def Curve.asdict (c : Curve K) : List (Str × FVal K) :=
  [("k".toList, .num c.core.k), ("x".toList, .num c.core.x), ("x_act".toList, .num c.core.xAct), ("y_act".toList, .num c.core.yAct),
    ("pair".toList, .str c.core.pair), ("cid".toList, .ofCid c.core.cid), ("fee".toList, .ofNum c.fee), ("descr".toList, .ofStr c.descr),
    ("constr".toList, .str c.core.constr), ("params".toList, .dict c.params)]

/-- The names of the arguments of the constructor. -/
def fieldNames : List Str :=
  ["k", "x", "x_act", "y_act", "pair", "cid", "fee", "descr", "constr", "params"].map String.toList

/-- A number that has to be there. Other types and NaN are taken to be refused. -/
def reqNum : Option (FVal K) → Py K
  | some (.num x) => .ok x
  | _ => .error .type

/-- A number that may be missing. -/
def optNum : Option (FVal K) → Py (Option K)
  | some (.num x) => .ok (some x)
  | some .none => .ok none
  | .none => .ok none
  | _ => .error .type

/-- The fee is kept as it is. -/
def optFee : Option (FVal K) → Py (Num K)
  | some (.num x) => .ok (.val x)
  | some .nan => .ok .nan
  | some .none => .ok .none
  | .none => .ok .none
  | _ => .error .type

/-- A text that may be missing. -/
def optStr : Option (FVal K) → Py (Option Str)
  | some (.str s) => .ok (some s)
  | some .none => .ok none
  | .none => .ok none
  | _ => .error .type

/-- The id. -/
def optCid : Option (FVal K) → Py (Option Cid)
  | some (.str s) => .ok (some (.str s))
  | some (.int n) => .ok (some (.int n))
  | some .none => .ok none
  | .none => .ok none
  | _ => .error .type

/-- The parameters (cpc.py:222-228); texts, which are parsed as JSON, are not modelled. -/
def optParams : Option (FVal K) → Py (List (Str × PVal))
  | some (.dict l) => .ok l
  | some .none => .ok []
  | .none => .ok []
  | _ => .error .type

/-- `from_dict` (cpc.py:297-300) and `__post_init__` (217-247). -/
def fromDict (d : List (Str × FVal K)) : Py (Curve K) :=
  if d.any fun kv => decide (kv.1 ∉ fieldNames) then .error .type
  else do
    let k ← reqNum (dictGet d "k".toList)
    let x ← reqNum (dictGet d "x".toList)
    let xa ← optNum (dictGet d "x_act".toList)
    let ya ← optNum (dictGet d "y_act".toList)
    let pair ← optStr (dictGet d "pair".toList)
    let cid ← optCid (dictGet d "cid".toList)
    let fee ← optFee (dictGet d "fee".toList)
    let descr ← optStr (dictGet d "descr".toList)
    let constr ← optStr (dictGet d "constr".toList)
    let params ← optParams (dictGet d "params".toList)
    let core ← CPC.make k x xa ya pair cid (constr.getD "default".toList)
    .ok ⟨core, fee, descr, params⟩

/-- `asdicts` (cpc.py:920-922). -/
def asdicts (h : Heap K) (cc : Cont K) : List (List (Str × FVal K)) := cc.curves.map fun c => (h c).curve.asdict

/-- New objects at `base`, `base + 1` and so on, with the default scale (cpc.py:247). -/
def place (h : Heap K) (base : Nat) (cs : List (Curve K)) : Heap K := fun i =>
  if i < base then h i else match cs[i - base]? with
    | some c => ⟨c, unitScale⟩
    | none => h i

/-- `from_dicts` (cpc.py:928-931). -/
def fromDicts (h : Heap K) (base : Nat) (ds : List (List (Str × FVal K))) (scale : Option (Str → K) := none) : Py (Cont K × Heap K) := do
  let cs ← ds.mapM fromDict
  .ok (make (place h base cs) (List.range' base cs.length) scale)

/-- Whether a value makes a column of a table one of floats. -/
def FVal.isFloat : Option (FVal K) → Bool
  | some (.num _) => true
  | some .nan => true
  | _ => false

/-- `None` in a column with floats becomes a NaN in a table. -/
def tabulate (ds : List (List (Str × FVal K))) : List (List (Str × FVal K)) :=
  ds.map fun d => d.map fun kv => (kv.1, match kv.2 with
    | .none => if ds.any fun e => FVal.isFloat (dictGet e kv.1) then .nan else .none
    | v => v)

/-- `asdf` (cpc.py:924-926): the rows; a table without rows has no column `cid`. -/
def asdf (h : Heap K) (cc : Cont K) : Py (List (List (Str × FVal K))) :=
  if cc.curves = [] then .error .key else .ok (tabulate (asdicts h cc))

/-- `from_df` (cpc.py:933-938) of such a table. -/
def fromDf (h : Heap K) (base : Nat) (rows : List (List (Str × FVal K))) (scale : Option (Str → K) := none) : Py (Cont K × Heap K) :=
  fromDicts h base rows scale

end

end Carbon.CpcHeap
