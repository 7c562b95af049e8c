import Verif.Tools.Cpc

/-!
# Model of the curve container

`CPCContainer` and the aggregator `herfindahl` of `carbon/tools/cpc.py`. A container is its list of curves together with the two
dictionaries that the code keeps; dictionaries are association lists in insertion order. The curves put into a container are
distinct objects, so that setting the id of one does not change another. Results are the default ones (containers); the index
dictionary `curveix_by_curve`, dataframes and plots are left out.
-/

namespace Carbon

open CarbonPair (pyDiv)

/-- `d[k] = v`. -/
def dictSet {κ ν : Type} [DecidableEq κ] (d : List (κ × ν)) (k : κ) (v : ν) : List (κ × ν) :=
  match d with
  | [] => [(k, v)]
  | (a, b) :: d => if a = k then (k, v) :: d else (a, b) :: dictSet d k v

/-- `d.get(k, None)`. -/
def dictGet {κ ν : Type} [DecidableEq κ] (d : List (κ × ν)) (k : κ) : Option ν :=
  match d with
  | [] => none
  | (a, b) :: d => if a = k then some b else dictGet d k

/-- `CPCContainer` (cpc.py:863-880). -/
structure CC (K : Type) where
  curves : List (CPC K)
  byCid : List (Option Cid × CPC K)
  byPrimary : List (Str × List (CPC K))

namespace CC

section
variable {K : Type} [Field K] [LinearOrder K] [PySqrt K]

/-- `c.pairo.primary`. -/
def primaryOf (c : CPC K) : Str := c.pairo.primary TPair.prettify

/-- `if c.cid is None: c.setcid(i)` (cpc.py:893-895, 965-967). -/
def withCid (i : Nat) (c : CPC K) : CPC K := if c.cid = none then { c with cid := some (.int i) } else c

/-- Adding a curve to the dictionary by primary pair (cpc.py:905-910, 975-978). -/
def addPrimary (d : List (Str × List (CPC K))) (c : CPC K) : List (Str × List (CPC K)) :=
  dictSet d (primaryOf c) ((dictGet d (primaryOf c)).getD [] ++ [c])

/-- `__post_init__` (cpc.py:882-910). -/
def make (ws : List (Wrapped K)) : CC K :=
  let cs := (Wrapped.unwrap ws).mapIdx fun i c => withCid i c
  { curves := cs
    byCid := cs.foldl (fun d c => dictSet d c.cid c) []
    byPrimary := cs.foldl addPrimary [] }

/-- A container of curves none of which is wrapped. -/
def ofCurves (cs : List (CPC K)) : CC K := make (cs.map .plain)

/-- `add` (cpc.py:940-979) of a single curve or view. -/
def add (cc : CC K) (w : Wrapped K) : CC K :=
  let c := withCid cc.curves.length (Wrapped.unwrap1 w)
  { curves := cc.curves ++ [c]
    byCid := dictSet cc.byCid c.cid c
    byPrimary := addPrimary cc.byPrimary c }

/-- `add` of an iterable (cpc.py:951-956). -/
def addAll (cc : CC K) (ws : List (Wrapped K)) : CC K := ws.foldl add cc

/-- `sum(c.pp for c in curves)`, which raises if a price is zero. -/
def sumPP : List (CPC K) → Py K
  | [] => .ok 0
  | c :: cs => do
    let a ← c.pp
    let b ← sumPP cs
    .ok (a + b)

/-- `price` (cpc.py:981-988). -/
def price (cc : CC K) (tknb tknq : Str) : Py (Option K) :=
  let pairo := TPair.fromTokens tknb tknq
  match dictGet cc.byPrimary (pairo.primary TPair.prettify) with
  | none => .ok none
  | some cs => do
    let s ← sumPP cs
    let pp ← pyDiv s (cs.length : K)
    if pairo.isprimary TPair.prettify then .ok (some pp)
    else do
      let r ← pyDiv 1 pp
      .ok (some r)

/-- `cids` (cpc.py:1052-1056). -/
def cids (cc : CC K) : List (Option Cid) := cc.curves.map CPC.cid

/-- `bycid` (cpc.py:1304-1306). -/
def bycid (cc : CC K) (cid : Cid) : Option (CPC K) := dictGet cc.byCid (some cid)

/-- `self.curves_by_cid[cid] for cid in include if not cid in exclude` (cpc.py:1321). -/
def lookupAll (cc : CC K) : List Cid → Py (List (CPC K))
  | [] => .ok []
  | i :: is =>
    match cc.bycid i with
    | none => .error .key
    | some c => do
      let cs ← cc.lookupAll is
      .ok (c :: cs)

/-- `bycids` (cpc.py:1308-1322). -/
def bycids (cc : CC K) (incl : Option (List Cid) := none) (excl : Option (List Cid) := none) : Py (CC K) :=
  let excl := excl.getD []
  match incl with
  | none => .ok (ofCurves (cc.curves.filter fun c => c.cid.elim true fun i => decide (i ∉ excl)))
  | some incl => do
    let cs ← cc.lookupAll (incl.filter fun i => decide (i ∉ excl))
    .ok (ofCurves cs)

/-- `"/".join(pair.split("/")[::-1])` (cpc.py:1328). -/
def reversePair (pair : Str) : Str :=
  match (splitSlash pair).reverse with
  | [] => []
  | s :: ss => ss.foldl (fun acc t => acc ++ '/' :: t) s

/-- `bypair` (cpc.py:1324-1330). -/
def bypair (cc : CC K) (pair : Str) (directed := false) : CC K :=
  let r := cc.curves.filter fun c => decide (c.pair = pair)
  if directed then ofCurves r
  else ofCurves (r ++ cc.curves.filter fun c => decide (c.pair = reversePair pair))

/-- `set(f"{q}/{b}" for b, q in (p.split("/") for p in pairs))` (cpc.py:1352). -/
def reverseAll : List Str → Py (List Str)
  | [] => .ok []
  | p :: ps => do
    let bq ← CarbonPair.unpack p
    let rs ← reverseAll ps
    .ok ((bq.2 ++ '/' :: bq.1) :: rs)

/-- `bypairs` (cpc.py:1336-1356), for an iterable of pairs. -/
def bypairs (cc : CC K) (pairs : Option (List Str) := none) (directed := false) : Py (CC K) :=
  match pairs with
  | none => .ok (ofCurves cc.curves)
  | some ps =>
    if directed then .ok (ofCurves (cc.curves.filter fun c => decide (c.pair ∈ ps)))
    else do
      let rs ← reverseAll ps
      .ok (ofCurves (cc.curves.filter fun c => decide (c.pair ∈ ps ++ rs)))

/-- `bytknx`, `bytknxs` (cpc.py:1362-1377), for an iterable of tokens. -/
def bytknxs (cc : CC K) (tkns : List Str) : CC K := ofCurves (cc.curves.filter fun c => decide (c.tknb ∈ tkns))

/-- `bytkny`, `bytknys` (cpc.py:1379-1394), for an iterable of tokens. -/
def bytknys (cc : CC K) (tkns : List Str) : CC K := ofCurves (cc.curves.filter fun c => decide (c.tknq ∈ tkns))

/-- `tkns` (cpc.py:1030-1032), as a list. -/
def tkns (cc : CC K) : List Str := cc.curves.map CPC.tknb ++ cc.curves.map CPC.tknq

/-- The positions of the elements of a list that satisfy a test, counted from `n`. -/
def positions {α : Type} (f : α → Bool) : List α → Nat → List Nat
  | [], _ => []
  | a :: l, n => if f a then n :: positions f l (n + 1) else positions f l (n + 1)

/-- One entry of `tokentable` (cpc.py:1533-1546): the positions of the curves on which the token is base and quote token. -/
def tokenEntry (cc : CC K) (tkn : Str) : List Nat × List Nat :=
  (positions (fun c => decide (c.tknb = tkn)) cc.curves 0, positions (fun c => decide (c.tknq = tkn)) cc.curves 0)

/-- The curves and prices that `price_estimate` uses (cpc.py:1452-1460). -/
def estimateData (cc : CC K) (tknb tknq : Str) : Py (List (K × K)) := do
  let direct := (cc.curves.filter fun c => !c.atBoundary && decide (c.tknq = tknq) && decide (c.tknb = tknb)).map
    fun c => (c.p, c.k)
  let rev ← (cc.curves.filter fun c => !c.atBoundary && decide (c.tknb = tknq) && decide (c.tknq = tknb)).mapM
    fun c => do let r ← pyDiv 1 c.p; .ok (r, c.k)
  (direct ++ rev).mapM fun r => do let w ← Curve.sqrtE r.2; .ok (r.1, w)

/-- `price_estimate` (cpc.py:1431-1470) with tokens given and the default result. -/
def priceEstimate (cc : CC K) (tknb tknq : Str) (raiseonerror := true) : Py (Option K) :=
  if tknq = tknb then .ok (some 1)
  else do
    let data ← cc.estimateData tknb tknq
    if data = [] then (if raiseonerror then .error .value else .ok none)
    else do
      let r ← pyDiv ((data.map fun d => d.1 * d.2).sum) ((data.map fun d => d.2).sum)
      .ok (some r)

end

/-! ### Filtering pairs -/

/-- `Pair.wrap(pairs)` (cpc.py:174-177, 1099): the pairs of an iterable of strings, with the strings. -/
def wrapPairs : List Str → Py (List TPair)
  | [] => .ok []
  | s :: ss => do
    let p ← TPair.ofStr s
    let ps ← wrapPairs ss
    .ok (p :: ps)

/-- The test belonging to one condition of `filter_pairs` (cpc.py:1102-1120), given by its name without differentiator. -/
def condTest (name : Str) (toks : List Str) : Py (TPair → Bool) :=
  let cond := beforeChar '_' name
  let b : TPair → Bool := fun p => decide (p.tknb ∈ toks)
  let q : TPair → Bool := fun p => decide (p.tknq ∈ toks)
  if cond = "bothin".toList then .ok fun p => b p && q p
  else if cond = "contains".toList ∨ cond = "onein".toList then .ok fun p => b p || q p
  else if cond = "notin".toList then .ok fun p => !b p && !q p
  else if cond = "tknbin".toList then .ok b
  else if cond = "tknbnotin".toList then .ok fun p => !b p
  else if cond = "tknqin".toList then .ok q
  else if cond = "tknqnotin".toList then .ok fun p => !q p
  else .error .value

/-- The loop of `filter_pairs` (cpc.py:1100-1120): one set of pairs for each condition. -/
def condResults (ps : List TPair) : List (Str × List Str) → Py (List (List Str))
  | [] => .ok []
  | (name, toks) :: cs => do
    let f ← condTest name toks
    let rs ← condResults ps cs
    .ok (((ps.filter f).map TPair.pair) :: rs)

/-- `filter_pairs` (cpc.py:1076-1130) for a set of pairs given as a list, with `anyall` given as a string. -/
def filterPairs (pairs : List Str) (conds : List (Str × List Str)) (anyall : Str := "all".toList) : Py (List Str) :=
  if conds = [] then .ok pairs
  else do
    let ps ← wrapPairs pairs
    let rs ← condResults ps conds
    if anyall = "any".toList then .ok rs.flatten
    else if anyall = "all".toList then
      match rs with
      | [] => .error .type
      | r :: rs => .ok (r.filter fun s => rs.all fun t => decide (s ∈ t))
    else .error .value

end CC

/-! ## Aggregators -/

namespace AF

section
variable {K : Type} [Field K] [LinearOrder K]

/-- `herfindahl` (cpc.py:1684-1686). -/
def herfindahl (l : List K) : Py K := pyDiv ((l.map fun v => v ^ 2).sum) (l.sum ^ 2)

/-- `herfindahlN` (cpc.py:1688-1690). -/
def herfindahlN (l : List K) : Py K := do
  let h ← herfindahl l
  pyDiv 1 h

/-- `range` and `rangepc` (cpc.py:1656-1666) of a non-empty list. -/
def rangepc (l : List K) (h : l ≠ []) : K :=
  let mx := l.foldl max (l.head h)
  let mn := l.foldl min (l.head h)
  if mx = 0 then 0 else (mx - mn) / mx

end

end AF

end Carbon
