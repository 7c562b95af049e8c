import Verif.Tools.ArbGraph

/-!
# Model of `carbon/tools/arbgraphs.py`: amounts, tracked values, shortest paths, prices, degrees and node statistics

The networkx functions are taken at their word: `nx.shortest_path` is a parameter of the model, a function that the theorems assume to
return some path with as few steps as possible, or to raise if there is none. `Arb.bfs` is one such function, used in the examples.
Dataframes are left out.
-/

namespace Carbon

open CarbonPair (pyDiv)

namespace Arb

section
variable {K : Type} [Field K] [LinearOrder K]

/-! ## Amounts -/

/-- An `Amount` (arbgraphs.py:208-214) of the token of a node, which is compared by identity. -/
structure Amt (K : Type) where
  amount : K
  node : Nat
  deriving DecidableEq, Repr

/-- The operands of the arithmetic of amounts: an amount or a number. -/
inductive Operand (K : Type) where
  | amt (a : Amt K)
  | num (x : K)
  deriving DecidableEq, Repr

namespace Amt

/-- `a + other` (arbgraphs.py:226-231), and `other + a` if `other` is a number (arbgraphs.py:311-312). -/
def add (a : Amt K) : Operand K → Py (Amt K)
  | .num _ => .error .value
  | .amt b => if a.node = b.node then .ok ⟨a.amount + b.amount, a.node⟩ else .error .value

/-- `a - other` (arbgraphs.py:233-238). -/
def sub (a : Amt K) : Operand K → Py (Amt K)
  | .num _ => .error .value
  | .amt b => if a.node = b.node then .ok ⟨a.amount - b.amount, a.node⟩ else .error .value

/-- `-a` (arbgraphs.py:253-254). -/
def neg (a : Amt K) : Amt K := ⟨-a.amount, a.node⟩

/-- `abs(a)` (arbgraphs.py:259-260). -/
def abs (a : Amt K) : Amt K := ⟨|a.amount|, a.node⟩

/-- `other - a` (arbgraphs.py:314-315); only reached if `other` is a number. -/
def rsub (a : Amt K) (other : Operand K) : Py (Amt K) := a.neg.add other

/-- `a * other` and, for a number, `other * a` (arbgraphs.py:240-243, 317-318). -/
def mul (a : Amt K) : Operand K → Py (Amt K)
  | .num x => .ok ⟨a.amount * x, a.node⟩
  | .amt _ => .error .value

/-- `a / other` (arbgraphs.py:245-251): the ratio of two amounts is a number. -/
def div (a : Amt K) : Operand K → Py (Operand K)
  | .num x => do
    let q ← pyDiv a.amount x
    .ok (.amt ⟨q, a.node⟩)
  | .amt b =>
    if a.node = b.node then do
      let q ← pyDiv a.amount b.amount
      .ok (.num q)
    else .error .value

/-- The comparisons `<`, `<=`, `>` and `>=` (arbgraphs.py:262-288), given the comparison of numbers. -/
def cmp (rel : K → K → Bool) (a : Amt K) : Operand K → Py Bool
  | .num _ => .error .value
  | .amt b => if a.node = b.node then .ok (rel a.amount b.amount) else .error .value

/-- `a < other` (arbgraphs.py:262-267). -/
def lt (a : Amt K) (other : Operand K) : Py Bool := a.cmp (fun x y => decide (x < y)) other

/-- `a <= other` (arbgraphs.py:269-274). -/
def le (a : Amt K) (other : Operand K) : Py Bool := a.cmp (fun x y => decide (x ≤ y)) other

/-- `a > other` (arbgraphs.py:276-281). -/
def gt (a : Amt K) (other : Operand K) : Py Bool := a.cmp (fun x y => decide (y < x)) other

/-- `a >= other` (arbgraphs.py:283-288). -/
def ge (a : Amt K) (other : Operand K) : Py Bool := a.cmp (fun x y => decide (y ≤ x)) other

/-- `sum(amounts, start)`: additions from the left. -/
def total (start : Amt K) : List (Amt K) → Py (Amt K)
  | [] => .ok start
  | b :: bs => do
    let s ← start.add (.amt b)
    total s bs

/-- `sum(amounts)`: the first addition is `0 + amount`, which is `amount + 0` (arbgraphs.py:311-312). -/
def sum : List (Amt K) → Py (Operand K)
  | [] => .ok (.num 0)
  | a :: as => do
    let s ← a.add (.num 0)
    let t ← total s as
    .ok (.amt t)

end Amt

/-! ## Tracked values -/

/-- A `TrackedStateFloat` (arbgraphs.py:74-110). -/
structure Tracked (K : Type) where
  value : K
  history : List K
  deriving DecidableEq, Repr

namespace Tracked

/-- `reset(value, clear_history)` (arbgraphs.py:117-126). -/
def reset (t : Tracked K) (value : Option K) (clear : Bool := true) : Tracked K :=
  let history := if clear then [] else t.history
  let value := value.getD t.value
  ⟨value, history ++ [value]⟩

/-- `set(value)` (arbgraphs.py:128-132). -/
def set (t : Tracked K) (value : Option K) : Tracked K := t.reset value false

/-- `TrackedStateFloat(inital_value)` (arbgraphs.py:112-115). -/
def make (initial : Option K) : Tracked K := reset ⟨0, []⟩ (some (initial.getD 0)) true

end Tracked

/-! ## The graph of the indices -/

namespace AG

/-- The index that a node carries. -/
def ixOf (g : AG K) (n : Nat) : Option Nat := (g.nodeObjs[n]?).bind Node.ix

/-- The arcs of the directed networkx graph (arbgraphs.py:1232-1254): pairs of node indices; parallel edges are one arc. -/
def arcs (g : AG K) : List (Nat × Nat) :=
  (g.edgeList.filterMap fun e => (g.ixOf e.nodeIn).bind fun i => (g.ixOf e.nodeOut).map fun j => (i, j)).dedup

end AG

/-- The walks with a given number of steps from a node. -/
def walks (arcs : List (Nat × Nat)) : Nat → Nat → List (List Nat)
  | 0, s => [[s]]
  | k + 1, s => (arcs.filter fun a => a.1 = s).flatMap fun a => (walks arcs k a.2).map (s :: ·)

/-- A function that finds shortest paths, as `nx.shortest_path` does. It stands for networkx in examples only. -/
def bfs (arcs : List (Nat × Nat)) (s t : Nat) : Option (List Nat) :=
  (List.range (arcs.length + 1)).findSome? fun k => (walks arcs k s).find? fun p => p.getLast? = some t

/-- The type of `nx.shortest_path`: arcs, source, target; `none` if it raises `NetworkXNoPath`. -/
abbrev Sp := List (Nat × Nat) → Nat → Nat → Option (List Nat)

/-- `Path.pairs` (arbgraphs.py:656-663). -/
def pathPairs {α : Type} (l : List α) : List (α × α) := l.zip l.tail

namespace AG

/-- `node_by_tkn(node)` with a node object (arbgraphs.py:1157-1160): the node found under its name has to be the node itself. -/
def nodeByObj (g : AG K) (n : Nat) : Py Nat :=
  match g.tknOf n with
  | none => .error .index
  | some t => do
    let m ← (g.nodeByTkn t).1
    if m = n then .ok n else .error .assertion

/-- `node_by_ix` (arbgraphs.py:1171-1176) for indices that are not negative. -/
def nodeByIx (g : AG K) (k : Nat) : Py Nat :=
  match g.nodes[k]? with
  | none => .error .index
  | some n => .ok n

/-- `shortest_path` (arbgraphs.py:1301-1309). -/
def shortestPath (sp : Sp) (g : AG K) (a b : Nat) : Py (List Nat) :=
  match g.ixOf a, g.ixOf b with
  | some i, some j =>
    match sp g.arcs i j with
    | none => .error (.custom "NetworkXNoPath")
    | some p => p.mapM g.nodeByIx
  | _, _ => .error (.custom "NodeNotFound")

/-- The price along the shortest path (arbgraphs.py:1319). -/
def priceAlong (sp : Sp) (g : AG K) (a b : Nat) : Py K := do
  let p ← g.shortestPath sp a b
  let r ← g.ptransport (pathPairs p)
  .ok r.1

/-- `price` of two token names (arbgraphs.py:1311-1324). -/
def price (sp : Sp) (g : AG K) (s t : Str) : Py K :=
  if g.edgeType = some true then .error .assertion
  else if s ≠ t then do
    let a ← (g.nodeByTkn s).1
    let b ← (g.nodeByTkn t).1
    g.priceAlong sp a b
  else .ok 1

/-- `price` of two token names with units (arbgraphs.py:1322-1323): if the names are equal they have not been replaced by nodes and
have no attribute `tkn`. -/
def priceUnits (sp : Sp) (g : AG K) (s t : Str) : Py (K × Str) := do
  let p ← g.price sp s t
  if s = t then .error .attr
  else .ok (p, t ++ " per ".toList ++ s ++ " [".toList ++ s ++ "/".toList ++ t ++ "]".toList)

/-- `price` of two node objects (arbgraphs.py:1311-1324). -/
def priceObj (sp : Sp) (g : AG K) (a b : Nat) : Py K :=
  if g.edgeType = some true then .error .assertion
  else if a ≠ b then do
    let a ← g.nodeByObj a
    let b ← g.nodeByObj b
    g.priceAlong sp a b
  else .ok 1

/-- The nodes of a price table (arbgraphs.py:1339-1345). Nodes are compared by identity. -/
def tableNodes (g : AG K) (incl : Option (List Nat)) (excl : Option (List Nat)) : List Nat :=
  match excl with
  | none => incl.getD g.nodes
  | some x => (incl.getD g.nodes).filter fun n => n ∉ x

/-- `pricetable` of node objects as a dictionary (arbgraphs.py:1326-1353): the data and the labels. -/
def pricetable (sp : Sp) (g : AG K) (incl : Option (List Nat)) (excl : Option (List Nat)) : Py (List (List K) × List Str) := do
  let ns := g.tableNodes incl excl
  let labels ← ns.mapM fun n => match g.tknOf n with
    | none => .error .attr
    | some t => .ok t
  let data ← ns.mapM fun nj => ns.mapM fun ni => g.priceObj sp nj ni
  .ok (data, labels)

/-! ## Degrees -/

/-- The indices of the nodes, which are the nodes of the networkx graph (arbgraphs.py:1245-1246). -/
def ixs (g : AG K) : List Nat := g.nodes.filterMap g.ixOf

/-- The neighbours in the undirected networkx graph. -/
def neighbours (g : AG K) (i : Nat) : List Nat :=
  ((g.arcs.filter fun a => a.1 = i).map Prod.snd ++ (g.arcs.filter fun a => a.2 = i).map Prod.fst).dedup

/-- `in_degree()` (arbgraphs.py:1393-1394, 1406-1410). -/
def inDegree (g : AG K) : List (Nat × Nat) := g.ixs.map fun i => (i, (g.arcs.filter fun a => a.2 = i).length)

/-- `out_degree()` (arbgraphs.py:1395-1396, 1412-1416). -/
def outDegree (g : AG K) : List (Nat × Nat) := g.ixs.map fun i => (i, (g.arcs.filter fun a => a.1 = i).length)

/-- `degree()` (arbgraphs.py:1390-1392): in the undirected networkx graph a loop counts twice. -/
def degree (g : AG K) : List (Nat × Nat) :=
  g.ixs.map fun i => (i, (g.neighbours i).length + if (i, i) ∈ g.arcs then 1 else 0)

/-! ## Node statistics -/

/-- `NodeStatistics` (arbgraphs.py:1934-1951). -/
structure NodeStats (K : Type) where
  edgesIn : List Nat
  edgesOut : List Nat
  nodesIn : List (Option Str)
  nodesOut : List (Option Str)
  amountIn : K
  amountOut : K
  amountOutRemaining : K
  deriving DecidableEq, Repr

/-- `node_statistics` (arbgraphs.py:1954-1977). The sets of token names are lists without repetition. -/
def nodeStatistics (g : AG K) (tkn : Str) : Py (NodeStats K) := do
  let n ← (g.nodeByTkn tkn).1
  let eo := g.filterEdges (some n) none
  let ei := g.filterEdges none (some n)
  let rem ← eo.mapM g.remainingOf
  .ok
    { edgesIn := ei
      edgesOut := eo
      nodesIn := (ei.filterMap fun i => (g.edgeObjs[i]?).map fun e => g.tknOf e.nodeIn).dedup
      nodesOut := (eo.filterMap fun i => (g.edgeObjs[i]?).map fun e => g.tknOf e.nodeOut).dedup
      amountIn := ((ei.filterMap fun i => g.edgeObjs[i]?).map Edge.amountOut).sum
      amountOut := ((eo.filterMap fun i => g.edgeObjs[i]?).map Edge.amountIn).sum
      amountOutRemaining := rem.sum }

/-- `run_arbitrage_cycles` (arbgraphs.py:1628-1645) as a tuple: one result per cycle, in order. -/
def runCycles (g : AG K) (cycles : List (List Nat)) (token : Option Str := none) (allowAny : Bool := true) :
    Py (List (ArbResult K)) :=
  cycles.mapM fun c => g.runCycle c token allowAny

end AG

/-- `filter_subcycles` (arbgraphs.py:755-761): the cycles of the list that are subcycles of the given one. -/
def Cycle.filterSubcycles {α : Type} [BEq α] (self : List α) : List (List α) → Py (List (List α))
  | [] => .ok []
  | c :: cs => do
    let b ← Cycle.isSubcycleOf c self
    let r ← Cycle.filterSubcycles self cs
    .ok (if b then c :: r else r)

end

end Arb

end Carbon
