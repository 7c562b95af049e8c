import Mathlib.Logic.Relation
import Verif.Tools.ArbPrice

/-!
# Model of `carbon/tools/arbgraphs.py`: results of running cycles and their formats, matrices and connectedness of the graph

Numpy and networkx are taken at their word: `nx.adjacency_matrix` has the entry one for every arc of the graph, whose edges carry no weights;
`nx.laplacian_matrix` is the diagonal matrix of the row sums of the adjacency matrix minus that matrix; `nx.is_weakly_connected`
decides whether any two nodes are joined by edges regardless of their direction. Eigenvalues are left out. Iterating over a generator is
modelled by the list of what it yields.
-/

namespace Carbon

open CarbonPair (pyDiv)

namespace Arb

section
variable {K : Type} [Field K] [LinearOrder K]

namespace AG

/-! ## Results of running cycles -/

/-- The parameter `token` of `run_arbitrage_cycles` (arbgraphs.py:1633): one token for all cycles, or a list of tokens. -/
inductive TokenArg where
  | one (t : Option Str)
  | list (ts : List Str)

/-- The pairs of nodes that `run_arbitrage_cycle` visits (arbgraphs.py:1536-1548). A list cannot be looked up in a dictionary, and the bare
`except` treats this like a token that is not in the cycle. -/
def runStartArg (g : AG K) (cycle : List Nat) (token : TokenArg) (allowAny : Bool) : Py (List (Nat × Nat)) :=
  match token with
  | .one t => g.runStart cycle t allowAny
  | .list _ => if allowAny then Cycle.pairs cycle else .error .value

/-- `run_arbitrage_cycle` (arbgraphs.py:1510-1617) with such a parameter. -/
def runCycleArg (g : AG K) (cycle : List Nat) (token : TokenArg) (allowAny : Bool := true) : Py (ArbResult K) := do
  let ps ← g.runStartArg cycle token allowAny
  let r ← g.runLoop none ps
  match r with
  | none => .error .type
  | some r =>
    let eff := r.mult * r.initial
    if r.tknIn = r.tknOut then .ok { token := r.tknOut, profit := r.out - eff, amountIn := eff, amountOut := r.out }
    else .error .assertion

/-- `r` of a `RunArbCycleResult` (arbgraphs.py:1495-1498). -/
def ArbResult.r (res : ArbResult K) : Py K := do
  let q ← pyDiv res.amountOut res.amountIn
  .ok (q - 1)

/-- `rpcs` (arbgraphs.py:1500-1503) of a cycle of the given length. -/
def ArbResult.rpcs (res : ArbResult K) (length : Nat) : Py K := do
  let r ← res.r
  pyDiv r length

/-- `ppcs` (arbgraphs.py:1505-1508) of a cycle of the given length. -/
def ArbResult.ppcs (res : ArbResult K) (length : Nat) : Py K := pyDiv res.profit length

/-- The formats of results (arbgraphs.py:1620-1626); `other` is any other value. -/
inductive Fmt where
  | gen | tuple | dicts | df | aggrdf | prettyadf | other
  deriving DecidableEq

/-- Formatted results: the results themselves, or a list of dictionaries (which is only ever empty). -/
inductive Formatted (K : Type) where
  | results (l : List (ArbResult K))
  | noDicts
  deriving DecidableEq

/-- `run_arbitrage_cyclesf` (arbgraphs.py:1647-1680). The default refers to an attribute `ACREF_DF` that does not exist; `r.asdict(False)`
passes a keyword-only parameter by position; and a dataframe of no results has no columns. -/
def formatResults (rs : List (ArbResult K)) (format : Option Fmt) : Py (Formatted K) :=
  match format with
  | none => .error .attr
  | some .gen => .ok (.results rs)
  | some .tuple => .ok (.results rs)
  | some f =>
    if rs ≠ [] then .error .type
    else if f = .dicts then .ok .noDicts
    else .error .key

/-- `run_arbitrage_cycles` with a format other than the tuple and the generator (arbgraphs.py:1640, 1645): the results are made one by one while
they are formatted, so that an exception of the formatting comes before the next cycle is run. -/
def formatRuns (g : AG K) (cycles : List (List Nat)) (token : TokenArg) (allowAny : Bool) (f : Fmt) : Py (Formatted K) :=
  match cycles with
  | [] => formatResults [] (some f)
  | c :: _ => do
    let r ← g.runCycleArg c token allowAny
    formatResults [r] (some f)

/-- `run_arbitrage_cycles` (arbgraphs.py:1628-1645). The generator is taken together with its consumption. -/
def runCyclesArg (g : AG K) (cycles : List (List Nat)) (token : TokenArg) (format : Option Fmt) (allowAny : Bool := true) :
    Py (Formatted K) :=
  if format.getD .tuple = .tuple ∨ format.getD .tuple = .gen then do
    let rs ← cycles.mapM fun c => g.runCycleArg c token allowAny
    .ok (.results rs)
  else g.formatRuns cycles token allowAny (format.getD .tuple)

/-! ## Matrices -/

/-- Whether there is an arc, or, for the undirected graph, an arc in either direction. -/
def joined (g : AG K) (directed : Bool) (i j : Nat) : Bool :=
  decide ((i, j) ∈ g.arcs) || (!directed && decide ((j, i) ∈ g.arcs))

/-- `Adjacency(include_eigenvalues=False)` (arbgraphs.py:1280-1292): the rows, in the order of the nodes. -/
def adjacency (g : AG K) (directed : Bool := true) (weighted : Bool := false) : Py (List (List Int)) :=
  if weighted then .error .assertion
  else .ok (g.ixs.map fun i => g.ixs.map fun j => if g.joined directed i j then 1 else 0)

/-- `Laplacian(include_eigenvalues=False)` (arbgraphs.py:1261-1273). -/
def laplacian (g : AG K) (directed : Bool := false) (weighted : Bool := false) : Py (List (List Int)) :=
  if weighted then .error .assertion
  else .ok (g.ixs.map fun i => g.ixs.map fun j =>
    (if i = j then (g.ixs.map fun k => if g.joined directed i k then (1 : Int) else 0).sum else 0) -
      (if g.joined directed i j then 1 else 0))

/-- `degree(as_matrix=True)` (arbgraphs.py:1400-1404): the graph that it refers to has not been defined. -/
def degreeMatrix (_g : AG K) : Py (List (List Int)) := .error (.custom "NameError")

open Classical in
/-- `is_weakly_connected` (arbgraphs.py:1366-1380). Networkx raises for a graph without nodes. -/
noncomputable def isWeaklyConnected (g : AG K) : Py Bool :=
  if g.ixs = [] then .error (.custom "NetworkXPointlessConcept")
  else .ok (decide (∀ i ∈ g.ixs, ∀ j ∈ g.ixs, Relation.ReflTransGen (fun a b => g.joined false a b = true) i j))

end AG

end

end Arb

end Carbon
