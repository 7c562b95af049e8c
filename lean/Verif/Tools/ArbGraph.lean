import Verif.Tools.CpcContainer

/-!
# Model of `carbon/tools/arbgraphs.py`: nodes, edges, cycles and arbitrage graphs

Nodes and edges are objects compared by identity (arbgraphs.py:181-182, 458-459): they live in two heaps, `nodeObjs` and
`edgeObjs`, and are referred to by their position there. The lists `nodes` and `edges` of a graph hold references, and the
dictionary `byTkn` is an association list. An operation that may raise after having changed something returns both its outcome
and the state it leaves. Numbers are elements of an ordered field; rounding is not modelled. The history kept by
`TrackedStateFloat`, printed messages, the networkx functions, dataframes and plots are left out.
-/

namespace Carbon

open CarbonPair (pyDiv)

namespace Arb

/-- A `Node` object (arbgraphs.py:138-206) with its index and the amount in its state. The amount starts at zero: the argument of
`State(amount=…)` is an `InitVar` that nothing reads (arbgraphs.py:147-149). -/
structure Node (K : Type) where
  tkn : Str
  ix : Option Nat
  amount : K
  deriving DecidableEq, Repr

/-- An `Edge` object (arbgraphs.py:335-353), with the remaining capacity of its state, which only amount-type edges have
(arbgraphs.py:426-434). -/
structure Edge (K : Type) where
  nodeIn : Nat
  amountIn : K
  nodeOut : Nat
  amountOut : K
  ix : Option Nat
  inverse : Bool
  uid : Option Str
  remaining : Option K
  deriving DecidableEq, Repr

section
variable {K : Type} [Field K] [LinearOrder K]

/-- `EPS` (arbgraphs.py:21). -/
def eps : K := 1 / 10 ^ 9

/-- `EPSDXDY` (arbgraphs.py:1013). -/
def epsDxdy : K := 1 / 10 ^ 8

/-- `Node(tkn)` (arbgraphs.py:138-163). -/
def Node.make (tkn : Str) : Node K := ⟨tkn, none, 0⟩

namespace Edge

/-- `is_amounttype` (arbgraphs.py:369-382): the type is derived from the sign of the input amount. -/
def isAmount (e : Edge K) : Bool := !decide (e.amountIn < 0)

/-- `Edge(…)` (arbgraphs.py:335-353, 450-456), including the initial `reset_state`. -/
def make (nodeIn : Nat) (amountIn : K) (nodeOut : Nat) (amountOut : K) (inverse : Bool := false) (uid : Option Str := none) :
    Edge K :=
  { nodeIn, amountIn, nodeOut, amountOut, ix := none, inverse, uid, remaining := if amountIn < 0 then none else some amountIn }

/-- `reset_state` (arbgraphs.py:426-434) without argument. -/
def resetState (e : Edge K) : Edge K := if e.isAmount then { e with remaining := some e.amountIn } else e

/-- `connection_edge` (arbgraphs.py:392-410). -/
def connection (nodeIn nodeOut : Nat) (price : Option K) (inverse : Bool) (weight : Option K) (uid : Option Str := none) :
    Py (Edge K) :=
  let price := price.getD 1
  let price := if inverse = true ∧ price ≠ 0 then 1 / price else price
  let weight := weight.getD 1
  if 0 < weight then .ok (make nodeIn (-weight) nodeOut (-price * weight) inverse uid) else .error .assertion

/-- `duplicate` (arbgraphs.py:497-501). -/
def duplicate (e : Edge K) : Edge K := make e.nodeIn e.amountIn e.nodeOut e.amountOut e.inverse

/-- `reverse` (arbgraphs.py:503-507). -/
def reverse (e : Edge K) : Edge K := make e.nodeOut e.amountOut e.nodeIn e.amountIn (!e.inverse)

/-- `__add__` of two edges (arbgraphs.py:461-472). -/
def add (e f : Edge K) : Py (Edge K) :=
  if e.isAmount ≠ f.isAmount then .error .assertion
  else if e.nodeOut = f.nodeOut ∧ e.nodeIn = f.nodeIn then
    .ok (make e.nodeIn (e.amountIn + f.amountIn) e.nodeOut (e.amountOut + f.amountOut) e.inverse)
  else .error .value

/-- `__mul__` with a number (arbgraphs.py:480-489). -/
def mul (e : Edge K) (c : K) : Py (Edge K) :=
  if 0 < c then .ok (make e.nodeIn (e.amountIn * c) e.nodeOut (e.amountOut * c) e.inverse) else .error .assertion

/-- `sum(edges)` (arbgraphs.py:919): starting from `0 + e = e.duplicate()` (arbgraphs.py:465); `none` stands for the integer 0
of an empty list. -/
def sumList : List (Edge K) → Py (Option (Edge K))
  | [] => .ok none
  | e :: es => do
    let s ← es.foldlM add e.duplicate
    .ok (some s)

/-- `price` (arbgraphs.py:552-561). -/
def price (e : Edge K) (inverse : Option Bool := none) : Py K :=
  if inverse.getD e.inverse then pyDiv e.amountIn e.amountOut else pyDiv e.amountOut e.amountIn

/-- The checks and the output amount of `Edge.transport` (arbgraphs.py:598-602). -/
def out (e : Edge K) (amt : K) : Py K :=
  if e.isAmount = true ∧ ¬ amt ≤ e.amountIn + eps then .error .assertion
  else if e.isAmount = true ∧ ¬ -eps ≤ amt then .error .assertion
  else pyDiv (amt * e.amountOut) e.amountIn

end Edge

/-- `ArbGraph` (arbgraphs.py:811-834) together with the objects it refers to. -/
structure AG (K : Type) where
  nodeObjs : List (Node K)
  edgeObjs : List (Edge K)
  nodes : List Nat
  edges : List Nat
  byTkn : List (Str × Nat)
  deriving DecidableEq

/-- `ArbGraph()`. -/
def AG.empty : AG K := ⟨[], [], [], [], []⟩

/-- Carry on with the result of a mutating call, or propagate its exception. -/
def andThen {σ α β : Type} (r : Py α × σ) (f : α → σ → Py β × σ) : Py β × σ :=
  match r with
  | (.ok a, g) => f a g
  | (.error e, g) => (.error e, g)

namespace AG

/-- The edge objects of the graph, in order. -/
def edgeList (g : AG K) : List (Edge K) := g.edges.filterMap fun i => g.edgeObjs[i]?

/-- The name of a node object. -/
def tknOf (g : AG K) (n : Nat) : Option Str := (g.nodeObjs[n]?).map Node.tkn

/-- Constructing a node that is not part of a graph yet. -/
def newNode (g : AG K) (tkn : Str) : Nat × AG K :=
  (g.nodeObjs.length, { g with nodeObjs := g.nodeObjs ++ [Node.make tkn] })

/-- Constructing an edge that is not part of a graph yet. -/
def newEdge (g : AG K) (e : Edge K) : Nat × AG K :=
  (g.edgeObjs.length, { g with edgeObjs := g.edgeObjs ++ [e] })

/-- `add_node_obj` (arbgraphs.py:959-966). -/
def addNodeObj (g : AG K) (n : Nat) : AG K :=
  match g.nodeObjs[n]? with
  | none => g
  | some v =>
    { g with
      nodeObjs := g.nodeObjs.modify n fun v => { v with ix := some g.nodes.length }
      nodes := g.nodes ++ [n]
      byTkn := dictSet g.byTkn v.tkn n }

/-- `add_node` (arbgraphs.py:968-974). -/
def addNode (g : AG K) (tkn : Str) : AG K :=
  let r := g.newNode tkn
  r.2.addNodeObj r.1

/-- `node_by_tkn` of a string (arbgraphs.py:1148-1168). -/
def nodeByTkn (g : AG K) (tkn : Str) (create : Bool := false) : Py Nat × AG K :=
  match dictGet g.byTkn tkn with
  | some n => (.ok n, g)
  | none =>
    if create then
      let g' := g.addNode tkn
      match dictGet g'.byTkn tkn with
      | some n => (.ok n, g')
      | none => (.error .key, g')
    else (.error .key, g)

/-- `edgetype` of the graph (arbgraphs.py:888-892): the type of the first edge, whether it is the amount type. -/
def edgeType (g : AG K) : Option Bool := g.edgeList.head?.map Edge.isAmount

/-- `add_edge_obj` (arbgraphs.py:976-984). -/
def addEdgeObj (g : AG K) (i : Nat) : Py Unit × AG K :=
  match g.edgeObjs[i]? with
  | none => (.ok (), g)
  | some e =>
    if some e.isAmount ≠ g.edgeType ∧ g.edgeType ≠ none then (.error .value, g)
    else
      (.ok (), { g with
        edgeObjs := g.edgeObjs.modify i fun e => { e with ix := some g.edges.length }
        edges := g.edges ++ [i] })

/-- `add_edge` (arbgraphs.py:986-1011). -/
def addEdge (g : AG K) (tknIn : Str) (amountIn : K) (tknOut : Str) (amountOut : K) (inverse : Bool := false)
    (uid : Option Str := none) : Py Unit × AG K :=
  if ¬ 0 < amountIn then (.error .assertion, g)
  else if ¬ 0 < amountOut then (.error .assertion, g)
  else
    andThen (g.nodeByTkn tknIn true) fun nin g =>
    andThen (g.nodeByTkn tknOut true) fun nout g =>
    let r := g.newEdge (Edge.make nin amountIn nout amountOut inverse uid)
    r.2.addEdgeObj r.1

/-- `add_edge_dxdy` (arbgraphs.py:1014-1046). -/
def addEdgeDxdy (g : AG K) (tknx : Str) (dx : K) (tkny : Str) (dy : K) (inverse : Bool := false) (uid : Option Str := none) :
    Py Unit × AG K :=
  if ¬ dx * dy < 0 then (if epsDxdy < dx * dy then (.error .value, g) else (.ok (), g))
  else if 0 < dx then g.addEdge tknx dx tkny (-dy) inverse uid
  else g.addEdge tkny dy tknx (-dx) inverse uid

/-- The arguments of `add_edge_connectiontype`. -/
structure ConnArgs (K : Type) where
  tknIn : Str
  tknOut : Str
  price : Option K := none
  inverse : Bool := false
  priceOutPerIn : Option K := none
  weight : Option K := none
  symmetric : Bool := true
  uid : Option Str := none

/-- One of the two edges of `add_edge_connectiontype`: look up or create both nodes, build the edge and add it
(arbgraphs.py:1080-1088, 1091-1099). The second call evaluates the output node first. -/
def addConnection1 (g : AG K) (first second : Str) (swap : Bool) (price : K) (inverse : Bool) (weight : K)
    (uid : Str) : Py Unit × AG K :=
  andThen (g.nodeByTkn first true) fun a g =>
  andThen (g.nodeByTkn second true) fun b g =>
  match (if swap then Edge.connection b a (some price) inverse (some weight) (some uid)
    else Edge.connection a b (some price) inverse (some weight) (some uid)) with
  | .error e => (.error e, g)
  | .ok e =>
    let r := g.newEdge e
    r.2.addEdgeObj r.1

/-- The price of `add_edge_connectiontype` (arbgraphs.py:1069-1074). -/
def connPrice (a : ConnArgs K) : Py K :=
  match a.priceOutPerIn with
  | some p => if a.price ≠ none then .error .assertion else if a.inverse then .error .assertion else .ok p
  | none => .ok (a.price.getD 1)

/-- `add_edge_connectiontype` (arbgraphs.py:1048-1100). -/
def addConnection (g : AG K) (a : ConnArgs K) : Py Unit × AG K :=
  match connPrice a with
  | .error e => (.error e, g)
  | .ok price =>
    let weight := a.weight.getD 1
    if ¬ 0 < weight then (.error .assertion, g)
    else
      let uid := a.uid.getD "None".toList
      andThen (g.addConnection1 a.tknIn a.tknOut false price a.inverse weight uid) fun _ g =>
      if a.symmetric then
        g.addConnection1 a.tknIn a.tknOut true price (!a.inverse) weight (uid ++ "-r".toList)
      else (.ok (), g)

/-- `add_edges_cpc` of a list of curves (arbgraphs.py:1103-1146); the first curve that raises ends the loop. -/
def addCurves [PySqrt K] (g : AG K) : List (CPC K) → Py Unit × AG K
  | [] => (.ok (), g)
  | c :: cs =>
    andThen (g.addConnection { tknIn := c.tknb, tknOut := c.tknq, priceOutPerIn := some c.p, uid := some (Cid.show c.cid) })
      fun _ g => addCurves g cs

/-- The loop of `from_ccdxdy` (arbgraphs.py:837-852) with `ignorezero` true. -/
def addTrades (g : AG K) : List (CPC K × K × K) → Py Unit × AG K
  | [] => (.ok (), g)
  | (c, dx, dy) :: ts =>
    if dx = 0 ∧ dy = 0 then addTrades g ts
    else andThen (g.addEdgeDxdy c.tknb dx c.tknq dy false (some (Cid.show c.cid))) fun _ g => addTrades g ts

/-- `reset_state` (arbgraphs.py:925-933). -/
def resetState (g : AG K) : AG K :=
  { g with
    nodeObjs := g.nodeObjs.mapIdx fun i v => if i ∈ g.nodes then { v with amount := 0 } else v
    edgeObjs := g.edgeObjs.mapIdx fun i e => if i ∈ g.edges then e.resetState else e }

/-- `node.state.amount = v` (arbgraphs.py:155-157). -/
def setAmount (g : AG K) (n : Nat) (v : K) : AG K :=
  { g with nodeObjs := g.nodeObjs.modify n fun w => { w with amount := v } }

/-- `filter_edges(node_in, node_out)` with nodes or `None` (arbgraphs.py:1217-1226). -/
def filterEdges (g : AG K) (nodeIn nodeOut : Option Nat) : List Nat :=
  g.edges.filter fun i =>
    match g.edgeObjs[i]? with
    | none => false
    | some e => (nodeIn.all fun n => e.nodeIn == n) && (nodeOut.all fun n => e.nodeOut == n)

/-- `filter_edges(node=…)` (arbgraphs.py:1217-1218). -/
def filterNode (g : AG K) (n : Nat) : List Nat :=
  g.edges.filter fun i =>
    match g.edgeObjs[i]? with
    | none => false
    | some e => e.nodeIn == n || e.nodeOut == n

/-- `filter_edges(pair=…)` (arbgraphs.py:1199-1211). -/
def filterPair (g : AG K) (pair : Str) (bothways : Bool := true) : Py (List Nat) := do
  let bq ← CarbonPair.unpack pair
  let a ← (g.nodeByTkn bq.1).1
  let b ← (g.nodeByTkn bq.2).1
  .ok (g.filterEdges (some a) (some b) ++ if bothways then g.filterEdges (some b) (some a) else [])

/-- `edge.state.amount_in_remaining` (arbgraphs.py:437-441). -/
def remainingOf (g : AG K) (i : Nat) : Py K :=
  match g.edgeObjs[i]? with
  | none => .error .index
  | some e => match e.remaining with
    | none => .error .value
    | some r => .ok r

/-- `has_capacity` of an edge (arbgraphs.py:444-448) and of the graph (arbgraphs.py:935-944): `any` stops at the first edge that has
capacity. -/
def hasCapacity (g : AG K) : List Nat → Py Bool
  | [] => .ok false
  | i :: is => do
    let r ← g.remainingOf i
    if eps < r then .ok true else hasCapacity g is

/-- `Edge.transport` of a number (arbgraphs.py:578-614): the checks, then if `record` the updates of the remaining capacity and of
the two nodes, each checked after it has been made. -/
def edgeTransport (g : AG K) (i : Nat) (amt : Option K) (record : Bool) (raiseonerror : Bool := true) : Py K × AG K :=
  match g.edgeObjs[i]? with
  | none => (.error .index, g)
  | some e =>
    if record = true ∧ e.isAmount = false then (.error .value, g)
    else
      let amt := amt.getD (if e.isAmount then e.amountIn else 1)
      match e.out amt with
      | .error err => (.error err, g)
      | .ok out =>
        if ¬ record then (.ok out, g)
        else
          match e.remaining with
          | none => (.error .value, g)
          | some r =>
            let g := { g with edgeObjs := g.edgeObjs.modify i fun e => { e with remaining := some (r - amt) } }
            if r - amt < -eps ∧ raiseonerror then (.error .value, g)
            else
              let g := { g with nodeObjs := g.nodeObjs.modify e.nodeOut fun v => { v with amount := v.amount + out } }
              let g := { g with nodeObjs := g.nodeObjs.modify e.nodeIn fun v => { v with amount := v.amount - amt } }
              if ((g.nodeObjs[e.nodeIn]?).map Node.amount).any (fun a => decide (a < -eps)) ∧ raiseonerror then
                (.error .value, g)
              else (.ok out, g)

/-- The loop of `ArbGraph.transport` over the edges and amounts (arbgraphs.py:1732-1734). -/
def transportLoop (g : AG K) (record raiseonerror : Bool) : List (Nat × K) → Py (List K) × AG K
  | [] => (.ok [], g)
  | (i, a) :: l =>
    andThen (g.edgeTransport i (some a) record raiseonerror) fun o g =>
    andThen (transportLoop g record raiseonerror l) fun os g => (.ok (o :: os), g)

/-- `TransportResult` (arbgraphs.py:1683-1688). The nodes of the two amounts are left out. -/
structure TransportResult (K : Type) where
  amountIn : K
  amountOut : K
  amountsIn : List K
  amountsOut : List K
  edges : List Nat
  deriving DecidableEq

/-- The routing of `ArbGraph.transport` (arbgraphs.py:1707-1729): the edges used and the amount for each. -/
def routing (g : AG K) (amt : K) (tknIn tknOut : Str) : Py (List Nat × List K) := do
  let nin ← (g.nodeByTkn tknIn).1
  let nout ← (g.nodeByTkn tknOut).1
  let es := g.filterEdges (some nin) (some nout)
  if es = [] then .error .value
  else do
    let caps ← es.mapM g.remainingOf
    let f ← pyDiv amt caps.sum
    .ok (es, caps.map (· * f))

/-- `ArbGraph.transport` of a number between two tokens (arbgraphs.py:1691-1742). -/
def transport (g : AG K) (amt : K) (tknIn tknOut : Str) (record : Bool := true) (raiseonerror : Bool := true) :
    Py (TransportResult K) × AG K :=
  match g.routing amt tknIn tknOut with
  | .error e => (.error e, g)
  | .ok (es, amts) =>
    andThen (g.transportLoop record raiseonerror (es.zip amts)) fun outs g =>
      (.ok { amountIn := amt, amountOut := outs.sum, amountsIn := amts, amountsOut := outs, edges := es }, g)

end AG

/-! ## Cycles -/

namespace Cycle

variable {α : Type}

/-- The items that a `CycleIterator` (arbgraphs.py:701-718) whose index is `ix` yields while its counter allows `c` more. -/
def iter (data : List α) : Nat → Int → Py (List α)
  | 0, _ => .ok []
  | c + 1, ix =>
    if data.length = 0 then .error .zeroDiv
    else
      let ix := (ix + 1) % (data.length : Int)
      match data[ix.toNat]? with
      | none => .error .index
      | some a => do
        let l ← iter data c ix
        .ok (a :: l)

/-- `list(items(start_ix))` (arbgraphs.py:763-778, 701-718). -/
def items (data : List α) (start : Int := 0) : Py (List α) := iter data (data.length + 1) (start - 1)

/-- The start index of `items(start_val=…)` (arbgraphs.py:772-775). -/
def startOf [BEq α] (data : List α) (v : α) : Py Int :=
  match data.findIdx? (· == v) with
  | none => .error .value
  | some i => .ok i

/-- `list(pairs(start_ix))` (arbgraphs.py:780-792): two iterators, the second advanced by one. -/
def pairs (data : List α) (start : Int := 0) : Py (List (α × α)) := do
  let l ← items data start
  .ok (l.zip l.tail)

/-- `pairs_s` (arbgraphs.py:794-798), which does not pass its arguments on. -/
def pairsS (name : α → Str) (data : List α) (_start : Int := 0) : Py (List Str) := do
  let l ← pairs data
  .ok (l.map fun p => name p.1 ++ '/' :: name p.2)

/-- The loop of `is_subcycle_of` (arbgraphs.py:744-753): every item of the first list is looked for in what is left of the second.
-/
def subLoop [BEq α] : List α → List α → Bool
  | [], _ => true
  | _ :: _, [] => false
  | a :: as, b :: bs => if b == a then subLoop as bs else subLoop (a :: as) bs

/-- `is_subcycle_of` (arbgraphs.py:733-753). An empty `self.data` raises an `IndexError`, which the bare `except` turns into `False`. -/
def isSubcycleOf [BEq α] (self other : List α) : Py Bool :=
  if other.length < self.length then .ok false
  else
    match self.head? with
    | none => .ok false
    | some a =>
      match startOf other a with
      | .error _ => .ok false
      | .ok i => do
        let sup ← items other i
        let sub ← items self
        .ok (subLoop sub sup)

end Cycle

namespace AG

/-! ## Running cycles -/

/-- The state of the loop of `run_arbitrage_cycle`: the multiplier, the initial amount, the present output and the tokens. -/
structure Run (K : Type) where
  mult : K
  initial : K
  out : K
  tknIn : Option Str
  tknOut : Option Str

/-- The outputs of the parallel edges (arbgraphs.py:1591). -/
def pushAll (es : List (Edge K)) (amts : List K) : Py (List K) := (es.zip amts).mapM fun p => p.1.out p.2

/-- One step of `run_arbitrage_cycle` (arbgraphs.py:1553-1592) over the edges `es` between two nodes. -/
def runStep (g : AG K) (r : Option (Run K)) (es : List (Edge K)) : Py (Run K) :=
  match es with
  | [] => .error .index
  | e :: _ =>
    let caps := es.map Edge.amountIn
    let cap := caps.sum
    match r with
    | none => do
      let outs ← pushAll es caps
      .ok { mult := 1, initial := cap, out := outs.sum, tknIn := g.tknOf e.nodeIn, tknOut := g.tknOf e.nodeOut }
    | some r =>
      if cap < r.out then do
        let q ← pyDiv cap r.out
        let outs ← pushAll es caps
        .ok { r with mult := r.mult * q, out := outs.sum, tknOut := g.tknOf e.nodeOut }
      else do
        let f ← pyDiv r.out cap
        let outs ← pushAll es (caps.map (· * f))
        .ok { r with out := outs.sum, tknOut := g.tknOf e.nodeOut }

/-- `RunArbCycleResult` (arbgraphs.py:1467-1473). -/
structure ArbResult (K : Type) where
  token : Option Str
  profit : K
  amountIn : K
  amountOut : K
  deriving DecidableEq, Repr

/-- The edges between two nodes, as objects. -/
def between (g : AG K) (p : Nat × Nat) : List (Edge K) :=
  (g.filterEdges (some p.1) (some p.2)).filterMap fun i => g.edgeObjs[i]?

/-- The loop of `run_arbitrage_cycle` over the pairs of nodes (arbgraphs.py:1551). -/
def runLoop (g : AG K) (r : Option (Run K)) : List (Nat × Nat) → Py (Option (Run K))
  | [] => .ok r
  | p :: ps => do
    let r ← g.runStep r (g.between p)
    runLoop g (some r) ps

/-- The entry point of `run_arbitrage_cycle` (arbgraphs.py:1536-1548). -/
def runStart (g : AG K) (cycle : List Nat) (token : Option Str) (allowAny : Bool) : Py (List (Nat × Nat)) :=
  match token with
  | none => Cycle.pairs cycle
  | some t =>
    match (do let n ← (g.nodeByTkn t).1; let i ← Cycle.startOf cycle n; Cycle.pairs cycle i) with
    | .ok ps => .ok ps
    | .error _ => if allowAny then Cycle.pairs cycle else .error .value

/-- `run_arbitrage_cycle` (arbgraphs.py:1510-1617). -/
def runCycle (g : AG K) (cycle : List Nat) (token : Option Str := none) (allowAny : Bool := true) : Py (ArbResult K) := do
  let ps ← g.runStart cycle token allowAny
  let r ← g.runLoop none ps
  match r with
  | none => .error .type
  | some r =>
    let eff := r.mult * r.initial
    if r.tknIn = r.tknOut then .ok { token := r.tknOut, profit := r.out - eff, amountIn := eff, amountOut := r.out }
    else .error .assertion

/-- `np.mean`. An empty list gives a NaN and a warning, modelled as an error. -/
def mean (l : List K) : Py K := if l = [] then .error .value else .ok (l.sum / l.length)

/-- `ptransport` (arbgraphs.py:1755-1782) along a list of pairs of nodes: the multiplier and the prices. -/
def ptransport (g : AG K) : List (Nat × Nat) → Py (K × List K)
  | [] => .ok (1, [])
  | p :: ps => do
    let prices ← (g.between p).mapM fun e => e.price (some false)
    let m ← mean prices
    let r ← ptransport g ps
    .ok (m * r.1, m :: r.2)

/-! ## Duplicates and statistics -/

/-- The nodes of a duplicate (arbgraphs.py:911): one per token name, in the order of their first appearance. -/
def dupTkns (g : AG K) : List Str := (g.nodes.filterMap g.tknOf).reverse.dedup.reverse

/-- `_replace_nodes` (arbgraphs.py:355-363): the node of the same name in the duplicate. -/
def relink (tkns : List Str) (g : AG K) (e : Edge K) : Py (Edge K) :=
  match g.tknOf e.nodeIn, g.tknOf e.nodeOut with
  | some a, some b =>
    if a ∈ tkns then (if b ∈ tkns then .ok { e with nodeIn := tkns.idxOf a, nodeOut := tkns.idxOf b } else .error .key)
    else .error .key
  | _, _ => .error .index

/-- The graph made of fresh nodes and edges (arbgraphs.py:923, 821-834). -/
def assemble (tkns : List Str) (es : List (Edge K)) : Py (AG K) :=
  if es.any (fun e => e.isAmount) && es.any (fun e => !e.isAmount) then .error .value
  else
    .ok
      { nodeObjs := tkns.mapIdx fun i t => ⟨t, some i, 0⟩
        edgeObjs := es.mapIdx fun i e => { e with ix := some i }
        nodes := List.range tkns.length
        edges := List.range es.length
        byTkn := tkns.mapIdx fun i t => (t, i) }

/-- The ordered pairs of distinct nodes (arbgraphs.py:916-917). -/
def nodePairs (g : AG K) : List (Nat × Nat) :=
  (g.nodes.flatMap fun a => g.nodes.map fun b => (a, b)).filter fun p => p.1 ≠ p.2

/-- The consolidated edges (arbgraphs.py:916-919). -/
def consolidated (g : AG K) : List (Nat × Nat) → Py (List (Edge K))
  | [] => .ok []
  | p :: ps => do
    let s ← Edge.sumList (g.between p)
    let l ← consolidated g ps
    .ok (s.toList ++ l)

/-- `duplicate` (arbgraphs.py:899-923). Without consolidation the quotation direction is passed in the position of the index and so
is lost (arbgraphs.py:913-914). -/
def duplicate (g : AG K) (consolidate : Bool := true) : Py (AG K) := do
  let es ← if consolidate then g.consolidated g.nodePairs
    else .ok (g.edgeList.map fun e => Edge.make e.nodeIn e.amountIn e.nodeOut e.amountOut false e.uid)
  let es ← es.mapM (relink g.dupTkns g)
  assemble g.dupTkns es

/-- The sums and ratios of `EdgeStatistics` (arbgraphs.py:1845-1857). -/
structure EdgeStats (K : Type) where
  len : Nat
  amountIn : K
  amountInRemaining : K
  amountOut : K
  price : K
  utilization : Option K
  deriving DecidableEq, Repr

/-- `edge_statistics` between two tokens (arbgraphs.py:1859-1931). The tuples of the individual edges are left out. -/
def edgeStatistics (g : AG K) (tknIn tknOut : Str) : Py (Option (EdgeStats K)) :=
  if g.edgeType ≠ some true then .error .value
  else do
    let nin ← (g.nodeByTkn tknIn).1
    let nout ← (g.nodeByTkn tknOut).1
    let is := g.filterEdges (some nin) (some nout)
    let es := is.filterMap fun i => g.edgeObjs[i]?
    if es = [] then .ok none
    else do
      let rems ← is.mapM g.remainingOf
      let _ ← (es.zip rems).mapM fun p => pyDiv p.2 p.1.amountIn
      let ain := (es.map Edge.amountIn).sum
      let aout := (es.map Edge.amountOut).sum
      let _ ← es.mapM fun e => pyDiv e.amountOut e.amountIn
      let price ← pyDiv aout ain
      .ok (some
        { len := es.length, amountIn := ain, amountInRemaining := rems.sum, amountOut := aout, price := price
          utilization := if 0 < ain then some (1 - rems.sum / ain) else none })

end AG

end

end Arb

end Carbon
