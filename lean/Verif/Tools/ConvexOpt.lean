import Verif.Tools.Optimizer

/-!
# Model of the convex optimizer of `carbon/tools/optimizer.py` (`nofees_optimizer`, lines 641-810) and of the token scales of curves and
containers (`carbon/tools/cpc.py`)

The optimizer writes down a convex program and hands it to a solver.  The model is the program: its constraints and its objective as
functions of the values of the two vectors of variables.  The solver is not modelled; the theorems are about the feasible and the optimal
points of the program.  Messages, timing and the solver's parameters are left out.
-/

namespace Carbon

/-- A container with the token scales of its curves: `own` holds the `tokenscale` of each curve (cpc.py:247, 269-277), `scale` that of the
container (cpc.py:880-886).  A token scale is its function `scale`. -/
structure SCC (K : Type) where
  cc : CC K
  own : List (Str → K)
  scale : Str → K

namespace SCC

section
variable {K : Type} [Field K] [LinearOrder K] [PySqrt K]

/-- `TokenScale1Data` (tokenscale.py:47-53): the default of curves and containers (cpc.py:269, 912). -/
def unit : Str → K := fun _ => 1

/-- `CPCContainer(curves, tokenscale)` (cpc.py:882-910): all curves get the scale of the container (cpc.py:900). -/
def make (ws : List (Wrapped K)) (ts : Option (Str → K) := none) : SCC K :=
  let cc := CC.make ws
  ⟨cc, List.replicate cc.curves.length (ts.getD unit), ts.getD unit⟩

/-- `add` (cpc.py:940-979) of one curve: a curve as its constructor makes it, with the default scale (cpc.py:247), which is not changed. -/
def add (s : SCC K) (w : Wrapped K) : SCC K := ⟨s.cc.add w, s.own ++ [unit], s.scale⟩

end

end SCC

namespace Opt

section
variable {K : Type} [Field K] [LinearOrder K] [PySqrt K]

/-- A program in two vectors of `n` variables each (optimizer.py:707-708). -/
structure Program (K : Type) where
  n : Nat
  constraints : List (List K → List K → Prop)
  objective : List K → List K → K

/-- The values satisfy the constraints. -/
def Program.Feasible (P : Program K) (dx dy : List K) : Prop :=
  dx.length = P.n ∧ dy.length = P.n ∧ ∀ c ∈ P.constraints, c dx dy

/-- What a solver that succeeds returns (`cp.Minimize`, optimizer.py:772-774). -/
def Program.Optimal (P : Program K) (dx dy : List K) : Prop :=
  P.Feasible dx dy ∧ ∀ dx' dy', P.Feasible dx' dy' → P.objective dx dy ≤ P.objective dx' dy'

/-- The curve constraint `gmean([c.x+dx[i]/c.scalex, c.y+dy[i]/c.scaley]) >= c.kbar` (optimizer.py:711, 717-718); `geo_mean` is defined for
numbers that are not negative. -/
def curveConstr (c : CPC K) (s : Str → K) (i : Nat) : List K → List K → Prop := fun dx dy =>
  let a := c.x + dx.getD i 0 / s c.tknb
  let b := c.y + dy.getD i 0 / s c.tknq
  0 ≤ a ∧ 0 ≤ b ∧ PySqrt.sqrt c.k ≤ PySqrt.sqrt (a * b)

/-- The range constraints `dx[i]/c.scalex >= c.dx_min`, `dy[i]/c.scaley >= c.dy_min` (optimizer.py:730-734; `dx_min`, `dy_min`:
cpc.py:807-815). -/
def minConstr (c : CPC K) (s : Str → K) (i : Nat) : List K → List K → Prop := fun dx dy =>
  -c.xAct ≤ dx.getD i 0 / s c.tknb ∧ -c.yAct ≤ dy.getD i 0 / s c.tknq

/-- The constraints with `maxconstr` (optimizer.py:738-747). -/
def maxConstr (c : CPC K) (s : Str → K) (i : Nat) : Py (List K → List K → Prop) := do
  let mx ← c.dxMax
  let my ← c.dyMax
  .ok fun dx dy => (∀ m ∈ mx, dx.getD i 0 / s c.tknb ≤ m) ∧ ∀ m ∈ my, dy.getD i 0 / s c.tknq ≤ m

/-- `tt[tkn]` (optimizer.py:697, 759, 773). -/
def tokenLookup (cc : CC K) (t : Str) : Py (List Nat × List Nat) := if t ∈ cc.tkns then .ok (cc.tokenEntry t) else .error .key

/-- `cp.sum([dy[i] for i in tt[tkn].y])+cp.sum([dx[i] for i in tt[tkn].x])` (optimizer.py:759, 773). -/
def flow (e : List Nat × List Nat) (dx dy : List K) : K := (e.2.map fun i => dy.getD i 0).sum + (e.1.map fun i => dx.getD i 0).sum

/-- The constraint of one token (optimizer.py:756-761): none for a marker. `s0` is the scale of the first curve. -/
def tokenConstr (cc : CC K) (sfc : SFC K) (s0 : Str → K) (t : Str) : Py (List (List K → List K → Prop)) := do
  match ← sfc.get t with
  | .amount v =>
    let e ← tokenLookup cc t
    .ok [fun dx dy => flow e dx dy = v * s0 t]
  | _ => .ok []

/-- The curves with their scales and positions (`enumerate(curves_t)`). -/
def rows (s : SCC K) : List ((CPC K × (Str → K)) × Nat) := (s.cc.curves.zip s.own).zipIdx

/-- The constraints with `maxconstr` of all curves. -/
def maxConstrs (s : SCC K) (maxconstr : Bool) : Py (List (List K → List K → Prop)) :=
  if maxconstr then (rows s).mapM fun r => maxConstr r.1.1 r.1.2 r.2 else .ok []

/-- The program of `nofees_optimizer` (optimizer.py:641-777), with the parameters `nominconstr` and `maxconstr`. -/
def nofees (s : SCC K) (sfc : SFC K) (nominconstr := false) (maxconstr := false) : Py (Program K) :=
  match s.own with
  | [] => .error .index
  | s0 :: _ => do
    let maxs ← maxConstrs s maxconstr
    let fin ← sfc.tokens.mapM (tokenConstr s.cc sfc s0)
    let e ← tokenLookup s.cc sfc.optVar
    .ok ⟨s.cc.curves.length,
      (rows s).map (fun r => curveConstr r.1.1 r.1.2 r.2) ++
        (if nominconstr then [] else (rows s).map fun r => minConstr r.1.1 r.1.2 r.2) ++ maxs ++ fin.flatten,
      flow e⟩

/-- `nofees_optimizer` with a token for the constraints (optimizer.py:692-693). -/
def nofeesFor (s : SCC K) (target : Str) (nominconstr := false) (maxconstr := false) : Py (Program K) := do
  let sfc ← SFC.arb target
  nofees s sfc nominconstr maxconstr

/-- `SFC(**data)`, `SFCd` (optimizer.py:598-604, 556-559): the constraints for all tokens of the container. -/
def sfcOf (s : SCC K) (data : List (Str × Constr K)) : Py (SFC K) := SFC.make data (some s.cc.tkns)

/-- `dxvalues` and `dyvalues` of the result (optimizer.py:453-461): the values of the variables in units of the tokens
(`ScaledVariable.value`, optimizer.py:103-121, 796-797). -/
def reported (s : SCC K) (dx dy : List K) : List (K × K) :=
  ((s.cc.curves.zip s.own).zip (dx.zip dy)).map fun r => (r.2.1 / r.1.2 r.1.1.tknb, r.2.2 / r.1.2 r.1.1.tknq)

end

end Opt

end Carbon
