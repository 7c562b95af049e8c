import Verif.Tools.CpcContainer

/-!
# Model of `carbon/tools/optimizer.py`

Goal seek and numerical derivatives of `OptimizerBase`, self-financing constraints, trade instructions, the optimizer for one pair in
the mode that extracts one token, and of the marginal price optimizer everything but the search for the prices, which is left out: the
model takes the prices that the search ends with. The convex optimizer (cvxpy), data frames and result formats are left out.
-/

namespace Carbon

open CarbonPair (pyDiv)

namespace Opt

section
variable {K : Type} [Field K] [LinearOrder K]

/-! ## `OptimizerBase` -/

/-- `GOALSEEKEPS` (optimizer.py:279). -/
def seekEps : K := 1 / 10 ^ 6

/-- What the goal seek returns: a bare number or a `SimpleResult` with a number. -/
inductive Found (K : Type) where
  | raw (x : K)
  | simple (x : K)
  deriving DecidableEq

/-- `float(…)` of the result of the goal seek (optimizer.py:208-211). -/
def Found.value : Found K → K
  | .raw x => x
  | .simple x => x

/-- The loop of `goalseek` (optimizer.py:292-300), at most `n` rounds of it; `none` if it is not finished then. -/
def seekLoop (f : K → Py K) : Nat → K → K → Option (Py (Found K))
  | 0, a, b => if seekEps < b - a then none else some (.ok (.simple ((a + b) / 2)))
  | n + 1, a, b =>
    if seekEps < b - a then
      let c := (a + b) / 2
      match f c with
      | .error e => some (.error e)
      | .ok fc =>
        if fc = 0 then some (.ok (.raw c))
        else
          match f a with
          | .error e => some (.error e)
          | .ok fa => if fa * fc < 0 then seekLoop f n a c else seekLoop f n c b
    else some (.ok (.simple ((a + b) / 2)))

/-- `goalseek` (optimizer.py:281-300), at most `n` rounds of its loop. -/
def goalseek (f : K → Py K) (a b : K) (n : Nat) : Option (Py (Found K)) :=
  match f a with
  | .error e => some (.error e)
  | .ok fa =>
    match f b with
    | .error e => some (.error e)
    | .ok fb => if 0 < fa * fb then some (.error .value) else seekLoop f n a b

/-- `DERIVEPS` (optimizer.py:222). -/
def derivEps : K := 1 / 10 ^ 6

/-- `deriv` (optimizer.py:224-229). -/
def deriv (f : K → K) (x : K) : K := (f (x + derivEps) - f (x - derivEps)) / (2 * derivEps)

/-- `deriv2` (optimizer.py:232-237). -/
def deriv2 (f : K → K) (x : K) : K := (f (x + derivEps) - 2 * f x + f (x - derivEps)) / (derivEps * derivEps)

/-- `findmin_gd` (optimizer.py:240-247): `N` steps of gradient descent. -/
def findminGd (f : K → K) (x0 rate : K) : Nat → K
  | 0 => x0
  | n + 1 =>
    let x := findminGd f x0 rate n
    x - rate * deriv f x

/-- `findmax_gd` (optimizer.py:250-257). -/
def findmaxGd (f : K → K) (x0 rate : K) : Nat → K
  | 0 => x0
  | n + 1 =>
    let x := findmaxGd f x0 rate n
    x + rate * deriv f x

/-- `findminmax_nr` (optimizer.py:260-275): `N` steps of Newton's method; `none` is the error result. -/
def findminmaxNr (f : K → K) (x0 : K) : Nat → Option K
  | 0 => some x0
  | n + 1 =>
    match findminmaxNr f x0 n with
    | none => none
    | some x => if deriv2 f x = 0 then none else some (x - deriv f x / deriv2 f x)

/-- `posx` of a tuple (optimizer.py:303-309). -/
def posx (l : List K) : List K := l.map (max 0)

/-- `negx` of a tuple (optimizer.py:312-318). -/
def negx (l : List K) : List K := l.map (min 0)

/-! ## Trade instructions -/

/-- `TradeInstruction` (optimizer.py:1459-1470), without its curve. -/
structure TI (K : Type) where
  cid : Str
  tknIn : Str
  amtIn : K
  tknOut : Str
  amtOut : K
  deriving DecidableEq

/-- `POSNEGEPS` (optimizer.py:1472). -/
def posNegEps : K := 1 / 10 ^ 8

/-- The constructor of `TradeInstruction` (optimizer.py:1474-1490). The id of the curve is the id given. -/
def TI.make (cid tknIn : Str) (amtIn : K) (tknOut : Str) (amtOut : K) : Py (TI K) :=
  if ¬ amtIn * amtOut < 0 then
    if |amtIn| < posNegEps ∧ |amtOut| < posNegEps then .ok ⟨cid, tknIn, 0, tknOut, 0⟩
    else .error .value
  else if ¬ 0 ≤ amtIn then .error .assertion
  else if ¬ amtOut ≤ 0 then .error .assertion
  else .ok ⟨cid, tknIn, amtIn, tknOut, amtOut⟩

/-- `TradeInstruction.new` (optimizer.py:1494-1510). -/
def TI.new (cid tkn1 : Str) (amt1 : K) (tkn2 : Str) (amt2 : K) : Py (TI K) :=
  if tkn1 = tkn2 then .error .assertion
  else if 0 < amt1 then TI.make cid tkn1 amt1 tkn2 amt2
  else TI.make cid tkn2 amt2 tkn1 amt1

/-- `is_empty` (optimizer.py:1513-1515). -/
def TI.isEmpty (t : TI K) : Bool := decide (t.amtIn = 0 ∨ t.amtOut = 0)

/-- `price_outperin` (optimizer.py:1579-1580). -/
def TI.priceOutPerIn (t : TI K) : Py K := pyDiv (-t.amtOut) t.amtIn

/-- `price_inperout` (optimizer.py:1584-1585). -/
def TI.priceInPerOut (t : TI K) : Py K := pyDiv (-t.amtIn) t.amtOut

/-! ## Self-financing constraints -/

/-- A value in the data of the constraints: an amount, or one of the three markers of the optimization variable. -/
inductive Constr (K : Type) where
  | amount (v : K)
  | pays
  | receives
  | optVar
  deriving DecidableEq

/-- Whether the value is one of the markers (optimizer.py:519-520). -/
def Constr.isVar : Constr K → Bool
  | .amount _ => false
  | _ => true

/-- `SelfFinancingConstraints` (optimizer.py:495-516). The data is a dictionary; sets of tokens are lists of which only the members
matter. -/
structure SFC (K : Type) where
  data : List (Str × Constr K)
  tokens : List Str
  optVar : Str

/-- The constructor (optimizer.py:518-530), without the tokens given as one string. -/
def SFC.make (data : List (Str × Constr K)) (tokens : Option (List Str) := none) : Py (SFC K) :=
  match data.filter fun kv => kv.2.isVar with
  | [kv] =>
    match tokens with
    | none => .ok ⟨data, data.map Prod.fst, kv.1⟩
    | some ts => if (data.map Prod.fst).all (fun t => decide (t ∈ ts)) then .ok ⟨data, ts, kv.1⟩ else .error .assertion
  | _ => .error .assertion

/-- `arb` (optimizer.py:562-564). -/
def SFC.arb (target : Str) : Py (SFC K) := SFC.make [(target, .optVar)]

/-- `get`, `__call__` (optimizer.py:566-569, 594-596). -/
def SFC.get (s : SFC K) (item : Str) : Py (Constr K) :=
  if item ∉ s.tokens then .error .assertion else .ok ((dictGet s.data item).getD (.amount 0))

/-- `is_optimizationvar` (optimizer.py:577-582). -/
def SFC.isOptVar (s : SFC K) (item : Str) : Py Bool :=
  if item ∉ s.tokens then .error .assertion else .ok (decide (item = s.optVar))

/-- `is_constraint` (optimizer.py:571-575). -/
def SFC.isConstraint (s : SFC K) (item : Str) : Py Bool := do
  let b ← s.isOptVar item
  .ok (!b)

/-- `is_arbsfc` (optimizer.py:584-591). -/
def SFC.isArb (s : SFC K) : Bool :=
  if s.data.length = 1 then true
  else decide ((s.data.filter fun kv => decide (kv.2 ≠ .amount 0)).length = 1)

end

/-! ## The marginal price optimizer -/

section
variable {K : Type} [Field K] [LinearOrder K] [PySqrt K]

/-- `get(p, tokens_ix.get(t))` (optimizer.py:1155) and `p_optimal.get(t, 1)` (optimizer.py:1380): the target token has price one. -/
def priceOf (prices : List (Str × K)) (t : Str) : K := (dictGet prices t).getD 1

/-- `d[t] += v` (optimizer.py:1205-1206). -/
def addTo (d : List (Str × K)) (t : Str) (v : K) : Py (List (Str × K)) :=
  match dictGet d t with
  | none => .error .key
  | some w => .ok (dictSet d t (w + v))

/-- The trades of some curves at a price (optimizer.py:1192). -/
def tradesAt (cs : List (CPC K)) (price : K) : Py (List (K × K)) :=
  cs.mapM fun c => do
    let r ← c.dxdyfromp (some price)
    .ok (r.1, r.2.1)

/-- One pair in the loop of `dtknfromp_f` (optimizer.py:1188-1206). NumPy would not raise for a price of zero. -/
def addPair (cs : List (CPC K)) (prices : List (Str × K)) (d : List (Str × K)) (pair : Str) : Py (List (Str × K)) := do
  let bq ← CarbonPair.unpack pair
  let price ← pyDiv (priceOf prices bq.1) (priceOf prices bq.2)
  let dxdy ← tradesAt (cs.filter fun c => decide (c.pair = pair)) price
  let d ← addTo d bq.2 (dxdy.map Prod.snd).sum
  addTo d bq.1 (dxdy.map Prod.fst).sum

/-- The tokens other than the target token (optimizer.py:1123-1125). The iteration order of the set is that of the list here. -/
def tokensOf (cc : CC K) (target : Str) : List Str := cc.tkns.dedup.filter fun t => decide (t ≠ target)

/-- `dtknfromp_f(p, asdct=True, islog10=False)` (optimizer.py:1165-1220): the net amount of every token. -/
def dtknfromp (cc : CC K) (target : Str) (p : List K) : Py (List (Str × K)) :=
  let tokens := tokensOf cc target
  if p.length ≠ tokens.length then .error .assertion
  else (cc.curves.map CPC.pair).dedup.foldlM (addPair cc.curves (tokens.zip p)) (cc.tkns.dedup.map fun t => (t, 0))

/-- `MargpOptimizerResult` (optimizer.py:1343-1358). -/
structure Margp (K : Type) where
  curves : CC K
  target : Str
  prices : List (Str × K)
  dtokens : List (Str × K)
  result : K

/-- `margp_optimizer` (optimizer.py:1078-1340) from the point where the prices `p` have been found (optimizer.py:1327-1340). -/
def margp (cc : CC K) (target : Str) (p : List K) : Py (Margp K) :=
  if cc.curves = [] then .error .assertion
  else if target ∉ cc.tkns then .error .assertion
  else do
    let d ← dtknfromp cc target p
    match dictGet d target with
    | none => .error .key
    | some r => .ok ⟨cc, target, (tokensOf cc target).zip p, d, r⟩

/-- `price` (optimizer.py:1377-1380). -/
def Margp.price (m : Margp K) (tknb tknq : Str) : Py K := pyDiv (priceOf m.prices tknb) (priceOf m.prices tknq)

/-- `dxdyvalues` (optimizer.py:1382-1391). -/
def Margp.dxdyvalues (m : Margp K) : Py (List (K × K)) :=
  m.curves.curves.mapM fun c => do
    let p ← m.price c.tknb c.tknq
    let r ← c.dxdyfromp (some p)
    .ok (r.1, r.2.1)

/-- The instructions for the curves that trade (optimizer.py:1412-1415). -/
def instructions : List (CPC K × K × K) → Py (List (TI K))
  | [] => .ok []
  | (c, dx, dy) :: l =>
    if dx ≠ 0 ∨ dy ≠ 0 then do
      let t ← TI.new (Cid.show c.cid) c.tknb dx c.tknq dy
      let ts ← instructions l
      .ok (t :: ts)
    else instructions l

/-- `trade_instructions` (optimizer.py:1408-1416). -/
def Margp.tradeInstructions (m : Margp K) : Py (List (TI K)) := do
  let v ← m.dxdyvalues
  instructions (m.curves.curves.zip v)

/-- The executions of `adjust_curves` (optimizer.py:1432). -/
def executeAll (l : List (CPC K × K)) : Py (List (CPC K)) := l.mapM fun cd => cd.1.execute (some cd.2) none true

/-- `adjust_curves` (optimizer.py:1419-1440); `none` if an execution has raised and `raiseonerror` is not set. -/
def adjustCurves (cc : CC K) (dxvals : List K) (raiseonerror := false) : Py (Option (CC K)) :=
  match executeAll (cc.curves.zip dxvals) with
  | .ok cs => .ok (some (CC.ofCurves cs))
  | .error e => if raiseonerror then .error e else .ok none

/-- `curves_new` (optimizer.py:1402-1406). -/
def Margp.curvesNew (m : Margp K) : Py (Option (CC K)) := do
  let v ← m.dxdyvalues
  adjustCurves m.curves (v.map Prod.fst)

/-! ## The optimizer for one pair -/

/-- `p` of a curve or view. -/
def wrappedP : Wrapped K → Py K
  | .plain c => .ok c.p
  | .inv i => i.p

/-- `dxdyfromp_f(p)[0:2]` of a curve or view. -/
def wrappedTrade (p : K) : Wrapped K → Py (K × K)
  | .plain c => do
    let r ← c.dxdyfromp (some p)
    .ok (r.1, r.2.1)
  | .inv i => do
    let r ← i.dxdyfromp (some p)
    .ok (r.1, r.2.1)

/-- `pair` of a curve or view. -/
def wrappedPair : Wrapped K → Str
  | .plain c => c.pair
  | .inv i => i.pair

/-- `dxdyfromp_sum_f` (optimizer.py:967). -/
def sumTrade (ws : List (Wrapped K)) (p : K) : Py (K × K) := do
  let l ← ws.mapM (wrappedTrade p)
  .ok ((l.map Prod.fst).sum, (l.map Prod.snd).sum)

/-- `SimpleOptimizerResult` (optimizer.py:821-846): the curves, the price and the amount of the target token. -/
structure Simple (K : Type) where
  curves : List (Wrapped K)
  price : K
  result : K

/-- The side of the token that is not the target (optimizer.py:999-1006). -/
def otherSide (targetIsX : Bool) (v : K × K) : K := if targetIsX then v.2 else v.1

/-- The side of the target token. -/
def targetSide (targetIsX : Bool) (v : K × K) : K := if targetIsX then v.1 else v.2

/-- `simple_optimizer(targettkn)` (optimizer.py:934-1034), at most `n` rounds of the goal seek. If the goal seek returns a bare number,
the test for an error (optimizer.py:1009) raises `AttributeError`. -/
def simpleOptimizer (cs : List (CPC K)) (target : Str) (n : Nat) : Option (Py (Simple K)) :=
  let ws := Wrapped.wrap cs
  match ws with
  | [] => some (.error .assertion)
  | w :: _ =>
    if ¬ ws.all (fun v => decide (wrappedPair v = wrappedPair w)) then some (.error .assertion)
    else
      match ws.mapM wrappedP with
      | .error e => some (.error e)
      | .ok ps =>
        let lo := ps.tail.foldl min (ps.headD 0)
        let hi := ps.tail.foldl max (ps.headD 0)
        let pairo := w.pairo
        if ¬ (target = pairo.tknb ∨ target = pairo.tknq) then some (.error .assertion)
        else
          let isX := decide (target = pairo.tknb)
          match goalseek (fun p => do let v ← sumTrade ws p; .ok (otherSide isX v)) (lo * (99 / 100)) (hi * (101 / 100)) n with
          | none => none
          | some (.error e) => some (.error e)
          | some (.ok r) =>
            match sumTrade ws r.value with
            | .error e => some (.error e)
            | .ok v =>
              match r with
              | .raw _ => some (.error .attr)
              | .simple x => some (.ok ⟨ws, x, targetSide isX v⟩)

end

end Opt

end Carbon
