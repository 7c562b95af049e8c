import Verif.Carbon.Pair

/-!
# Model of `carbon/helpers/sharedvar.py`

Objects live in a heap and are referred to by position. An object holds a number, or, after an operation with another such object, a new
object that holds one, and so on: `depth` counts how often. The inner objects are new and are not referred to by anything else as long as
programs do not take them out with `.value`, which the modelled programs do not.
-/

namespace Carbon.Shared

variable {K : Type}

/-- `SharedVar` (carbon/helpers/sharedvar.py:9-34): the number at the bottom and how often it is wrapped within the object. -/
structure Obj (K : Type) where
  depth : Nat
  num : K
  deriving DecidableEq, Repr

/-- What a Python variable refers to. -/
inductive Val (K : Type) where
  | num (x : K)
  | ref (l : Nat)
  deriving DecidableEq, Repr

/-- Objects and variables. -/
structure State (K : Type) where
  heap : List (Obj K)
  env : Nat → Option (Val K)

/-- An operand: a number, or the object a variable refers to. -/
inductive Arg (K : Type) where
  | lit (x : K)
  | var (v : Nat)

/-- The value of a variable. -/
def State.get (s : State K) (v : Nat) : Py (Val K) :=
  match s.env v with
  | none => .error (.custom "NameError")
  | some x => .ok x

/-- The operand. -/
def State.arg (s : State K) : Arg K → Py (Val K)
  | .lit x => .ok (.num x)
  | .var v => s.get v

/-- The object at a position. -/
def State.obj (s : State K) (l : Nat) : Py (Obj K) :=
  match s.heap[l]? with
  | none => .error .attr
  | some o => .ok o

/-- Binding a variable. -/
def State.bind (s : State K) (v : Nat) (x : Val K) : State K := { s with env := fun w => if w = v then some x else s.env w }

/-- A new object (carbon/helpers/sharedvar.py:33-34) bound to a variable. -/
def State.new (s : State K) (v : Nat) (o : Obj K) : State K := { s with heap := s.heap ++ [o] }.bind v (.ref s.heap.length)

/-- The value of a binary operator (carbon/helpers/sharedvar.py:75-77, 103-168): `__op__` applies the operator to the number inside and
wraps the result; if the other operand is such an object its `__rop__` is called first. `none` for the depth means a plain number. -/
def binop (op : K → K → Py K) : (Obj K ⊕ K) → (Obj K ⊕ K) → Py (Obj K ⊕ K)
  | .inl a, .inl b => do
    let r ← op a.num b.num
    .ok (.inl ⟨a.depth + b.depth + 1, r⟩)
  | .inl a, .inr y => do
    let r ← op a.num y
    .ok (.inl ⟨a.depth, r⟩)
  | .inr x, .inl b => do
    let r ← op x b.num
    .ok (.inl ⟨b.depth, r⟩)
  | .inr x, .inr y => do
    let r ← op x y
    .ok (.inr r)

/-- The object or number meant by a value. -/
def State.deref (s : State K) : Val K → Py (Obj K ⊕ K)
  | .num x => .ok (.inr x)
  | .ref l => do
    let o ← s.obj l
    .ok (.inl o)

/-- Statements of programs that use the class. -/
inductive Stmt (K : Type) where
  | make (v : Nat) (x : K)                                  -- `v = SharedVar(x)`
  | lit (v : Nat) (x : K)                                   -- `v = x`
  | alias (v w : Nat)                                       -- `v = w`
  | setval (v : Nat) (x : K)                                -- `v.setval(x)`
  | aug (v : Nat) (op : K → K → Py K) (a : Arg K)           -- `v op= a`
  | bin (v : Nat) (a : Arg K) (op : K → K → Py K) (b : Arg K) -- `v = a op b`

/-- `v = r` for the result of an operator. -/
def State.store (s : State K) (v : Nat) : Obj K ⊕ K → State K
  | .inl o => s.new v o
  | .inr x => s.bind v (.num x)

/-- The effect of a statement. `setval` (carbon/helpers/sharedvar.py:46-49) and the assignment operators (lines 172-222) change the
object and keep its identity; for a plain number `op=` is an assignment. -/
def exec (s : State K) : Stmt K → Py (State K)
  | .make v x => .ok (s.new v ⟨0, x⟩)
  | .lit v x => .ok (s.bind v (.num x))
  | .alias v w => do
    let x ← s.get w
    .ok (s.bind v x)
  | .setval v x => do
    let r ← s.get v
    match r with
    | .num _ => .error .attr
    | .ref l => .ok { s with heap := s.heap.set l ⟨0, x⟩ }
  | .aug v op a => do
    let r ← s.get v
    let y ← s.arg a
    let o ← s.deref r
    let p ← s.deref y
    let q ← binop op o p
    match r, q with
    | .ref l, .inl n => .ok { s with heap := s.heap.set l n }
    | _, q => .ok (s.store v q)
  | .bin v a op b => do
    let x ← s.arg a
    let y ← s.arg b
    let o ← s.deref x
    let p ← s.deref y
    let q ← binop op o p
    .ok (s.store v q)

/-- A program. -/
def run (s : State K) : List (Stmt K) → Py (State K)
  | [] => .ok s
  | c :: cs => do
    let t ← exec s c
    run t cs

/-- What `float(v)`, comparisons and printing show (carbon/helpers/sharedvar.py:53-72, 226-248). -/
def State.number (s : State K) (v : Nat) : Py K := do
  let r ← s.get v
  let o ← s.deref r
  .ok (match o with | .inl o => o.num | .inr x => x)

/-- Whether `v.value` is a number (carbon/helpers/sharedvar.py:41-44). -/
def State.valueIsNumber (s : State K) (v : Nat) : Py Bool := do
  let r ← s.get v
  let o ← s.deref r
  match o with
  | .inl o => .ok (o.depth == 0)
  | .inr _ => .error .attr

end Carbon.Shared
