import Verif.Helpers.Formulas
import Mathlib.Analysis.SpecialFunctions.Sqrt

/-!
# Model of `resources/whitepaper/CarbonCalculations.py` and `resources/whitepaper/sympyx.py`

The formulas are trees and an equation is a pair of trees, with the value of a tree under an assignment of real numbers to the symbols.
`subs` replaces subtrees, so a product that is substituted as a whole is written as a subtree (lines 86, 92). `simplify` and `factor`
rewrite an expression to another one with the same values; they are left out, and so are the automatic simplifications of SymPy. What
`solve` finds is given in closed form; that it is a solution is a theorem (`C165_isolated`). Division by zero gives zero in Lean, hence
the theorems are about assignments for which the denominators differ from zero.
-/

namespace Carbon.Paper

/-- The symbols (CarbonCalculations.py:27-32, 229). -/
inductive Symb
  | x | x0 | xint | dx | Dx | y | y0 | yint | dy | Dy | P | Pmarg | Px | Py | Q | Gam | w | B | S | xasym | yasym | kappa | k | r | rho
  deriving DecidableEq, Repr

/-- A SymPy expression, as far as the formulas use them. -/
inductive Ex
  | v (s : Symb)
  | n (c : ℕ)
  | neg (a : Ex)
  | add (a b : Ex)
  | sub (a b : Ex)
  | mul (a b : Ex)
  | div (a b : Ex)
  | pow (a : Ex) (e : ℕ)
  | sqrt (a : Ex)
  deriving DecidableEq, Repr

namespace Ex

instance : Add Ex := ⟨add⟩
instance : Sub Ex := ⟨sub⟩
instance : Mul Ex := ⟨mul⟩
instance : Div Ex := ⟨div⟩
instance : Neg Ex := ⟨neg⟩
instance (c : ℕ) : OfNat Ex c := ⟨n c⟩
instance : Coe Symb Ex := ⟨v⟩
instance : HPow Ex ℕ Ex := ⟨pow⟩

/-- The value of an expression for values of the symbols. -/
noncomputable def eval (ρ : Symb → ℝ) : Ex → ℝ
  | v s => ρ s
  | n c => c
  | neg a => -eval ρ a
  | add a b => eval ρ a + eval ρ b
  | sub a b => eval ρ a - eval ρ b
  | mul a b => eval ρ a * eval ρ b
  | div a b => eval ρ a / eval ρ b
  | pow a e => eval ρ a ^ e
  | sqrt a => Real.sqrt (eval ρ a)

/-- `expr.subs(old, new)` of SymPy for subtrees. -/
def subs (e old new : Ex) : Ex :=
  if e = old then new else
    match e with
    | v s => v s
    | n c => n c
    | neg a => neg (subs a old new)
    | add a b => add (subs a old new) (subs b old new)
    | sub a b => sub (subs a old new) (subs b old new)
    | mul a b => mul (subs a old new) (subs b old new)
    | div a b => div (subs a old new) (subs b old new)
    | pow a m => pow (subs a old new) m
    | sqrt a => sqrt (subs a old new)

end Ex

/-- `XEq` (sympyx.py:11-31): an equation. -/
structure XEq where
  lhs : Ex
  rhs : Ex
  deriving DecidableEq, Repr

namespace XEq

/-- The equation is satisfied by the values. -/
def holds (e : XEq) (ρ : Symb → ℝ) : Prop := e.lhs.eval ρ = e.rhs.eval ρ

/-- `simplify0` (sympyx.py:38-40), without the simplification. -/
def simplify0 (e : XEq) : XEq := ⟨e.lhs - e.rhs, 0⟩

/-- `neg` and `__neg__` (sympyx.py:50-52, 92-94). -/
def neg (e : XEq) : XEq := ⟨-e.lhs, -e.rhs⟩

/-- `swap` (sympyx.py:54-56). -/
def swap (e : XEq) : XEq := ⟨e.rhs, e.lhs⟩

/-- `subs` of SymPy on an equation: both sides. -/
def subs (e : XEq) (old new : Ex) : XEq := ⟨e.lhs.subs old new, e.rhs.subs old new⟩

/-- `subs_eq` and `s` (sympyx.py:62-66). -/
def subsEq (e f : XEq) : XEq := e.subs f.lhs f.rhs

/-- `__add__` of two equations (sympyx.py:72-75). -/
def add (e f : XEq) : XEq := ⟨e.lhs + f.lhs, e.rhs + f.rhs⟩

/-- `__add__` and `__radd__` of an equation and an expression (sympyx.py:76-78). -/
def addS (e : XEq) (o : Ex) : XEq := ⟨e.lhs + o, e.rhs + o⟩

/-- `__sub__` of two equations (sympyx.py:80-83). -/
def sub (e f : XEq) : XEq := ⟨e.lhs - f.lhs, e.rhs - f.rhs⟩

/-- `__sub__` of an equation and an expression (sympyx.py:84). -/
def subS (e : XEq) (o : Ex) : XEq := ⟨e.lhs - o, e.rhs - o⟩

/-- `__rsub__` of an expression and an equation (sympyx.py:86-90). -/
def rsubS (e : XEq) (o : Ex) : XEq := ⟨-e.lhs + o, -e.rhs + o⟩

/-- `__mul__` of two equations (sympyx.py:96-99). -/
def mul (e f : XEq) : XEq := ⟨e.lhs * f.lhs, e.rhs * f.rhs⟩

/-- `__mul__` and `__rmul__` of an equation and an expression (sympyx.py:100-102). -/
def mulS (e : XEq) (o : Ex) : XEq := ⟨e.lhs * o, e.rhs * o⟩

/-- `__truediv__` of two equations (sympyx.py:104-107). -/
def div (e f : XEq) : XEq := ⟨e.lhs / f.lhs, e.rhs / f.rhs⟩

/-- `__truediv__` of an equation and an expression (sympyx.py:108). -/
def divS (e : XEq) (o : Ex) : XEq := ⟨e.lhs / o, e.rhs / o⟩

/-- `__rtruediv__` of an expression and an equation (sympyx.py:110-114); `invert` (sympyx.py:46-48) is the one with the expression 1. -/
def rdivS (e : XEq) (o : Ex) : XEq := ⟨o / e.lhs, o / e.rhs⟩

/-- `__rtruediv__` of two equations (sympyx.py:110-113). It is reached by dividing a plain SymPy equation `o`, which has no division of its own,
by the extended one `e`. -/
def rdiv (e o : XEq) : XEq := ⟨e.lhs / o.lhs, e.rhs / o.rhs⟩

/-- `__rsub__` of two equations (sympyx.py:86-89), reached in the same way. -/
def rsub (e o : XEq) : XEq := ⟨-e.lhs + o.lhs, -e.rhs + o.rhs⟩

/-- `invert` (sympyx.py:46-48). -/
def invert (e : XEq) : XEq := e.rdivS 1

/-- `__pow__` for a number (sympyx.py:116-120), a natural one. -/
def powS (e : XEq) (m : ℕ) : XEq := ⟨e.lhs ^ m, e.rhs ^ m⟩

end XEq

open Symb Ex

/-- CarbonCalculations.py:37-40. -/
def PIE : XEq := ⟨y, (x0 : Ex) * P * ((x : Ex) * ((Gam : Ex) - 1) - (x0 : Ex) * ((Gam : Ex) - 2)) / ((Gam : Ex) * x - (x0 : Ex) * ((Gam : Ex) - 1))⟩

/-- CarbonCalculations.py:43. -/
def PINE : XEq := PIE.subs x0 ((y0 : Ex) / P)

/-- CarbonCalculations.py:48-51. -/
def PIQE : XEq := ⟨Q, (x : Ex) * y / (((x : Ex) - xint) * ((y : Ex) - yint))⟩

/-- CarbonCalculations.py:54-55; SymPy cancels the product on the right. -/
def PIQ2E : XEq := ⟨(Q : Ex) * (((x : Ex) - xint) * ((y : Ex) - yint)), (x : Ex) * y⟩

/-- CarbonCalculations.py:60. -/
def QGDE : XEq := ⟨Q, (1 - (Gam : Ex)) ^ 2⟩

/-- CarbonCalculations.py:64, the first solution. -/
def GQE : XEq := ⟨Gam, 1 - sqrt Q⟩

/-- CarbonCalculations.py:69. -/
def GFQE : XEq := ⟨(2 - (Gam : Ex)) / (1 - (Gam : Ex)), 1 + 1 / sqrt Q⟩

/-- CarbonCalculations.py:76. -/
def GFQ2E : XEq := ⟨((Gam : Ex) - 1) / Gam, (((Gam : Ex) - 1) / Gam).subs Gam GQE.rhs⟩

/-- CarbonCalculations.py:83. -/
def XiDE : XEq := ⟨xint, (x0 : Ex) * ((2 - (Gam : Ex)) / (1 - (Gam : Ex)))⟩

/-- CarbonCalculations.py:86. -/
def XiQE : XEq := XiDE.subs GFQE.lhs GFQE.rhs

/-- CarbonCalculations.py:89. -/
def YiDE : XEq := ⟨yint, (y0 : Ex) * ((2 - (Gam : Ex)) / (1 - (Gam : Ex)))⟩

/-- CarbonCalculations.py:92. -/
def YiQE : XEq := YiDE.subs GFQE.lhs GFQE.rhs

/-- CarbonCalculations.py:95. -/
def PxDE : XEq := ⟨Px, (P : Ex) * Q⟩

/-- CarbonCalculations.py:98. -/
def PyDE : XEq := ⟨Symb.Py, (P : Ex) / Q⟩

/-- CarbonCalculations.py:103. -/
def PXYE : XEq := ⟨P, (y0 : Ex) / x0⟩

/-- CarbonCalculations.py:109. -/
def PXYiE : XEq := ⟨P, (yint : Ex) / xint⟩

/-- CarbonCalculations.py:114. -/
def QPE : XEq := ⟨Q, sqrt ((Px : Ex) / Symb.Py)⟩

/-- CarbonCalculations.py:119. -/
def WDE : XEq := ⟨w, 1 / QPE.rhs ^ 2⟩

/-- CarbonCalculations.py:124. -/
def WE : XEq := ⟨w, 1 / QPE.lhs ^ 2⟩

/-- CarbonCalculations.py:131. -/
def PPE : XEq := ⟨P, sqrt ((Px : Ex) * Symb.Py)⟩

/-- CarbonCalculations.py:146. -/
def YiPE : XEq := ⟨yint, ((P : Ex) * xint).subs P PPE.rhs⟩

/-- CarbonCalculations.py:149. -/
def XiPE : XEq := ⟨xint, (yint : Ex) / PPE.rhs⟩

/-- CarbonCalculations.py:154-157. -/
def SE : XEq :=
  ⟨-(Dy : Ex), (P : Ex) * (x0 : Ex) ^ 2 * Dx / (((Gam : Ex) * ((x : Ex) - x0) + x0) * ((Gam : Ex) * ((x : Ex) - x0 + Dx) + x0))⟩

/-- CarbonCalculations.py:162-165. -/
def MSE : XEq := ⟨-((dy : Ex) / dx), (P : Ex) * (x0 : Ex) ^ 2 / ((Gam : Ex) * ((x : Ex) - x0) + x0) ^ 2⟩

/-- CarbonCalculations.py:170. -/
def MPE : XEq := ⟨Pmarg, MSE.rhs⟩

/-- CarbonCalculations.py:175. -/
def MPERev0 : XEq := (((MPE.subs Pmarg (1 / (Pmarg : Ex))).subs P (1 / (P : Ex))).subs x0 y0).subs x y

/-- CarbonCalculations.py:180. -/
def MPERev : XEq := ⟨Pmarg, 1 / MPERev0.rhs⟩

/-- CarbonCalculations.py:185; `solve(XiQE, x0)[0]` in closed form. -/
def MPQXiE : XEq := (MPE.subs GQE.lhs GQE.rhs).subs x0 ((xint : Ex) / (1 + 1 / sqrt Q))

/-- CarbonCalculations.py:188; `solve(YiQE, y0)[0]` in closed form. -/
def MPQYiE : XEq := (MPERev.subs GQE.lhs GQE.rhs).subs y0 ((yint : Ex) / (1 + 1 / sqrt Q))

/-- CarbonCalculations.py:195. -/
def PIA1E : XEq := ⟨((x : Ex) - xasym) * ((y : Ex) - yasym), kappa⟩

/-- CarbonCalculations.py:198. -/
def XADE : XEq := ⟨xasym, (x0 : Ex) * (1 - 1 / (Gam : Ex))⟩

/-- CarbonCalculations.py:201. -/
def YADE : XEq := ⟨yasym, (y0 : Ex) * (1 - 1 / (Gam : Ex))⟩

/-- CarbonCalculations.py:204. -/
def YAXDE : XEq := ⟨yasym, YADE.rhs.subs y0 ((P : Ex) * x0)⟩

/-- CarbonCalculations.py:209, in the form to which SymPy simplifies it (cell output of CarbonCalculations.ipynb). -/
def KPDE : XEq := ⟨kappa, (P : Ex) * (x0 : Ex) ^ 2 / (Gam : Ex) ^ 2⟩

/-- CarbonCalculations.py:214. -/
def KPYDE : XEq := ⟨KPDE.lhs, KPDE.rhs.subs P ((y0 : Ex) / x0)⟩

/-- CarbonCalculations.py:219. -/
def PLE : XEq := ⟨kappa, (k : Ex) / (Gam : Ex) ^ 2⟩

/-- CarbonCalculations.py:224. -/
def GSE : XEq := ⟨sqrt kappa / sqrt k, ((1 / (Gam : Ex)).subs Gam GQE.rhs).subs Q QPE.rhs⟩

/-- CarbonCalculations.py:230. -/
def RXE : XEq := ⟨x0, (r : Ex) * x⟩

/-- CarbonCalculations.py:231. -/
def RXIE : XEq := ⟨x, (rho : Ex) * x0⟩

/-- CarbonCalculations.py:236. -/
def MPRE : XEq := MPE.subsEq RXE

/-- CarbonCalculations.py:239. -/
def MPRIE : XEq := MPE.subsEq RXIE

/-- CarbonCalculations.py:244. -/
def PIRE : XEq := PIE.subsEq RXE

/-- CarbonCalculations.py:247. -/
def PIRIE : XEq := PIE.subsEq RXIE

/-- CarbonCalculations.py:250. -/
def SRE : XEq := SE.subsEq RXE

/-- CarbonCalculations.py:253. -/
def SRIE : XEq :=
  ⟨SE.lhs, (P : Ex) * Dx * x0 / (((Gam : Ex) * ((rho : Ex) - 1) + 1) * ((Gam : Ex) * ((Dx : Ex) + (x0 : Ex) * ((rho : Ex) - 1)) + x0))⟩

/-- CarbonCalculations.py:262, with `Pb = Px` (31). -/
def BDE : XEq := ⟨B, sqrt Px⟩

/-- CarbonCalculations.py:265, with `Pa = Py` (30). -/
def SDE : XEq := ⟨S, sqrt Symb.Py - sqrt Px⟩

/-- CarbonCalculations.py:276. -/
def BSPIE : XEq :=
  ⟨(y : Ex) * ((x : Ex) * ((B : Ex) * S + (S : Ex) ^ 2) + yint), (yint : Ex) * ((yint : Ex) - (x : Ex) * ((B : Ex) * S + (B : Ex) ^ 2))⟩

/-- CarbonCalculations.py:284. -/
def BSPIYE : XEq :=
  ⟨y, (yint : Ex) * ((yint : Ex) - (x : Ex) * ((B : Ex) * S + (B : Ex) ^ 2)) / ((x : Ex) * ((B : Ex) * S + (S : Ex) ^ 2) + yint)⟩

/-- CarbonCalculations.py:292. -/
def BSPIXE : XEq :=
  ⟨x, (yint : Ex) * ((yint : Ex) - y) / ((y : Ex) * ((B : Ex) * S + (S : Ex) ^ 2) + (yint : Ex) * ((B : Ex) * S + (B : Ex) ^ 2))⟩

/-- CarbonCalculations.py:303. -/
def MPBSE : XEq := ⟨Pmarg, ((B : Ex) + (S : Ex) * y / yint) ^ 2⟩

/-- CarbonCalculations.py:310: the two solutions of a quadratic equation, of which `isolate` takes the first one that SymPy finds. -/
def YMPE (plus : Bool) : XEq := ⟨y, (yint : Ex) * ((if plus then sqrt Pmarg else -sqrt Pmarg) - (B : Ex)) / S⟩

/-- CarbonCalculations.py:315. -/
def BSSE : XEq :=
  ⟨Dy, (Dx : Ex) * ((S : Ex) * y + (B : Ex) * yint) ^ 2 / ((S : Ex) * Dx * ((S : Ex) * y + (B : Ex) * yint) + (yint : Ex) ^ 2)⟩

/-- CarbonCalculations.py:320. -/
def BSRSE : XEq :=
  ⟨Dx, (Dy : Ex) * (yint : Ex) ^ 2 / (((S : Ex) * y + (B : Ex) * yint) * ((S : Ex) * y + (B : Ex) * yint - (S : Ex) * Dy))⟩

/-- CarbonCalculations.py:337; `-solve(WE, Q)[0]` in closed form. -/
def MPWYiE : XEq := MPQYiE.subs Q (1 / sqrt w)

/-- CarbonCalculations.py:342; the coefficient of `P` in `MPWYiE` goes to the other side. -/
def P0WYiE : XEq := ⟨P, (Pmarg : Ex) / (MPWYiE.rhs.subs P 1)⟩

/-- The arguments of the calls of `FORMULAS.add` (CarbonCalculations.py:373-707): key, equation and comment. The flag is the solution that
`isolate` takes in line 310. -/
def calls (plus : Bool) : List (String × XEq × String) :=
  [("PIE", PIE, "expressed as y as a function of x and parameters P, x0, Gamma"),
   ("PINE", PINE, "expressed as y as a function of x and parameters P, y0, Gamma"),
   ("PIQE", PIQE, "expressed as Q equals function of x,y with the intercepts as parameters"),
   ("PIQ2E", PIQ2E, "expressed as Q equals function of x,y with the intercepts as parameters (alternitive form)"),
   ("PIRE", PIRE, "expressed as y as a function of r and parameters P, x0, Gamma"),
   ("PIRIE", PIRIE, "expressed as y as a function of rho and parameters P, x0, Gamma"),
   ("PIA1E", PIA1E, "expressed as hyperbola equation with asymptotes and kappa"),
   ("SE", SE, "expressed as minus Delta y as a function of Delta x and all other parameters and variables from the PIE"),
   ("SRE", SRE, "expressed as minus Delta y as a function of Delta x and all other parameters and variables from the PIRE"),
   ("SRIE", SRIE, "expressed as minus Delta y as a function of Delta x and all other parameters and variables from the PIRIE"),
   ("MSE", MSE, "the Swap Equation for Delta x -> dx; dx is brought to the LHS"),
   ("MPE", MPE, "this is the same as the Marginal Swap Equation, except that the LHS is recognized as the marginal price"),
   ("MPERev", MPERev, "Marginal price eqaution seen from the other side (ie based on y, y0)"),
   ("MPQXiE", MPQXiE, "Reparametrization of the MPE as a function of $Q, x_{int}$"),
   ("MPQYiE", MPQYiE, "Reparametrization of the MPE as a function of $Q, y_{int}$"),
   ("MPWYiE", MPWYiE, "Reparametrization of the MPE as a function of $w, y_{int}$"),
   ("MPWYiE", MPWYiE, "Reparametrization of the MPE as a function of $w, y_{int}$"),
   ("P0WYiE", P0WYiE, "Establishes relationship $P_0=P_0(w)$ for which the marginal price remains const"),
   ("PLE", PLE, "Establishes relationship between kappa, k, Gamma"),
   ("KPYDE", KPYDE, "Defines kappa in terms of x0, y0, Gamma$"),
   ("GSE", GSE, "Defines the scaling factor 1/Gamma as function of the range size Py/Px"),
   ("MPRE", MPRE, "this is the same as the Marginal Swap Equation, except that the LHS is recognized as the marginal price; x/x0 = r is fixed"),
   ("MPRIE", MPRIE, "this is the same as the Marginal Swap Equation, except that the LHS is recognized as the marginal price; x/x0 = r is fixed"),
   ("BDE", BDE, "This equation defines the parameter B = sqrt Px"),
   ("SDE", SDE, "This equation defines the parameter S = sqrt Py - sqrt Px"),
   ("BSPIE", BSPIE, "This is the Pool Invariant Equation with parameters B, S, and yint"),
   ("BSPIYE", BSPIYE, "This is the Pool Invariant Equation with parameters B, S, and yint (solved for y)"),
   ("BSPIXE", BSPIXE, "This is the Pool Invariant Equation with parameters B, S, and yint (solved for x)"),
   ("BSSE", BSSE, "This equation determined Delta y as a function of a non-infinitesimal Delta x"),
   ("BSRSE", BSRSE, "This equation determined Delta x as a function of a non-infinitesimal Delta y"),
   ("MPBSE", MPBSE, "The marginal price equation using B,S parameterization"),
   ("YMPE", YMPE plus, "The marginal price equation using B,S parameterization, solved for y"),
   ("QGDE", QGDE, "Gamma as a function of Q"),
   ("GQE", GQE, "Gamma as a function of Q"),
   ("GFQE", GFQE, "an important relationship between functions of Gamma and Q"),
   ("XiDE", XiDE, "xint as function of x0 and Gamma"),
   ("YiDE", YiDE, "xint as function of y0 and Gamma"),
   ("XiQE", XiQE, "xint as function of x0 and Q"),
   ("YiQE", YiQE, "yint as function of y0 and Q"),
   ("PxDE", PxDE, "Px as function of P and Q"),
   ("PyDE", PyDE, "Py as function of P and Q"),
   ("PXYE", PXYE, "P as a function of x0 and y0"),
   ("PXYiE", PXYiE, "P as a function of xint and yint"),
   ("QPE", QPE, "Q as a function of Px and Py"),
   ("WDE", WDE, "w as ratio Py/Px "),
   ("WE", WE, "Py/Px as a function of Q"),
   ("PPE", PPE, "P as a function of Px and Py"),
   ("XiPE", XiPE, "xint as function of Px and Py"),
   ("YiPE", XiPE, "yint as function of Px and Py"),
   ("XADE", XADE, "Defines $x_{asym}$ in terms of x0, Gamma"),
   ("YADE", YADE, "Defines $y_{asym}$ in terms of y0, Gamma"),
   ("YAXDE", YAXDE, "Defines $y_{asym}$ in terms of x0, P0, Gamma"),
   ("KPDE", KPDE, "Defines $\\kappa$ in terms of x0, P0, Gamma"),
   ("RXE", RXE, "Defines r as the ratio x/x0"),
   ("RXIE", RXIE, "Defines rho as the ratio x0/x")]

/-- `FORMULAS` (CarbonCalculations.py:366-707), without the titles. -/
def FORMULAS (plus : Bool) : Formulas XEq :=
  (calls plus).foldl (fun f c => (f.add c.1.toList c.2.1 none (some c.2.2.toList)).2) Formulas.new

end Carbon.Paper
