import Mathlib.Analysis.Calculus.Deriv.Inv
import Mathlib.Analysis.SpecialFunctions.Sqrt
import Verif.Helpers.Paper

/-!
# What the symbols of the whitepaper stand for

A pool with reference point `(x0, y0)` and leverage `1/Γ` is a constant-product pool with reserves that are `1/Γ` times as large, of
which the excess over the reference point is virtual. Everything else is observed on this curve: its intercepts, slopes and asymptotes,
and the points between which a trade moves. No formula of the paper is used.
-/

namespace Carbon.Paper

open Filter Topology

/-- The amount of the second token for an amount `t` of the first one. -/
noncomputable def curve (p x0 g : ℝ) (t : ℝ) : ℝ :=
  (x0 / g) * (p * x0 / g) / (t + (x0 / g - x0)) - (p * x0 / g - p * x0)

/-- The assignment describes a pool, its present state and a trade with it. -/
structure IsPool (ρ : Symb → ℝ) : Prop where
  P_pos : 0 < ρ .P
  x0_pos : 0 < ρ .x0
  Gam_pos : 0 < ρ .Gam
  Gam_lt : ρ .Gam < 1
  y0_eq : ρ .y0 = ρ .P * ρ .x0
  x_nonneg : 0 ≤ ρ .x
  y_nonneg : 0 ≤ ρ .y
  y_eq : ρ .y = curve (ρ .P) (ρ .x0) (ρ .Gam) (ρ .x)
  xint_nonneg : 0 ≤ ρ .xint
  xint_eq : curve (ρ .P) (ρ .x0) (ρ .Gam) (ρ .xint) = 0
  yint_eq : ρ .yint = curve (ρ .P) (ρ .x0) (ρ .Gam) 0
  Pmarg_eq : HasDerivAt (curve (ρ .P) (ρ .x0) (ρ .Gam)) (-ρ .Pmarg) (ρ .x)
  Px_eq : HasDerivAt (curve (ρ .P) (ρ .x0) (ρ .Gam)) (-ρ .Px) (ρ .xint)
  Py_eq : HasDerivAt (curve (ρ .P) (ρ .x0) (ρ .Gam)) (-ρ .Py) 0
  dx_ne : ρ .dx ≠ 0
  dy_eq : ρ .dy = -(ρ .Pmarg * ρ .dx)
  new_nonneg : 0 ≤ ρ .x + ρ .Dx
  Dy_eq : ρ .y + ρ .Dy = curve (ρ .P) (ρ .x0) (ρ .Gam) (ρ .x + ρ .Dx)
  w_eq : ρ .w * ρ .Px = ρ .Py
  Q_nonneg : 0 ≤ ρ .Q
  Q_eq : ρ .Q ^ 2 * ρ .Py = ρ .Px
  B_nonneg : 0 ≤ ρ .B
  B_eq : ρ .B ^ 2 = ρ .Px
  BS_nonneg : 0 ≤ ρ .B + ρ .S
  BS_eq : (ρ .B + ρ .S) ^ 2 = ρ .Py
  xasym_eq : Tendsto (curve (ρ .P) (ρ .x0) (ρ .Gam)) (𝓝[>] ρ .xasym) atTop
  yasym_eq : Tendsto (curve (ρ .P) (ρ .x0) (ρ .Gam)) atTop (𝓝 (ρ .yasym))
  kappa_eq : ρ .kappa = (ρ .x0 - ρ .xasym) * (ρ .y0 - ρ .yasym)
  k_eq : ρ .k = ρ .x0 * ρ .y0
  r_eq : ρ .r = ρ .x0 / ρ .x
  rho_eq : ρ .rho = ρ .x / ρ .x0

/-- The state lies between the ends of the range. -/
def Inside (ρ : Symb → ℝ) : Prop := 0 < ρ .x ∧ 0 < ρ .y

end Carbon.Paper
