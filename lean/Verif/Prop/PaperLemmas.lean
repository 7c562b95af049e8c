import Mathlib.Tactic.FieldSimp
import Mathlib.Tactic.Linarith
import Mathlib.Tactic.LinearCombination
import Mathlib.Tactic.Positivity
import Verif.Spec.Paper

/-!
# The observations on a pool satisfy the formulas of the whitepaper one by one (used for C165)
-/

namespace Carbon.Paper

open Filter Topology

variable {p x0 g t : ℝ}

theorem den_pos (hx : 0 < x0) (hg : 0 < g) (hg1 : g < 1) (ht : 0 ≤ t) : 0 < g * t + x0 * (1 - g) := by
  have : 0 < x0 * (1 - g) := mul_pos hx (by linarith)
  have := mul_nonneg hg.le ht
  linarith

theorem shift_eq (hg : 0 < g) : t + (x0 / g - x0) = (g * t + x0 * (1 - g)) / g := by field_simp

/-- The curve as a fraction. -/
theorem curve_eq (hx : 0 < x0) (hg : 0 < g) (hg1 : g < 1) (ht : 0 ≤ t) :
    curve p x0 g t = p * x0 * (x0 * (2 - g) - (1 - g) * t) / (g * t + x0 * (1 - g)) := by
  have hd := (den_pos hx hg hg1 ht).ne'
  unfold curve
  rw [shift_eq hg]
  field_simp
  ring

theorem curve_deriv (hd : g * t + x0 * (1 - g) ≠ 0) (hg : 0 < g) :
    HasDerivAt (curve p x0 g) (-(p * x0 ^ 2 / (g * t + x0 * (1 - g)) ^ 2)) t := by
  have hs : t + (x0 / g - x0) ≠ 0 := by rw [shift_eq hg]; exact div_ne_zero hd hg.ne'
  have h1 : HasDerivAt (fun t : ℝ => t + (x0 / g - x0)) 1 t := (hasDerivAt_id t).add_const _
  have h2 : HasDerivAt (fun s => x0 / g * (p * x0 / g) * (fun t => t + (x0 / g - x0))⁻¹ s - (p * x0 / g - p * x0)) _ t :=
    ((h1.inv hs).const_mul ((x0 / g) * (p * x0 / g))).sub_const (p * x0 / g - p * x0)
  refine (HasDerivAt.congr_deriv h2 ?_).congr_of_eventuallyEq (Eventually.of_forall fun t => ?_)
  · rw [shift_eq hg]
    field_simp
  · simp only [curve, div_eq_mul_inv, Pi.inv_apply]

/-- What the observations amount to. -/
structure Values (ρ : Symb → ℝ) (b s : ℝ) : Prop where
  b_pos : 0 < b
  b_lt : b < 1
  s_pos : 0 < s
  P : ρ .P = s ^ 2
  Gam : ρ .Gam = 1 - b
  x0 : 0 < ρ .x0
  x : 0 ≤ ρ .x
  xD : 0 ≤ ρ .x + ρ .Dx
  y0 : ρ .y0 = s ^ 2 * ρ .x0
  y : ρ .y = s ^ 2 * ρ .x0 * (ρ .x0 * (1 + b) - b * ρ .x) / ((1 - b) * ρ .x + ρ .x0 * b)
  y_nonneg : 0 ≤ ρ .y
  xint : ρ .xint = ρ .x0 * (1 + b) / b
  yint : ρ .yint = s ^ 2 * ρ .x0 * (1 + b) / b
  Pmarg : ρ .Pmarg = s ^ 2 * ρ .x0 ^ 2 / ((1 - b) * ρ .x + ρ .x0 * b) ^ 2
  Px : ρ .Px = s ^ 2 * b ^ 2
  Py : ρ .Py = s ^ 2 / b ^ 2
  dx : ρ .dx ≠ 0
  dy : ρ .dy = -(ρ .Pmarg * ρ .dx)
  Dy : ρ .Dy = s ^ 2 * ρ .x0 * (ρ .x0 * (1 + b) - b * (ρ .x + ρ .Dx)) / ((1 - b) * (ρ .x + ρ .Dx) + ρ .x0 * b) - ρ .y
  w : ρ .w = 1 / b ^ 4
  Q : ρ .Q = b ^ 2
  B : ρ .B = s * b
  S : ρ .S = s / b - s * b
  xasym : ρ .xasym = -(ρ .x0 * b / (1 - b))
  yasym : ρ .yasym = -(s ^ 2 * ρ .x0 * b / (1 - b))
  kappa : ρ .kappa = s ^ 2 * ρ .x0 ^ 2 / (1 - b) ^ 2
  k : ρ .k = s ^ 2 * ρ .x0 ^ 2
  r : ρ .r = ρ .x0 / ρ .x
  rho : ρ .rho = ρ .x / ρ .x0

theorem tendsto_curve (p x0 g : ℝ) : Tendsto (curve p x0 g) atTop (𝓝 (-(p * x0 / g - p * x0))) := by
  have h1 : Tendsto (fun t : ℝ => t + (x0 / g - x0)) atTop atTop := tendsto_atTop_add_const_right _ _ tendsto_id
  have h2 := ((tendsto_inv_atTop_zero.comp h1).const_mul ((x0 / g) * (p * x0 / g))).sub_const (p * x0 / g - p * x0)
  simp only [mul_zero, zero_sub] at h2
  refine h2.congr fun t => ?_
  simp only [curve, div_eq_mul_inv, Function.comp]

theorem curve_pole {a : ℝ} (hg : 0 < g) (h : Tendsto (curve p x0 g) (𝓝[>] a) atTop) : g * a + x0 * (1 - g) = 0 := by
  by_contra hd
  have hc := (curve_deriv (p := p) hd hg).continuousAt.tendsto.mono_left (nhdsWithin_le_nhds (s := Set.Ioi a))
  exact not_tendsto_nhds_of_tendsto_atTop h _ hc

theorem tendsto_pole (hp : 0 < p) (hx : 0 < x0) (hg : 0 < g) : Tendsto (curve p x0 g) (𝓝[>] (-(x0 / g - x0))) atTop := by
  have h1 : Tendsto (fun t : ℝ => t + (x0 / g - x0)) (𝓝[>] (-(x0 / g - x0))) (𝓝[>] 0) := by
    refine tendsto_nhdsWithin_of_tendsto_nhds_of_eventually_within _ ?_ ?_
    · have : Tendsto (fun t : ℝ => t + (x0 / g - x0)) (𝓝 (-(x0 / g - x0))) (𝓝 (-(x0 / g - x0) + (x0 / g - x0))) :=
        (continuous_id.add continuous_const).tendsto _
      rw [neg_add_cancel] at this
      exact this.mono_left nhdsWithin_le_nhds
    · filter_upwards [self_mem_nhdsWithin] with t ht
      simp only [Set.mem_Ioi] at ht ⊢
      linarith
  have h2 := (tendsto_inv_nhdsGT_zero.comp h1).const_mul_atTop (show 0 < (x0 / g) * (p * x0 / g) by positivity)
  have h3 := tendsto_atTop_add_const_right _ (-(p * x0 / g - p * x0)) h2
  refine h3.congr fun t => ?_
  simp only [curve, div_eq_mul_inv, Function.comp]
  ring

theorem IsPool.values {ρ : Symb → ℝ} (h : IsPool ρ) : Values ρ (1 - ρ .Gam) (Real.sqrt (ρ .P)) := by
  have hs2 : Real.sqrt (ρ .P) ^ 2 = ρ .P := Real.sq_sqrt h.P_pos.le
  have hs := Real.sqrt_pos.2 h.P_pos
  generalize hsd : Real.sqrt (ρ .P) = s at hs2 hs ⊢
  obtain ⟨b, hb⟩ : ∃ b, b = 1 - ρ .Gam := ⟨_, rfl⟩
  rw [← hb]
  have hG : ρ .Gam = 1 - b := by linarith
  have hb0 : 0 < b := by linarith [h.Gam_lt]
  have hb1 : b < 1 := by linarith [h.Gam_pos]
  have hx0 := h.x0_pos
  have hg := h.Gam_pos
  have hg1 := h.Gam_lt
  have cv : ∀ t, 0 ≤ t → curve (ρ .P) (ρ .x0) (ρ .Gam) t = s ^ 2 * ρ .x0 * (ρ .x0 * (1 + b) - b * t) / ((1 - b) * t + ρ .x0 * b) := by
    intro t ht
    rw [curve_eq hx0 hg hg1 ht, hs2, hG]
    congr 1 <;> ring
  have dv : ∀ t q, 0 ≤ t → HasDerivAt (curve (ρ .P) (ρ .x0) (ρ .Gam)) (-q) t → q = s ^ 2 * ρ .x0 ^ 2 / ((1 - b) * t + ρ .x0 * b) ^ 2 := by
    intro t q ht hq
    have hd := (den_pos hx0 hg hg1 ht).ne'
    have := hq.unique (curve_deriv hd hg)
    rw [neg_inj] at this
    rw [this, hs2, hG]
    congr 2; ring
  have hxi : ρ .xint = ρ .x0 * (1 + b) / b := by
    have := h.xint_eq
    rw [cv _ h.xint_nonneg] at this
    have hd : (1 - b) * ρ .xint + ρ .x0 * b ≠ 0 := by
      have := den_pos hx0 hg hg1 h.xint_nonneg
      rw [hG] at this
      nlinarith
    rcases div_eq_zero_iff.1 this with h' | h'
    · rcases mul_eq_zero.1 h' with h'' | h''
      · exact absurd h'' (by positivity)
      · field_simp; linarith
    · exact absurd h' hd
  have hPx : ρ .Px = s ^ 2 * b ^ 2 := by
    rw [dv _ _ h.xint_nonneg h.Px_eq, hxi]
    have : (1 - b) * (ρ .x0 * (1 + b) / b) + ρ .x0 * b = ρ .x0 / b := by field_simp; ring
    rw [this]
    field_simp
  have hPy : ρ .Py = s ^ 2 / b ^ 2 := by
    rw [dv _ _ le_rfl h.Py_eq]
    simp only [mul_zero, zero_add]
    field_simp
  have hB : ρ .B = s * b := by
    have := h.B_eq
    rw [hPx, ← mul_pow] at this
    exact (pow_left_inj₀ h.B_nonneg (by positivity) two_ne_zero).1 this
  have hBS : ρ .B + ρ .S = s / b := by
    have := h.BS_eq
    rw [hPy, ← div_pow] at this
    exact (pow_left_inj₀ h.BS_nonneg (by positivity) two_ne_zero).1 this
  have hxa : ρ .xasym = -(ρ .x0 * b / (1 - b)) := by
    have := curve_pole hg h.xasym_eq
    rw [hG] at this
    have h1b : (1 - b) ≠ 0 := by linarith
    field_simp
    linarith
  have hya : ρ .yasym = -(s ^ 2 * ρ .x0 * b / (1 - b)) := by
    have := tendsto_nhds_unique h.yasym_eq (tendsto_curve _ _ _)
    rw [this, hs2, hG]
    have h1b : (1 - b) ≠ 0 := by linarith
    field_simp
    ring
  exact {
    b_pos := hb0, b_lt := hb1, s_pos := hs, P := hs2.symm, Gam := hG, x0 := hx0, x := h.x_nonneg, xD := h.new_nonneg
    y0 := by rw [h.y0_eq, hs2]
    y := by rw [h.y_eq, cv _ h.x_nonneg]
    y_nonneg := h.y_nonneg
    xint := hxi
    yint := by rw [h.yint_eq, cv _ le_rfl]; field_simp; ring
    Pmarg := dv _ _ h.x_nonneg h.Pmarg_eq
    Px := hPx, Py := hPy, dx := h.dx_ne, dy := h.dy_eq
    Dy := by rw [← cv _ h.new_nonneg, ← h.Dy_eq]; ring
    w := by
      have := h.w_eq
      rw [hPx, hPy] at this
      have : ρ .w * b ^ 4 = 1 := by
        field_simp at this
        linarith
      rw [← this]; field_simp
    Q := by
      have := h.Q_eq
      rw [hPx, hPy] at this
      have : ρ .Q ^ 2 = (b ^ 2) ^ 2 := by
        field_simp at this
        rw [this]; ring
      exact (pow_left_inj₀ h.Q_nonneg (by positivity) two_ne_zero).1 this
    B := hB
    S := by rw [← hBS, hB]; ring
    xasym := hxa, yasym := hya
    kappa := by
      have h1b : (1 - b) ≠ 0 := by linarith
      rw [h.kappa_eq, hxa, hya, h.y0_eq, hs2.symm]; field_simp; ring
    k := by rw [h.k_eq, h.y0_eq, hs2]; ring
    r := h.r_eq, rho := h.rho_eq }

namespace Ex

theorem add_def (a b : Ex) : a + b = add a b := rfl
theorem sub_def (a b : Ex) : a - b = sub a b := rfl
theorem mul_def (a b : Ex) : a * b = mul a b := rfl
theorem div_def (a b : Ex) : a / b = div a b := rfl
theorem neg_def (a : Ex) : -a = neg a := rfl
theorem pow_def (a : Ex) (e : ℕ) : a ^ e = pow a e := rfl
theorem num_def (c : ℕ) : (OfNat.ofNat c : Ex) = n c := rfl

end Ex

set_option linter.unusedSimpArgs false
set_option linter.unusedTactic false
set_option linter.unreachableTactic false

/-- Both sides of an equation, evaluated. -/
macro "ev" "[" ls:Lean.Parser.Tactic.simpLemma,* "]" : tactic =>
  `(tactic| simp [$ls,*, XEq.holds, XEq.subs, XEq.subsEq, Ex.subs, Ex.eval, Ex.add_def, Ex.sub_def, Ex.mul_def, Ex.div_def, Ex.neg_def, Ex.pow_def,
    Ex.num_def])

/-- Clears the denominators and compares. -/
macro "fin" : tactic => `(tactic| ((try field_simp) <;> (try ring_nf) <;> (try field_simp) <;> (try ring_nf)))

namespace Values

variable {ρ : Symb → ℝ} {b s : ℝ} (V : Values ρ b s)
include V

theorem c_pos : 0 < 1 - b := by linarith [V.b_lt]
theorem D_pos : 0 < (1 - b) * ρ .x + ρ .x0 * b := by
  have := mul_nonneg V.c_pos.le V.x
  have := mul_pos V.x0 V.b_pos
  linarith
theorem D2_pos : 0 < (1 - b) * (ρ .x + ρ .Dx) + ρ .x0 * b := by
  have := mul_nonneg V.c_pos.le V.xD
  have := mul_pos V.x0 V.b_pos
  linarith
theorem sqQ : √(ρ .Q) = b := by rw [V.Q, Real.sqrt_sq V.b_pos.le]
theorem sqw : √(ρ .w) = 1 / b ^ 2 := by
  rw [V.w, show 1 / b ^ 4 = (1 / b ^ 2) ^ 2 by rw [div_pow, one_pow, ← pow_mul], Real.sqrt_sq (by have := V.b_pos; positivity)]
theorem sqqw : √√(ρ .w) = 1 / b := by
  rw [V.sqw, show 1 / b ^ 2 = (1 / b) ^ 2 by rw [div_pow, one_pow], Real.sqrt_sq (by have := V.b_pos; positivity)]
theorem sqPx : √(ρ .Px) = s * b := by
  rw [V.Px, ← mul_pow, Real.sqrt_sq (mul_pos V.s_pos V.b_pos).le]
theorem sqPy : √(ρ .Py) = s / b := by
  rw [V.Py, ← div_pow, Real.sqrt_sq (div_pos V.s_pos V.b_pos).le]
theorem sqPxPy : √(ρ .Px / ρ .Py) = b ^ 2 := by
  have hb := V.b_pos
  have hs := V.s_pos
  rw [V.Px, V.Py, show s ^ 2 * b ^ 2 / (s ^ 2 / b ^ 2) = (b ^ 2) ^ 2 by field_simp, Real.sqrt_sq (by positivity)]
theorem sqPP : √(ρ .Px * ρ .Py) = s ^ 2 := by
  have hb := V.b_pos
  have hs := V.s_pos
  rw [V.Px, V.Py, show s ^ 2 * b ^ 2 * (s ^ 2 / b ^ 2) = (s ^ 2) ^ 2 by field_simp, Real.sqrt_sq (by positivity)]
theorem sqPm : √(ρ .Pmarg) = s * ρ .x0 / ((1 - b) * ρ .x + ρ .x0 * b) := by
  rw [V.Pmarg, ← mul_pow, ← div_pow, Real.sqrt_sq (div_pos (mul_pos V.s_pos V.x0) V.D_pos).le]
theorem sqkappa : √(ρ .kappa) = s * ρ .x0 / (1 - b) := by
  rw [V.kappa, ← mul_pow, ← div_pow, Real.sqrt_sq (div_pos (mul_pos V.s_pos V.x0) V.c_pos).le]
theorem sqk : √(ρ .k) = s * ρ .x0 := by
  rw [V.k, ← mul_pow, Real.sqrt_sq (mul_pos V.s_pos V.x0).le]

theorem q_pos : 0 < 1 - b ^ 2 := by
  have := V.b_pos
  have := V.c_pos
  nlinarith

theorem param : ∃ D E : ℝ, 0 < D ∧ 0 < E ∧ ρ .x = (D - ρ .x0 * b) / (1 - b) ∧ ρ .Dx = (E - D) / (1 - b) ∧
    ρ .y = s ^ 2 * ρ .x0 * (ρ .x0 - b * D) / ((1 - b) * D) ∧
    ρ .Dy = s ^ 2 * ρ .x0 * (ρ .x0 - b * E) / ((1 - b) * E) - s ^ 2 * ρ .x0 * (ρ .x0 - b * D) / ((1 - b) * D) ∧
    ρ .Pmarg = s ^ 2 * ρ .x0 ^ 2 / D ^ 2 ∧ √(ρ .Pmarg) = s * ρ .x0 / D := by
  have hc := V.c_pos
  have hD := V.D_pos
  have hE := V.D2_pos
  have hy : ρ .y = s ^ 2 * ρ .x0 * (ρ .x0 - b * ((1 - b) * ρ .x + ρ .x0 * b)) / ((1 - b) * ((1 - b) * ρ .x + ρ .x0 * b)) := by
    rw [V.y]
    field_simp
    ring
  refine ⟨_, _, hD, hE, ?_, ?_, hy, ?_, V.Pmarg, V.sqPm⟩
  · field_simp; ring
  · field_simp; ring
  · rw [V.Dy, ← hy]
    congr 1
    field_simp
    ring

theorem PIE_holds : PIE.holds ρ := by
  have hb := V.b_pos
  have hc := V.c_pos
  have hs := V.s_pos
  have hx := V.x0
  obtain ⟨D, E, hD, hE, ex, eDx, ey, eDy, eP, eS⟩ := V.param
  have hq : 1 - b ^ 2 ≠ 0 := (V.q_pos).ne'
  have hsq : √(b ^ 2) = b := Real.sqrt_sq hb.le
  ev [PIE, V.sqQ, V.sqqw, V.sqw, hsq, V.sqPx, V.sqPy, V.sqPxPy, V.sqPP, eS, V.sqkappa, V.sqk]
  try simp only [V.r, V.rho, eP, eDy, ey, eDx, ex, V.xint, V.yint, V.P, V.Gam, V.y0, V.Px, V.Py, V.w, V.Q, V.B, V.S, V.xasym, V.yasym, V.kappa, V.k]
  all_goals fin

theorem PINE_holds : PINE.holds ρ := by
  have hb := V.b_pos
  have hc := V.c_pos
  have hs := V.s_pos
  have hx := V.x0
  obtain ⟨D, E, hD, hE, ex, eDx, ey, eDy, eP, eS⟩ := V.param
  have hq : 1 - b ^ 2 ≠ 0 := (V.q_pos).ne'
  have hsq : √(b ^ 2) = b := Real.sqrt_sq hb.le
  ev [PINE, PIE, V.sqQ, V.sqqw, V.sqw, hsq, V.sqPx, V.sqPy, V.sqPxPy, V.sqPP, eS, V.sqkappa, V.sqk]
  try simp only [V.r, V.rho, eP, eDy, ey, eDx, ex, V.xint, V.yint, V.P, V.Gam, V.y0, V.Px, V.Py, V.w, V.Q, V.B, V.S, V.xasym, V.yasym, V.kappa, V.k]
  all_goals fin

theorem PIQ2E_holds : PIQ2E.holds ρ := by
  have hb := V.b_pos
  have hc := V.c_pos
  have hs := V.s_pos
  have hx := V.x0
  obtain ⟨D, E, hD, hE, ex, eDx, ey, eDy, eP, eS⟩ := V.param
  have hq : 1 - b ^ 2 ≠ 0 := (V.q_pos).ne'
  have hsq : √(b ^ 2) = b := Real.sqrt_sq hb.le
  ev [PIQ2E, V.sqQ, V.sqqw, V.sqw, hsq, V.sqPx, V.sqPy, V.sqPxPy, V.sqPP, eS, V.sqkappa, V.sqk]
  try simp only [V.r, V.rho, eP, eDy, ey, eDx, ex, V.xint, V.yint, V.P, V.Gam, V.y0, V.Px, V.Py, V.w, V.Q, V.B, V.S, V.xasym, V.yasym, V.kappa, V.k]
  all_goals fin

theorem PIQE_holds (hi : Inside ρ) : PIQE.holds ρ := by
  have h := V.PIQ2E_holds
  have hb := V.b_pos
  have hc := V.c_pos
  have hs := V.s_pos
  have hx := V.x0
  obtain ⟨D, E, hD, hE, ex, eDx, ey, eDy, eP, eS⟩ := V.param
  have h1 : ρ .x - ρ .xint ≠ 0 := by
    have h2 : ρ .x0 - b * D ≠ 0 := by
      intro h0
      have := hi.2
      rw [ey, h0] at this
      simp at this
    intro h3
    apply h2
    rw [ex, V.xint] at h3
    field_simp at h3
    linear_combination -h3
  have h2 : ρ .y - ρ .yint ≠ 0 := by
    have h2 : D - ρ .x0 * b ≠ 0 := by
      intro h0
      have := hi.1
      rw [ex, h0] at this
      simp at this
    intro h3
    apply h2
    rw [ey, V.yint] at h3
    field_simp at h3
    have h4 : b * (ρ .x0 - b * D) - D * (1 - b) * (1 + b) = 0 := by simpa [hs.ne', hx.ne'] using h3
    linear_combination -h4
  revert h
  ev [PIQE, PIQ2E]
  intro h
  rw [eq_div_iff (mul_ne_zero h1 h2)]
  exact h

theorem PIRE_holds (hi : Inside ρ) : PIRE.holds ρ := by
  have hb := V.b_pos
  have hc := V.c_pos
  have hs := V.s_pos
  have hx := V.x0
  obtain ⟨D, E, hD, hE, ex, eDx, ey, eDy, eP, eS⟩ := V.param
  have hx1 : 0 < D - ρ .x0 * b := by
    have := hi.1
    rw [ex] at this
    exact (div_pos_iff_of_pos_right hc).1 this
  have hy1 : 0 < ρ .x0 - b * D := by
    have := hi.2
    rw [ey] at this
    exact (mul_pos_iff_of_pos_left (mul_pos (pow_pos hs 2) hx)).1 ((div_pos_iff_of_pos_right (mul_pos hc hD)).1 this)
  have hq : 1 - b ^ 2 ≠ 0 := (V.q_pos).ne'
  have hsq : √(b ^ 2) = b := Real.sqrt_sq hb.le
  ev [PIRE, RXE, PIE, V.sqQ, V.sqqw, V.sqw, hsq, V.sqPx, V.sqPy, V.sqPxPy, V.sqPP, eS, V.sqkappa, V.sqk]
  try simp only [V.r, V.rho, eP, eDy, ey, eDx, ex, V.xint, V.yint, V.P, V.Gam, V.y0, V.Px, V.Py, V.w, V.Q, V.B, V.S, V.xasym, V.yasym, V.kappa, V.k]
  all_goals fin

theorem PIRIE_holds : PIRIE.holds ρ := by
  have hb := V.b_pos
  have hc := V.c_pos
  have hs := V.s_pos
  have hx := V.x0
  obtain ⟨D, E, hD, hE, ex, eDx, ey, eDy, eP, eS⟩ := V.param
  have hq : 1 - b ^ 2 ≠ 0 := (V.q_pos).ne'
  have hsq : √(b ^ 2) = b := Real.sqrt_sq hb.le
  ev [PIRIE, RXIE, PIE, V.sqQ, V.sqqw, V.sqw, hsq, V.sqPx, V.sqPy, V.sqPxPy, V.sqPP, eS, V.sqkappa, V.sqk]
  try simp only [V.r, V.rho, eP, eDy, ey, eDx, ex, V.xint, V.yint, V.P, V.Gam, V.y0, V.Px, V.Py, V.w, V.Q, V.B, V.S, V.xasym, V.yasym, V.kappa, V.k]
  all_goals fin

theorem PIA1E_holds : PIA1E.holds ρ := by
  have hb := V.b_pos
  have hc := V.c_pos
  have hs := V.s_pos
  have hx := V.x0
  obtain ⟨D, E, hD, hE, ex, eDx, ey, eDy, eP, eS⟩ := V.param
  have hq : 1 - b ^ 2 ≠ 0 := (V.q_pos).ne'
  have hsq : √(b ^ 2) = b := Real.sqrt_sq hb.le
  ev [PIA1E, V.sqQ, V.sqqw, V.sqw, hsq, V.sqPx, V.sqPy, V.sqPxPy, V.sqPP, eS, V.sqkappa, V.sqk]
  try simp only [V.r, V.rho, eP, eDy, ey, eDx, ex, V.xint, V.yint, V.P, V.Gam, V.y0, V.Px, V.Py, V.w, V.Q, V.B, V.S, V.xasym, V.yasym, V.kappa, V.k]
  all_goals fin

theorem SE_holds : SE.holds ρ := by
  have hb := V.b_pos
  have hc := V.c_pos
  have hs := V.s_pos
  have hx := V.x0
  obtain ⟨D, E, hD, hE, ex, eDx, ey, eDy, eP, eS⟩ := V.param
  have hq : 1 - b ^ 2 ≠ 0 := (V.q_pos).ne'
  have hsq : √(b ^ 2) = b := Real.sqrt_sq hb.le
  ev [SE, V.sqQ, V.sqqw, V.sqw, hsq, V.sqPx, V.sqPy, V.sqPxPy, V.sqPP, eS, V.sqkappa, V.sqk]
  try simp only [V.r, V.rho, eP, eDy, ey, eDx, ex, V.xint, V.yint, V.P, V.Gam, V.y0, V.Px, V.Py, V.w, V.Q, V.B, V.S, V.xasym, V.yasym, V.kappa, V.k]
  all_goals fin

theorem SRE_holds (hi : Inside ρ) : SRE.holds ρ := by
  have hb := V.b_pos
  have hc := V.c_pos
  have hs := V.s_pos
  have hx := V.x0
  obtain ⟨D, E, hD, hE, ex, eDx, ey, eDy, eP, eS⟩ := V.param
  have hx1 : 0 < D - ρ .x0 * b := by
    have := hi.1
    rw [ex] at this
    exact (div_pos_iff_of_pos_right hc).1 this
  have hy1 : 0 < ρ .x0 - b * D := by
    have := hi.2
    rw [ey] at this
    exact (mul_pos_iff_of_pos_left (mul_pos (pow_pos hs 2) hx)).1 ((div_pos_iff_of_pos_right (mul_pos hc hD)).1 this)
  have hq : 1 - b ^ 2 ≠ 0 := (V.q_pos).ne'
  have hsq : √(b ^ 2) = b := Real.sqrt_sq hb.le
  ev [SRE, RXE, SE, V.sqQ, V.sqqw, V.sqw, hsq, V.sqPx, V.sqPy, V.sqPxPy, V.sqPP, eS, V.sqkappa, V.sqk]
  try simp only [V.r, V.rho, eP, eDy, ey, eDx, ex, V.xint, V.yint, V.P, V.Gam, V.y0, V.Px, V.Py, V.w, V.Q, V.B, V.S, V.xasym, V.yasym, V.kappa, V.k]
  all_goals fin

theorem SRIE_holds : SRIE.holds ρ := by
  have hb := V.b_pos
  have hc := V.c_pos
  have hs := V.s_pos
  have hx := V.x0
  obtain ⟨D, E, hD, hE, ex, eDx, ey, eDy, eP, eS⟩ := V.param
  have hq : 1 - b ^ 2 ≠ 0 := (V.q_pos).ne'
  have hsq : √(b ^ 2) = b := Real.sqrt_sq hb.le
  ev [SRIE, SE, V.sqQ, V.sqqw, V.sqw, hsq, V.sqPx, V.sqPy, V.sqPxPy, V.sqPP, eS, V.sqkappa, V.sqk]
  try simp only [V.r, V.rho, eP, eDy, ey, eDx, ex, V.xint, V.yint, V.P, V.Gam, V.y0, V.Px, V.Py, V.w, V.Q, V.B, V.S, V.xasym, V.yasym, V.kappa, V.k]
  all_goals fin

theorem MSE_holds : MSE.holds ρ := by
  have hb := V.b_pos
  have hc := V.c_pos
  have hs := V.s_pos
  have hx := V.x0
  obtain ⟨D, E, hD, hE, ex, eDx, ey, eDy, eP, eS⟩ := V.param
  have hq : 1 - b ^ 2 ≠ 0 := (V.q_pos).ne'
  have hsq : √(b ^ 2) = b := Real.sqrt_sq hb.le
  have hdx := V.dx
  ev [V.dy, MSE, V.sqQ, V.sqqw, V.sqw, hsq, V.sqPx, V.sqPy, V.sqPxPy, V.sqPP, eS, V.sqkappa, V.sqk]
  try simp only [V.r, V.rho, eP, eDy, ey, eDx, ex, V.xint, V.yint, V.P, V.Gam, V.y0, V.Px, V.Py, V.w, V.Q, V.B, V.S, V.xasym, V.yasym, V.kappa, V.k]
  all_goals fin

theorem MPE_holds : MPE.holds ρ := by
  have hb := V.b_pos
  have hc := V.c_pos
  have hs := V.s_pos
  have hx := V.x0
  obtain ⟨D, E, hD, hE, ex, eDx, ey, eDy, eP, eS⟩ := V.param
  have hq : 1 - b ^ 2 ≠ 0 := (V.q_pos).ne'
  have hsq : √(b ^ 2) = b := Real.sqrt_sq hb.le
  ev [MPE, MSE, V.sqQ, V.sqqw, V.sqw, hsq, V.sqPx, V.sqPy, V.sqPxPy, V.sqPP, eS, V.sqkappa, V.sqk]
  try simp only [V.r, V.rho, eP, eDy, ey, eDx, ex, V.xint, V.yint, V.P, V.Gam, V.y0, V.Px, V.Py, V.w, V.Q, V.B, V.S, V.xasym, V.yasym, V.kappa, V.k]
  all_goals fin

theorem MPERev_holds : MPERev.holds ρ := by
  have hb := V.b_pos
  have hc := V.c_pos
  have hs := V.s_pos
  have hx := V.x0
  obtain ⟨D, E, hD, hE, ex, eDx, ey, eDy, eP, eS⟩ := V.param
  have hq : 1 - b ^ 2 ≠ 0 := (V.q_pos).ne'
  have hsq : √(b ^ 2) = b := Real.sqrt_sq hb.le
  ev [MPERev, MPERev0, MPE, MSE, V.sqQ, V.sqqw, V.sqw, hsq, V.sqPx, V.sqPy, V.sqPxPy, V.sqPP, eS, V.sqkappa, V.sqk]
  try simp only [V.r, V.rho, eP, eDy, ey, eDx, ex, V.xint, V.yint, V.P, V.Gam, V.y0, V.Px, V.Py, V.w, V.Q, V.B, V.S, V.xasym, V.yasym, V.kappa, V.k]
  all_goals fin

theorem MPQXiE_holds : MPQXiE.holds ρ := by
  have hb := V.b_pos
  have hc := V.c_pos
  have hs := V.s_pos
  have hx := V.x0
  obtain ⟨D, E, hD, hE, ex, eDx, ey, eDy, eP, eS⟩ := V.param
  have hq : 1 - b ^ 2 ≠ 0 := (V.q_pos).ne'
  have hsq : √(b ^ 2) = b := Real.sqrt_sq hb.le
  ev [MPQXiE, MPE, MSE, GQE, V.sqQ, V.sqqw, V.sqw, hsq, V.sqPx, V.sqPy, V.sqPxPy, V.sqPP, eS, V.sqkappa, V.sqk]
  try simp only [V.r, V.rho, eP, eDy, ey, eDx, ex, V.xint, V.yint, V.P, V.Gam, V.y0, V.Px, V.Py, V.w, V.Q, V.B, V.S, V.xasym, V.yasym, V.kappa, V.k]
  all_goals fin

theorem MPQYiE_holds : MPQYiE.holds ρ := by
  have hb := V.b_pos
  have hc := V.c_pos
  have hs := V.s_pos
  have hx := V.x0
  obtain ⟨D, E, hD, hE, ex, eDx, ey, eDy, eP, eS⟩ := V.param
  have hq : 1 - b ^ 2 ≠ 0 := (V.q_pos).ne'
  have hsq : √(b ^ 2) = b := Real.sqrt_sq hb.le
  ev [MPQYiE, MPERev, MPERev0, MPE, MSE, GQE, V.sqQ, V.sqqw, V.sqw, hsq, V.sqPx, V.sqPy, V.sqPxPy, V.sqPP, eS, V.sqkappa, V.sqk]
  try simp only [V.r, V.rho, eP, eDy, ey, eDx, ex, V.xint, V.yint, V.P, V.Gam, V.y0, V.Px, V.Py, V.w, V.Q, V.B, V.S, V.xasym, V.yasym, V.kappa, V.k]
  all_goals fin

theorem MPWYiE_holds : MPWYiE.holds ρ := by
  have hb := V.b_pos
  have hc := V.c_pos
  have hs := V.s_pos
  have hx := V.x0
  obtain ⟨D, E, hD, hE, ex, eDx, ey, eDy, eP, eS⟩ := V.param
  have hq : 1 - b ^ 2 ≠ 0 := (V.q_pos).ne'
  have hsq : √(b ^ 2) = b := Real.sqrt_sq hb.le
  ev [MPWYiE, MPQYiE, MPERev, MPERev0, MPE, MSE, GQE, V.sqQ, V.sqqw, V.sqw, hsq, V.sqPx, V.sqPy, V.sqPxPy, V.sqPP, eS, V.sqkappa, V.sqk]
  try simp only [V.r, V.rho, eP, eDy, ey, eDx, ex, V.xint, V.yint, V.P, V.Gam, V.y0, V.Px, V.Py, V.w, V.Q, V.B, V.S, V.xasym, V.yasym, V.kappa, V.k]
  all_goals fin

theorem P0WYiE_holds : P0WYiE.holds ρ := by
  have hb := V.b_pos
  have hc := V.c_pos
  have hs := V.s_pos
  have hx := V.x0
  obtain ⟨D, E, hD, hE, ex, eDx, ey, eDy, eP, eS⟩ := V.param
  have hq : 1 - b ^ 2 ≠ 0 := (V.q_pos).ne'
  have hsq : √(b ^ 2) = b := Real.sqrt_sq hb.le
  ev [P0WYiE, MPWYiE, MPQYiE, MPERev, MPERev0, MPE, MSE, GQE, V.sqQ, V.sqqw, V.sqw, hsq, V.sqPx, V.sqPy, V.sqPxPy, V.sqPP, eS, V.sqkappa, V.sqk]
  try simp only [V.r, V.rho, eP, eDy, ey, eDx, ex, V.xint, V.yint, V.P, V.Gam, V.y0, V.Px, V.Py, V.w, V.Q, V.B, V.S, V.xasym, V.yasym, V.kappa, V.k]
  all_goals fin

theorem PLE_holds : PLE.holds ρ := by
  have hb := V.b_pos
  have hc := V.c_pos
  have hs := V.s_pos
  have hx := V.x0
  obtain ⟨D, E, hD, hE, ex, eDx, ey, eDy, eP, eS⟩ := V.param
  have hq : 1 - b ^ 2 ≠ 0 := (V.q_pos).ne'
  have hsq : √(b ^ 2) = b := Real.sqrt_sq hb.le
  ev [PLE, V.sqQ, V.sqqw, V.sqw, hsq, V.sqPx, V.sqPy, V.sqPxPy, V.sqPP, eS, V.sqkappa, V.sqk]
  try simp only [V.r, V.rho, eP, eDy, ey, eDx, ex, V.xint, V.yint, V.P, V.Gam, V.y0, V.Px, V.Py, V.w, V.Q, V.B, V.S, V.xasym, V.yasym, V.kappa, V.k]
  all_goals fin

theorem KPDE_holds : KPDE.holds ρ := by
  have hb := V.b_pos
  have hc := V.c_pos
  have hs := V.s_pos
  have hx := V.x0
  obtain ⟨D, E, hD, hE, ex, eDx, ey, eDy, eP, eS⟩ := V.param
  have hq : 1 - b ^ 2 ≠ 0 := (V.q_pos).ne'
  have hsq : √(b ^ 2) = b := Real.sqrt_sq hb.le
  ev [KPDE, V.sqQ, V.sqqw, V.sqw, hsq, V.sqPx, V.sqPy, V.sqPxPy, V.sqPP, eS, V.sqkappa, V.sqk]
  try simp only [V.r, V.rho, eP, eDy, ey, eDx, ex, V.xint, V.yint, V.P, V.Gam, V.y0, V.Px, V.Py, V.w, V.Q, V.B, V.S, V.xasym, V.yasym, V.kappa, V.k]
  all_goals fin

theorem KPYDE_holds : KPYDE.holds ρ := by
  have hb := V.b_pos
  have hc := V.c_pos
  have hs := V.s_pos
  have hx := V.x0
  obtain ⟨D, E, hD, hE, ex, eDx, ey, eDy, eP, eS⟩ := V.param
  have hq : 1 - b ^ 2 ≠ 0 := (V.q_pos).ne'
  have hsq : √(b ^ 2) = b := Real.sqrt_sq hb.le
  ev [KPYDE, KPDE, V.sqQ, V.sqqw, V.sqw, hsq, V.sqPx, V.sqPy, V.sqPxPy, V.sqPP, eS, V.sqkappa, V.sqk]
  try simp only [V.r, V.rho, eP, eDy, ey, eDx, ex, V.xint, V.yint, V.P, V.Gam, V.y0, V.Px, V.Py, V.w, V.Q, V.B, V.S, V.xasym, V.yasym, V.kappa, V.k]
  all_goals fin

theorem GSE_holds : GSE.holds ρ := by
  have hb := V.b_pos
  have hc := V.c_pos
  have hs := V.s_pos
  have hx := V.x0
  obtain ⟨D, E, hD, hE, ex, eDx, ey, eDy, eP, eS⟩ := V.param
  have hq : 1 - b ^ 2 ≠ 0 := (V.q_pos).ne'
  have hsq : √(b ^ 2) = b := Real.sqrt_sq hb.le
  ev [GSE, GQE, QPE, V.sqQ, V.sqqw, V.sqw, hsq, V.sqPx, V.sqPy, V.sqPxPy, V.sqPP, eS, V.sqkappa, V.sqk]
  try simp only [V.r, V.rho, eP, eDy, ey, eDx, ex, V.xint, V.yint, V.P, V.Gam, V.y0, V.Px, V.Py, V.w, V.Q, V.B, V.S, V.xasym, V.yasym, V.kappa, V.k]
  all_goals fin

theorem MPRE_holds (hi : Inside ρ) : MPRE.holds ρ := by
  have hb := V.b_pos
  have hc := V.c_pos
  have hs := V.s_pos
  have hx := V.x0
  obtain ⟨D, E, hD, hE, ex, eDx, ey, eDy, eP, eS⟩ := V.param
  have hx1 : 0 < D - ρ .x0 * b := by
    have := hi.1
    rw [ex] at this
    exact (div_pos_iff_of_pos_right hc).1 this
  have hy1 : 0 < ρ .x0 - b * D := by
    have := hi.2
    rw [ey] at this
    exact (mul_pos_iff_of_pos_left (mul_pos (pow_pos hs 2) hx)).1 ((div_pos_iff_of_pos_right (mul_pos hc hD)).1 this)
  have hq : 1 - b ^ 2 ≠ 0 := (V.q_pos).ne'
  have hsq : √(b ^ 2) = b := Real.sqrt_sq hb.le
  ev [MPRE, RXE, MPE, MSE, V.sqQ, V.sqqw, V.sqw, hsq, V.sqPx, V.sqPy, V.sqPxPy, V.sqPP, eS, V.sqkappa, V.sqk]
  try simp only [V.r, V.rho, eP, eDy, ey, eDx, ex, V.xint, V.yint, V.P, V.Gam, V.y0, V.Px, V.Py, V.w, V.Q, V.B, V.S, V.xasym, V.yasym, V.kappa, V.k]
  all_goals fin

theorem MPRIE_holds : MPRIE.holds ρ := by
  have hb := V.b_pos
  have hc := V.c_pos
  have hs := V.s_pos
  have hx := V.x0
  obtain ⟨D, E, hD, hE, ex, eDx, ey, eDy, eP, eS⟩ := V.param
  have hq : 1 - b ^ 2 ≠ 0 := (V.q_pos).ne'
  have hsq : √(b ^ 2) = b := Real.sqrt_sq hb.le
  ev [MPRIE, RXIE, MPE, MSE, V.sqQ, V.sqqw, V.sqw, hsq, V.sqPx, V.sqPy, V.sqPxPy, V.sqPP, eS, V.sqkappa, V.sqk]
  try simp only [V.r, V.rho, eP, eDy, ey, eDx, ex, V.xint, V.yint, V.P, V.Gam, V.y0, V.Px, V.Py, V.w, V.Q, V.B, V.S, V.xasym, V.yasym, V.kappa, V.k]
  all_goals fin

theorem BDE_holds : BDE.holds ρ := by
  have hb := V.b_pos
  have hc := V.c_pos
  have hs := V.s_pos
  have hx := V.x0
  obtain ⟨D, E, hD, hE, ex, eDx, ey, eDy, eP, eS⟩ := V.param
  have hq : 1 - b ^ 2 ≠ 0 := (V.q_pos).ne'
  have hsq : √(b ^ 2) = b := Real.sqrt_sq hb.le
  ev [BDE, V.sqQ, V.sqqw, V.sqw, hsq, V.sqPx, V.sqPy, V.sqPxPy, V.sqPP, eS, V.sqkappa, V.sqk]
  try simp only [V.r, V.rho, eP, eDy, ey, eDx, ex, V.xint, V.yint, V.P, V.Gam, V.y0, V.Px, V.Py, V.w, V.Q, V.B, V.S, V.xasym, V.yasym, V.kappa, V.k]
  all_goals fin

theorem SDE_holds : SDE.holds ρ := by
  have hb := V.b_pos
  have hc := V.c_pos
  have hs := V.s_pos
  have hx := V.x0
  obtain ⟨D, E, hD, hE, ex, eDx, ey, eDy, eP, eS⟩ := V.param
  have hq : 1 - b ^ 2 ≠ 0 := (V.q_pos).ne'
  have hsq : √(b ^ 2) = b := Real.sqrt_sq hb.le
  ev [SDE, V.sqQ, V.sqqw, V.sqw, hsq, V.sqPx, V.sqPy, V.sqPxPy, V.sqPP, eS, V.sqkappa, V.sqk]
  try simp only [V.r, V.rho, eP, eDy, ey, eDx, ex, V.xint, V.yint, V.P, V.Gam, V.y0, V.Px, V.Py, V.w, V.Q, V.B, V.S, V.xasym, V.yasym, V.kappa, V.k]
  all_goals fin

theorem BSPIE_holds : BSPIE.holds ρ := by
  have hb := V.b_pos
  have hc := V.c_pos
  have hs := V.s_pos
  have hx := V.x0
  obtain ⟨D, E, hD, hE, ex, eDx, ey, eDy, eP, eS⟩ := V.param
  have hq : 1 - b ^ 2 ≠ 0 := (V.q_pos).ne'
  have hsq : √(b ^ 2) = b := Real.sqrt_sq hb.le
  ev [BSPIE, V.sqQ, V.sqqw, V.sqw, hsq, V.sqPx, V.sqPy, V.sqPxPy, V.sqPP, eS, V.sqkappa, V.sqk]
  try simp only [V.r, V.rho, eP, eDy, ey, eDx, ex, V.xint, V.yint, V.P, V.Gam, V.y0, V.Px, V.Py, V.w, V.Q, V.B, V.S, V.xasym, V.yasym, V.kappa, V.k]
  all_goals fin

theorem B_pos : 0 < ρ .B := by rw [V.B]; exact mul_pos V.s_pos V.b_pos
theorem S_pos : 0 < ρ .S := by
  have hb := V.b_pos
  have hs := V.s_pos
  rw [V.S, show s / b - s * b = s * (1 - b ^ 2) / b by field_simp]
  exact div_pos (mul_pos hs V.q_pos) hb
theorem yint_pos : 0 < ρ .yint := by
  have hb := V.b_pos
  have hs := V.s_pos
  have hx := V.x0
  rw [V.yint]
  positivity

theorem BSPIYE_holds : BSPIYE.holds ρ := by
  have h := V.BSPIE_holds
  have hB := V.B_pos
  have hS := V.S_pos
  have hy := V.yint_pos
  have hx := V.x
  have hd : 0 < ρ .x * (ρ .B * ρ .S + ρ .S ^ 2) + ρ .yint := by positivity
  revert h
  ev [BSPIYE, BSPIE]
  intro h
  rw [eq_div_iff hd.ne']
  exact h

theorem BSPIXE_holds : BSPIXE.holds ρ := by
  have hb := V.b_pos
  have hc := V.c_pos
  have hs := V.s_pos
  have hx := V.x0
  obtain ⟨D, E, hD, hE, ex, eDx, ey, eDy, eP, eS⟩ := V.param
  have hq : 1 - b ^ 2 ≠ 0 := (V.q_pos).ne'
  have hsq : √(b ^ 2) = b := Real.sqrt_sq hb.le
  ev [BSPIXE, V.sqQ, V.sqqw, V.sqw, hsq, V.sqPx, V.sqPy, V.sqPxPy, V.sqPP, eS, V.sqkappa, V.sqk]
  try simp only [V.r, V.rho, eP, eDy, ey, eDx, ex, V.xint, V.yint, V.P, V.Gam, V.y0, V.Px, V.Py, V.w, V.Q, V.B, V.S, V.xasym, V.yasym, V.kappa, V.k]
  all_goals fin

theorem MPBSE_holds : MPBSE.holds ρ := by
  have hb := V.b_pos
  have hc := V.c_pos
  have hs := V.s_pos
  have hx := V.x0
  obtain ⟨D, E, hD, hE, ex, eDx, ey, eDy, eP, eS⟩ := V.param
  have hq : 1 - b ^ 2 ≠ 0 := (V.q_pos).ne'
  have hsq : √(b ^ 2) = b := Real.sqrt_sq hb.le
  ev [MPBSE, V.sqQ, V.sqqw, V.sqw, hsq, V.sqPx, V.sqPy, V.sqPxPy, V.sqPP, eS, V.sqkappa, V.sqk]
  try simp only [V.r, V.rho, eP, eDy, ey, eDx, ex, V.xint, V.yint, V.P, V.Gam, V.y0, V.Px, V.Py, V.w, V.Q, V.B, V.S, V.xasym, V.yasym, V.kappa, V.k]
  all_goals fin

theorem YMPE_holds : (YMPE true).holds ρ := by
  have hb := V.b_pos
  have hc := V.c_pos
  have hs := V.s_pos
  have hx := V.x0
  obtain ⟨D, E, hD, hE, ex, eDx, ey, eDy, eP, eS⟩ := V.param
  have hq : 1 - b ^ 2 ≠ 0 := (V.q_pos).ne'
  have hsq : √(b ^ 2) = b := Real.sqrt_sq hb.le
  ev [YMPE, V.sqQ, V.sqqw, V.sqw, hsq, V.sqPx, V.sqPy, V.sqPxPy, V.sqPP, eS, V.sqkappa, V.sqk]
  try simp only [V.r, V.rho, eP, eDy, ey, eDx, ex, V.xint, V.yint, V.P, V.Gam, V.y0, V.Px, V.Py, V.w, V.Q, V.B, V.S, V.xasym, V.yasym, V.kappa, V.k]
  all_goals fin

theorem QGDE_holds : QGDE.holds ρ := by
  have hb := V.b_pos
  have hc := V.c_pos
  have hs := V.s_pos
  have hx := V.x0
  obtain ⟨D, E, hD, hE, ex, eDx, ey, eDy, eP, eS⟩ := V.param
  have hq : 1 - b ^ 2 ≠ 0 := (V.q_pos).ne'
  have hsq : √(b ^ 2) = b := Real.sqrt_sq hb.le
  ev [QGDE, V.sqQ, V.sqqw, V.sqw, hsq, V.sqPx, V.sqPy, V.sqPxPy, V.sqPP, eS, V.sqkappa, V.sqk]
  try simp only [V.r, V.rho, eP, eDy, ey, eDx, ex, V.xint, V.yint, V.P, V.Gam, V.y0, V.Px, V.Py, V.w, V.Q, V.B, V.S, V.xasym, V.yasym, V.kappa, V.k]
  all_goals fin

theorem GQE_holds : GQE.holds ρ := by
  have hb := V.b_pos
  have hc := V.c_pos
  have hs := V.s_pos
  have hx := V.x0
  obtain ⟨D, E, hD, hE, ex, eDx, ey, eDy, eP, eS⟩ := V.param
  have hq : 1 - b ^ 2 ≠ 0 := (V.q_pos).ne'
  have hsq : √(b ^ 2) = b := Real.sqrt_sq hb.le
  ev [GQE, V.sqQ, V.sqqw, V.sqw, hsq, V.sqPx, V.sqPy, V.sqPxPy, V.sqPP, eS, V.sqkappa, V.sqk]
  try simp only [V.r, V.rho, eP, eDy, ey, eDx, ex, V.xint, V.yint, V.P, V.Gam, V.y0, V.Px, V.Py, V.w, V.Q, V.B, V.S, V.xasym, V.yasym, V.kappa, V.k]
  all_goals fin

theorem GFQE_holds : GFQE.holds ρ := by
  have hb := V.b_pos
  have hc := V.c_pos
  have hs := V.s_pos
  have hx := V.x0
  obtain ⟨D, E, hD, hE, ex, eDx, ey, eDy, eP, eS⟩ := V.param
  have hq : 1 - b ^ 2 ≠ 0 := (V.q_pos).ne'
  have hsq : √(b ^ 2) = b := Real.sqrt_sq hb.le
  ev [GFQE, V.sqQ, V.sqqw, V.sqw, hsq, V.sqPx, V.sqPy, V.sqPxPy, V.sqPP, eS, V.sqkappa, V.sqk]
  try simp only [V.r, V.rho, eP, eDy, ey, eDx, ex, V.xint, V.yint, V.P, V.Gam, V.y0, V.Px, V.Py, V.w, V.Q, V.B, V.S, V.xasym, V.yasym, V.kappa, V.k]
  all_goals fin

theorem GFQ2E_holds : GFQ2E.holds ρ := by
  have hb := V.b_pos
  have hc := V.c_pos
  have hs := V.s_pos
  have hx := V.x0
  obtain ⟨D, E, hD, hE, ex, eDx, ey, eDy, eP, eS⟩ := V.param
  have hq : 1 - b ^ 2 ≠ 0 := (V.q_pos).ne'
  have hsq : √(b ^ 2) = b := Real.sqrt_sq hb.le
  ev [GFQ2E, GQE, V.sqQ, V.sqqw, V.sqw, hsq, V.sqPx, V.sqPy, V.sqPxPy, V.sqPP, eS, V.sqkappa, V.sqk]
  try simp only [V.r, V.rho, eP, eDy, ey, eDx, ex, V.xint, V.yint, V.P, V.Gam, V.y0, V.Px, V.Py, V.w, V.Q, V.B, V.S, V.xasym, V.yasym, V.kappa, V.k]
  all_goals fin

theorem XiDE_holds : XiDE.holds ρ := by
  have hb := V.b_pos
  have hc := V.c_pos
  have hs := V.s_pos
  have hx := V.x0
  obtain ⟨D, E, hD, hE, ex, eDx, ey, eDy, eP, eS⟩ := V.param
  have hq : 1 - b ^ 2 ≠ 0 := (V.q_pos).ne'
  have hsq : √(b ^ 2) = b := Real.sqrt_sq hb.le
  ev [XiDE, V.sqQ, V.sqqw, V.sqw, hsq, V.sqPx, V.sqPy, V.sqPxPy, V.sqPP, eS, V.sqkappa, V.sqk]
  try simp only [V.r, V.rho, eP, eDy, ey, eDx, ex, V.xint, V.yint, V.P, V.Gam, V.y0, V.Px, V.Py, V.w, V.Q, V.B, V.S, V.xasym, V.yasym, V.kappa, V.k]
  all_goals fin

theorem YiDE_holds : YiDE.holds ρ := by
  have hb := V.b_pos
  have hc := V.c_pos
  have hs := V.s_pos
  have hx := V.x0
  obtain ⟨D, E, hD, hE, ex, eDx, ey, eDy, eP, eS⟩ := V.param
  have hq : 1 - b ^ 2 ≠ 0 := (V.q_pos).ne'
  have hsq : √(b ^ 2) = b := Real.sqrt_sq hb.le
  ev [YiDE, V.sqQ, V.sqqw, V.sqw, hsq, V.sqPx, V.sqPy, V.sqPxPy, V.sqPP, eS, V.sqkappa, V.sqk]
  try simp only [V.r, V.rho, eP, eDy, ey, eDx, ex, V.xint, V.yint, V.P, V.Gam, V.y0, V.Px, V.Py, V.w, V.Q, V.B, V.S, V.xasym, V.yasym, V.kappa, V.k]
  all_goals fin

theorem XiQE_holds : XiQE.holds ρ := by
  have hb := V.b_pos
  have hc := V.c_pos
  have hs := V.s_pos
  have hx := V.x0
  obtain ⟨D, E, hD, hE, ex, eDx, ey, eDy, eP, eS⟩ := V.param
  have hq : 1 - b ^ 2 ≠ 0 := (V.q_pos).ne'
  have hsq : √(b ^ 2) = b := Real.sqrt_sq hb.le
  ev [XiQE, XiDE, GFQE, V.sqQ, V.sqqw, V.sqw, hsq, V.sqPx, V.sqPy, V.sqPxPy, V.sqPP, eS, V.sqkappa, V.sqk]
  try simp only [V.r, V.rho, eP, eDy, ey, eDx, ex, V.xint, V.yint, V.P, V.Gam, V.y0, V.Px, V.Py, V.w, V.Q, V.B, V.S, V.xasym, V.yasym, V.kappa, V.k]
  all_goals fin

theorem YiQE_holds : YiQE.holds ρ := by
  have hb := V.b_pos
  have hc := V.c_pos
  have hs := V.s_pos
  have hx := V.x0
  obtain ⟨D, E, hD, hE, ex, eDx, ey, eDy, eP, eS⟩ := V.param
  have hq : 1 - b ^ 2 ≠ 0 := (V.q_pos).ne'
  have hsq : √(b ^ 2) = b := Real.sqrt_sq hb.le
  ev [YiQE, YiDE, GFQE, V.sqQ, V.sqqw, V.sqw, hsq, V.sqPx, V.sqPy, V.sqPxPy, V.sqPP, eS, V.sqkappa, V.sqk]
  try simp only [V.r, V.rho, eP, eDy, ey, eDx, ex, V.xint, V.yint, V.P, V.Gam, V.y0, V.Px, V.Py, V.w, V.Q, V.B, V.S, V.xasym, V.yasym, V.kappa, V.k]
  all_goals fin

theorem PxDE_holds : PxDE.holds ρ := by
  have hb := V.b_pos
  have hc := V.c_pos
  have hs := V.s_pos
  have hx := V.x0
  obtain ⟨D, E, hD, hE, ex, eDx, ey, eDy, eP, eS⟩ := V.param
  have hq : 1 - b ^ 2 ≠ 0 := (V.q_pos).ne'
  have hsq : √(b ^ 2) = b := Real.sqrt_sq hb.le
  ev [PxDE, V.sqQ, V.sqqw, V.sqw, hsq, V.sqPx, V.sqPy, V.sqPxPy, V.sqPP, eS, V.sqkappa, V.sqk]
  try simp only [V.r, V.rho, eP, eDy, ey, eDx, ex, V.xint, V.yint, V.P, V.Gam, V.y0, V.Px, V.Py, V.w, V.Q, V.B, V.S, V.xasym, V.yasym, V.kappa, V.k]
  all_goals fin

theorem PyDE_holds : PyDE.holds ρ := by
  have hb := V.b_pos
  have hc := V.c_pos
  have hs := V.s_pos
  have hx := V.x0
  obtain ⟨D, E, hD, hE, ex, eDx, ey, eDy, eP, eS⟩ := V.param
  have hq : 1 - b ^ 2 ≠ 0 := (V.q_pos).ne'
  have hsq : √(b ^ 2) = b := Real.sqrt_sq hb.le
  ev [PyDE, V.sqQ, V.sqqw, V.sqw, hsq, V.sqPx, V.sqPy, V.sqPxPy, V.sqPP, eS, V.sqkappa, V.sqk]
  try simp only [V.r, V.rho, eP, eDy, ey, eDx, ex, V.xint, V.yint, V.P, V.Gam, V.y0, V.Px, V.Py, V.w, V.Q, V.B, V.S, V.xasym, V.yasym, V.kappa, V.k]
  all_goals fin

theorem PXYE_holds : PXYE.holds ρ := by
  have hb := V.b_pos
  have hc := V.c_pos
  have hs := V.s_pos
  have hx := V.x0
  obtain ⟨D, E, hD, hE, ex, eDx, ey, eDy, eP, eS⟩ := V.param
  have hq : 1 - b ^ 2 ≠ 0 := (V.q_pos).ne'
  have hsq : √(b ^ 2) = b := Real.sqrt_sq hb.le
  ev [PXYE, V.sqQ, V.sqqw, V.sqw, hsq, V.sqPx, V.sqPy, V.sqPxPy, V.sqPP, eS, V.sqkappa, V.sqk]
  try simp only [V.r, V.rho, eP, eDy, ey, eDx, ex, V.xint, V.yint, V.P, V.Gam, V.y0, V.Px, V.Py, V.w, V.Q, V.B, V.S, V.xasym, V.yasym, V.kappa, V.k]
  all_goals fin

theorem PXYiE_holds : PXYiE.holds ρ := by
  have hb := V.b_pos
  have hc := V.c_pos
  have hs := V.s_pos
  have hx := V.x0
  obtain ⟨D, E, hD, hE, ex, eDx, ey, eDy, eP, eS⟩ := V.param
  have hq : 1 - b ^ 2 ≠ 0 := (V.q_pos).ne'
  have hsq : √(b ^ 2) = b := Real.sqrt_sq hb.le
  ev [PXYiE, V.sqQ, V.sqqw, V.sqw, hsq, V.sqPx, V.sqPy, V.sqPxPy, V.sqPP, eS, V.sqkappa, V.sqk]
  try simp only [V.r, V.rho, eP, eDy, ey, eDx, ex, V.xint, V.yint, V.P, V.Gam, V.y0, V.Px, V.Py, V.w, V.Q, V.B, V.S, V.xasym, V.yasym, V.kappa, V.k]
  all_goals fin

theorem QPE_holds : QPE.holds ρ := by
  have hb := V.b_pos
  have hc := V.c_pos
  have hs := V.s_pos
  have hx := V.x0
  obtain ⟨D, E, hD, hE, ex, eDx, ey, eDy, eP, eS⟩ := V.param
  have hq : 1 - b ^ 2 ≠ 0 := (V.q_pos).ne'
  have hsq : √(b ^ 2) = b := Real.sqrt_sq hb.le
  ev [QPE, V.sqQ, V.sqqw, V.sqw, hsq, V.sqPx, V.sqPy, V.sqPxPy, V.sqPP, eS, V.sqkappa, V.sqk]
  try simp only [V.r, V.rho, eP, eDy, ey, eDx, ex, V.xint, V.yint, V.P, V.Gam, V.y0, V.Px, V.Py, V.w, V.Q, V.B, V.S, V.xasym, V.yasym, V.kappa, V.k]
  all_goals fin

theorem WDE_holds : WDE.holds ρ := by
  have hb := V.b_pos
  have hc := V.c_pos
  have hs := V.s_pos
  have hx := V.x0
  obtain ⟨D, E, hD, hE, ex, eDx, ey, eDy, eP, eS⟩ := V.param
  have hq : 1 - b ^ 2 ≠ 0 := (V.q_pos).ne'
  have hsq : √(b ^ 2) = b := Real.sqrt_sq hb.le
  ev [WDE, QPE, V.sqQ, V.sqqw, V.sqw, hsq, V.sqPx, V.sqPy, V.sqPxPy, V.sqPP, eS, V.sqkappa, V.sqk]
  try simp only [V.r, V.rho, eP, eDy, ey, eDx, ex, V.xint, V.yint, V.P, V.Gam, V.y0, V.Px, V.Py, V.w, V.Q, V.B, V.S, V.xasym, V.yasym, V.kappa, V.k]
  all_goals fin

theorem WE_holds : WE.holds ρ := by
  have hb := V.b_pos
  have hc := V.c_pos
  have hs := V.s_pos
  have hx := V.x0
  obtain ⟨D, E, hD, hE, ex, eDx, ey, eDy, eP, eS⟩ := V.param
  have hq : 1 - b ^ 2 ≠ 0 := (V.q_pos).ne'
  have hsq : √(b ^ 2) = b := Real.sqrt_sq hb.le
  ev [WE, QPE, V.sqQ, V.sqqw, V.sqw, hsq, V.sqPx, V.sqPy, V.sqPxPy, V.sqPP, eS, V.sqkappa, V.sqk]
  try simp only [V.r, V.rho, eP, eDy, ey, eDx, ex, V.xint, V.yint, V.P, V.Gam, V.y0, V.Px, V.Py, V.w, V.Q, V.B, V.S, V.xasym, V.yasym, V.kappa, V.k]
  all_goals fin

theorem PPE_holds : PPE.holds ρ := by
  have hb := V.b_pos
  have hc := V.c_pos
  have hs := V.s_pos
  have hx := V.x0
  obtain ⟨D, E, hD, hE, ex, eDx, ey, eDy, eP, eS⟩ := V.param
  have hq : 1 - b ^ 2 ≠ 0 := (V.q_pos).ne'
  have hsq : √(b ^ 2) = b := Real.sqrt_sq hb.le
  ev [PPE, V.sqQ, V.sqqw, V.sqw, hsq, V.sqPx, V.sqPy, V.sqPxPy, V.sqPP, eS, V.sqkappa, V.sqk]
  try simp only [V.r, V.rho, eP, eDy, ey, eDx, ex, V.xint, V.yint, V.P, V.Gam, V.y0, V.Px, V.Py, V.w, V.Q, V.B, V.S, V.xasym, V.yasym, V.kappa, V.k]
  all_goals fin

theorem XiPE_holds : XiPE.holds ρ := by
  have hb := V.b_pos
  have hc := V.c_pos
  have hs := V.s_pos
  have hx := V.x0
  obtain ⟨D, E, hD, hE, ex, eDx, ey, eDy, eP, eS⟩ := V.param
  have hq : 1 - b ^ 2 ≠ 0 := (V.q_pos).ne'
  have hsq : √(b ^ 2) = b := Real.sqrt_sq hb.le
  ev [XiPE, PPE, V.sqQ, V.sqqw, V.sqw, hsq, V.sqPx, V.sqPy, V.sqPxPy, V.sqPP, eS, V.sqkappa, V.sqk]
  try simp only [V.r, V.rho, eP, eDy, ey, eDx, ex, V.xint, V.yint, V.P, V.Gam, V.y0, V.Px, V.Py, V.w, V.Q, V.B, V.S, V.xasym, V.yasym, V.kappa, V.k]
  all_goals fin

theorem YiPE_holds : YiPE.holds ρ := by
  have hb := V.b_pos
  have hc := V.c_pos
  have hs := V.s_pos
  have hx := V.x0
  obtain ⟨D, E, hD, hE, ex, eDx, ey, eDy, eP, eS⟩ := V.param
  have hq : 1 - b ^ 2 ≠ 0 := (V.q_pos).ne'
  have hsq : √(b ^ 2) = b := Real.sqrt_sq hb.le
  ev [YiPE, PPE, V.sqQ, V.sqqw, V.sqw, hsq, V.sqPx, V.sqPy, V.sqPxPy, V.sqPP, eS, V.sqkappa, V.sqk]
  try simp only [V.r, V.rho, eP, eDy, ey, eDx, ex, V.xint, V.yint, V.P, V.Gam, V.y0, V.Px, V.Py, V.w, V.Q, V.B, V.S, V.xasym, V.yasym, V.kappa, V.k]
  all_goals fin

theorem XADE_holds : XADE.holds ρ := by
  have hb := V.b_pos
  have hc := V.c_pos
  have hs := V.s_pos
  have hx := V.x0
  obtain ⟨D, E, hD, hE, ex, eDx, ey, eDy, eP, eS⟩ := V.param
  have hq : 1 - b ^ 2 ≠ 0 := (V.q_pos).ne'
  have hsq : √(b ^ 2) = b := Real.sqrt_sq hb.le
  ev [XADE, V.sqQ, V.sqqw, V.sqw, hsq, V.sqPx, V.sqPy, V.sqPxPy, V.sqPP, eS, V.sqkappa, V.sqk]
  try simp only [V.r, V.rho, eP, eDy, ey, eDx, ex, V.xint, V.yint, V.P, V.Gam, V.y0, V.Px, V.Py, V.w, V.Q, V.B, V.S, V.xasym, V.yasym, V.kappa, V.k]
  all_goals fin

theorem YADE_holds : YADE.holds ρ := by
  have hb := V.b_pos
  have hc := V.c_pos
  have hs := V.s_pos
  have hx := V.x0
  obtain ⟨D, E, hD, hE, ex, eDx, ey, eDy, eP, eS⟩ := V.param
  have hq : 1 - b ^ 2 ≠ 0 := (V.q_pos).ne'
  have hsq : √(b ^ 2) = b := Real.sqrt_sq hb.le
  ev [YADE, V.sqQ, V.sqqw, V.sqw, hsq, V.sqPx, V.sqPy, V.sqPxPy, V.sqPP, eS, V.sqkappa, V.sqk]
  try simp only [V.r, V.rho, eP, eDy, ey, eDx, ex, V.xint, V.yint, V.P, V.Gam, V.y0, V.Px, V.Py, V.w, V.Q, V.B, V.S, V.xasym, V.yasym, V.kappa, V.k]
  all_goals fin

theorem YAXDE_holds : YAXDE.holds ρ := by
  have hb := V.b_pos
  have hc := V.c_pos
  have hs := V.s_pos
  have hx := V.x0
  obtain ⟨D, E, hD, hE, ex, eDx, ey, eDy, eP, eS⟩ := V.param
  have hq : 1 - b ^ 2 ≠ 0 := (V.q_pos).ne'
  have hsq : √(b ^ 2) = b := Real.sqrt_sq hb.le
  ev [YAXDE, YADE, V.sqQ, V.sqqw, V.sqw, hsq, V.sqPx, V.sqPy, V.sqPxPy, V.sqPP, eS, V.sqkappa, V.sqk]
  try simp only [V.r, V.rho, eP, eDy, ey, eDx, ex, V.xint, V.yint, V.P, V.Gam, V.y0, V.Px, V.Py, V.w, V.Q, V.B, V.S, V.xasym, V.yasym, V.kappa, V.k]
  all_goals fin

theorem RXE_holds (hi : Inside ρ) : RXE.holds ρ := by
  have hb := V.b_pos
  have hc := V.c_pos
  have hs := V.s_pos
  have hx := V.x0
  obtain ⟨D, E, hD, hE, ex, eDx, ey, eDy, eP, eS⟩ := V.param
  have hx1 : 0 < D - ρ .x0 * b := by
    have := hi.1
    rw [ex] at this
    exact (div_pos_iff_of_pos_right hc).1 this
  have hy1 : 0 < ρ .x0 - b * D := by
    have := hi.2
    rw [ey] at this
    exact (mul_pos_iff_of_pos_left (mul_pos (pow_pos hs 2) hx)).1 ((div_pos_iff_of_pos_right (mul_pos hc hD)).1 this)
  have hq : 1 - b ^ 2 ≠ 0 := (V.q_pos).ne'
  have hsq : √(b ^ 2) = b := Real.sqrt_sq hb.le
  ev [RXE, V.sqQ, V.sqqw, V.sqw, hsq, V.sqPx, V.sqPy, V.sqPxPy, V.sqPP, eS, V.sqkappa, V.sqk]
  try simp only [V.r, V.rho, eP, eDy, ey, eDx, ex, V.xint, V.yint, V.P, V.Gam, V.y0, V.Px, V.Py, V.w, V.Q, V.B, V.S, V.xasym, V.yasym, V.kappa, V.k]
  all_goals fin

theorem RXIE_holds : RXIE.holds ρ := by
  have hb := V.b_pos
  have hc := V.c_pos
  have hs := V.s_pos
  have hx := V.x0
  obtain ⟨D, E, hD, hE, ex, eDx, ey, eDy, eP, eS⟩ := V.param
  have hq : 1 - b ^ 2 ≠ 0 := (V.q_pos).ne'
  have hsq : √(b ^ 2) = b := Real.sqrt_sq hb.le
  ev [RXIE, V.sqQ, V.sqqw, V.sqw, hsq, V.sqPx, V.sqPy, V.sqPxPy, V.sqPP, eS, V.sqkappa, V.sqk]
  try simp only [V.r, V.rho, eP, eDy, ey, eDx, ex, V.xint, V.yint, V.P, V.Gam, V.y0, V.Px, V.Py, V.w, V.Q, V.B, V.S, V.xasym, V.yasym, V.kappa, V.k]
  all_goals fin

end Values

end Carbon.Paper
