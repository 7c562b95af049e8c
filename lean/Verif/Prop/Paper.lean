import Mathlib.Logic.Function.Basic
import Verif.Prop.Formulas
import Verif.Prop.PaperLemmas

/-!
# The formulas of the whitepaper (C165)
-/

namespace Carbon.Paper

open Filter Topology

/-! ## The pools -/

/-- For all parameters, states within the range and trades there is a pool in the sense of `IsPool`. -/
theorem C165_exists {p a g t d e : ℝ} (hp : 0 < p) (ha : 0 < a) (hg : 0 < g) (hg1 : g < 1) (ht : 0 ≤ t) (ht1 : (1 - g) * t ≤ (2 - g) * a)
    (hd : 0 ≤ t + d) (he : e ≠ 0) :
    ∃ ρ, IsPool ρ ∧ ρ .P = p ∧ ρ .x0 = a ∧ ρ .Gam = g ∧ ρ .x = t ∧ ρ .Dx = d ∧ ρ .dx = e := by
  have hb : 0 < 1 - g := by linarith
  have hD := den_pos ha hg hg1 ht
  have hxi : 0 ≤ a * (2 - g) / (1 - g) := by
    have : 0 < 2 - g := by linarith
    positivity
  have hDi : g * (a * (2 - g) / (1 - g)) + a * (1 - g) = a / (1 - g) := by field_simp; ring
  have hs := Real.sq_sqrt hp.le
  let m : ℝ := p * a ^ 2 / (g * t + a * (1 - g)) ^ 2
  refine ⟨fun v => match v with
    | .P => p | .x0 => a | .Gam => g | .y0 => p * a | .x => t | .y => curve p a g t
    | .xint => a * (2 - g) / (1 - g) | .yint => curve p a g 0 | .Pmarg => m | .Px => p * (1 - g) ^ 2 | .Py => p / (1 - g) ^ 2
    | .dx => e | .dy => -(m * e) | .Dx => d | .Dy => curve p a g (t + d) - curve p a g t | .w => 1 / (1 - g) ^ 4 | .Q => (1 - g) ^ 2
    | .B => √p * (1 - g) | .S => √p / (1 - g) - √p * (1 - g) | .xasym => -(a / g - a) | .yasym => -(p * a / g - p * a)
    | .kappa => (a - -(a / g - a)) * (p * a - -(p * a / g - p * a)) | .k => a * (p * a) | .r => a / t | .rho => t / a, ?_, rfl, rfl, rfl, rfl, rfl, rfl⟩
  constructor
  · exact hp
  · exact ha
  · exact hg
  · exact hg1
  · rfl
  · exact ht
  · show 0 ≤ curve p a g t
    rw [curve_eq ha hg hg1 ht]
    have : 0 ≤ a * (2 - g) - (1 - g) * t := by linarith
    positivity
  · rfl
  · exact hxi
  · show curve p a g (a * (2 - g) / (1 - g)) = 0
    rw [curve_eq ha hg hg1 hxi]
    rw [show a * (2 - g) - (1 - g) * (a * (2 - g) / (1 - g)) = 0 by field_simp; ring]
    simp
  · rfl
  · exact curve_deriv hD.ne' hg
  · have := curve_deriv (p := p) (t := a * (2 - g) / (1 - g)) (x0 := a) (g := g) (by rw [hDi]; positivity) hg
    rw [hDi] at this
    refine this.congr_deriv ?_
    show -(p * a ^ 2 / (a / (1 - g)) ^ 2) = -(p * (1 - g) ^ 2)
    field_simp
  · have := curve_deriv (p := p) (t := 0) (x0 := a) (g := g) (by simp [ha.ne', hb.ne']) hg
    refine this.congr_deriv ?_
    show -(p * a ^ 2 / (g * 0 + a * (1 - g)) ^ 2) = -(p / (1 - g) ^ 2)
    rw [mul_zero, zero_add]
    field_simp
  · exact he
  · rfl
  · exact hd
  · show curve p a g t + (curve p a g (t + d) - curve p a g t) = curve p a g (t + d)
    ring
  · show 1 / (1 - g) ^ 4 * (p * (1 - g) ^ 2) = p / (1 - g) ^ 2
    field_simp
  · show 0 ≤ (1 - g) ^ 2
    positivity
  · show ((1 - g) ^ 2) ^ 2 * (p / (1 - g) ^ 2) = p * (1 - g) ^ 2
    field_simp
  · show 0 ≤ √p * (1 - g)
    positivity
  · show (√p * (1 - g)) ^ 2 = p * (1 - g) ^ 2
    rw [mul_pow, hs]
  · show 0 ≤ √p * (1 - g) + (√p / (1 - g) - √p * (1 - g))
    have : 0 ≤ √p / (1 - g) := by positivity
    linarith
  · show (√p * (1 - g) + (√p / (1 - g) - √p * (1 - g))) ^ 2 = p / (1 - g) ^ 2
    rw [add_sub_cancel, div_pow, hs]
  · exact tendsto_pole hp ha hg
  · exact tendsto_curve p a g
  all_goals rfl

/-! ## The exported object -/

theorem dictGet_foldl_add (l : List (String × XEq × String)) (f : Formulas XEq) (hf : f.defaultns = none) (key : Str) (i : FItem XEq)
    (h : dictGet (l.foldl (fun f c => (f.add c.1.toList c.2.1 none (some c.2.2.toList)).2) f).fdict key = some i) :
    dictGet f.fdict key = some i ∨ ∃ c ∈ l, c.1.toList = key ∧ i.item = c.2.1 := by
  induction l generalizing f with
  | nil => exact Or.inl h
  | cons c l ih =>
    rw [List.foldl_cons] at h
    rcases ih _ (by simp [Formulas.add, hf]) h with h' | ⟨c', hc', h'⟩
    · simp only [Formulas.add, Formulas.nsOr, hf, Formulas.fullkey, Option.or_none] at h'
      rw [dictGet_set] at h'
      split at h'
      · rename_i hk
        refine Or.inr ⟨c, by simp, ?_, ?_⟩
        · exact hk
        · simp only [Option.some.injEq] at h'
          rw [← h']
      · exact Or.inl h'
    · exact Or.inr ⟨c', List.mem_cons_of_mem _ hc', h'⟩

/-- Every equation of the exported object holds for every pool, with three exceptions: the two swap equations in `B, S` (see
`C165_swap`, `C165_sign_violated`) and, if the wrong solution is isolated, `YMPE`. For five of them the state must not lie at an end of
the range. -/
theorem C165_exported (plus : Bool) {ρ : Symb → ℝ} (h : IsPool ρ) {key : Str} {e : XEq} (hk : (FORMULAS plus).get key = some e)
    (h1 : key ≠ "BSSE".toList) (h2 : key ≠ "BSRSE".toList) (h3 : key = "YMPE".toList → plus = true)
    (h4 : key ∈ ["PIQE".toList, "PIRE".toList, "SRE".toList, "MPRE".toList, "RXE".toList] → Inside ρ) : e.holds ρ := by
  have V := h.values
  obtain ⟨c, hc, rfl, rfl⟩ : ∃ c ∈ calls plus, c.1.toList = key ∧ c.2.1 = e := by
    simp only [Formulas.get, Formulas.getitem, Formulas.field, Formulas.getfullitem] at hk
    cases hd : dictGet (FORMULAS plus).fdict key with
    | none => simp [hd, Bind.bind, Except.bind] at hk
    | some i =>
      simp only [hd, Bind.bind, Except.bind, Option.bind_some, Option.some.injEq] at hk
      rcases dictGet_foldl_add _ _ rfl _ _ hd with h' | ⟨c, hc, h5, h6⟩
      · simp [Formulas.new, dictGet] at h'
      · exact ⟨c, hc, h5, by rw [← hk, h6]⟩
  simp only [calls, List.mem_cons, List.not_mem_nil, or_false] at hc
  rcases hc with rfl | rfl | rfl | rfl | rfl | rfl | rfl | rfl | rfl | rfl | rfl | rfl | rfl | rfl | rfl | rfl | rfl | rfl | rfl | rfl | rfl | rfl | rfl | rfl | rfl | rfl | rfl | rfl | rfl | rfl | rfl | rfl | rfl | rfl | rfl | rfl | rfl | rfl | rfl | rfl | rfl | rfl | rfl | rfl | rfl | rfl | rfl | rfl | rfl | rfl | rfl | rfl | rfl | rfl | rfl
  · exact V.PIE_holds
  · exact V.PINE_holds
  · exact V.PIQE_holds (h4 (by simp))
  · exact V.PIQ2E_holds
  · exact V.PIRE_holds (h4 (by simp))
  · exact V.PIRIE_holds
  · exact V.PIA1E_holds
  · exact V.SE_holds
  · exact V.SRE_holds (h4 (by simp))
  · exact V.SRIE_holds
  · exact V.MSE_holds
  · exact V.MPE_holds
  · exact V.MPERev_holds
  · exact V.MPQXiE_holds
  · exact V.MPQYiE_holds
  · exact V.MPWYiE_holds
  · exact V.MPWYiE_holds
  · exact V.P0WYiE_holds
  · exact V.PLE_holds
  · exact V.KPYDE_holds
  · exact V.GSE_holds
  · exact V.MPRE_holds (h4 (by simp))
  · exact V.MPRIE_holds
  · exact V.BDE_holds
  · exact V.SDE_holds
  · exact V.BSPIE_holds
  · exact V.BSPIYE_holds
  · exact V.BSPIXE_holds
  · exact absurd rfl h1
  · exact absurd rfl h2
  · exact V.MPBSE_holds
  · have hp : plus = true := h3 rfl
    subst hp
    exact V.YMPE_holds
  · exact V.QGDE_holds
  · exact V.GQE_holds
  · exact V.GFQE_holds
  · exact V.XiDE_holds
  · exact V.YiDE_holds
  · exact V.XiQE_holds
  · exact V.YiQE_holds
  · exact V.PxDE_holds
  · exact V.PyDE_holds
  · exact V.PXYE_holds
  · exact V.PXYiE_holds
  · exact V.QPE_holds
  · exact V.WDE_holds
  · exact V.WE_holds
  · exact V.PPE_holds
  · exact V.XiPE_holds
  · exact V.XiPE_holds
  · exact V.XADE_holds
  · exact V.YADE_holds
  · exact V.YAXDE_holds
  · exact V.KPDE_holds
  · exact V.RXE_holds (h4 (by simp))
  · exact V.RXIE_holds

/-- Every key of the program reads the equation that it was given. -/
theorem C165_keys (plus : Bool) : ∀ c ∈ calls plus, (FORMULAS plus).get c.1.toList = some c.2.1 := by
  cases plus <;> decide +kernel

/-! ## The equations describe the same curve -/

/-- The same pool with other reserves. -/
def moved (ρ : Symb → ℝ) (X Y : ℝ) : Symb → ℝ := Function.update (Function.update ρ .x X) .y Y

theorem curve_iff {ρ : Symb → ℝ} (h : IsPool ρ) {b s : ℝ} (V : Values ρ b s) {X Y : ℝ} (hX : 0 ≤ X) :
    Y = curve (ρ .P) (ρ .x0) (ρ .Gam) X ↔ Y * ((1 - b) * X + ρ .x0 * b) - s ^ 2 * ρ .x0 * (ρ .x0 * (1 + b) - b * X) = 0 := by
  have hd := den_pos h.x0_pos h.Gam_pos h.Gam_lt hX
  rw [curve_eq h.x0_pos h.Gam_pos h.Gam_lt hX, eq_div_iff hd.ne', V.Gam, V.P, sub_eq_zero]
  constructor <;> intro h' <;> linear_combination h'

/-- The equations of the pool, in all parameterizations, are satisfied by the same reserves: those on the curve. -/
theorem C165_same_curve {ρ : Symb → ℝ} (h : IsPool ρ) {X Y : ℝ} (hX : 0 ≤ X) (hY : 0 ≤ Y) :
    ∀ e ∈ [PIE, PINE, PIQ2E, PIA1E, BSPIE, BSPIYE, BSPIXE], e.holds (moved ρ X Y) ↔ Y = curve (ρ .P) (ρ .x0) (ρ .Gam) X := by
  have V := h.values
  generalize 1 - ρ .Gam = b at V
  generalize √(ρ .P) = s at V
  have hb := V.b_pos
  have hc := V.c_pos
  have hs := V.s_pos
  have hx := V.x0
  have hB := V.B_pos
  have hS := V.S_pos
  have hy := V.yint_pos
  have hD : 0 < (1 - b) * X + ρ .x0 * b := by
    have := mul_nonneg hc.le hX
    have := mul_pos hx hb
    linarith
  have hBS : BSPIE.holds (moved ρ X Y) ↔ Y = curve (ρ .P) (ρ .x0) (ρ .Gam) X := by
    rw [curve_iff h V hX]
    ev [BSPIE, moved]
    rw [← sub_eq_zero, show Y * (X * (ρ .B * ρ .S + ρ .S ^ 2) + ρ .yint) - ρ .yint * (ρ .yint - X * (ρ .B * ρ .S + ρ .B ^ 2)) =
      s ^ 2 * (1 + b) / b ^ 2 * (Y * ((1 - b) * X + ρ .x0 * b) - s ^ 2 * ρ .x0 * (ρ .x0 * (1 + b) - b * X)) by
        rw [V.B, V.S, V.yint]; field_simp; ring]
    have : s ^ 2 * (1 + b) / b ^ 2 ≠ 0 := by positivity
    simp [this]
  intro e he
  simp only [List.mem_cons, List.not_mem_nil, or_false] at he
  rcases he with rfl | rfl | rfl | rfl | rfl | rfl | rfl
  · rw [curve_iff h V hX]
    ev [PIE, moved]
    rw [V.Gam, V.P, show (1 - b) * X - ρ .x0 * (1 - b - 1) = (1 - b) * X + ρ .x0 * b by ring, eq_div_iff hD.ne', ← sub_eq_zero]
    constructor <;> intro h' <;> linear_combination h'
  · rw [curve_iff h V hX]
    have hP := V.P ▸ h.P_pos
    ev [PINE, PIE, moved]
    rw [V.Gam, V.P, V.y0, mul_div_cancel_left₀ _ hP.ne', show (1 - b) * X - ρ .x0 * (1 - b - 1) = (1 - b) * X + ρ .x0 * b by ring,
      eq_div_iff hD.ne', ← sub_eq_zero]
    constructor <;> intro h' <;> linear_combination h'
  · rw [curve_iff h V hX]
    ev [PIQ2E, moved]
    rw [← sub_eq_zero, show ρ .Q * ((X - ρ .xint) * (Y - ρ .yint)) - X * Y =
      -(1 + b) * (Y * ((1 - b) * X + ρ .x0 * b) - s ^ 2 * ρ .x0 * (ρ .x0 * (1 + b) - b * X)) by
        rw [V.Q, V.xint, V.yint]; field_simp; ring]
    have : -(1 + b) ≠ 0 := by linarith
    rw [mul_eq_zero, or_iff_right this]
  · rw [curve_iff h V hX]
    ev [PIA1E, moved]
    rw [← sub_eq_zero, show (X - ρ .xasym) * (Y - ρ .yasym) - ρ .kappa =
      1 / (1 - b) * (Y * ((1 - b) * X + ρ .x0 * b) - s ^ 2 * ρ .x0 * (ρ .x0 * (1 + b) - b * X)) by
        rw [V.xasym, V.yasym, V.kappa]; field_simp; ring]
    have : 1 / (1 - b) ≠ 0 := by positivity
    rw [mul_eq_zero, or_iff_right this]
  · exact hBS
  · rw [← hBS]
    have hd : 0 < X * (ρ .B * ρ .S + ρ .S ^ 2) + ρ .yint := by positivity
    ev [BSPIYE, BSPIE, moved]
    rw [eq_div_iff hd.ne']
  · rw [← hBS]
    have hd : 0 < Y * (ρ .B * ρ .S + ρ .S ^ 2) + ρ .yint * (ρ .B * ρ .S + ρ .B ^ 2) := by positivity
    ev [BSPIXE, BSPIE, moved]
    rw [eq_div_iff hd.ne']
    constructor <;> intro h' <;> linear_combination h'

/-! ## Trades -/

/-- The same pool with another trade. -/
def traded (ρ : Symb → ℝ) (D E : ℝ) : Symb → ℝ := Function.update (Function.update ρ .Dx D) .Dy E

/-- The swap equation holds exactly for the trades that stay on the curve; so do the two swap equations in `B, S`, if the change of the
second token is taken with the other sign. -/
theorem C165_swap {ρ : Symb → ℝ} (h : IsPool ρ) {D E : ℝ} (hD : 0 ≤ ρ .x + D) :
    (SE.holds (traded ρ D E) ↔ ρ .y + E = curve (ρ .P) (ρ .x0) (ρ .Gam) (ρ .x + D)) ∧
    (BSSE.holds (traded ρ D E) ↔ ρ .y - E = curve (ρ .P) (ρ .x0) (ρ .Gam) (ρ .x + D)) ∧
    (0 ≤ ρ .y - E → (BSRSE.holds (traded ρ D E) ↔ ρ .y - E = curve (ρ .P) (ρ .x0) (ρ .Gam) (ρ .x + D))) := by
  have V := h.values
  generalize 1 - ρ .Gam = b at V
  generalize √(ρ .P) = s at V
  have hb := V.b_pos
  have hc := V.c_pos
  have hs := V.s_pos
  have hx := V.x0
  have hB := V.B_pos
  have hS := V.S_pos
  have hy := V.yint_pos
  obtain ⟨A, hAd⟩ : ∃ A, A = (1 - b) * ρ .x + ρ .x0 * b := ⟨_, rfl⟩
  obtain ⟨F, hFd⟩ : ∃ F, F = (1 - b) * (ρ .x + D) + ρ .x0 * b := ⟨_, rfl⟩
  have hA : 0 < A := hAd ▸ V.D_pos
  have hF : 0 < F := by
    have := mul_nonneg hc.le hD
    have := mul_pos hx hb
    linarith
  have ex : ρ .x = (A - ρ .x0 * b) / (1 - b) := by rw [hAd]; field_simp; ring
  have eD : D = (F - A) / (1 - b) := by rw [hAd, hFd]; field_simp; ring
  have eF : F = A + (1 - b) * D := by rw [hAd, hFd]; ring
  have ey : ρ .y = s ^ 2 * ρ .x0 * (ρ .x0 - b * A) / ((1 - b) * A) := by
    rw [V.y, ← hAd, ex]
    field_simp
    ring
  have hT : ρ .S * ρ .y + ρ .B * ρ .yint = ρ .yint * (s * ρ .x0) / A := by
    rw [V.S, V.B, V.yint, ey]
    field_simp
    ring
  have hcv : curve (ρ .P) (ρ .x0) (ρ .Gam) (ρ .x + D) = ρ .y - s ^ 2 * ρ .x0 ^ 2 * D / (A * F) := by
    refine ((curve_iff h V (Y := ρ .y - s ^ 2 * ρ .x0 ^ 2 * D / (A * F)) hD).2 ?_).symm
    rw [← hFd, ey, ex, eD]
    field_simp
    ring
  have hSy : ρ .S * ρ .yint * (s * ρ .x0) = ρ .yint ^ 2 * (1 - b) := by
    rw [V.S, V.yint]
    field_simp
    ring
  have hST : ρ .S * (ρ .S * ρ .y + ρ .B * ρ .yint) = ρ .yint ^ 2 * (1 - b) / A := by
    rw [hT, ← hSy]
    ring
  have hden : ρ .S * D * (ρ .S * ρ .y + ρ .B * ρ .yint) + ρ .yint ^ 2 = ρ .yint ^ 2 * F / A := by
    rw [show ρ .S * D * (ρ .S * ρ .y + ρ .B * ρ .yint) = D * (ρ .S * (ρ .S * ρ .y + ρ .B * ρ .yint)) by ring, hST, eF]
    field_simp
    ring
  refine ⟨?_, ?_, fun hE => ?_⟩
  · rw [hcv]
    ev [SE, traded]
    rw [V.Gam, V.P, show (1 - b) * (ρ .x - ρ .x0) + ρ .x0 = A by rw [hAd]; ring,
      show (1 - b) * (ρ .x - ρ .x0 + D) + ρ .x0 = F by rw [hFd]; ring]
    constructor <;> intro h' <;> linarith
  · rw [hcv, sub_right_inj]
    ev [BSSE, traded]
    rw [hden, hT]
    rw [show D * (ρ .yint * (s * ρ .x0) / A) ^ 2 / (ρ .yint ^ 2 * F / A) = s ^ 2 * ρ .x0 ^ 2 * D / (A * F) by field_simp]
  · rw [hcv, sub_right_inj, eq_div_iff (mul_pos hA hF).ne']
    have hT0 : 0 < ρ .S * ρ .y + ρ .B * ρ .yint := by
      have := mul_nonneg hS.le V.y_nonneg
      have := mul_pos hB hy
      linarith
    have hT1 : 0 < ρ .S * ρ .y + ρ .B * ρ .yint - ρ .S * E := by
      have := mul_nonneg hS.le hE
      have := mul_pos hB hy
      linarith
    ev [BSRSE, traded]
    rw [eq_div_iff (mul_pos hT0 hT1).ne', ← sub_eq_zero, ← sub_eq_zero (a := E * _),
      show D * ((ρ .S * ρ .y + ρ .B * ρ .yint) * (ρ .S * ρ .y + ρ .B * ρ .yint - ρ .S * E)) - E * ρ .yint ^ 2 =
        -(ρ .yint ^ 2 / A ^ 2) * (E * (A * F) - s ^ 2 * ρ .x0 ^ 2 * D) by
      rw [show D * ((ρ .S * ρ .y + ρ .B * ρ .yint) * (ρ .S * ρ .y + ρ .B * ρ .yint - ρ .S * E)) - E * ρ .yint ^ 2 =
        D * ((ρ .S * ρ .y + ρ .B * ρ .yint) * (ρ .S * ρ .y + ρ .B * ρ .yint)) -
          D * E * (ρ .S * (ρ .S * ρ .y + ρ .B * ρ .yint)) - E * ρ .yint ^ 2 by ring, hST, hT, eF]
      field_simp
      ring]
    have : -(ρ .yint ^ 2 / A ^ 2) ≠ 0 := neg_ne_zero.2 (by positivity)
    rw [mul_eq_zero, or_iff_right this]

/-! ## What `solve` and `isolate` return -/

/-- The isolated equations are equivalent to the ones that were solved. A marginal price has two solutions. -/
theorem C165_isolated (ρ : Symb → ℝ) :
    (ρ .Gam ≤ 1 → 0 ≤ ρ .Q → (QGDE.holds ρ ↔ GQE.holds ρ)) ∧
    (0 < ρ .Px * ρ .Py → (YiPE.holds ρ ↔ XiPE.holds ρ)) ∧
    (ρ .x * (ρ .B * ρ .S + ρ .S ^ 2) + ρ .yint ≠ 0 → (BSPIE.holds ρ ↔ BSPIYE.holds ρ)) ∧
    (ρ .y * (ρ .B * ρ .S + ρ .S ^ 2) + ρ .yint * (ρ .B * ρ .S + ρ .B ^ 2) ≠ 0 → (BSPIE.holds ρ ↔ BSPIXE.holds ρ)) ∧
    (0 ≤ ρ .Pmarg → ρ .S ≠ 0 → ρ .yint ≠ 0 → (MPBSE.holds ρ ↔ (YMPE true).holds ρ ∨ (YMPE false).holds ρ)) ∧
    ((MPWYiE.rhs.subs Symb.P 1).eval ρ ≠ 0 → (MPWYiE.holds ρ ↔ P0WYiE.holds ρ)) := by
  refine ⟨fun h1 h2 => ?_, fun h => ?_, fun h => ?_, fun h => ?_, fun h1 h2 h3 => ?_, fun h1 => ?_⟩
  · ev [QGDE, GQE]
    constructor
    · intro h
      rw [h, Real.sqrt_sq (by linarith)]
      ring
    · intro h
      rw [h, sub_sub_cancel, Real.sq_sqrt h2]
  · have h' : √(ρ .Px * ρ .Py) ≠ 0 := (Real.sqrt_pos.2 h).ne'
    ev [YiPE, XiPE, PPE]
    rw [eq_div_iff h']
    constructor <;> intro h <;> linarith
  · ev [BSPIE, BSPIYE]
    rw [eq_div_iff h]
  · ev [BSPIE, BSPIXE]
    rw [eq_div_iff h]
    constructor <;> intro h <;> linarith
  · ev [MPBSE, YMPE]
    have e : ∀ q : ℝ, (ρ .y = ρ .yint * (q - ρ .B) / ρ .S) ↔ q = ρ .B + ρ .S * ρ .y / ρ .yint := by
      intro q
      constructor
      · intro h; rw [h]; field_simp; ring
      · intro h; rw [h]; field_simp; ring
    rw [e, e]
    constructor
    · intro h
      rw [h, Real.sqrt_sq_eq_abs]
      rcases abs_choice (ρ .B + ρ .S * ρ .y / ρ .yint) with h' | h' <;> rw [h']
      · exact Or.inl rfl
      · exact Or.inr (neg_neg _)
    · rintro (h | h)
      · rw [← h, Real.sq_sqrt h1]
      · rw [← h, neg_sq, Real.sq_sqrt h1]
  · revert h1
    ev [P0WYiE, MPWYiE, MPQYiE, MPERev, MPERev0, MPE, MSE, GQE]
    generalize (1 - (√√(ρ .w))⁻¹) * (ρ .y - ρ .yint / (1 + √√(ρ .w))) + ρ .yint / (1 + √√(ρ .w)) = U
    intro hU hy hw
    have hZ : ρ .yint / (1 + √√(ρ .w)) ≠ 0 := div_ne_zero hy hw
    generalize ρ .yint / (1 + √√(ρ .w)) = Z at hZ ⊢
    rw [show U ^ 2 / ((ρ .P)⁻¹ * Z ^ 2) = ρ .P * (U ^ 2 / Z ^ 2) by rw [← div_div, div_inv_eq_mul]; ring,
      eq_div_iff (div_ne_zero (pow_ne_zero _ hU) (pow_ne_zero _ hZ))]
    exact eq_comm

/-- A pool shows a given marginal price exactly if its reference price satisfies the equation of the curves of constant marginal price, whose
right-hand side depends on the width, the amount and the intercept only. -/
theorem C165_readjust {σ : Symb → ℝ} (hσ : IsPool σ) (m : ℝ) :
    (σ .Pmarg = m ↔ P0WYiE.holds (Function.update σ .Pmarg m)) ∧
    ∀ τ : Symb → ℝ, τ .w = σ .w → τ .y = σ .y → τ .yint = σ .yint → τ .Pmarg = σ .Pmarg → P0WYiE.rhs.eval τ = P0WYiE.rhs.eval σ := by
  refine ⟨?_, fun τ h1 h2 h3 h4 => by ev [P0WYiE, MPWYiE, MPQYiE, MPERev, MPERev0, MPE, MSE, GQE, h1, h2, h3, h4]⟩
  have V := hσ.values
  generalize 1 - σ .Gam = b at V
  generalize √(σ .P) = s at V
  have hb := V.b_pos
  have hs := V.s_pos
  have hx := V.x0
  have h := V.P0WYiE_holds
  have hP := hσ.P_pos
  have e : ∀ τ : Symb → ℝ, (∀ v, v ≠ .Pmarg → τ v = σ v) → (MPWYiE.rhs.subs Symb.P 1).eval τ = (MPWYiE.rhs.subs Symb.P 1).eval σ := by
    intro τ hτ
    ev [MPWYiE, MPQYiE, MPERev, MPERev0, MPE, MSE, GQE, hτ]
  have h1 : σ .P = σ .Pmarg / (MPWYiE.rhs.subs Symb.P 1).eval σ := h
  have h2 : P0WYiE.holds (Function.update σ .Pmarg (m)) ↔ σ .P = m / (MPWYiE.rhs.subs Symb.P 1).eval σ := by
    show _ = _ / (MPWYiE.rhs.subs Symb.P 1).eval _ ↔ _
    rw [e _ (fun v hv => Function.update_of_ne hv _ _)]
    simp [Ex.eval, P0WYiE]
  have hc : (MPWYiE.rhs.subs Symb.P 1).eval σ ≠ 0 := by
    intro h0
    rw [h0, div_zero] at h1
    exact hP.ne' h1
  rw [h2, h1, div_left_inj' hc]

/-! ## What does not hold -/

/-- Read with the same changes of the reserves as the other swap equations, the swap equation in `B, S` holds only for the trade of nothing. -/
theorem C165_sign_violated {ρ : Symb → ℝ} (h : IsPool ρ) : SE.holds ρ ∧ (BSSE.holds ρ ↔ ρ .Dx = 0) := by
  have V := h.values
  have hσ : traded ρ (ρ .Dx) (ρ .Dy) = ρ := by simp [traded]
  have hs := C165_swap h (D := ρ .Dx) (E := ρ .Dy) h.new_nonneg
  rw [hσ, ← h.Dy_eq] at hs
  refine ⟨V.SE_holds, hs.2.1.trans ?_⟩
  have h1 := V.SE_holds
  have hx := h.x0_pos
  have hP := h.P_pos
  obtain ⟨D, E, hD, hE, ex, eDx, ey, eDy, -⟩ := V.param
  have hb := V.b_pos
  have hc := V.c_pos
  have hs' := V.s_pos
  constructor
  · intro h2
    have h3 : ρ .Dy = 0 := by linarith
    rw [eDy] at h3
    rw [eDx]
    have : E = D := by
      field_simp at h3
      have h4 : (ρ .x0 - (1 - ρ .Gam) * E) * D - E * (ρ .x0 - (1 - ρ .Gam) * D) = 0 := by
        simpa [hs'.ne', hx.ne'] using h3
      have h5 : (D - E) * ρ .x0 = 0 := by linear_combination h4
      rcases mul_eq_zero.1 h5 with h6 | h6
      · linarith
      · exact absurd h6 hx.ne'
    rw [this]
    simp
  · intro h2
    have h3 : ρ .y + ρ .Dy = ρ .y := by rw [h.Dy_eq, h2, add_zero, ← h.y_eq]
    linarith

/-- The other solution of the marginal price equation is never the amount that a pool holds. -/
theorem C165_root_violated {ρ : Symb → ℝ} (h : IsPool ρ) : (YMPE true).holds ρ ∧ ¬ (YMPE false).holds ρ := by
  have V := h.values
  refine ⟨V.YMPE_holds, ?_⟩
  have hB := V.B_pos
  have hS := V.S_pos
  have hy := V.yint_pos
  have h0 := V.y_nonneg
  ev [YMPE]
  have : ρ .yint * (-√(ρ .Pmarg) - ρ .B) / ρ .S < 0 := by
    have := Real.sqrt_nonneg (ρ .Pmarg)
    exact div_neg_of_neg_of_pos (mul_neg_of_pos_of_neg hy (by linarith)) hS
  intro h'
  linarith

/-- The equation for `yint` is exported under no key; its key reads the one for `xint`. -/
theorem C165_yint_violated (plus : Bool) :
    (FORMULAS plus).get "YiPE".toList = (FORMULAS plus).get "XiPE".toList ∧ (FORMULAS plus).get "YiPE".toList = some ⟨.v .xint, XiPE.rhs⟩ ∧
    ∀ c ∈ calls plus, c.2.1 ≠ YiPE := by
  cases plus <;> decide +kernel

/-- With the ratios that the comments describe, the two ratio equations hold only at the reference point. -/
theorem C165_ratio_violated {ρ : Symb → ℝ} (h : IsPool ρ) (hi : Inside ρ) :
    (RXE.holds (Function.update ρ .r (ρ .x / ρ .x0)) ↔ ρ .x = ρ .x0) ∧
    (RXIE.holds (Function.update ρ .rho (ρ .x0 / ρ .x)) ↔ ρ .x = ρ .x0) := by
  have h1 := h.x0_pos
  have h2 := hi.1
  ev [RXE, RXIE]
  rw [div_mul_eq_mul_div, div_mul_eq_mul_div, eq_div_iff h1.ne', eq_div_iff h2.ne']
  constructor
  · constructor
    · intro h'
      exact (mul_self_inj h2.le h1.le).1 h'.symm
    · intro h'
      rw [h']
  · exact mul_self_inj h2.le h1.le

/-- The width of the range is the inverse of the square of `Q`, and `Q` is not its fourth root. -/
theorem C165_width_violated {ρ : Symb → ℝ} (h : IsPool ρ) : ρ .w * ρ .Q ^ 2 = 1 ∧ ρ .Q ^ 4 < ρ .w := by
  have V := h.values
  have hb := V.b_pos
  have hb1 := V.b_lt
  rw [V.w, V.Q]
  refine ⟨by field_simp, ?_⟩
  have h1 : ((1 - ρ .Gam) ^ 2) ^ 4 < 1 := pow_lt_one₀ (by positivity) (pow_lt_one₀ hb.le hb1 two_ne_zero) (by norm_num)
  have h2 : (1 - ρ .Gam) ^ 4 < 1 := pow_lt_one₀ hb.le hb1 (by norm_num)
  refine h1.trans ((one_lt_div (by positivity)).2 h2)

/-- A pool inside its range, as the theorems assume. -/
example : ∃ ρ, IsPool ρ ∧ Inside ρ ∧ ρ .Dx = 1 ∧ ρ .y = 1 := by
  obtain ⟨ρ, h, h1, h2, h3, h4, h5, -⟩ :=
    C165_exists (p := 1) (a := 1) (g := 1 / 2) (t := 1) (d := 1) (e := 1) (by norm_num) (by norm_num) (by norm_num) (by norm_num) (by norm_num)
      (by norm_num) (by norm_num) (by norm_num)
  have hy : ρ .y = 1 := by
    rw [h.y_eq, h1, h2, h3, h4]
    norm_num [curve]
  exact ⟨ρ, h, ⟨by rw [h4]; norm_num, by rw [hy]; norm_num⟩, h5, hy⟩

end Carbon.Paper
