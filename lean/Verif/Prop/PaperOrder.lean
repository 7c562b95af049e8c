import Verif.Carbon.OrderUILemmas
import Verif.Prop.Paper

/-!
# The orders of the simulator are the pools of the whitepaper (C167)
-/

namespace Carbon.Paper

open CarbonPair (pyDiv)

variable {c : UICurve ℝ}

theorem order_Q (h : c.Sound) : c.Q = c.B / (c.B + c.S) := by
  have hB := h.hB
  have hBS : 0 < c.B + c.S := add_pos_of_pos_of_nonneg h.hB h.hS
  unfold UICurve.Q UICurve.pbRaw UICurve.paRaw
  rw [show c.B * c.B / (c.S + c.B) ^ 2 = (c.B / (c.B + c.S)) ^ 2 by rw [div_pow]; ring_nf, Real.sqrt_sq (by positivity)]

/-- The state of the first token that belongs to the holdings of an order. -/
theorem order_x (h : c.Sound) {y : ℝ} (h0 : 0 ≤ y) (h1 : y ≤ c.yint) :
    c.xfromyF y = .ok (some (c.yint * (c.yint - y) / (y * (c.B * c.S + c.S ^ 2) + c.yint * (c.B * c.S + c.B ^ 2)))) ∧
    0 < y * (c.B * c.S + c.S ^ 2) + c.yint * (c.B * c.S + c.B ^ 2) := by
  have hB := h.hB
  have hS := h.hS
  have hy := h.hyint
  have hd : 0 < y * (c.B * c.S + c.S ^ 2) + c.yint * (c.B * c.S + c.B ^ 2) := by positivity
  refine ⟨?_, hd⟩
  unfold UICurve.xfromyF
  have e : c.B ^ 2 * c.yint + c.B * c.S * y + c.B * c.S * c.yint + c.S ^ 2 * y = y * (c.B * c.S + c.S ^ 2) + c.yint * (c.B * c.S + c.B ^ 2) := by ring
  simp only [gt_iff_lt, not_lt.2 h1, not_lt.2 h0, decide_false, Bool.and_false, Bool.false_eq_true, if_false, e]
  rw [UICurve.pyDiv_ok hd.ne']
  rfl

/-- Every order with a price range is a pool of the whitepaper: the attributes of the object are the observations on the curve, its state is
the one that `xfromy_f` gives, and the marginal price, in terms of the token that is sold, is the slope there. Any trade that leaves the first
reserve non-negative can be part of the description. -/
theorem C167_pool (h : c.Sound) (hS : 0 < c.S) (d : ℝ)
    (hd : 0 ≤ c.yint * (c.yint - c.y) / (c.y * (c.B * c.S + c.S ^ 2) + c.yint * (c.B * c.S + c.B ^ 2)) + d) :
    ∃ ρ, IsPool ρ ∧ ρ .B = c.B ∧ ρ .S = c.S ∧ ρ .yint = c.yint ∧ ρ .y = c.y ∧ ρ .Dx = d ∧ c.xfromyF c.y = .ok (some (ρ .x)) ∧ c.xint = .ok (ρ .xint) ∧
      c.Q = ρ .Q ∧ c.Gamma = ρ .Gam ∧ c.x0 = ρ .x0 ∧ c.y0 = ρ .y0 ∧ c.xasym = ρ .xasym ∧ c.yasym = ρ .yasym ∧ c.kappa = ρ .kappa ∧
      c.paRaw = ρ .Py ∧ c.pbRaw = ρ .Px ∧ (c.pair.hasQuote c.tkn = true → c.pMarg = .ok (some (ρ .Pmarg))) := by
  have hB := h.hB
  have hy := h.hyint
  have hBS : 0 < c.B + c.S := by linarith
  have hQ := order_Q h
  have hQ0 : 0 < c.Q := by rw [hQ]; positivity
  have hQ1 : c.Q < 1 := by rw [hQ, div_lt_one hBS]; linarith
  have hb0 : 0 < √c.Q := Real.sqrt_pos.2 hQ0
  have hb1 : √c.Q < 1 := by rw [Real.sqrt_lt' one_pos]; simpa using hQ1
  have hbb : √c.Q ^ 2 = c.B / (c.B + c.S) := by rw [Real.sq_sqrt hQ0.le, hQ]
  have hG : c.Gamma = 1 - √c.Q := rfl
  have hx0 : c.x0 = c.yint / (c.B ^ 2 + c.B * c.S) * √c.Q / (1 + √c.Q) := by
    unfold UICurve.x0
    rw [hG]
    congr 1 <;> ring
  have hx0p : 0 < c.x0 := by rw [hx0]; positivity
  obtain ⟨hx, hden⟩ := order_x h h.hy0 h.hy
  have ht0 : 0 ≤ c.yint * (c.yint - c.y) / (c.y * (c.B * c.S + c.S ^ 2) + c.yint * (c.B * c.S + c.B ^ 2)) :=
    div_nonneg (mul_nonneg hy.le (by linarith [h.hy])) hden.le
  have ht1 : c.yint * (c.yint - c.y) / (c.y * (c.B * c.S + c.S ^ 2) + c.yint * (c.B * c.S + c.B ^ 2)) ≤ c.yint / (c.B ^ 2 + c.B * c.S) := by
    rw [div_le_div_iff₀ hden (by positivity)]
    have h0 := h.hy0
    have : 0 ≤ c.yint * c.y * (c.B + c.S) ^ 2 := by positivity
    nlinarith
  obtain ⟨ρ, hρ, e1, e2, e3, e4, e5, -⟩ := C165_exists (p := c.B * (c.B + c.S)) (a := c.x0) (g := 1 - √c.Q) (e := 1) (by positivity) hx0p (by linarith)
    (by linarith) ht0 (by
      have : √c.Q * (c.yint / (c.B ^ 2 + c.B * c.S)) = (2 - (1 - √c.Q)) * c.x0 := by
        rw [hx0]; field_simp; ring
      rw [sub_sub_cancel, ← this]
      exact mul_le_mul_of_nonneg_left ht1 hb0.le) hd one_ne_zero
  have V := hρ.values
  rw [e3, sub_sub_cancel] at V
  have hs2 : √(ρ .P) ^ 2 = c.B * (c.B + c.S) := by rw [Real.sq_sqrt hρ.P_pos.le, e1]
  have hsp := V.s_pos
  generalize √(ρ .P) = s at V hs2 hsp
  generalize √c.Q = b at *
  have rB : ρ .B = c.B := by
    have : (s * b) ^ 2 = c.B ^ 2 := by rw [mul_pow, hs2, hbb]; field_simp
    rw [V.B]
    exact (pow_left_inj₀ (by positivity) hB.le two_ne_zero).1 this
  have rBS : s / b = c.B + c.S := by
    have : (s / b) ^ 2 = (c.B + c.S) ^ 2 := by rw [div_pow, hs2, hbb]; field_simp
    exact (pow_left_inj₀ (by positivity) hBS.le two_ne_zero).1 this
  have rS : ρ .S = c.S := by
    rw [V.S, rBS, ← V.B, rB]; ring
  have ryint : ρ .yint = c.yint := by
    rw [V.yint, hs2, e2, hx0]; field_simp
  have rxint : ρ .xint = c.yint / (c.B ^ 2 + c.B * c.S) := by
    rw [V.xint, e2, hx0]; field_simp
  have ry : ρ .y = c.y := by
    have h1 := (C165_same_curve hρ (X := ρ .x) (Y := c.y) hρ.x_nonneg h.hy0 BSPIXE (by simp)).1 (by
      ev [BSPIXE, moved, rB, rS, ryint, e4])
    rw [hρ.y_eq, h1]
  have ry0 : ρ .y0 = c.y0 := by
    rw [V.y0, hs2, e2, hx0]
    unfold UICurve.y0
    rw [hG, show (2 : ℝ) - (1 - b) = 1 + b by ring, sub_sub_cancel]
    field_simp
  have hbne : (1 : ℝ) - b ≠ 0 := by linarith
  refine ⟨ρ, hρ, rB, rS, ryint, ry, e5, ?_, ?_, ?_, ?_, e2.symm, ry0.symm, ?_, ?_, ?_, ?_, ?_, fun hq => ?_⟩
  · rw [hx, e4]
  · unfold UICurve.xint
    rw [UICurve.pyDiv_ok (by positivity), rxint]
  · rw [V.Q, hbb, hQ]
  · rw [hG, e3]
  · rw [V.xasym, e2]
    unfold UICurve.xasym
    rw [hG]
    field_simp
    ring
  · rw [V.yasym, ← V.y0, ry0]
    unfold UICurve.yasym
    rw [hG]
    field_simp
    ring
  · rw [V.kappa, show s ^ 2 * ρ .x0 ^ 2 = ρ .x0 * (s ^ 2 * ρ .x0) by ring, ← V.y0, ry0, e2]
    unfold UICurve.kappa
    rw [hG]
  · unfold UICurve.paRaw
    rw [← hρ.BS_eq, rB, rS, add_comm]
  · unfold UICurve.pbRaw
    rw [← hρ.B_eq, rB, sq]
  · have hM := V.MPBSE_holds
    have hM : ρ .Pmarg = (c.B + c.S * c.y / c.yint) ^ 2 := by
      revert hM
      ev [MPBSE, rB, rS, ry, ryint]
    have hdis : c.disabled = false := by
      unfold UICurve.disabled UICurve.paRaw
      have : (c.S + c.B) ^ 2 ≠ 0 := by positivity
      simp [this]
    unfold UICurve.pMarg UICurve.pMargF
    simp [hdis, not_lt.2 h.hy0, hy.ne', UICurve.quotePrice, hq, hM]

/-- A trade with an order moves along the curve of the pool: what it releases for a payment, and what it asks for an amount, are given by the
swap equations in `B, S`. -/
theorem C167_trade (h : c.Sound) (hS : 0 < c.S) {ρ : Symb → ℝ} (hρ : IsPool ρ) (hB : ρ .B = c.B) (hSc : ρ .S = c.S) (hyi : ρ .yint = c.yint)
    (hy : ρ .y = c.y) :
    (∀ D, 0 ≤ D → ∃ E, c.dyfromdxF D = .ok (some E) ∧ c.y - E = curve (ρ .P) (ρ .x0) (ρ .Gam) (ρ .x + D)) ∧
    (∀ E, 0 ≤ E → E ≤ c.y → ∃ D, c.dxfromdyF E = .ok (some D) ∧ 0 ≤ D ∧ c.y - E = curve (ρ .P) (ρ .x0) (ρ .Gam) (ρ .x + D)) := by
  have hBp := h.hB
  have hyp := h.hyint
  have hT := h.m_pos
  constructor
  · intro D hD
    have hd : 0 < c.S * D * (c.S * c.y + c.B * c.yint) + c.yint ^ 2 := by positivity
    refine ⟨D * ((c.S * c.y + c.B * c.yint) ^ 2 / (c.S * D * (c.S * c.y + c.B * c.yint) + c.yint ^ 2)), ?_, ?_⟩
    · unfold UICurve.dyfromdxF
      have : ¬ (c.S * c.y + c.B * c.yint) ^ 2 < 0 := not_lt.2 (sq_nonneg _)
      simp only [hBp.ne', false_and, if_false, not_lt.2 hD, this, decide_false, Bool.and_false, Bool.false_eq_true]
      rw [UICurve.pyDiv_ok hd.ne']
      rfl
    · rw [← hy]
      refine (C165_swap hρ (add_nonneg hρ.x_nonneg hD)).2.1.1 ?_
      ev [BSSE, traded, hB, hSc, hyi, hy]
      rw [mul_div_assoc]
  · intro E hE hEy
    have hT1 := h.n_pos hEy
    have hden : 0 < (c.S * c.y + c.B * c.yint) * (c.S * c.y + c.B * c.yint - c.S * E) := mul_pos hT hT1
    have hD : 0 ≤ E * (c.yint ^ 2 / ((c.S * c.y + c.B * c.yint) * (c.S * c.y + c.B * c.yint - c.S * E))) := by positivity
    refine ⟨_, ?_, hD, ?_⟩
    · unfold UICurve.dxfromdyF
      simp only [hBp.ne', false_and, if_false, not_lt.2 hE, gt_iff_lt, not_lt.2 hEy, decide_false, Bool.and_false, Bool.false_eq_true]
      rw [UICurve.pyDiv_ok hden.ne']
      rfl
    · rw [show c.y - E = ρ .y - E by rw [hy]]
      refine ((C165_swap (E := E) hρ (add_nonneg hρ.x_nonneg hD)).2.2 (by rw [hy]; linarith)).1 ?_
      ev [BSRSE, traded, hB, hSc, hyi, hy]
      rw [mul_div_assoc]

/-- What an order keeps at a price is the solution of the marginal price equation with the positive root. -/
theorem C167_price (h : c.Sound) (hS : 0 < c.S) (hq : c.pair.hasQuote c.tkn = true) {p : ℝ} (h1 : c.pbRaw ≤ p) (h2 : p ≤ (c.B + c.S * c.y / c.yint) ^ 2)
    {ρ : Symb → ℝ} (hB : ρ .B = c.B) (hSc : ρ .S = c.S) (hyi : ρ .yint = c.yint) :
    ∃ y, c.yfrompF p = .ok (some y) ∧ (YMPE true).holds (Function.update (Function.update ρ .y y) .Pmarg p) ∧
      MPBSE.holds (Function.update (Function.update ρ .y y) .Pmarg p) := by
  have hBp := h.hB
  have hyp := h.hyint
  have h0 := h.hy0
  have hp : 0 ≤ p := le_trans (mul_self_nonneg _) h1
  have hpa : p ≤ c.paRaw := by
    refine h2.trans ?_
    unfold UICurve.paRaw
    have : c.S * c.y / c.yint ≤ c.S := by
      rw [div_le_iff₀ hyp]
      exact mul_le_mul_of_nonneg_left h.hy hS.le
    refine pow_le_pow_left₀ (by positivity) (by linarith) 2
  have hs : √p ≤ c.B + c.S * c.y / c.yint := Real.sqrt_le_iff.2 ⟨by positivity, h2⟩
  have hy : c.yint * (√p - c.B) / c.S ≤ c.y := by
    rw [div_le_iff₀ hS]
    have := mul_le_mul_of_nonneg_left hs hyp.le
    have e : c.yint * (c.B + c.S * c.y / c.yint) = c.yint * c.B + c.S * c.y := by field_simp
    linarith
  have hY : (YMPE true).holds (Function.update (Function.update ρ .y (c.yint * (√p - c.B) / c.S)) .Pmarg p) := by
    ev [YMPE, hB, hSc, hyi]
  refine ⟨c.yint * (√p - c.B) / c.S, ?_, hY, ?_⟩
  · unfold UICurve.yfrompF UICurve.rawPrice UICurve.pySqrt
    simp only [hq, if_true, Py.ok_bind, gt_iff_lt, not_lt.2 hpa, not_lt.2 h1, not_lt.2 hp, decide_false, Bool.and_false, Bool.false_eq_true, if_false]
    rw [UICurve.pyDiv_ok hS.ne']
    simp only [Py.ok_bind, not_lt.2 hy, decide_false, Bool.and_false, Bool.false_eq_true, if_false]
  · refine ((C165_isolated _).2.2.2.2.1 ?_ ?_ ?_).2 (Or.inl hY)
    · simpa using hp
    · simpa [hSc] using hS.ne'
    · simpa [hyi] using hyp.ne'

/-- An order that sells up to 100 of its token and holds 40: the hypotheses of the theorems above are met, also by the pool of the first for
the second. -/
noncomputable def exampleOrder : UICurve ℝ := ⟨⟨['A'], ['B'], ['A'], ['B'], false, none, none⟩, ['B'], 1, 1, 100, 40⟩

example : exampleOrder.Sound ∧ 0 < exampleOrder.S ∧ exampleOrder.pair.hasQuote exampleOrder.tkn = true ∧
    (∃ p, exampleOrder.pbRaw ≤ p ∧ p ≤ (exampleOrder.B + exampleOrder.S * exampleOrder.y / exampleOrder.yint) ^ 2) ∧
    ∃ ρ, IsPool ρ ∧ ρ .B = exampleOrder.B ∧ ρ .S = exampleOrder.S ∧ ρ .yint = exampleOrder.yint ∧ ρ .y = exampleOrder.y := by
  have h : exampleOrder.Sound := by constructor <;> norm_num [exampleOrder]
  refine ⟨h, by norm_num [exampleOrder], by simp [exampleOrder, CarbonPair.hasQuote], ⟨1, by norm_num [exampleOrder, UICurve.pbRaw], by norm_num [exampleOrder]⟩, ?_⟩
  obtain ⟨ρ, a, b, c, d, e, -⟩ := C167_pool h (by norm_num [exampleOrder]) 0 (by norm_num [exampleOrder])
  exact ⟨ρ, a, b, c, d, e⟩

end Carbon.Paper
