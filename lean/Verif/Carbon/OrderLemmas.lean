import Mathlib.Tactic.FieldSimp
import Mathlib.Tactic.Positivity
import Mathlib.Tactic.Linarith
import Mathlib.Tactic.Ring
import Verif.Carbon.Order
import Verif.Carbon.OrderUILemmas

/-!
# Lemmas about `Order` curves over the reals
-/

namespace Carbon.Curve

open CarbonPair (pyDiv)
open UICurve (pyDiv_ok)

/-- A curve whose stored numbers fit together: what the constructor produces from positive prices. -/
structure Good (c : Curve ℝ) : Prop where
  hB : 0 < c.B
  hS : 0 ≤ c.S
  hz : 0 < c.yint
  hy : c.y ≤ c.yint
  hy0 : 0 ≤ c.y
  hpl : c.plow = c.B ^ 2
  hph : c.phigh = (c.B + c.S) ^ 2
  hadj : c.adjN = decide (c.phigh = c.plow)

theorem sqrtE_ok {x : ℝ} (h : 0 ≤ x) : sqrtE x = .ok (Real.sqrt x) := if_neg (not_lt.mpr h)

variable {c : Curve ℝ}

theorem Good.adj_iff (h : Good c) : c.adjN = true ↔ c.S = 0 := by
  rw [h.hadj, decide_eq_true_iff, h.hph, h.hpl]
  have hB := h.hB
  have hS := h.hS
  constructor
  · intro e
    have : (c.B + c.S) ^ 2 - c.B ^ 2 = c.S * (2 * c.B + c.S) := by ring
    have h0 : c.S * (2 * c.B + c.S) = 0 := by linarith
    rcases mul_eq_zero.mp h0 with h0 | h0
    · exact h0
    · linarith
  · intro e; rw [e, add_zero]

theorem Good.p_ok (h : Good c) : c.p = .ok (c.B * (c.B + c.S)) := by
  have hB := h.hB
  have hS := h.hS
  unfold p
  have e : c.phigh * c.plow = (c.B * (c.B + c.S)) ^ 2 := by rw [h.hpl, h.hph]; ring
  rw [e, sqrtE_ok (by positivity), Real.sqrt_sq (by positivity)]

/-- `g = 1 - n` on a curve with a proper range: the fourth root of the price ratio. -/
theorem Good.n_ok (h : Good c) (hS : 0 < c.S) :
    ∃ g, 0 < g ∧ g < 1 ∧ c.n = .ok (1 - g) ∧ c.B = g ^ 2 * (c.B + c.S) := by
  have hB := h.hB
  have hP : 0 < c.B + c.S := by positivity
  set q := c.B / (c.B + c.S) with hq
  have hq0 : 0 < q := by positivity
  have hq1 : q < 1 := by rw [hq, div_lt_one hP]; linarith
  refine ⟨Real.sqrt q, Real.sqrt_pos.mpr hq0, ?_, ?_, ?_⟩
  · rw [Real.sqrt_lt' one_pos]; simpa using hq1
  · have hadj : c.adjN = false := by
      rw [← Bool.not_eq_true, h.adj_iff]; exact hS.ne'
    have hph : 0 < c.phigh := by rw [h.hph]; positivity
    unfold n
    rw [hadj]
    simp only [Bool.false_eq_true, if_false]
    rw [pyDiv_ok hph.ne']
    have e : c.plow / c.phigh = q ^ 2 := by rw [h.hpl, h.hph, hq, div_pow]
    simp only [Py.ok_bind]
    rw [e, sqrtE_ok (by positivity), Real.sqrt_sq hq0.le]
    simp only [Py.ok_bind]
    rw [sqrtE_ok hq0.le]
    rfl
  · rw [Real.sq_sqrt hq0.le, hq]; field_simp

theorem x0_of {n p : ℝ} (hn : c.n = .ok n) (hp : c.p = .ok p) (h0 : p * (2 - n) ≠ 0) :
    c.x0 = .ok (c.yint1 * (1 - n) / (p * (2 - n))) := by
  unfold x0; rw [hn, hp]; simp only [Py.ok_bind]; exact pyDiv_ok h0

theorem y0_of {n : ℝ} (hn : c.n = .ok n) (h0 : 2 - n ≠ 0) :
    c.y0 = .ok (c.yint1 * (1 - n) / (2 - n)) := by
  unfold y0; rw [hn]; simp only [Py.ok_bind]; exact pyDiv_ok h0

/-- `dxdy` as a function of `n`, for any curve with positive price and `0 < n < 1`. -/
theorem dxdy_of {n p : ℝ} (hn : c.n = .ok n) (hp : c.p = .ok p) (hn0 : 0 ≤ n) (hn1 : n < 1) (hp0 : 0 < p)
    {dy : ℝ} (hy : 0 ≤ c.y) (hdy : 0 ≤ c.y + dy) :
    c.dxdy dy = .ok (-(c.yint1 * (1 - n) / (p * (2 - n))) * (c.yint1 * (1 - n) / (2 - n)) * dy /
      ((n * c.y + c.yint1 * (1 - n) / (2 - n) * (1 - n)) * (n * (c.y + dy) + c.yint1 * (1 - n) / (2 - n) * (1 - n)))) := by
  have h2 : 0 < 2 - n := by linarith
  have h1 : 0 < 1 - n := by linarith
  have hz1 : 0 < c.yint1 := lt_of_lt_of_le one_pos (le_max_right _ _)
  unfold dxdy
  rw [x0_of hn hp (by positivity), y0_of hn h2.ne', hn]
  simp only [Py.ok_bind]
  apply pyDiv_ok
  have : 0 < n * c.y + c.yint1 * (1 - n) / (2 - n) * (1 - n) := by positivity
  have : 0 < n * (c.y + dy) + c.yint1 * (1 - n) / (2 - n) * (1 - n) := by positivity
  positivity

end Carbon.Curve
