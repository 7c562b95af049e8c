import Mathlib.Tactic.NormNum
import Mathlib.Tactic.LinearCombination
import Verif.Carbon.OrderLemmas

/-!
# C24: the curve formulas agree;  C68: what the order constructor guarantees
-/

set_option linter.unusedSectionVars false

namespace Carbon.Curve

open CarbonPair (pyDiv)
open UICurve (pyDiv_ok)

variable {c : Curve ℝ}

private theorem m_pos (h : Good c) : 0 < c.y * c.S + c.yint * c.B := by
  have := h.hB; have := h.hS; have := h.hz; have := h.hy0
  positivity

private theorem m_pos' (h : Good c) {d : ℝ} (hd : d ≤ c.y) : 0 < c.y * c.S + c.yint * c.B - d * c.S := by
  have h1 := h.hB; have h2 := h.hS; have h3 := h.hz
  have : 0 ≤ (c.y - d) * c.S := mul_nonneg (by linarith) h2
  have : 0 < c.yint * c.B := by positivity
  nlinarith

/-- The contract formula evaluates without error for every amount the order holds. -/
theorem Good.amtBySrc_ok (h : Good c) {d : ℝ} (hd : d ≤ c.y) :
    c.amtBySrc d = .ok (d * c.yint ^ 2 / ((c.y * c.S + c.yint * c.B) * (c.y * c.S + c.yint * c.B - d * c.S))) := by
  unfold amtBySrc
  dsimp only
  rw [pyDiv_ok (mul_pos (m_pos h) (m_pos' h hd)).ne']
  congr 2; ring

theorem Good.amtByTarget_ok (h : Good c) {d : ℝ} (hd : 0 ≤ d) :
    c.amtByTarget d = .ok (d * (c.y * c.S + c.yint * c.B) ^ 2 /
      (d * c.S * (c.y * c.S + c.yint * c.B) + c.yint ^ 2)) := by
  unfold amtByTarget
  dsimp only
  have h1 := m_pos h
  have h2 := h.hS
  have h3 := h.hz
  rw [pyDiv_ok (by positivity)]
  congr 1
  congr 1 <;> ring

/-- The two contract formulas are inverse to each other on the holdings of the order. -/
theorem Good.amtByTarget_amtBySrc (h : Good c) {d : ℝ} (h0 : 0 ≤ d) (hd : d ≤ c.y) :
    ∃ s, 0 ≤ s ∧ c.amtBySrc d = .ok s ∧ c.amtByTarget s = .ok d := by
  have h1 := m_pos h
  have h2 := m_pos' h hd
  have h3 := h.hz
  refine ⟨_, ?_, h.amtBySrc_ok hd, ?_⟩
  · positivity
  · rw [h.amtByTarget_ok (by positivity)]
    congr 1
    set m := c.y * c.S + c.yint * c.B with hm
    have h2' : m - d * c.S ≠ 0 := h2.ne'
    have e : d * c.yint ^ 2 / (m * (m - d * c.S)) * c.S * m + c.yint ^ 2 = c.yint ^ 2 * m / (m - d * c.S) := by
      field_simp
      ring
    rw [e]
    field_simp

/-- The price of the order's own hyperbola, in the contract's variables. -/
private theorem dxdy_exact (h : Good c) (hS : 0 < c.S) (h1 : 1 ≤ c.yint) {d : ℝ} (hd : d ≤ c.y) :
    c.dxdy (-d) = .ok (d * c.yint ^ 2 /
      ((c.y * c.S + c.yint * c.B) * (c.y * c.S + c.yint * c.B - d * c.S))) := by
  obtain ⟨g, hg0, hg1, hn, hBg⟩ := h.n_ok hS
  have hB := h.hB
  have hz := h.hz
  have hP : 0 < c.B + c.S := by positivity
  have hm := m_pos h
  have hm' := m_pos' h hd
  rw [dxdy_of hn h.p_ok (by linarith) (by linarith) (by positivity) h.hy0 (by linarith)]
  congr 1
  have hz1 : c.yint1 = c.yint := max_eq_left h1
  rw [hz1]
  set P := c.B + c.S with hPd
  have hSg : c.S = (1 - g ^ 2) * P := by rw [hPd] at *; linarith
  have hg2 : (0 : ℝ) < 1 + g := by linarith
  have e1 : c.y * c.S + c.yint * c.B = P * (1 + g) * ((1 - g) * c.y + c.yint * g / (1 + g) * g) := by
    rw [hSg, hBg]; field_simp; ring
  have e2 : c.y * c.S + c.yint * c.B - d * c.S =
      P * (1 + g) * ((1 - g) * (c.y - d) + c.yint * g / (1 + g) * g) := by
    rw [hSg, hBg]; field_simp; ring
  have hY : 0 < (1 - g) * c.y + c.yint * g / (1 + g) * g := by
    have := hm; rw [e1] at this
    exact pos_of_mul_pos_right this (by positivity)
  have hY' : 0 < (1 - g) * (c.y - d) + c.yint * g / (1 + g) * g := by
    have := hm'; rw [e2] at this
    exact pos_of_mul_pos_right this (by positivity)
  rw [e2, e1]
  have r1 : (1 : ℝ) - (1 - g) = g := by ring
  have r2 : (2 : ℝ) - (1 - g) = 1 + g := by ring
  rw [r1, r2, hBg, ← sub_eq_add_neg]
  generalize (1 - g) * c.y + c.yint * g / (1 + g) * g = Y at hY
  generalize (1 - g) * (c.y - d) + c.yint * g / (1 + g) * g = Y' at hY'
  field_simp

/-- Quoting a sale of `d` units: the order's own `(x0, y0, n)` hyperbola, the contract formula used by the fast and the
alpha router, and the order UI all ask for the same input, and the opposite quotes all return the `d` units for that
input.  Capacity at least one, proper price range. -/
theorem C24_agree (h : Good c) (hS : 0 < c.S) (h1 : 1 ≤ c.yint) (u : UICurve ℝ) (hu : u.B = c.B ∧ u.S = c.S ∧
    u.yint = c.yint ∧ u.y = c.y) (d : ℝ) (h0 : 0 ≤ d) (hd : d ≤ c.y) :
    ∃ s, 0 ≤ s ∧ c.dxdy (-d) = .ok s ∧ c.amtBySrc d = .ok s ∧ c.alphaByTarget d = .ok s ∧
      u.dxfromdyF d = .ok (some s) ∧
      c.amtByTarget s = .ok d ∧ c.alphaBySrc s = .ok d ∧ u.dyfromdxF s = .ok (some d) := by
  obtain ⟨s, hs, e1, e2⟩ := h.amtByTarget_amtBySrc h0 hd
  have hm := m_pos h
  have hm' := m_pos' h hd
  have hz := h.hz
  have hsu : UICurve.Sound u := by
    refine ⟨?_, ?_, ?_, ?_, ?_⟩
    all_goals first
      | (rw [hu.1]; exact h.hB) | (rw [hu.2.1]; exact h.hS) | (rw [hu.2.2.1]; exact h.hz)
      | (rw [hu.2.2.2]; exact h.hy0) | (rw [hu.2.2.2, hu.2.2.1]; exact h.hy)
  have es := e1
  rw [h.amtBySrc_ok hd] at es
  have ed := e2
  rw [h.amtByTarget_ok hs] at ed
  simp only [Except.ok.injEq] at es ed
  refine ⟨s, hs, ?_, e1, ?_, ?_, e2, ?_, ?_⟩
  · rw [dxdy_exact h hS h1 hd, es]
  · unfold alphaByTarget
    have e : (c.S * c.y + c.B * c.yint) * (c.S * c.y + c.B * c.yint - c.S * d) =
      (c.y * c.S + c.yint * c.B) * (c.y * c.S + c.yint * c.B - d * c.S) := by ring
    rw [e, pyDiv_ok (mul_pos hm hm').ne', es]
  · rw [UICurve.dxfromdyF_ok hsu (by rw [hu.2.2.2]; exact hd) true false (fun _ => h0), hu.1, hu.2.1, hu.2.2.1, hu.2.2.2]
    have e : (c.S * c.y + c.B * c.yint) * (c.S * c.y + c.B * c.yint - c.S * d) =
      (c.y * c.S + c.yint * c.B) * (c.y * c.S + c.yint * c.B - d * c.S) := by ring
    rw [← es, e]
    congr 2
    ring
  · unfold alphaBySrc
    have hS' := h.hS
    have e : c.S * s * (c.S * c.y + c.B * c.yint) + c.yint ^ 2 =
      s * c.S * (c.y * c.S + c.yint * c.B) + c.yint ^ 2 := by ring
    rw [e, pyDiv_ok (by positivity), ← ed]
    congr 2
    ring
  · rw [UICurve.dyfromdxF_ok hsu hs, hu.1, hu.2.1, hu.2.2.1, hu.2.2.2]
    have e : c.S * s * (c.S * c.y + c.B * c.yint) + c.yint ^ 2 =
      s * c.S * (c.y * c.S + c.yint * c.B) + c.yint ^ 2 := by ring
    rw [e]
    congr 2
    rw [← ed]
    ring

/-- On an order with a single price the exact router uses a curvature of `10⁻¹⁸` instead of zero: its quote differs from
the flat price by a factor within `(1 - 10⁻¹⁸)^{±2}`. -/
theorem C24_flat (h : Good c) (hS : c.S = 0) (h1 : 1 ≤ c.yint) (d : ℝ) (h0 : 0 ≤ d) (hd : d ≤ c.y) :
    ∃ s q, c.dxdy (-d) = .ok s ∧ c.amtBySrc d = .ok q ∧ q = d / c.B ^ 2 ∧
      q * (1 - 1 / 10 ^ 18) ^ 2 ≤ s ∧ s * (1 - 1 / 10 ^ 18) ^ 2 ≤ q := by
  have hadj := h.adj_iff.mpr hS
  have hn : c.n = .ok (1 / 10 ^ 18) := by unfold n; rw [hadj]; rfl
  have hB := h.hB
  have hz := h.hz
  have hy0 := h.hy0
  have hp : c.p = .ok (c.B ^ 2) := by rw [h.p_ok, hS]; congr 1; ring
  have hz1 : c.yint1 = c.yint := max_eq_left h1
  refine ⟨_, _, dxdy_of hn hp (by positivity) (by norm_num) (by positivity) h.hy0 (by linarith), h.amtBySrc_ok hd, ?_, ?_⟩
  · rw [hS]; field_simp; ring
  rw [hz1]
  have hq : d * c.yint ^ 2 / ((c.y * c.S + c.yint * c.B) * (c.y * c.S + c.yint * c.B - d * c.S)) = d / c.B ^ 2 := by
    rw [hS]; field_simp; ring
  rw [hq]
  set e : ℝ := 1 / 10 ^ 18 with he
  have he0 : 0 < e := by rw [he]; positivity
  have he1 : e < 1 := by rw [he]; norm_num
  set g := 1 - e with hg
  have hg0 : 0 < g := by rw [hg]; linarith
  have h2 : (0 : ℝ) < 2 - e := by linarith
  set y0 := c.yint * g / (2 - e) with hy0d
  have hy0p : 0 < y0 := by positivity
  have hx : c.yint * g / (c.B ^ 2 * (2 - e)) = y0 / c.B ^ 2 := by rw [hy0d]; field_simp
  rw [hx]
  -- both factors lie between `y0 g` and `y0 / g`
  have key : ∀ t, 0 ≤ t → t ≤ c.yint → y0 * g ≤ e * t + y0 * g ∧ (e * t + y0 * g) * g ≤ y0 := by
    intro t ht0 ht1
    refine ⟨by nlinarith, ?_⟩
    have : e * c.yint + y0 * g = y0 / g := by
      rw [hy0d, hg]; field_simp; ring
    have h3 : e * t + y0 * g ≤ y0 / g := by nlinarith
    rwa [le_div_iff₀ hg0] at h3
  obtain ⟨a1, a2⟩ := key c.y h.hy0 h.hy
  obtain ⟨b1, b2⟩ := key (c.y + -d) (by linarith) (by linarith [h.hy])
  set u := e * c.y + y0 * g with hu
  set v := e * (c.y + -d) + y0 * g with hv
  have hu0 : 0 < u := lt_of_lt_of_le (by positivity) a1
  have hv0 : 0 < v := lt_of_lt_of_le (by positivity) b1
  have hs : -(y0 / c.B ^ 2) * y0 * -d / (u * v) = d / c.B ^ 2 * (y0 ^ 2 / (u * v)) := by field_simp
  rw [hs]
  have hdB : 0 ≤ d / c.B ^ 2 := by positivity
  constructor
  · apply mul_le_mul_of_nonneg_left _ hdB
    rw [le_div_iff₀ (by positivity)]
    calc g ^ 2 * (u * v) = (u * g) * (v * g) := by ring
      _ ≤ y0 * y0 := mul_le_mul a2 b2 (by positivity) hy0p.le
      _ = y0 ^ 2 := by ring
  · rw [mul_assoc]
    apply mul_le_of_le_one_right hdB
    rw [div_mul_eq_mul_div, div_le_one (by positivity)]
    calc y0 ^ 2 * g ^ 2 = (y0 * g) * (y0 * g) := by ring
      _ ≤ u * v := mul_le_mul a1 b1 (by positivity) hu0.le

/-- The order used for the counterexample: prices 1 to 16, capacity and holdings 1/4. -/
noncomputable def small : Curve ℝ := ⟨1, 3, 1 / 4, 1, 16, 1 / 4, false⟩

theorem small_good : Good small := by
  refine ⟨?_, ?_, ?_, ?_, ?_, ?_, ?_, ?_⟩ <;> norm_num [small]

/-- Below capacity one the hyperbola is that of an order of capacity one (`max(y_int, 1)`), and the quotes differ: for
its whole content of 1/4 this order asks 1/16 by the contract formula and 1/7 by the exact router. -/
theorem C24_small_capacity_violated :
    ∃ c : Curve ℝ, Good c ∧ 0 < c.S ∧ c.amtBySrc c.y = .ok (1 / 16) ∧ c.dxdy (-c.y) = .ok (1 / 7) := by
  have hS : 0 < small.S := by norm_num [small]
  refine ⟨small, small_good, hS, ?_, ?_⟩
  · rw [small_good.amtBySrc_ok le_rfl]; norm_num [small]
  · obtain ⟨g, hg0, hg1, hn, hBg⟩ := small_good.n_ok hS
    have hg : g = 1 / 2 := by
      have h4 : g ^ 2 = 1 / 4 := by norm_num [small] at hBg; linarith
      nlinarith
    subst hg
    rw [dxdy_of hn small_good.p_ok (by norm_num) (by norm_num) (by norm_num [small]) small_good.hy0 (by norm_num [small])]
    norm_num [small, yint1]

/-- Non-vacuity of `C24_agree`: prices 1 to 16, capacity 4, holdings 2. -/
example : ∃ (c : Curve ℝ) (u : UICurve ℝ), Good c ∧ 0 < c.S ∧ 1 ≤ c.yint ∧
    (u.B = c.B ∧ u.S = c.S ∧ u.yint = c.yint ∧ u.y = c.y) ∧ c.amtBySrc 1 = .ok (16 / 70) := by
  have hg : Good (⟨1, 3, 4, 1, 16, 2, false⟩ : Curve ℝ) := by
    refine ⟨?_, ?_, ?_, ?_, ?_, ?_, ?_, ?_⟩ <;> norm_num
  refine ⟨_, ⟨{ tknb := [], tknq := [], tknbOrig := [], tknqOrig := [] }, [], 1, 3, 4, 2⟩, hg, by norm_num, by norm_num, ⟨rfl, rfl, rfl, rfl⟩, ?_⟩
  rw [hg.amtBySrc_ok (by norm_num)]
  norm_num

/-! ## C68: construction -/

/-- The marginal price the order quotes for an infinitesimal trade (target per source). -/
noncomputable def marginal (c : Curve ℝ) : ℝ := (c.B + c.S * c.y / c.yint) ^ 2

private theorem shape_prices {pl ph : ℝ} (hl : 0 < pl) (hh : 0 < ph) {a : CurveArgs ℝ} (hB : a.B = none) (hpl : a.plow = some pl)
    (hph : a.phigh = some ph) :
    shape a = .ok (Real.sqrt (min pl ph), Real.sqrt (max pl ph) - Real.sqrt (min pl ph), min pl ph, max pl ph) := by
  unfold shape
  rw [hB, hpl, hph]
  dsimp only
  have e1 : (if ph < pl then ph else pl) = min pl ph := by
    split_ifs with h
    · exact (min_eq_right h.le).symm
    · exact (min_eq_left (not_lt.mp h)).symm
  have e2 : (if ph < pl then pl else ph) = max pl ph := by
    split_ifs with h
    · exact (max_eq_left h.le).symm
    · exact (max_eq_right (not_lt.mp h)).symm
  rw [e1, e2, sqrtE_ok (by positivity), sqrtE_ok (by positivity)]
  rfl

/-- An order built from a price range (in either order) and holdings within its capacity is well formed: the stored
range is the sorted one, and the curve parameters are its square roots. -/
theorem C68_from_prices (pl ph y z : ℝ) (hl : 0 < pl) (hh : 0 < ph) (hy : 0 ≤ y) (hz : y ≤ z) (hz0 : 0 < z) :
    ∃ c, init { plow := some pl, phigh := some ph, yint := some z, y := some y } = .ok c ∧ Good c ∧
      c.plow = min pl ph ∧ c.phigh = max pl ph ∧ c.y = y ∧ c.yint = z := by
  have hmin : 0 < min pl ph := lt_min hl hh
  have hle : min pl ph ≤ max pl ph := min_le_max
  refine ⟨⟨Real.sqrt (min pl ph), Real.sqrt (max pl ph) - Real.sqrt (min pl ph), z, min pl ph, max pl ph, y,
      decide (max pl ph = min pl ph)⟩, ?_, ?_, ?_⟩
  · unfold init
    rw [shape_prices hl hh rfl rfl rfl]
    rfl
  · refine ⟨Real.sqrt_pos.mpr hmin, ?_, hz0, hz, hy, ?_, ?_, rfl⟩
    · exact sub_nonneg.mpr (Real.sqrt_le_sqrt hle)
    · exact (Real.sq_sqrt hmin.le).symm
    · show max pl ph = (Real.sqrt (min pl ph) + (Real.sqrt (max pl ph) - Real.sqrt (min pl ph))) ^ 2
      rw [add_sub_cancel, Real.sq_sqrt (hmin.le.trans hle)]
  · exact ⟨rfl, rfl, rfl, rfl⟩

/-- Without a capacity the order is full: the capacity is the holdings. -/
theorem C68_default_capacity (pl ph y : ℝ) (hl : 0 < pl) (hh : 0 < ph) (hy : 0 < y) :
    ∃ c, init { plow := some pl, phigh := some ph, y := some y } = .ok c ∧ Good c ∧ c.yint = y ∧
      marginal c = max pl ph := by
  obtain ⟨c, e, g, h1, h2, h3, h4⟩ := C68_from_prices pl ph y y hl hh hy.le le_rfl hy
  refine ⟨c, ?_, g, h4, ?_⟩
  · rw [← e]
    unfold init
    rw [shape_prices hl hh rfl rfl rfl, shape_prices hl hh rfl rfl rfl]
    rfl
  · unfold marginal
    rw [h3, h4, mul_div_assoc, div_self hy.ne', mul_one, ← h2, g.hph]

/-- A marginal price strictly above the low and at most the high end of the range gives a well-formed order that quotes
exactly this marginal price. -/
theorem C68_from_marginal (pl ph y pm : ℝ) (hl : 0 < pl) (hh : 0 < ph) (hy : 0 < y) (h1 : min pl ph < pm)
    (h2 : pm ≤ max pl ph) :
    ∃ c, init { plow := some pl, phigh := some ph, y := some y, pmarg := some pm } = .ok c ∧ Good c ∧ c.y = y ∧
      marginal c = pm := by
  have hmin : 0 < min pl ph := lt_min hl hh
  have hmax : 0 < max pl ph := lt_of_lt_of_le hmin min_le_max
  set l := Real.sqrt (min pl ph) with hld
  set h := Real.sqrt (max pl ph) with hhd
  set m := Real.sqrt pm with hmd
  have hlm : l < m := Real.sqrt_lt_sqrt hmin.le h1
  have hmh : m ≤ h := Real.sqrt_le_sqrt h2
  have hl0 : 0 < l := Real.sqrt_pos.mpr hmin
  set z := y * (h - l) / (m - l) with hz
  have hz0 : 0 < z := by
    have : 0 < h - l := by linarith
    have : 0 < m - l := by linarith
    positivity
  have hyz : y ≤ z := by
    rw [hz, le_div_iff₀ (by linarith)]; nlinarith
  obtain ⟨c, e, g, p1, p2, p3, p4⟩ := C68_from_prices pl ph y z hl hh hy.le hyz hz0
  refine ⟨c, ?_, g, p3, ?_⟩
  · rw [← e]
    unfold init
    rw [shape_prices hl hh rfl rfl rfl, shape_prices hl hh rfl rfl rfl]
    simp only [Py.ok_bind]
    have hc : capacity { plow := some pl, phigh := some ph, y := some y, pmarg := some pm } y (min pl ph) (max pl ph)
        = .ok z := by
      unfold capacity
      dsimp only
      rw [sqrtE_ok hmax.le, sqrtE_ok hmin.le, sqrtE_ok (by linarith)]
      simp only [Py.ok_bind]
      exact pyDiv_ok (by linarith : Real.sqrt pm - Real.sqrt (min pl ph) > 0).ne'
    rw [hc]
    rfl
  · unfold marginal
    have hB : c.B = l := by
      have := g.hpl; rw [p1] at this
      rw [hld, this, Real.sqrt_sq g.hB.le]
    have hS : c.B + c.S = h := by
      have := g.hph; rw [p2] at this
      rw [hhd, this, Real.sqrt_sq (by have := g.hB; have := g.hS; positivity)]
    rw [p3, p4]
    have hS' : c.S = h - l := by linarith
    rw [hB, hS', hz]
    have h3 : h - l ≠ 0 := by linarith
    have h4 : m - l ≠ 0 := by linarith
    have : l + (h - l) * y / (y * (h - l) / (m - l)) = m := by
      field_simp; ring
    rw [this, hmd, Real.sq_sqrt (by linarith)]

/-- Building from the curve parameters of a well-formed order gives that order back. -/
theorem C68_roundtrip (h : Good c) : init { B := some c.B, S := some c.S, yint := some c.yint, y := some c.y } = .ok c := by
  have hB := h.hB
  have hS := h.hS
  have hle : c.B * c.B ≤ (c.S + c.B) ^ 2 := by nlinarith
  have hs : shape { B := some c.B, S := some c.S, yint := some c.yint, y := some c.y } =
      .ok (c.B, c.S, c.B * c.B, (c.S + c.B) ^ 2) := by
    unfold shape
    dsimp only
    simp only [Bool.false_eq_true, if_false, Py.ok_bind]
    exact if_neg (not_lt.mpr hle)
  unfold init
  rw [hs]
  simp only [Py.ok_bind]
  have e1 : c.B * c.B = c.plow := by rw [h.hpl]; ring
  have e2 : (c.S + c.B) ^ 2 = c.phigh := by rw [h.hph]; ring
  rw [e1, e2]
  have := h.hadj
  show Except.ok _ = _
  rw [← this]

/-- The marginal price is not checked against the range: above it the capacity comes out smaller than the holdings. -/
theorem C68_marginal_above_range_violated :
    ∃ pl ph y pm : ℝ, 0 < pl ∧ pl < ph ∧ 0 < y ∧ ph < pm ∧
      ∃ c, init { plow := some pl, phigh := some ph, y := some y, pmarg := some pm } = .ok c ∧ c.yint < c.y := by
  have s1 : Real.sqrt 1 = 1 := Real.sqrt_one
  have s4 : Real.sqrt 4 = 2 := by rw [show (4 : ℝ) = 2 ^ 2 by norm_num]; exact Real.sqrt_sq (by norm_num)
  have s9 : Real.sqrt 9 = 3 := by rw [show (9 : ℝ) = 3 ^ 2 by norm_num]; exact Real.sqrt_sq (by norm_num)
  refine ⟨1, 4, 10, 9, by norm_num, by norm_num, by norm_num, by norm_num, ⟨1, 1, 5, 1, 4, 10, false⟩, ?_, by norm_num⟩
  unfold init
  rw [shape_prices (by norm_num) (by norm_num) rfl rfl rfl]
  have m1 : min (1 : ℝ) 4 = 1 := by norm_num
  have m2 : max (1 : ℝ) 4 = 4 := by norm_num
  rw [m1, m2, s1, s4]
  simp only [Py.ok_bind]
  unfold capacity
  dsimp only
  rw [sqrtE_ok (by norm_num), sqrtE_ok (by norm_num), sqrtE_ok (by norm_num)]
  simp only [Py.ok_bind]
  rw [s1, s4, s9, pyDiv_ok (by norm_num)]
  simp only [Py.ok_bind]
  norm_num

/-- Concrete run of the constructor with executable square roots. -/
example : init (K := ℚ) { plow := some 16, phigh := some 1, y := some 2, pmarg := some 4 } =
    .ok ⟨1, 3, 6, 1, 16, 2, false⟩ := by decide +kernel

end Carbon.Curve
