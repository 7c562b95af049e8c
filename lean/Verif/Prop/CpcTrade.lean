import Verif.Prop.Cpc

/-!
# Trading a constant-product curve to a price, and its inverted view (C40, C41)
-/

namespace Carbon.CPC

open Carbon.UICurve (pyDiv_ok)
open Carbon.CarbonPair (pyDiv)

set_option linter.unusedSectionVars false

/-! ## C40 -/

/-- The value of a point on the curve at a price is least at the tangent point, or at the end of the range next to it. -/
theorem value_le {p k X v : ℝ} (hp : 0 < p) (hX : 0 < X) (hv : 0 < v)
    (h : p * X ^ 2 = k ∨ (X ≤ v ∧ k ≤ p * X ^ 2) ∨ (v ≤ X ∧ p * X ^ 2 ≤ k)) :
    p * X + k / X ≤ p * v + k / v ∧ (p * X + k / X = p * v + k / v → v = X) := by
  have e : (p * v + k / v) - (p * X + k / X) = (v - X) * (p * v * X - k) / (v * X) := by
    field_simp; ring
  have hvX : 0 < v * X := mul_pos hv hX
  have key : 0 ≤ (v - X) * (p * v * X - k) ∧ ((v - X) * (p * v * X - k) = 0 → v = X) := by
    have id : (v - X) * (p * v * X - k) = p * X * (v - X) ^ 2 + (v - X) * (p * X ^ 2 - k) := by ring
    have h1 : 0 ≤ p * X * (v - X) ^ 2 := by positivity
    have h2 : 0 ≤ (v - X) * (p * X ^ 2 - k) := by
      rcases h with h | ⟨a, b⟩ | ⟨a, b⟩
      · rw [h, sub_self, mul_zero]
      · exact mul_nonneg (sub_nonneg.mpr a) (sub_nonneg.mpr b)
      · exact mul_nonneg_of_nonpos_of_nonpos (sub_nonpos.mpr a) (sub_nonpos.mpr b)
    refine ⟨by rw [id]; exact add_nonneg h1 h2, fun h0 => ?_⟩
    have h3 : p * X * (v - X) ^ 2 = 0 := by rw [id] at h0; linarith
    have h4 : (v - X) ^ 2 = 0 := (mul_eq_zero.mp h3).resolve_left (mul_pos hp hX).ne'
    have h5 : v - X = 0 := by simpa using h4
    linarith
  have h6 : 0 ≤ (p * v + k / v) - (p * X + k / X) := by rw [e]; exact div_nonneg key.1 hvX.le
  refine ⟨by linarith, fun h0 => key.2 ?_⟩
  have h7 : (v - X) * (p * v * X - k) / (v * X) = 0 := by rw [← e]; linarith
  rcases div_eq_zero_iff.mp h7 with h | h
  · exact h
  · exact absurd h hvX.ne'

/-- A position of the pool that the curve allows. -/
def InRange (c : CPC ℝ) (v : ℝ) : Prop := 0 < v ∧ c.xMin ≤ v ∧ ∀ M, c.xMax = some M → v ≤ M

/-- What trading to the price `p` does: the new position, whether it is the tangent point or an end of the range. -/
theorem xyfromp_spec {c : CPC ℝ} (hs : Sound c) {p : ℝ} (hp : 0 < p) :
    ∃ X Y, c.xyfromp (some p) = .ok (X, Y, p) ∧ 0 < X ∧ X * Y = c.k ∧ InRange c X ∧ c.yMin ≤ Y ∧
      (p * X ^ 2 = c.k ∨ (X = c.xMin ∧ c.k < p * X ^ 2) ∨ (c.xMax = some X ∧ p * X ^ 2 < c.k)) := by
  obtain ⟨hk, hx, hxa, hxx, hya, hyy, -⟩ := hs
  have hy : 0 < c.y := div_pos hk hx
  have hxy : c.x * c.y = c.k := by show c.x * (c.k / c.x) = c.k; field_simp
  have ha : 0 ≤ c.xMin := sub_nonneg.mpr hxx
  have hd : 0 ≤ c.yMin := sub_nonneg.mpr hyy
  have hax : c.xMin ≤ c.x := by unfold xMin; linarith
  have hdy : c.yMin ≤ c.y := by unfold yMin; linarith
  set a := c.xMin with ea
  set d := c.yMin with ed
  have sp : 0 < Real.sqrt p := Real.sqrt_pos.mpr hp
  have sk : 0 < Real.sqrt c.k := Real.sqrt_pos.mpr hk
  have spp : Real.sqrt p * Real.sqrt p = p := Real.mul_self_sqrt hp.le
  have skk : Real.sqrt c.k * Real.sqrt c.k = c.k := Real.mul_self_sqrt hk.le
  set x0 := Real.sqrt c.k / Real.sqrt p with hx0
  set y0 := Real.sqrt c.k * Real.sqrt p with hy0
  have x0p : 0 < x0 := div_pos sk sp
  have y0p : 0 < y0 := mul_pos sk sp
  have hxy0 : x0 * y0 = c.k := by
    rw [hx0, hy0]
    have : Real.sqrt c.k / Real.sqrt p * (Real.sqrt c.k * Real.sqrt p) = Real.sqrt c.k * Real.sqrt c.k := by field_simp
    rw [this, skk]
  have hpx : p * x0 ^ 2 = c.k := by
    have : y0 = p * x0 := by
      rw [hx0, hy0]
      have : p * (Real.sqrt c.k / Real.sqrt p) = Real.sqrt c.k * (Real.sqrt p * Real.sqrt p) / Real.sqrt p := by rw [spp]; ring
      rw [this]; field_simp
    rw [this] at hxy0; rw [← hxy0]; ring
  have had : a * d ≤ c.k := by rw [← hxy]; exact mul_le_mul hax hdy hd hx.le
  have hcalc : c.xyfromp (some p) = .ok (clamp x0 a c.xMax, clamp y0 d c.yMax, p) := by
    unfold xyfromp
    simp only [Option.getD_some, sqrtE_ok hp.le, sqrtE_ok hk.le, Py.ok_bind, pyDiv_ok sp.ne', Bool.false_eq_true, if_false]
    rfl
  have hxM : c.xMax = if 0 < d then some (c.k / d) else none := rfl
  have hyM : c.yMax = if 0 < a then some (c.k / a) else none := rfl
  rcases lt_or_ge x0 a with h1 | h1
  · -- stuck at the lower end of x
    have ap : 0 < a := lt_trans x0p h1
    have hka : c.k / a < y0 := by rw [div_lt_iff₀ ap, ← hxy0]; nlinarith
    have hdk : d ≤ c.k / a := by rw [le_div_iff₀ ap]; linarith
    have cx : clamp x0 a c.xMax = a := by
      unfold clamp; rw [if_pos h1, hxM]
      by_cases hd0 : 0 < d
      · rw [if_pos hd0]
        show (if c.k / d < a then c.k / d else a) = a
        rw [if_neg (not_lt.mpr (by rw [le_div_iff₀ hd0]; exact had))]
      · rw [if_neg hd0]
    have cy : clamp y0 d c.yMax = c.k / a := by
      unfold clamp; rw [hyM, if_pos ap, if_neg (not_lt.mpr (le_of_lt (lt_of_le_of_lt hdk hka)))]
      show (if c.k / a < y0 then c.k / a else y0) = _
      rw [if_pos hka]
    refine ⟨a, c.k / a, by rw [hcalc, cx, cy], ap, by field_simp, ⟨ap, le_refl _, fun M hM => ?_⟩, hdk, Or.inr (Or.inl ⟨rfl, ?_⟩)⟩
    · rw [hxM] at hM
      by_cases hd0 : 0 < d
      · rw [if_pos hd0] at hM; rw [← Option.some.inj hM, le_div_iff₀ hd0]; exact had
      · rw [if_neg hd0] at hM; simp only [reduceCtorEq] at hM
    · have : x0 ^ 2 < a ^ 2 := by nlinarith
      nlinarith
  · by_cases h2 : 0 < d ∧ c.k / d < x0
    · obtain ⟨hd0, h2⟩ := h2
      have hY : y0 < d := by
        rw [div_lt_iff₀ hd0, ← hxy0] at h2
        exact lt_of_mul_lt_mul_left h2 x0p.le
      have hXp : 0 < c.k / d := div_pos hk hd0
      have cx : clamp x0 a c.xMax = c.k / d := by
        unfold clamp; rw [if_neg (not_lt.mpr h1), hxM, if_pos hd0]
        show (if c.k / d < x0 then c.k / d else x0) = _
        rw [if_pos h2]
      have hak : a ≤ c.k / d := by rw [le_div_iff₀ hd0]; exact had
      have cy : clamp y0 d c.yMax = d := by
        unfold clamp; rw [if_pos hY, hyM]
        by_cases ha0 : 0 < a
        · rw [if_pos ha0]
          show (if c.k / a < d then c.k / a else d) = d
          rw [if_neg (not_lt.mpr (by rw [le_div_iff₀ ha0]; linarith))]
        · rw [if_neg ha0]
      refine ⟨c.k / d, d, by rw [hcalc, cx, cy], hXp, by field_simp, ⟨hXp, hak, fun M hM => ?_⟩, le_refl _,
        Or.inr (Or.inr ⟨by rw [hxM, if_pos hd0], ?_⟩)⟩
      · rw [hxM, if_pos hd0] at hM; rw [Option.some.inj hM]
      · have : (c.k / d) ^ 2 < x0 ^ 2 := by nlinarith
        nlinarith
    · have hX : ∀ M, c.xMax = some M → x0 ≤ M := by
        intro M hM
        rw [hxM] at hM
        by_cases hd0 : 0 < d
        · rw [if_pos hd0] at hM; rw [← Option.some.inj hM]; exact not_lt.mp fun h => h2 ⟨hd0, h⟩
        · rw [if_neg hd0] at hM; simp only [reduceCtorEq] at hM
      have hYd : d ≤ y0 := by
        rcases hd.lt_or_eq with hd0 | hd0
        · have := hX _ (by rw [hxM, if_pos hd0])
          rw [le_div_iff₀ hd0, ← hxy0] at this
          exact le_of_mul_le_mul_left this x0p
        · rw [← hd0]; exact y0p.le
      have cx : clamp x0 a c.xMax = x0 := by
        unfold clamp; rw [if_neg (not_lt.mpr h1)]
        cases hM : c.xMax with
        | none => rfl
        | some M =>
          show (if M < x0 then M else x0) = x0
          rw [if_neg (not_lt.mpr (hX M hM))]
      have cy : clamp y0 d c.yMax = y0 := by
        unfold clamp; rw [if_neg (not_lt.mpr hYd), hyM]
        by_cases ha0 : 0 < a
        · rw [if_pos ha0]
          show (if c.k / a < y0 then c.k / a else y0) = y0
          rw [if_neg (not_lt.mpr (by rw [le_div_iff₀ ha0, ← hxy0]; nlinarith))]
        · rw [if_neg ha0]
      exact ⟨x0, y0, by rw [hcalc, cx, cy], x0p, hxy0, ⟨x0p, h1, hX⟩, hYd, Or.inl hpx⟩

/-- **C40** Trading a curve to the price `p`: the trade stays on the curve and within the available reserves, its value at `p` is
not positive for the pool, it is zero only if nothing is traded, and every other allowed position of the pool is worth strictly
more to the pool. -/
theorem C40_optimal (c : CPC ℝ) (hs : Sound c) (p : ℝ) (hp : 0 < p) :
    ∃ dx dy, c.dxdyfromp (some p) = .ok (dx, dy, p) ∧ (c.x + dx) * (c.y + dy) = c.k ∧ 0 ≤ c.xAct + dx ∧ 0 ≤ c.yAct + dy ∧
      p * dx + dy ≤ 0 ∧ (p * dx + dy = 0 → dx = 0 ∧ dy = 0) ∧
      ∀ v, 0 < v → c.xMin ≤ v → (∀ M, c.xMax = some M → v ≤ M) →
        p * dx + dy ≤ p * (v - c.x) + (c.k / v - c.y) ∧
          (p * dx + dy = p * (v - c.x) + (c.k / v - c.y) → v = c.x + dx) := by
  obtain ⟨X, Y, hc, hX, hXY, ⟨-, hlo, hhi⟩, hY, hcase⟩ := xyfromp_spec hs hp
  obtain ⟨hk, hx, hxa, hxx, hya, hyy, -⟩ := hs
  have hy : 0 < c.y := div_pos hk hx
  have hxy : c.x * c.y = c.k := by show c.x * (c.k / c.x) = c.k; field_simp
  have hYe : Y = c.k / X := by rw [← hXY]; field_simp
  have opt : ∀ v, 0 < v → c.xMin ≤ v → (∀ M, c.xMax = some M → v ≤ M) →
      p * X + c.k / X ≤ p * v + c.k / v ∧ (p * X + c.k / X = p * v + c.k / v → v = X) := by
    intro v hv h1 h2
    apply value_le hp hX hv
    rcases hcase with h | ⟨h, h'⟩ | ⟨h, h'⟩
    · exact Or.inl h
    · exact Or.inr (Or.inl ⟨h ▸ h1, h'.le⟩)
    · exact Or.inr (Or.inr ⟨h2 _ h, h'.le⟩)
  have hself := opt c.x hx (by unfold xMin; linarith) (fun M hM => by
    unfold xMax at hM
    by_cases hd0 : 0 < c.yMin
    · rw [if_pos hd0] at hM
      rw [← Option.some.inj hM, le_div_iff₀ hd0, ← hxy]
      apply mul_le_mul_of_nonneg_left _ hx.le
      unfold yMin; linarith
    · rw [if_neg hd0] at hM; simp only [reduceCtorEq] at hM)
  have hcy : c.k / c.x = c.y := rfl
  refine ⟨X - c.x, Y - c.y, ?_, ?_, ?_, ?_, ?_, ?_, ?_⟩
  · unfold dxdyfromp; rw [hc]; rfl
  · rw [show c.x + (X - c.x) = X by ring, show c.y + (Y - c.y) = Y by ring, hXY]
  · unfold xMin at hlo; linarith
  · unfold yMin at hY; linarith
  · rw [hYe]; rw [hcy] at hself; linarith [hself.1]
  · intro h0
    rw [hYe] at h0
    have := hself.2 (by rw [hcy]; linarith)
    rw [hYe, ← this, hcy]; simp
  · intro v hv h1 h2
    obtain ⟨g1, g2⟩ := opt v hv h1 h2
    rw [hYe]
    refine ⟨by linarith, fun h0 => ?_⟩
    rw [g2 (by linarith)]; ring

/-- **C40** A price within the range of the curve is reached exactly; beyond the range the pool is emptied of one token. -/
theorem C40_price (c : CPC ℝ) (hs : Sound c) (p : ℝ) (hp : 0 < p) :
    ∃ dx dy, c.dxdyfromp (some p) = .ok (dx, dy, p) ∧
      ((c.y + dy) / (c.x + dx) = p ∨ (c.xAct + dx = 0 ∧ (c.y + dy) / (c.x + dx) < p) ∨
        (c.yAct + dy = 0 ∧ p < (c.y + dy) / (c.x + dx))) := by
  obtain ⟨X, Y, hc, hX, hXY, -, -, hcase⟩ := xyfromp_spec hs hp
  have hYe : Y = c.k / X := by rw [← hXY]; field_simp
  refine ⟨X - c.x, Y - c.y, by unfold dxdyfromp; rw [hc]; rfl, ?_⟩
  rw [show c.x + (X - c.x) = X by ring, show c.y + (Y - c.y) = Y by ring]
  have e : Y / X = c.k / X ^ 2 := by rw [hYe]; field_simp
  have hX2 : 0 < X ^ 2 := by positivity
  rw [e]
  rcases hcase with h | ⟨h, h'⟩ | ⟨h, h'⟩
  · left; rw [← h]; field_simp
  · right; left
    refine ⟨by rw [h]; unfold xMin; ring, by rwa [div_lt_iff₀ hX2]⟩
  · right; right
    refine ⟨?_, by rwa [lt_div_iff₀ hX2]⟩
    unfold xMax at h
    by_cases hd0 : 0 < c.yMin
    · rw [if_pos hd0] at h
      have hXd := Option.some.inj h
      have hYd : Y = c.yMin := by
        rw [hYe, ← hXd]
        have := hs.hk
        field_simp
      rw [hYd]; unfold yMin; ring
    · rw [if_neg hd0] at h; simp only [reduceCtorEq] at h

/-- **C40** Ignoring the bounds, the price is always reached, and no position of the whole hyperbola is worth less to the pool. -/
theorem C40_unbounded (c : CPC ℝ) (hs : Sound c) (p : ℝ) (hp : 0 < p) :
    ∃ dx dy, c.dxdyfromp (some p) true = .ok (dx, dy, p) ∧ (c.x + dx) * (c.y + dy) = c.k ∧ (c.y + dy) / (c.x + dx) = p ∧
      p * dx + dy ≤ 0 ∧ ∀ v, 0 < v → p * dx + dy ≤ p * (v - c.x) + (c.k / v - c.y) := by
  obtain ⟨hk, hx, -⟩ := hs
  have sp : 0 < Real.sqrt p := Real.sqrt_pos.mpr hp
  have sk : 0 < Real.sqrt c.k := Real.sqrt_pos.mpr hk
  have spp : Real.sqrt p ^ 2 = p := Real.sq_sqrt hp.le
  have skk : Real.sqrt c.k ^ 2 = c.k := Real.sq_sqrt hk.le
  have hX : 0 < Real.sqrt c.k / Real.sqrt p := div_pos sk sp
  have h1 : p * (Real.sqrt c.k / Real.sqrt p) ^ 2 = c.k := by rw [div_pow, spp, skk]; field_simp
  have h2 : c.k / (Real.sqrt c.k / Real.sqrt p) = Real.sqrt c.k * Real.sqrt p := by
    nth_rewrite 1 [← skk]; field_simp
  have opt := fun (v : ℝ) (hv : 0 < v) => (value_le hp hX hv (Or.inl h1)).1
  have hcy : c.k / c.x = c.y := rfl
  refine ⟨Real.sqrt c.k / Real.sqrt p - c.x, Real.sqrt c.k * Real.sqrt p - c.y, ?_, ?_, ?_, ?_, ?_⟩
  · unfold dxdyfromp xyfromp
    simp only [Option.getD_some, sqrtE_ok hp.le, sqrtE_ok hk.le, Py.ok_bind, pyDiv_ok sp.ne', if_true]
  · rw [add_sub_cancel, add_sub_cancel, ← h2]; field_simp
  · rw [add_sub_cancel, add_sub_cancel, ← h2]
    have : c.k / (Real.sqrt c.k / Real.sqrt p) / (Real.sqrt c.k / Real.sqrt p) = c.k / (Real.sqrt c.k / Real.sqrt p) ^ 2 := by
      rw [div_div, sq]
    rw [this]
    nth_rewrite 1 [← h1]
    have := (pow_pos hX 2).ne'
    exact mul_div_cancel_right₀ p this
  · have := opt c.x hx
    rw [← h2]; rw [hcy] at this; linarith
  · intro v hv
    have := opt v hv
    rw [← h2]; linarith

/-- A curve with reserves 4 and 4 and bounds 2 and 2, sold to the price 16: the bound on `x` binds. -/
example : ((⟨16, 4, 2, 2, "A/B".toList, none, []⟩ : CPC ℚ).dxdyfromp (some 16)) = .ok (-2, 4, 16) ∧
    ((⟨16, 4, 3, 2, "A/B".toList, none, []⟩ : CPC ℚ).dxdyfromp (some 4)) = .ok (-2, 4, 4) := by
  decide +kernel

/-! ## C41 -/

section Mirror
variable {K : Type} [Field K] [LinearOrder K] [IsStrictOrderedRing K] [PySqrt K]

/-- The curve that someone with the tokens the other way round would construct: reserves and available reserves exchanged. -/
def mirror (c : CPC K) : CPC K := ⟨c.k, c.y, c.yAct, c.xAct, c.tknq ++ '/' :: c.tknb, c.cid, c.constr⟩

theorem tkn_of_pair {c : CPC K} {b q : Str} (h : CarbonPair.unpack c.pair = .ok (b, q)) :
    c.tknb = b ∧ c.tknq = q ∧ '/' ∉ b ∧ '/' ∉ q ∧ c.pair = b ++ '/' :: q := by
  rw [CarbonPair.unpack_eq_ok] at h
  have := splitSlash_eq_two.mpr h
  unfold tknb tknq
  rw [this]
  exact ⟨rfl, rfl, h.2.1, h.2.2, h.1⟩

theorem mirror_unpack {c : CPC K} {b q : Str} (h : CarbonPair.unpack c.pair = .ok (b, q)) :
    CarbonPair.unpack (mirror c).pair = .ok (q, b) := by
  obtain ⟨h1, h2, h3, h4, -⟩ := tkn_of_pair h
  rw [CarbonPair.unpack_eq_ok]
  exact ⟨by show c.tknq ++ '/' :: c.tknb = _; rw [h1, h2], h4, h3⟩

theorem mirror_y {c : CPC K} (hk : c.k ≠ 0) (hx : c.x ≠ 0) : (mirror c).y = c.x := by
  show c.k / (c.k / c.x) = c.x
  field_simp

/-- **C41** The mirrored curve can be constructed, is as sound as the original, and mirroring twice is the identity. -/
theorem C41_mirror (c : CPC K) (hs : Sound c) :
    make c.k c.y (some c.yAct) (some c.xAct) (some (c.tknq ++ '/' :: c.tknb)) c.cid c.constr = .ok (mirror c) ∧
      Sound (mirror c) ∧ mirror (mirror c) = c := by
  obtain ⟨hk, hx, hxa, hxx, hya, hyy, b, q, hp⟩ := hs
  have hy : 0 < c.y := div_pos hk hx
  have hm := mirror_unpack hp
  have hmy := mirror_y hk.ne' hx.ne'
  refine ⟨make_ok hy.ne' hm _ _ _ _, ⟨hk, hy, hya, hyy, hxa, ?_, q, b, hm⟩, ?_⟩
  · rw [hmy]; exact hxx
  · obtain ⟨h1, h2, -, -, h5⟩ := tkn_of_pair hp
    obtain ⟨g1, g2, -⟩ := tkn_of_pair hm
    obtain ⟨k, x, xa, ya, pr, cid, cs⟩ := c
    show (⟨_, (mirror _).y, xa, ya, (mirror _).tknq ++ '/' :: (mirror _).tknb, cid, cs⟩ : CPC K) = _
    rw [hmy, g1, g2]
    simp only at h5
    rw [h5]
    rfl

/-- **C41** The inverted view of a curve shows the tokens, pair, invariant, reserves, available reserves, bounds and price of the
mirrored curve; in particular its price is the reciprocal of the price of the curve. -/
theorem C41_view (c : CPC K) (hs : Sound c) :
    let i : Inv K := ⟨c⟩
    let m := mirror c
    i.tknb = m.tknb ∧ i.tknq = m.tknq ∧ i.pair = m.pair ∧ i.pairo = m.pairo ∧ i.k = m.k ∧ i.x = m.x ∧ i.y = m.y ∧
      i.xAct = m.xAct ∧ i.yAct = m.yAct ∧ i.xMin = m.xMin ∧ i.yMin = m.yMin ∧ i.xMax = m.xMax ∧ i.yMax = m.yMax ∧
      i.p = .ok m.p ∧ m.p * c.p = 1 := by
  obtain ⟨hk, hx, hxa, hxx, hya, hyy, b, q, hp⟩ := hs
  have hy : 0 < c.y := div_pos hk hx
  obtain ⟨h1, h2, -, -, -⟩ := tkn_of_pair hp
  obtain ⟨g1, g2, -⟩ := tkn_of_pair (mirror_unpack hp)
  have hmy := mirror_y hk.ne' hx.ne'
  have e1 : c.tknq = (mirror c).tknb := by rw [g1, h2]
  have e2 : c.tknb = (mirror c).tknq := by rw [g2, h1]
  have hyM : (mirror c).yMin = c.xMin := by show (mirror c).y - c.xAct = _; rw [hmy]; rfl
  have hpp : 0 < c.p := div_pos hy hx
  have hmp : (mirror c).p = 1 / c.p := by
    show (mirror c).y / c.y = 1 / (c.y / c.x)
    rw [hmy]; field_simp
  refine ⟨e1, e2, rfl, ?_, rfl, rfl, hmy.symm, rfl, rfl, rfl, hyM.symm, ?_, rfl, ?_, ?_⟩
  · show (⟨c.tknq, c.tknb⟩ : TPair) = ⟨_, _⟩
    rw [e1, e2]
  · show c.yMax = if 0 < (mirror c).yMin then some (c.k / (mirror c).yMin) else none
    rw [hyM]; rfl
  · show pyDiv 1 c.p = _
    rw [pyDiv_ok hpp.ne', hmp]
  · rw [hmp]; field_simp

/-- **C41** (the part that holds) The price bounds of the inverted view are those of the mirrored curve where the mirrored curve
has bounds; where it has none, the view raises. -/
theorem C41_price_bounds_partial (c : CPC K) (hs : Sound c) :
    (⟨c⟩ : Inv K).pMin = (mirror c).pMin.elim (.error .type) .ok ∧
      (⟨c⟩ : Inv K).pMax = (mirror c).pMax.elim (.error .type) .ok := by
  have hk := hs.hk
  have hmy := mirror_y hs.hk.ne' hs.hx.ne'
  have hyM : (mirror c).yMin = c.xMin := by show (mirror c).y - c.xAct = _; rw [hmy]; rfl
  have hxM : (mirror c).xMin = c.yMin := rfl
  constructor
  · show Inv.recip c.pMax = _
    unfold pMax pMin yMax xMax
    rw [hyM]
    by_cases h : 0 < c.xMin
    · have h2 : 0 < c.k / c.xMin := div_pos hk h
      have h3 : c.k / c.xMin / c.xMin ≠ 0 := (div_pos h2 h).ne'
      simp only [if_pos h, Option.map_some, Inv.recip, pyDiv_ok h3]
      show _ = (if 0 < c.k / c.xMin then some (c.xMin / (c.k / c.xMin)) else none).elim _ _
      rw [if_pos h2]
      show Except.ok _ = Except.ok _
      congr 1
      field_simp
    · simp only [if_neg h]; rfl
  · show Inv.recip c.pMin = _
    unfold pMax pMin yMax xMax
    rw [hxM]
    by_cases h : 0 < c.yMin
    · have h2 : 0 < c.k / c.yMin := div_pos hk h
      have h3 : c.yMin / (c.k / c.yMin) ≠ 0 := (div_pos h h2).ne'
      simp only [if_pos h, if_pos h2, Option.map_some, Inv.recip, pyDiv_ok h3]
      show Except.ok _ = Except.ok (c.k / c.yMin / c.yMin)
      congr 1
      field_simp
    · simp only [if_neg h]; rfl

/-- **C41** fails for the price bounds of curves without bounds: the curve has no minimal price, its inverted view raises
`TypeError` instead of having none. -/
theorem C41_violated :
    (fromXY (3 : ℚ) 12).map (fun c => (c.pMin, c.pMax)) = .ok (none, none) ∧
      (fromXY (3 : ℚ) 12).bind (fun c => (⟨c⟩ : Inv ℚ).pMin) = .error .type ∧
      (fromXY (3 : ℚ) 12).bind (fun c => (⟨c⟩ : Inv ℚ).pMax) = .error .type := by
  decide +kernel

/-- **C41** The quotes of the inverted view are those of the mirrored curve, for every amount. -/
theorem C41_quotes (c : CPC K) (hs : Sound c) (v : K) (ib : Bool) :
    (⟨c⟩ : Inv K).yfromx v ib = (mirror c).yfromx v ib ∧ (⟨c⟩ : Inv K).xfromy v ib = (mirror c).xfromy v ib ∧
      (⟨c⟩ : Inv K).dyfromdx v ib = (mirror c).dyfromdx v ib ∧ (⟨c⟩ : Inv K).dxfromdy v ib = (mirror c).dxfromdy v ib := by
  have hmy := mirror_y hs.hk.ne' hs.hx.ne'
  have hyM : (mirror c).yMin = c.xMin := by show (mirror c).y - c.xAct = _; rw [hmy]; rfl
  have hxM : (mirror c).xMax = c.yMax := by
    show (if 0 < (mirror c).yMin then some (c.k / (mirror c).yMin) else none) = _
    rw [hyM]; rfl
  have a1 : ∀ v, c.xfromy v ib = (mirror c).yfromx v ib := by
    intro v
    unfold yfromx xfromy
    rw [hyM]; rfl
  have a2 : ∀ v, c.yfromx v ib = (mirror c).xfromy v ib := by
    intro v
    unfold yfromx xfromy
    rw [hxM]; rfl
  refine ⟨a1 v, a2 v, ?_, ?_⟩
  · show c.dxfromdy v ib = _
    unfold dxfromdy dyfromdx
    rw [a1, hmy]; rfl
  · show c.dyfromdx v ib = _
    unfold dxfromdy dyfromdx
    rw [a2, hmy]; rfl

theorem executed_mirror {c : CPC K} (hs : Sound c) {u v : K} (hu : u ≠ 0) (hv : v ≠ 0) (huv : u * v = c.k) :
    (c.executed u v).map mirror = (mirror c).executed v u := by
  obtain ⟨b, q, hp⟩ := hs.hpair
  have hmy := mirror_y hs.hk.ne' hs.hx.ne'
  obtain ⟨h1, h2, -⟩ := tkn_of_pair hp
  unfold executed
  rw [make_ok hu hp, make_ok hv (mirror_unpack hp), hmy]
  show Except.ok _ = Except.ok _
  congr 1
  show (⟨c.k, c.k / u, _, _, _, _, _⟩ : CPC K) = _
  have : c.k / u = v := by rw [← huv]; field_simp
  rw [this]
  rfl

/-- **C41** Executing on the inverted view is executing on the mirrored curve: the same trades are refused, and the result is the
mirror of the result. -/
theorem C41_execute (c : CPC K) (hs : Sound c) (dx dy : Option K) (ib : Bool) :
    ((⟨c⟩ : Inv K).execute dx dy ib).map (fun i => mirror i.curve) = (mirror c).execute dx dy ib := by
  have hmy := mirror_y hs.hk.ne' hs.hx.ne'
  have hk := hs.hk.ne'
  have hmap : ∀ r : Py (CPC K), ((do let c ← r; .ok ⟨c⟩ : Py (Inv K))).map (fun i => mirror i.curve) = r.map mirror := by
    intro r; cases r <;> rfl
  have z : ∀ k : K, pyDiv k 0 = .error .zeroDiv := fun k => if_pos rfl
  unfold Inv.execute
  rw [hmap]
  dsimp only
  cases dx with
  | some a =>
    cases dy with
    | some b => rfl
    | none =>
      show (c.execute none (some a) ib).map mirror = _
      unfold execute
      dsimp only [Option.getD_some]
      show _ = if ¬-c.yAct ≤ a ∧ ib = false then _ else _
      by_cases g : ¬-c.yAct ≤ a ∧ ib = false
      · rw [if_pos g, if_pos g]; rfl
      · rw [if_neg g, if_neg g]
        show _ = (pyDiv c.k (c.y + a) >>= fun w => (mirror c).executed (c.y + a) w)
        by_cases h0 : c.y + a = 0
        · rw [h0, z]; rfl
        · rw [pyDiv_ok h0, Py.ok_bind, Py.ok_bind]
          exact executed_mirror hs (div_ne_zero hk h0) h0 (by field_simp)
  | none =>
    cases dy with
    | some b =>
      show (c.execute (some b) none ib).map mirror = _
      unfold execute
      dsimp only [Option.getD_some]
      show _ = if ¬-c.xAct ≤ b ∧ ib = false then _ else _
      by_cases g : ¬-c.xAct ≤ b ∧ ib = false
      · rw [if_pos g, if_pos g]; rfl
      · rw [if_neg g, if_neg g, hmy]
        show _ = (pyDiv c.k (c.x + b) >>= fun w => (mirror c).executed w (c.x + b))
        by_cases h0 : c.x + b = 0
        · rw [h0, z]; rfl
        · rw [pyDiv_ok h0, Py.ok_bind, Py.ok_bind]
          exact executed_mirror hs h0 (div_ne_zero hk h0) (by field_simp)
    | none =>
      show (c.execute none none ib).map mirror = _
      unfold execute
      dsimp only [Option.getD_none]
      have g1 : ¬ (¬-c.xAct ≤ 0 ∧ ib = false) := fun h => h.1 (by linarith [hs.hxa])
      have g2 : ¬ (¬-(mirror c).xAct ≤ 0 ∧ ib = false) := fun h => h.1 (by show -c.yAct ≤ 0; linarith [hs.hya])
      have hy := hs.y_pos.ne'
      rw [if_neg g1, if_neg g2, add_zero, add_zero]
      show _ = (pyDiv c.k c.y >>= fun w => (mirror c).executed c.y w)
      have e1 : c.k / c.x = c.y := rfl
      have e2 : c.k / c.y = c.x := hmy
      rw [pyDiv_ok hs.hx.ne', pyDiv_ok hy, Py.ok_bind, Py.ok_bind, e1, e2]
      exact executed_mirror hs hs.hx.ne' hy hs.xy

end Mirror

/-- **C41** Moving the inverted view to a price is moving the mirrored curve to this price. -/
theorem C41_to_price (c : CPC ℝ) (hs : Sound c) (p : ℝ) (hp : 0 < p) (ib : Bool) :
    (⟨c⟩ : Inv ℝ).xyfromp (some p) ib = (mirror c).xyfromp (some p) ib ∧
      (⟨c⟩ : Inv ℝ).dxdyfromp (some p) ib = (mirror c).dxdyfromp (some p) ib := by
  have hmy := mirror_y hs.hk.ne' hs.hx.ne'
  have hyM : (mirror c).yMin = c.xMin := by show (mirror c).y - c.xAct = _; rw [hmy]; rfl
  have hxM : (mirror c).xMax = c.yMax := by
    show (if 0 < (mirror c).yMin then some (c.k / (mirror c).yMin) else none) = _
    rw [hyM]; rfl
  have hr : 0 < 1 / p := by positivity
  have sp : 0 < Real.sqrt p := Real.sqrt_pos.mpr hp
  have sr : 0 < Real.sqrt (1 / p) := Real.sqrt_pos.mpr hr
  have hsr : Real.sqrt (1 / p) = 1 / Real.sqrt p := by rw [Real.sqrt_div zero_le_one, Real.sqrt_one]
  have hrr : 1 / (1 / p) = p := by field_simp
  have e1 : Real.sqrt c.k / Real.sqrt (1 / p) = Real.sqrt c.k * Real.sqrt p := by rw [hsr]; field_simp
  have e2 : Real.sqrt c.k * Real.sqrt (1 / p) = Real.sqrt c.k / Real.sqrt p := by rw [hsr]; field_simp
  have h1 : c.xyfromp (some (1 / p)) ib =
      .ok (if ib then (Real.sqrt c.k * Real.sqrt p, Real.sqrt c.k / Real.sqrt p, 1 / p)
        else (clamp (Real.sqrt c.k * Real.sqrt p) c.xMin c.xMax, clamp (Real.sqrt c.k / Real.sqrt p) c.yMin c.yMax, 1 / p)) := by
    unfold xyfromp
    simp only [Option.getD_some, sqrtE_ok hr.le, sqrtE_ok hs.hk.le, Py.ok_bind, pyDiv_ok sr.ne', e1, e2]
    cases ib <;> rfl
  have h2 : (mirror c).xyfromp (some p) ib =
      .ok (if ib then (Real.sqrt c.k / Real.sqrt p, Real.sqrt c.k * Real.sqrt p, p)
        else (clamp (Real.sqrt c.k / Real.sqrt p) c.yMin c.yMax, clamp (Real.sqrt c.k * Real.sqrt p) c.xMin c.xMax, p)) := by
    unfold xyfromp
    have hk : (mirror c).k = c.k := rfl
    rw [hyM, hxM, hk]
    simp only [Option.getD_some, sqrtE_ok hp.le, sqrtE_ok hs.hk.le, Py.ok_bind, pyDiv_ok sp.ne']
    cases ib <;> rfl
  have h3 : Inv.recipArg (some p) = .ok (some (1 / p)) := by
    unfold Inv.recipArg; dsimp only; rw [pyDiv_ok hp.ne']; rfl
  have h4 : pyDiv 1 (1 / p) = .ok p := by rw [pyDiv_ok hr.ne', hrr]
  constructor
  · unfold Inv.xyfromp
    simp only [h3, Py.ok_bind]
    rw [h1, h2]
    cases ib
    · simp only [Py.ok_bind, Bool.false_eq_true, if_false, h4]
    · simp only [Py.ok_bind, if_true, h4]
  · unfold Inv.dxdyfromp dxdyfromp
    simp only [h3, Py.ok_bind]
    rw [h1, h2, hmy]
    cases ib
    · simp only [Py.ok_bind, Bool.false_eq_true, if_false, h4]; rfl
    · simp only [Py.ok_bind, if_true, h4]; rfl

/-- The inverted view of a curve with reserves 2 and 8 of price 4. -/
example : ((⟨⟨16, 2, 1, 4, "A/B".toList, none, []⟩⟩ : Inv ℚ).execute (some 8) none).map
      (fun i => (i.x, i.y, i.xAct, i.yAct)) = .ok (16, 1, 12, 0) ∧
    (⟨⟨16, 2, 1, 4, "A/B".toList, none, []⟩⟩ : Inv ℚ).p = .ok (1 / 4) ∧
    (⟨⟨16, 2, 1, 4, "A/B".toList, none, []⟩⟩ : Inv ℚ).pMin = .ok (1 / 16) ∧
    (⟨⟨16, 2, 1, 4, "A/B".toList, none, []⟩⟩ : Inv ℚ).pair = "B/A".toList := by
  decide +kernel

end Carbon.CPC

/-! ## C44: primary pairs -/

namespace Carbon.TPair

open CarbonPair (pyDiv)
open UICurve (pyDiv_ok)

/-- The reversed pair. -/
def swap (t : TPair) : TPair := ⟨t.tknq, t.tknb⟩

theorem str_trichotomy (a b : Str) (h : a ≠ b) : (a < b ∧ ¬ b < a) ∨ (b < a ∧ ¬ a < b) := by
  rcases lt_trichotomy a b with h1 | h1 | h1
  · exact Or.inl ⟨h1, lt_asymm h1⟩
  · exact absurd h1 h
  · exact Or.inr ⟨h1, lt_asymm h1⟩

/-- **C44** Whatever normalisation of the names is used (that of `Pair` or of `SimplePair`), exactly one of a pair of different
tokens and its reverse is primary. -/
theorem C44_exactly_one (norm : Str → Str) (b q : Str) (h : b ≠ q) :
    (fromTokens q b).isprimary norm = !(fromTokens b q).isprimary norm := by
  unfold isprimary fromTokens
  dsimp only
  by_cases hr : rank (norm b) = rank (norm q)
  · rw [if_pos hr, if_pos hr.symm]
    rcases str_trichotomy b q h with ⟨h1, h2⟩ | ⟨h1, h2⟩
    · rw [decide_eq_true h1, decide_eq_false h2]; rfl
    · rw [decide_eq_true h1, decide_eq_false h2]; rfl
  · rw [if_neg hr, if_neg (Ne.symm hr)]
    rcases lt_or_gt_of_ne hr with h1 | h1
    · rw [decide_eq_true h1, decide_eq_false (lt_asymm h1)]; rfl
    · rw [decide_eq_true h1, decide_eq_false (lt_asymm h1)]; rfl

/-- **C44** A pair and its reverse have the same primary and the same secondary name, which are the two names of the pair. -/
theorem C44_same_name (norm : Str → Str) (b q : Str) :
    (fromTokens b q).primary norm = (fromTokens q b).primary norm ∧
      (fromTokens b q).secondary norm = (fromTokens q b).secondary norm ∧
      (((fromTokens b q).primary norm = b ++ '/' :: q ∧ (fromTokens b q).secondary norm = q ++ '/' :: b) ∨
        ((fromTokens b q).primary norm = q ++ '/' :: b ∧ (fromTokens b q).secondary norm = b ++ '/' :: q)) := by
  by_cases h : b = q
  · subst h
    refine ⟨rfl, rfl, Or.inl ⟨?_, ?_⟩⟩
    · unfold primary; split <;> rfl
    · unfold secondary; split <;> rfl
  · have e := C44_exactly_one norm b q h
    unfold primary secondary
    rw [e]
    cases (fromTokens b q).isprimary norm
    · exact ⟨rfl, rfl, Or.inr ⟨rfl, rfl⟩⟩
    · exact ⟨rfl, rfl, Or.inl ⟨rfl, rfl⟩⟩

/-- **C44** The primary price of a pair at `p` is that of the reversed pair at `1/p`, and it is `p` or `1/p`. -/
theorem C44_price {K : Type} [Field K] [LinearOrder K] [IsStrictOrderedRing K] (norm : Str → Str) (b q : Str) (h : b ≠ q) (p : K) (hp : p ≠ 0) :
    (fromTokens b q).primaryPrice norm p = (fromTokens q b).primaryPrice norm (1 / p) ∧
      (fromTokens b q).primaryPrice norm p = .ok (if (fromTokens b q).isprimary norm then p else 1 / p) := by
  have e := C44_exactly_one norm b q h
  have hr : 1 / p ≠ 0 := one_div_ne_zero hp
  unfold primaryPrice
  rw [e, pyDiv_ok hp, pyDiv_ok hr, one_div_one_div]
  cases (fromTokens b q).isprimary norm <;> exact ⟨rfl, rfl⟩

/-- **C44** A stable coin or other numeraire is never the base of a primary pair with a token that is none, however the other token
is named. -/
theorem C44_numeraire (norm : Str → Str) (b q : Str) (hq : norm q ∈ numeraires) (hb : norm b ∉ numeraires) :
    (fromTokens b q).isprimary norm = true ∧ (fromTokens q b).isprimary norm = false := by
  have h1 : rank (norm q) < rank (norm b) := by
    unfold rank
    rw [if_pos hq, if_neg hb]
    have := List.idxOf_lt_length_of_mem hq
    have e : numeraires.length = 18 := rfl
    omega
  unfold isprimary fromTokens
  dsimp only
  rw [if_neg h1.ne, if_neg h1.ne', decide_eq_true h1, decide_eq_false (lt_asymm h1)]
  exact ⟨rfl, rfl⟩

example : (fromTokens "USDC-eB48".toList "LINK-86CA".toList).isprimary prettify = false ∧
    (fromTokens "USDC-eB48".toList "LINK-86CA".toList).primary prettify = "LINK-86CA/USDC-eB48".toList ∧
    (fromTokens "USDC-eB48".toList "LINK-86CA".toList).primaryPrice prettify (4 : ℚ) = .ok (1 / 4) := by
  decide +kernel

end Carbon.TPair

/-! ## C41: wrapping the curves of a container -/

set_option linter.unusedSectionVars false

namespace Carbon.Wrapped

variable {K : Type} [Field K] [LinearOrder K] [PySqrt K]

/-- **C41** Wrapping and unwrapping curves is the identity, nothing is lost, and every wrapped curve shows a primary pair if its
tokens differ. -/
theorem C41_wrap (cs : List (CPC K)) :
    unwrap (wrap cs) = cs ∧ (wrap cs).length = cs.length ∧
      ∀ w ∈ wrap cs, w.pairo.tknb ≠ w.pairo.tknq → w.pairo.isprimary TPair.prettify = true := by
  refine ⟨?_, by simp [wrap], ?_⟩
  · unfold unwrap wrap
    rw [List.map_map]
    conv_rhs => rw [← List.map_id cs]
    apply List.map_congr_left
    intro c _
    simp only [Function.comp_apply]
    split <;> rfl
  · intro w hw hne
    unfold wrap at hw
    rw [List.mem_map] at hw
    obtain ⟨c, _, rfl⟩ := hw
    by_cases h : c.pairo.isprimary TPair.prettify = true
    · rw [if_pos h]; exact h
    · rw [if_neg h] at hne ⊢
      show (TPair.fromTokens c.tknq c.tknb).isprimary _ = true
      have e := TPair.C44_exactly_one TPair.prettify c.tknb c.tknq (fun e => hne (by show c.tknq = c.tknb; exact e.symm))
      rw [e]
      have : (TPair.fromTokens c.tknb c.tknq).isprimary TPair.prettify = false := Bool.eq_false_iff.mpr h
      rw [this]; rfl

end Carbon.Wrapped
