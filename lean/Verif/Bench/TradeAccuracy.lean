import Verif.Bench.TradeRat

namespace Carbon.Bench

open Carbon Carbon.Spec

/-- Overflow factors are 0, 1 or bounded by the product they are made for. -/
theorem factor_bound {p f : Int} (_hp : 0 ≤ p) (h : f = (p + MAX256 - 1).fdiv MAX256) (hf : 2 ≤ f) :
    f * MAX256 ≤ 2 * p := by
  obtain ⟨h1, _⟩ := (cdiv_char MAX256_pos _).1 h
  nlinarith [MAX256_pos]

theorem factor_max_bound {p q f1 f2 : Int} (hp : 0 ≤ p) (hq : 0 ≤ q)
    (h1 : f1 = (p + MAX256 - 1).fdiv MAX256) (h2 : f2 = (q + MAX256 - 1).fdiv MAX256)
    (hpos : 0 < max f1 f2) :
    max f1 f2 = 1 ∨ max f1 f2 * MAX256 ≤ 2 * p ∨ max f1 f2 * MAX256 ≤ 2 * q := by
  rcases le_total f1 f2 with h | h
  · rw [max_eq_right h] at *
    by_cases hf : f2 = 1
    · exact Or.inl hf
    · exact Or.inr (Or.inr (factor_bound hq h2 (by omega)))
  · rw [max_eq_left h] at *
    by_cases hf : f1 = 1
    · exact Or.inl hf
    · exact Or.inr (Or.inl (factor_bound hp h1 (by omega)))

/-- Accuracy of the source trade, integer form. -/
theorem source_accuracy_core {x y z A B r : Int} (hA : 0 < A) (_hB : 0 ≤ B)
    (hy : 0 ≤ y) (hyz : y ≤ z) (hB' : 0 ≤ B)
    (hr128 : r ≤ MAX128)
    (hfill : (y * A + z * B) * ((y * A + z * B) * x) ≤
      y * (A * ((y * A + z * B) * x) + (z * ONE) * (z * ONE)))
    (h : tradeBySourceAmountFunc x y z A B = .ok r) :
    ((y * A + z * B) * ((y * A + z * B) * x)) * (A + B) ≤
      (r + 4) * (A * ((y * A + z * B) * x) + (z * ONE) * (z * ONE)) * (A + B + 1) := by
  obtain ⟨hr0, hD0, _⟩ := source_core hA.ne' hA.le h
  unfold tradeBySourceAmountFunc at h
  rw [if_neg hA.ne'] at h
  simp only [Py.bind_eq_ok, mul_ok, add_ok] at h
  obtain ⟨t1, ⟨⟨ht1, ht1'⟩, rfl⟩, ya, ⟨_, rfl⟩, zb, ⟨_, rfl⟩, t2, ⟨⟨ht2, ht2'⟩, rfl⟩,
    t3, ⟨⟨ht3, ht3'⟩, rfl⟩, f1, hf1, f2, hf2, t4, ht4, t5, ht5, h⟩ := h
  have hNy : y * (A + B) ≤ y * A + z * B := by
    have := mul_le_mul_of_nonneg_right hyz hB'
    linarith
  generalize hN : y * A + z * B = N at *
  generalize hT : z * ONE = T at *
  generalize hX : N * x = X at *
  rw [mulDivC_ok] at hf1 hf2 ht4 ht5
  obtain ⟨_, hf1e, hf1, _⟩ := hf1
  obtain ⟨_, hf2e, hf2, _⟩ := hf2
  obtain ⟨hf, ht4e, ht4, ht4'⟩ := ht4
  obtain ⟨_, ht5e, ht5, ht5'⟩ := ht5
  have hTT : 0 ≤ T * T := mul_nonneg ht1 ht1
  have hXA : 0 ≤ X * A := mul_nonneg ht3 hA.le
  have hDdef : A * X + T * T = X * A + T * T := by ring
  have hfpos : 0 < max f1 f2 := by
    have : 0 ≤ max f1 f2 := le_trans hf1 (le_max_left _ _)
    omega
  have hfb : max f1 f2 = 1 ∨ max f1 f2 * MAX256 ≤ 2 * (A * X + T * T) := by
    rcases factor_max_bound hTT hXA hf1e hf2e hfpos with h | h | h
    · exact Or.inl h
    · right; linarith
    · right; linarith
  generalize max f1 f2 = f at *
  obtain ⟨h4a, h4b⟩ := (cdiv_char hfpos _).1 ht4e
  obtain ⟨h5a, h5b⟩ := (cdiv_char hfpos _).1 ht5e
  have hAB : 0 < A + B := by omega
  generalize hD : A * X + T * T = D at *
  split at h
  · -- rescaled quotient
    suffices hmain : N * X ≤ (r + 4) * D by
      have h1 : N * X * (A + B) ≤ (r + 4) * D * (A + B) := mul_le_mul_of_nonneg_right hmain hAB.le
      have h2 : 0 ≤ (r + 4) * D := mul_nonneg (by omega) hD0.le
      linarith
    simp only [Py.bind_eq_ok, floorDiv_ok, mulDivF_ok] at h
    obtain ⟨q, ⟨_, hq⟩, hc, hr, _, _⟩ := h
    have hcpos : 0 < t4 + t5 := by omega
    obtain ⟨hq1, hq2⟩ := (fdiv_char hfpos _).1 hq
    obtain ⟨hr1, hr2⟩ := (fdiv_char hcpos _).1 hr
    -- N * X ≤ N*q*f + N*f
    have e1 : N * X ≤ N * q * f + N * f := by nlinarith
    have e2 : N * q * f ≤ (r + 1) * (t4 + t5) * f := mul_le_mul_of_nonneg_right hr2.le hfpos.le
    have e3 : (t4 + t5) * f ≤ D + 2 * f := by nlinarith
    have e4 : (r + 1) * ((t4 + t5) * f) ≤ (r + 1) * (D + 2 * f) :=
      mul_le_mul_of_nonneg_left e3 (by omega)
    rcases hfb with hf1' | hfb
    · subst hf1'
      have : t4 = T * T := by omega
      have : t5 = X * A := by omega
      have hq' : q = X := by omega
      rw [hq'] at hr2
      have : t4 + t5 = D := by omega
      rw [this] at hr2
      linarith
    · have e5 : N * f ≤ 2 * D := by
        have := mul_le_mul_of_nonneg_right ht2' hfpos.le
        linarith
      have e6 : 2 * (r + 1) * f ≤ D := by
        have h7 : 4 * (r + 1) ≤ MAX256 := by
          have : 4 * (MAX128 + 1) ≤ MAX256 := by decide
          omega
        have := mul_le_mul_of_nonneg_right h7 hfpos.le
        linarith
      linarith
  · simp only [Py.bind_eq_ok, floorDiv_ok, mulDivC_ok, add_ok] at h
    obtain ⟨c, ⟨hX0, hc, hc0, _⟩, d, ⟨⟨hd0, _⟩, rfl⟩, hdne, hr⟩ := h
    have hXpos : 0 < X := by omega
    have hdpos : 0 < A + c := by omega
    obtain ⟨hc1, hc2⟩ := (cdiv_char hXpos _).1 hc
    obtain ⟨hr1, hr2⟩ := (fdiv_char hdpos _).1 hr
    have e1 : N * X ≤ (r + 1) * (A + c) * X := mul_le_mul_of_nonneg_right hr2.le ht3
    have e2 : (A + c) * X ≤ D + X := by
      have : (A + c) * X = A * X + (c - 1) * X + X := by ring
      linarith
    have e3 : (r + 1) * ((A + c) * X) ≤ (r + 1) * (D + X) := mul_le_mul_of_nonneg_left e2 (by omega)
    have e4 : N * X ≤ (r + 1) * (D + X) := by linarith
    -- X * (A + B) ≤ D
    rcases hy.eq_or_lt with hy0 | hypos
    · -- nothing left in the order
      have : N * X ≤ 0 := by rw [← hy0] at hfill; linarith
      have h1 : N * X * (A + B) ≤ 0 := mul_nonpos_of_nonpos_of_nonneg this hAB.le
      have h2 : 0 ≤ (r + 4) * D * (A + B + 1) :=
        mul_nonneg (mul_nonneg (by omega) hD0.le) (by omega)
      linarith
    · have e5 : X * (A + B) ≤ D := by
        have h1 : (X * (A + B)) * y ≤ D * y := by
          have := mul_le_mul_of_nonneg_right hNy ht3
          linarith
        exact le_of_mul_le_mul_right h1 hypos
      have e6 : N * X * (A + B) ≤ (r + 1) * (D + X) * (A + B) := mul_le_mul_of_nonneg_right e4 hAB.le
      have e7 : (r + 1) * (X * (A + B)) ≤ (r + 1) * D := mul_le_mul_of_nonneg_left e5 (by omega)
      have e8 : 0 ≤ 3 * D * (A + B + 1) := mul_nonneg (by omega) (by omega)
      linarith

/-- Accuracy of the target trade, integer form. -/
theorem target_accuracy_core {x y z A B r : Int} (hA : 0 < A) (hx : x ≤ MAX128 + 1)
    (hr128 : r ≤ MAX128)
    (h : tradeByTargetAmountFunc x y z A B = .ok r) :
    r * ((y * A + z * B) * (y * A + z * B - x * A)) ≤
      x * ((z * ONE) * (z * ONE)) + 4 * ((y * A + z * B) * (y * A + z * B - x * A)) := by
  obtain ⟨hr0, hx0, hE0, hle⟩ := target_core hA.ne' hA.le h
  unfold tradeByTargetAmountFunc at h
  rw [if_neg hA.ne'] at h
  simp only [Py.bind_eq_ok, mul_ok, add_ok, sub_ok] at h
  obtain ⟨t1, ⟨⟨ht1, ht1'⟩, rfl⟩, ya, ⟨_, rfl⟩, zb, ⟨_, rfl⟩, t2, ⟨⟨ht2, ht2'⟩, rfl⟩,
    xa, ⟨⟨hxa, hxa'⟩, rfl⟩, t3, ⟨⟨ht3, ht3'⟩, rfl⟩, f1, hf1, f2, hf2, t4, ht4, t5, ht5, h⟩ := h
  generalize hN : y * A + z * B = N at *
  generalize hT : z * ONE = T at *
  generalize hX : N - x * A = X at *
  rw [mulDivC_ok] at hf1 hf2 ht4 h
  rw [mulDivF_ok] at ht5
  obtain ⟨_, hf1e, hf1, _⟩ := hf1
  obtain ⟨_, hf2e, hf2, _⟩ := hf2
  obtain ⟨hf, ht4e, ht4, ht4'⟩ := ht4
  obtain ⟨_, ht5e, ht5, ht5'⟩ := ht5
  have hTT : 0 ≤ T * T := mul_nonneg ht1 ht1
  have hfpos : 0 < max f1 f2 := by
    have : 0 ≤ max f1 f2 := le_trans hf1 (le_max_left _ _)
    omega
  have hfb : max f1 f2 = 1 ∨ max f1 f2 * MAX256 ≤ 2 * (T * T) ∨ max f1 f2 * MAX256 ≤ 2 * (N * X) :=
    factor_max_bound hTT hE0.le hf1e hf2e hfpos
  generalize max f1 f2 = f at *
  obtain ⟨h4a, h4b⟩ := (cdiv_char hfpos _).1 ht4e
  obtain ⟨h5a, h5b⟩ := (fdiv_char hfpos _).1 ht5e
  obtain ⟨hne, hr, _, _⟩ := h
  have h5pos : 0 < t5 := by omega
  obtain ⟨hra, hrb⟩ := (cdiv_char h5pos _).1 hr
  generalize hE : N * X = E at *
  rcases hr0.eq_or_lt with hr00 | hrpos
  · rw [← hr00]
    have := mul_nonneg hx0 hTT
    linarith
  have e1 : (r - 1) * t5 * f ≤ x * t4 * f := mul_le_mul_of_nonneg_right hra.le hfpos.le
  have e2 : x * t4 * f ≤ x * (T * T + f) := by
    rw [mul_assoc]; exact mul_le_mul_of_nonneg_left (by linarith) hx0
  have e3 : (r - 1) * (E - f) ≤ (r - 1) * (t5 * f) := mul_le_mul_of_nonneg_left (by linarith) (by omega)
  have hMM : MAX128 * MAX128 ≤ MAX256 := by decide
  have hM2 : 4 * (MAX128 + 1) ≤ MAX256 := by decide
  have hM3 : 0 < MAX128 := by decide
  rcases hfb with hf1' | hfb
  · subst hf1'
    have ht4T : t4 = T * T := by omega
    have ht5E : t5 = E := by omega
    rw [ht4T, ht5E] at hra
    linarith
  suffices hsuf : (x + r - 1) * f ≤ 3 * E by linarith
  have hEM : 0 < E * MAX256 := mul_pos hE0 MAX256_pos
  rcases hfb with hfb | hfb
  · have hxpos : 0 < x := by
      rcases hx0.eq_or_lt with hx00 | h
      · exfalso
        rw [← hx00] at hra
        have : 0 ≤ (r - 1) * t5 := mul_nonneg (by omega) h5pos.le
        linarith
      · exact h
    have hxM : 0 < x * MAX256 := mul_pos hxpos MAX256_pos
    have h1 : (x + r - 1) * x * (f * MAX256) ≤ (x + r - 1) * x * (2 * (T * T)) :=
      mul_le_mul_of_nonneg_left hfb (mul_nonneg (by omega) hx0)
    have h2 : (x + r - 1) * 2 * (x * (T * T)) ≤ (x + r - 1) * 2 * (r * E) :=
      mul_le_mul_of_nonneg_left hle (by omega)
    have h3 : 2 * (x + r - 1) * r ≤ 3 * (x * MAX256) := by
      have h4 : x * (2 * r) ≤ x * MAX256 := mul_le_mul_of_nonneg_left (by omega) hx0
      have h5 : (r - 1) * r ≤ MAX256 := by
        have : (r - 1) * r ≤ MAX128 * MAX128 :=
          mul_le_mul (by omega) hr128 hr0 hM3.le
        omega
      have h6 : MAX256 ≤ x * MAX256 := by
        have := mul_le_mul_of_nonneg_right (show (1:Int) ≤ x by omega) MAX256_pos.le
        linarith
      linarith
    have h7 : 2 * (x + r - 1) * r * E ≤ 3 * (x * MAX256) * E := mul_le_mul_of_nonneg_right h3 hE0.le
    have h8 : (x + r - 1) * f * (x * MAX256) ≤ 3 * E * (x * MAX256) := by linarith
    exact le_of_mul_le_mul_right h8 hxM
  · have : (x + r - 1) * f * MAX256 ≤ 3 * E * MAX256 := by
      have h1 : (x + r - 1) * (f * MAX256) ≤ (x + r - 1) * (2 * E) :=
        mul_le_mul_of_nonneg_left hfb (by omega)
      have h2 : (x + r - 1) * 2 * E ≤ MAX256 * E := mul_le_mul_of_nonneg_right (by omega) hE0.le
      linarith
    exact le_of_mul_le_mul_right this MAX256_pos

end Carbon.Bench
