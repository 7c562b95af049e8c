import Verif.Bench.TradeLemmas
import Verif.Spec.Curve
import Mathlib.Tactic.LinearCombination
import Mathlib.Tactic.NormNum

namespace Carbon.Bench

open Carbon

theorem fdiv_nonneg' {a b : Int} (ha : 0 ≤ a) (hb : 0 ≤ b) : 0 ≤ a.fdiv b := by
  rw [Int.fdiv_eq_ediv_of_nonneg _ hb]
  exact Int.ediv_nonneg ha hb

/-- Integer form of the payout bound, `A ≠ 0` case. -/
theorem source_core {x y z A B r : Int} (hA : A ≠ 0) (hA0 : 0 ≤ A)
    (h : tradeBySourceAmountFunc x y z A B = .ok r) :
    0 ≤ r ∧ 0 < A * ((y * A + z * B) * x) + (z * ONE) * (z * ONE) ∧
    r * (A * ((y * A + z * B) * x) + (z * ONE) * (z * ONE)) ≤
      (y * A + z * B) * ((y * A + z * B) * x) := by
  unfold tradeBySourceAmountFunc at h
  rw [if_neg hA] at h
  simp only [Py.bind_eq_ok, mul_ok, add_ok] at h
  obtain ⟨t1, ⟨⟨ht1, ht1'⟩, rfl⟩, ya, ⟨_, rfl⟩, zb, ⟨_, rfl⟩, t2, ⟨⟨ht2, ht2'⟩, rfl⟩,
    t3, ⟨⟨ht3, ht3'⟩, rfl⟩, f1, hf1, f2, hf2, t4, ht4, t5, ht5, h⟩ := h
  generalize hN : y * A + z * B = N at *
  generalize hT : z * ONE = T at *
  generalize hX : N * x = X at *
  rw [mulDivC_ok] at hf1 hf2 ht4 ht5
  obtain ⟨_, _, hf1, _⟩ := hf1
  obtain ⟨_, _, hf2, _⟩ := hf2
  obtain ⟨hf, ht4e, ht4, ht4'⟩ := ht4
  obtain ⟨_, ht5e, ht5, ht5'⟩ := ht5
  have hfpos : 0 < max f1 f2 := by
    have : 0 ≤ max f1 f2 := le_trans hf1 (le_max_left _ _)
    omega
  generalize max f1 f2 = f at *
  have hApos : 0 < A := by omega
  obtain ⟨h4a, h4b⟩ := (cdiv_char hfpos _).1 ht4e
  obtain ⟨h5a, h5b⟩ := (cdiv_char hfpos _).1 ht5e
  have hTT : 0 ≤ T * T := mul_nonneg ht1 ht1
  have hAX : 0 ≤ X * A := mul_nonneg ht3 hA0
  split at h
  · simp only [Py.bind_eq_ok, floorDiv_ok, mulDivF_ok] at h
    obtain ⟨q, ⟨_, hq⟩, hc, hr, hr0, hr1⟩ := h
    have hcpos : 0 < t4 + t5 := by omega
    obtain ⟨hq1, hq2⟩ := (fdiv_char hfpos _).1 hq
    obtain ⟨hr1, hr2⟩ := (fdiv_char hcpos _).1 hr
    refine ⟨hr0, ?_, ?_⟩
    · have h45 : 0 < t4 ∨ 0 < t5 := by omega
      rcases h45 with h | h
      · have : 0 ≤ (t4 - 1) * f := mul_nonneg (by omega) hfpos.le
        linarith [mul_comm A X]
      · have : 0 ≤ (t5 - 1) * f := mul_nonneg (by omega) hfpos.le
        linarith [mul_comm A X]
    · have hD : A * X + T * T ≤ (t4 + t5) * f := by nlinarith
      calc r * (A * X + T * T) ≤ r * ((t4 + t5) * f) := mul_le_mul_of_nonneg_left hD hr0
        _ = (r * (t4 + t5)) * f := by ring
        _ ≤ (N * q) * f := mul_le_mul_of_nonneg_right hr1 hfpos.le
        _ = N * (q * f) := by ring
        _ ≤ N * X := mul_le_mul_of_nonneg_left hq1 ht2
  · simp only [Py.bind_eq_ok, floorDiv_ok, mulDivC_ok, add_ok] at h
    obtain ⟨c, ⟨hX0, hc, hc0, _⟩, d, ⟨⟨hd0, _⟩, rfl⟩, hdne, hr⟩ := h
    have hXpos : 0 < X := by omega
    have hdpos : 0 < A + c := by omega
    obtain ⟨hc1, hc2⟩ := (cdiv_char hXpos _).1 hc
    obtain ⟨hr1, hr2⟩ := (fdiv_char hdpos _).1 hr
    have hr0 : 0 ≤ r := hr ▸ fdiv_nonneg' ht2 hdpos.le
    refine ⟨hr0, ?_, ?_⟩
    · have := mul_pos hApos hXpos
      omega
    · calc r * (A * X + T * T) ≤ r * (A * X + c * X) :=
            mul_le_mul_of_nonneg_left (by linarith) hr0
        _ = (r * (A + c)) * X := by ring
        _ ≤ N * X := mul_le_mul_of_nonneg_right hr1 hXpos.le

/-- Integer form of the payout bound, `A = 0` case. -/
theorem source_core_zero {x y z B r : Int}
    (h : tradeBySourceAmountFunc x y z 0 B = .ok r) :
    0 ≤ r ∧ r = (x * (B * B)).fdiv (ONE * ONE) := by
  unfold tradeBySourceAmountFunc at h
  rw [if_pos rfl] at h
  simp only [Py.bind_eq_ok, mul_ok, mulDivF_ok] at h
  obtain ⟨bb, ⟨_, rfl⟩, oo, ⟨_, rfl⟩, h1, h2, h3, h4⟩ := h
  exact ⟨h3, h2⟩

/-- Integer form of the cost bound, `A ≠ 0` case. -/
theorem target_core {x y z A B r : Int} (hA : A ≠ 0) (hA0 : 0 ≤ A)
    (h : tradeByTargetAmountFunc x y z A B = .ok r) :
    0 ≤ r ∧ 0 ≤ x ∧ 0 < (y * A + z * B) * (y * A + z * B - x * A) ∧
    x * ((z * ONE) * (z * ONE)) ≤
      r * ((y * A + z * B) * (y * A + z * B - x * A)) := by
  unfold tradeByTargetAmountFunc at h
  rw [if_neg hA] at h
  simp only [Py.bind_eq_ok, mul_ok, add_ok, sub_ok] at h
  obtain ⟨t1, ⟨⟨ht1, ht1'⟩, rfl⟩, ya, ⟨_, rfl⟩, zb, ⟨_, rfl⟩, t2, ⟨⟨ht2, ht2'⟩, rfl⟩,
    xa, ⟨⟨hxa, hxa'⟩, rfl⟩, t3, ⟨⟨ht3, ht3'⟩, rfl⟩, f1, hf1, f2, hf2, t4, ht4, t5, ht5, h⟩ := h
  have hApos : 0 < A := by omega
  have hx : 0 ≤ x := by
    by_contra hneg
    have := mul_neg_of_neg_of_pos (show x < 0 by omega) hApos
    omega
  generalize hN : y * A + z * B = N at *
  generalize hT : z * ONE = T at *
  generalize hX : N - x * A = X at *
  rw [mulDivC_ok] at hf1 hf2 ht4 h
  rw [mulDivF_ok] at ht5
  obtain ⟨_, _, hf1, _⟩ := hf1
  obtain ⟨_, _, hf2, _⟩ := hf2
  obtain ⟨hf, ht4e, ht4, ht4'⟩ := ht4
  obtain ⟨_, ht5e, ht5, ht5'⟩ := ht5
  have hfpos : 0 < max f1 f2 := by
    have : 0 ≤ max f1 f2 := le_trans hf1 (le_max_left _ _)
    omega
  generalize max f1 f2 = f at *
  obtain ⟨h4a, h4b⟩ := (cdiv_char hfpos _).1 ht4e
  obtain ⟨h5a, h5b⟩ := (fdiv_char hfpos _).1 ht5e
  obtain ⟨hne, hr, hr0, _⟩ := h
  have h5pos : 0 < t5 := by omega
  obtain ⟨hra, hrb⟩ := (cdiv_char h5pos _).1 hr
  refine ⟨hr0, hx, ?_, ?_⟩
  · have := mul_pos h5pos hfpos
    omega
  · calc x * (T * T) ≤ x * (t4 * f) := mul_le_mul_of_nonneg_left h4b hx
      _ = (x * t4) * f := by ring
      _ ≤ (r * t5) * f := mul_le_mul_of_nonneg_right hrb hfpos.le
      _ = r * (t5 * f) := by ring
      _ ≤ r * (N * X) := mul_le_mul_of_nonneg_left h5a hr0

/-- Integer form of the cost bound, `A = 0` case. -/
theorem target_core_zero {x y z B r : Int}
    (h : tradeByTargetAmountFunc x y z 0 B = .ok r) :
    0 ≤ r ∧ 0 < B * B ∧ r = (x * (ONE * ONE) + B * B - 1).fdiv (B * B) := by
  unfold tradeByTargetAmountFunc at h
  rw [if_pos rfl] at h
  simp only [Py.bind_eq_ok, mul_ok, mulDivC_ok] at h
  obtain ⟨oo, ⟨_, rfl⟩, bb, ⟨⟨hb0, _⟩, rfl⟩, h1, h2, h3, h4⟩ := h
  exact ⟨h3, by omega, h2⟩

end Carbon.Bench
