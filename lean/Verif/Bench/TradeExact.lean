import Verif.Bench.TradeBounds

namespace Carbon.Bench

open Carbon Carbon.Spec

theorem mul_eq {a b : Int} (h0 : 0 ≤ a * b) (h1 : a * b ≤ MAX256) : mul a b = .ok (a * b) :=
  mul_ok.2 ⟨⟨h0, h1⟩, rfl⟩
theorem add_eq {a b : Int} (h0 : 0 ≤ a + b) (h1 : a + b ≤ MAX256) : add a b = .ok (a + b) :=
  add_ok.2 ⟨⟨h0, h1⟩, rfl⟩
theorem sub_eq {a b : Int} (h0 : 0 ≤ a - b) (h1 : a - b ≤ MAX256) : sub a b = .ok (a - b) :=
  sub_ok.2 ⟨⟨h0, h1⟩, rfl⟩

/-- The overflow factor of a product that fits is 0 or 1. -/
theorem factor_eq {a b : Int} (h0 : 0 ≤ a * b) (h1 : a * b ≤ MAX256) :
    mulDivC a b MAX256 = .ok (if a * b = 0 then 0 else 1) := by
  have hM := MAX256_pos
  rw [mulDivC_ok, cdiv_char hM]
  refine ⟨hM.ne', ?_, ?_, ?_⟩
  · split <;> constructor <;> omega
  · split <;> omega
  · split <;> omega

theorem mulDivC_one {a b : Int} (h0 : 0 ≤ a * b) (h1 : a * b ≤ MAX256) :
    mulDivC a b 1 = .ok (a * b) := by
  rw [mulDivC_ok, cdiv_char one_pos]
  refine ⟨one_ne_zero, ⟨?_, ?_⟩, h0, h1⟩ <;> omega

theorem mulDivF_one {a b : Int} (h0 : 0 ≤ a * b) (h1 : a * b ≤ MAX256) :
    mulDivF a b 1 = .ok (a * b) := by
  rw [mulDivF_ok, fdiv_char one_pos]
  refine ⟨one_ne_zero, ⟨?_, ?_⟩, h0, h1⟩ <;> omega

theorem floorDiv_one (a : Int) : floorDiv a 1 = .ok a := by
  rw [floorDiv_ok, fdiv_char one_pos]
  refine ⟨one_ne_zero, ?_, ?_⟩ <;> omega

theorem factor_max {p q : Int} (_hp : 0 ≤ p) (_hq : 0 ≤ q) (h : 0 < p + q) :
    max (if p = 0 then (0:Int) else 1) (if q = 0 then 0 else 1) = 1 := by
  split <;> split <;> first | rfl | (exfalso; omega)

theorem source_exact {x y z A B : Int} (hx : 0 ≤ x) (hy : 0 ≤ y) (hz : 0 ≤ z) (hA : 0 < A)
    (hB : 0 ≤ B) (hN : y * A + z * B ≤ MAX256)
    (hD0 : 0 < A * ((y * A + z * B) * x) + (z * ONE) * (z * ONE))
    (hD : A * ((y * A + z * B) * x) + (z * ONE) * (z * ONE) ≤ MAX256) :
    tradeBySourceAmountFunc x y z A B = .ok
      (((y * A + z * B) * ((y * A + z * B) * x)).fdiv
        (A * ((y * A + z * B) * x) + (z * ONE) * (z * ONE))) := by
  have hyA : 0 ≤ y * A := mul_nonneg hy hA.le
  have hzB : 0 ≤ z * B := mul_nonneg hz hB
  have hT0 : 0 ≤ z * ONE := mul_nonneg hz ONE_pos.le
  unfold tradeBySourceAmountFunc
  rw [if_neg hA.ne']
  rw [mul_eq hyA (by omega), mul_eq hzB (by omega)]
  simp only [Py.ok_bind]
  rw [add_eq (by omega) hN]
  simp only [Py.ok_bind]
  have hN0 : 0 ≤ y * A + z * B := by omega
  generalize y * A + z * B = N at *
  have hX0 : 0 ≤ N * x := mul_nonneg hN0 hx
  have hTT : 0 ≤ z * ONE * (z * ONE) := mul_nonneg hT0 hT0
  have hAX : 0 ≤ A * (N * x) := mul_nonneg hA.le hX0
  have hXle : N * x ≤ A * (N * x) := by nlinarith
  have hTle : z * ONE ≤ z * ONE * (z * ONE) := by
    rcases hT0.eq_or_lt with h | h
    · rw [← h]; simp
    · nlinarith
  rw [mul_eq hT0 (by omega), mul_eq hX0 (by omega)]
  simp only [Py.ok_bind]
  generalize z * ONE = T at *
  generalize N * x = X at *
  have hXA : X * A = A * X := mul_comm _ _
  rw [factor_eq hTT (by omega), factor_eq (by rw [hXA]; exact hAX) (by rw [hXA]; omega)]
  simp only [Py.ok_bind]
  rw [factor_max hTT (by rw [hXA]; exact hAX) (by rw [hXA]; omega)]
  rw [mulDivC_one hTT (by omega), mulDivC_one (by rw [hXA]; exact hAX) (by rw [hXA]; omega)]
  simp only [Py.ok_bind]
  have hsum : T * T + X * A = A * X + T * T := by rw [hXA]; ring
  rw [hsum, if_pos hD, floorDiv_one]
  simp only [Py.ok_bind]
  rw [mulDivF_ok]
  refine ⟨hD0.ne', rfl, fdiv_nonneg' (mul_nonneg hN0 hX0) hD0.le, ?_⟩
  obtain ⟨h1, h2⟩ := (fdiv_char hD0 _).1 (rfl : (N * X).fdiv (A * X + T * T) = _)
  by_contra hcon
  have h3 : N + 1 ≤ (N * X).fdiv (A * X + T * T) := by omega
  have h4 : (N + 1) * (A * X + T * T) ≤ N * X :=
    (mul_le_mul_of_nonneg_right h3 hD0.le).trans h1
  nlinarith

theorem source_exact_zero {x y z B : Int} (hx : 0 ≤ x) (hB : B * B ≤ MAX256)
    (hr : (x * (B * B)).fdiv (ONE * ONE) ≤ MAX256) :
    tradeBySourceAmountFunc x y z 0 B = .ok ((x * (B * B)).fdiv (ONE * ONE)) := by
  unfold tradeBySourceAmountFunc
  rw [if_pos rfl, mul_eq (mul_self_nonneg B) hB, mul_eq (by decide) (by decide)]
  simp only [Py.ok_bind]
  rw [mulDivF_ok]
  exact ⟨by decide, rfl, fdiv_nonneg' (mul_nonneg hx (mul_self_nonneg B)) (by decide), hr⟩

theorem target_exact {x y z A B : Int} (hx : 0 ≤ x) (hy : 0 ≤ y) (hz : 0 ≤ z) (hA : 0 < A)
    (hB : 0 ≤ B) (hN : y * A + z * B ≤ MAX256)
    (hT : (z * ONE) * (z * ONE) ≤ MAX256)
    (hxA : x * A < y * A + z * B)
    (hD : (y * A + z * B) * (y * A + z * B - x * A) ≤ MAX256) :
    tradeByTargetAmountFunc x y z A B =
      check ((x * ((z * ONE) * (z * ONE)) +
        (y * A + z * B) * (y * A + z * B - x * A) - 1).fdiv
        ((y * A + z * B) * (y * A + z * B - x * A))) MAX256 := by
  have hyA : 0 ≤ y * A := mul_nonneg hy hA.le
  have hzB : 0 ≤ z * B := mul_nonneg hz hB
  have hT0 : 0 ≤ z * ONE := mul_nonneg hz ONE_pos.le
  have hxA0 : 0 ≤ x * A := mul_nonneg hx hA.le
  unfold tradeByTargetAmountFunc
  rw [if_neg hA.ne']
  rw [mul_eq hyA (by omega), mul_eq hzB (by omega), mul_eq hxA0 (by omega)]
  simp only [Py.ok_bind]
  rw [add_eq (by omega) hN]
  simp only [Py.ok_bind]
  have hN0 : 0 < y * A + z * B := by omega
  generalize y * A + z * B = N at *
  have hTT : 0 ≤ z * ONE * (z * ONE) := mul_nonneg hT0 hT0
  have hTle : z * ONE ≤ z * ONE * (z * ONE) := by
    rcases hT0.eq_or_lt with h | h
    · rw [← h]; simp
    · nlinarith
  rw [mul_eq hT0 (by omega), sub_eq (by omega) (by omega)]
  simp only [Py.ok_bind]
  generalize z * ONE = T at *
  have hX0 : 0 < N - x * A := by omega
  generalize N - x * A = X at *
  have hNX : 0 < N * X := mul_pos hN0 hX0
  rw [factor_eq hTT hT, factor_eq hNX.le hD]
  simp only [Py.ok_bind]
  rw [factor_max hTT hNX.le (by omega), mulDivC_one hTT hT, mulDivF_one hNX.le hD]
  simp only [Py.ok_bind]
  unfold mulDivC floorDiv
  rw [if_neg hNX.ne']
  simp only [Py.ok_bind]

end Carbon.Bench
