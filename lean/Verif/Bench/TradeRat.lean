import Verif.Bench.TradeExact
import Mathlib.Algebra.Order.Floor.Ring
import Mathlib.Tactic.Push

namespace Carbon.Bench

open Carbon Carbon.Spec

theorem wordValue_eq (w : Nat) : wordValue w = ((decodeFloat w : Int) : ℚ) / 2 ^ 48 := by
  unfold wordValue decodeFloat
  rw [Nat.shiftLeft_eq]
  push_cast
  rfl

theorem wordValue_nonneg (w : Nat) : 0 ≤ wordValue w := by
  unfold wordValue; positivity

theorem wordValue_eq_zero {w : Nat} : wordValue w = 0 ↔ (decodeFloat w : Int) = 0 := by
  rw [wordValue_eq]
  simp

/-- The exact payout, in the integers the code works with. -/
theorem curveOut_int {x y z A B : Int} (hA : A ≠ 0) :
    curveOut x y z ((A : ℚ) / 2 ^ 48) ((B : ℚ) / 2 ^ 48) =
      (((y * A + z * B) * ((y * A + z * B) * x) : Int) : ℚ) /
        ((A * ((y * A + z * B) * x) + (z * ONE) * (z * ONE) : Int) : ℚ) := by
  unfold curveOut
  have hA' : (A : ℚ) / 2 ^ 48 ≠ 0 := by
    simpa using hA
  rw [if_neg hA', ← mul_div_mul_right _ _ (show ((2:ℚ) ^ 96) ≠ 0 by positivity)]
  unfold ONE
  push_cast
  congr 1 <;> ring

theorem curveIn_int {x y z A B : Int} (hA : A ≠ 0) :
    curveIn x y z ((A : ℚ) / 2 ^ 48) ((B : ℚ) / 2 ^ 48) =
      ((x * ((z * ONE) * (z * ONE)) : Int) : ℚ) /
        (((y * A + z * B) * (y * A + z * B - x * A) : Int) : ℚ) := by
  unfold curveIn
  have hA' : (A : ℚ) / 2 ^ 48 ≠ 0 := by
    simpa using hA
  rw [if_neg hA', ← mul_div_mul_right _ _ (show ((2:ℚ) ^ 96) ≠ 0 by positivity)]
  unfold ONE
  push_cast
  congr 1 <;> ring

theorem curveOut_zero (x y z : ℚ) (B : Int) :
    curveOut x y z 0 ((B : ℚ) / 2 ^ 48) = x * ((B * B : Int) : ℚ) / ((ONE * ONE : Int) : ℚ) := by
  unfold curveOut ONE
  rw [if_pos rfl]
  push_cast
  ring

theorem curveIn_zero (x y z : ℚ) (B : Int) :
    curveIn x y z 0 ((B : ℚ) / 2 ^ 48) = x * ((ONE * ONE : Int) : ℚ) / ((B * B : Int) : ℚ) := by
  unfold curveIn ONE
  rw [if_pos rfl]
  push_cast
  rw [div_pow, div_div_eq_mul_div]
  ring_nf

theorem le_div_int {r p q : Int} (hq : 0 < q) : (r : ℚ) ≤ (p : ℚ) / q ↔ r * q ≤ p := by
  rw [le_div_iff₀ (by exact_mod_cast hq)]
  exact_mod_cast Iff.rfl

theorem div_int_le {r p q : Int} (hq : 0 < q) : (p : ℚ) / q ≤ r ↔ p ≤ r * q := by
  rw [div_le_iff₀ (by exact_mod_cast hq)]
  exact_mod_cast Iff.rfl

theorem floor_div_int {p q : Int} (hq : 0 < q) : ⌊(p : ℚ) / q⌋ = p.fdiv q := by
  rw [fdiv_char hq, ← le_div_int hq]
  refine ⟨Int.floor_le _, ?_⟩
  have h := Int.lt_floor_add_one ((p : ℚ) / q)
  rw [div_lt_iff₀ (by exact_mod_cast hq)] at h
  exact_mod_cast h

theorem ceil_div_int {p q : Int} (hq : 0 < q) : ⌈(p : ℚ) / q⌉ = (p + q - 1).fdiv q := by
  rw [cdiv_char hq, ← div_int_le hq]
  refine ⟨?_, Int.le_ceil _⟩
  have h := Int.ceil_lt_add_one ((p : ℚ) / q)
  have h2 : ((⌈(p : ℚ) / q⌉ - 1 : Int) : ℚ) < (p : ℚ) / q := by push_cast; linarith
  rw [lt_div_iff₀ (by exact_mod_cast hq)] at h2
  exact_mod_cast h2

/-- What `tradeFunc` returns: the function's value when in range, or the fallback. -/
theorem tradeFunc_cases (amount : Int) (o : EncOrder) (func) (fb : Int) :
    (∃ r, func amount o.y o.z (decodeFloat o.A : Int) (decodeFloat o.B : Int) = .ok r ∧ 0 ≤ r ∧ r ≤ MAX128 ∧
      tradeFunc amount o func fb = r) ∨
    tradeFunc amount o func fb = fb := by
  unfold tradeFunc
  simp only
  cases h : func amount o.y o.z (decodeFloat o.A : Int) (decodeFloat o.B : Int) with
  | error e => right; rfl
  | ok r =>
    simp only [Py.ok_bind]
    unfold uint128 check
    by_cases hr : 0 ≤ r ∧ r ≤ MAX128
    · left; exact ⟨r, rfl, hr.1, hr.2, by rw [if_pos hr]⟩
    · right; rw [if_neg hr]

theorem tradeFunc_ok {amount : Int} {o : EncOrder} {func} {fb r : Int}
    (h : func amount o.y o.z (decodeFloat o.A : Int) (decodeFloat o.B : Int) = .ok r)
    (h0 : 0 ≤ r) (h1 : r ≤ MAX128) : tradeFunc amount o func fb = r := by
  unfold tradeFunc
  simp only [h, Py.ok_bind]
  unfold uint128 check
  rw [if_pos ⟨h0, h1⟩]

theorem tradeFunc_big {amount : Int} {o : EncOrder} {func} {fb r : Int}
    (h : func amount o.y o.z (decodeFloat o.A : Int) (decodeFloat o.B : Int) = .ok r)
    (h1 : MAX128 < r) : tradeFunc amount o func fb = fb := by
  unfold tradeFunc
  simp only [h, Py.ok_bind]
  unfold uint128 check
  rw [if_neg (by omega)]

theorem tradeFunc_error {amount : Int} {o : EncOrder} {func} {fb : Int} {e : Err}
    (h : func amount o.y o.z (decodeFloat o.A : Int) (decodeFloat o.B : Int) = .error e) :
    tradeFunc amount o func fb = fb := by
  unfold tradeFunc
  simp only [h, Py.error_bind]

theorem curveOut_nonneg {x y z a b : ℚ} (hx : 0 ≤ x) (hy : 0 ≤ y) (hz : 0 ≤ z) (ha : 0 ≤ a) (hb : 0 ≤ b) :
    0 ≤ curveOut x y z a b := by
  unfold curveOut; split <;> positivity

end Carbon.Bench
