import Verif.Bench.Trade
import Mathlib.Tactic.Ring
import Mathlib.Tactic.Linarith
import Mathlib.Tactic.Positivity
import Mathlib.Tactic.FieldSimp
import Mathlib.Data.Rat.Cast.Order
import Mathlib.Algebra.Order.Field.Basic
import Mathlib.Algebra.Order.Field.Rat
import Mathlib.Data.Nat.Log
import Mathlib.Order.Bounds.Defs

namespace Carbon.Bench

open Carbon

/-! ## Float encoding -/

theorem bitLength_lt (n : Nat) : n < 2 ^ bitLength n := by
  unfold bitLength
  split
  · exact Nat.lt_log2_self
  · have : n = 0 := by omega
    simp [this]

theorem bitLength_le (n : Nat) (h : 0 < bitLength n) : 2 ^ (bitLength n - 1) ≤ n := by
  unfold bitLength at *
  split at h
  · rename_i hn
    simp only [hn, if_true, Nat.add_sub_cancel]
    exact Nat.log2_self_le (by omega)
  · omega

/-- The exponent used by `encodeFloat`. -/
def expo (v : Nat) : Nat := bitLength (v / 2 ^ 48)

theorem expo_upper (v : Nat) : v < 2 ^ (expo v + 48) := by
  have h := bitLength_lt (v / 2 ^ 48)
  have := Nat.lt_mul_of_div_lt h (by positivity)
  rw [pow_add, Nat.mul_comm]
  exact (Nat.mul_comm _ _) ▸ this

theorem expo_lower (v : Nat) (h : 0 < expo v) : 2 ^ (expo v + 47) ≤ v := by
  have h1 := bitLength_le (v / 2 ^ 48) h
  have h2 : 2 ^ (expo v - 1) * 2 ^ 48 ≤ v := by
    have := Nat.mul_le_mul_right (2 ^ 48) h1
    exact this.trans (Nat.div_mul_le_self _ _)
  rw [← pow_add] at h2
  have : expo v - 1 + 48 = expo v + 47 := by omega
  rwa [this] at h2

/-- Truncation performed by the encoding. -/
def trunc (v : Nat) : Nat := v / 2 ^ expo v * 2 ^ expo v

theorem mantissa_lt (v : Nat) : v / 2 ^ expo v < 2 ^ 48 := by
  rw [Nat.div_lt_iff_lt_mul (by positivity), ← pow_add, Nat.add_comm]
  exact expo_upper v

theorem encodeFloat_eq (v : Nat) : encodeFloat v = expo v * 2 ^ 48 + v / 2 ^ expo v := by
  have h := mantissa_lt v
  unfold encodeFloat
  simp only [Nat.shiftRight_eq_div_pow]
  change v / 2 ^ expo v ||| expo v * 2 ^ 48 = _
  rw [Nat.or_comm, Nat.mul_comm, ← Nat.two_pow_add_eq_or_of_lt h]

theorem encodeFloat_mod (v : Nat) : encodeFloat v % 2 ^ 48 = v / 2 ^ expo v := by
  rw [encodeFloat_eq, Nat.add_comm, Nat.add_mul_mod_self_right, Nat.mod_eq_of_lt (mantissa_lt v)]

theorem encodeFloat_div (v : Nat) : encodeFloat v / 2 ^ 48 = expo v := by
  rw [encodeFloat_eq, Nat.add_comm, Nat.add_mul_div_right _ _ (by positivity),
    Nat.div_eq_of_lt (mantissa_lt v), Nat.zero_add]

theorem decode_encode (v : Nat) : decodeFloat (encodeFloat v) = trunc v := by
  unfold decodeFloat trunc
  rw [encodeFloat_mod, encodeFloat_div, Nat.shiftLeft_eq]

theorem trunc_le (v : Nat) : trunc v ≤ v := Nat.div_mul_le_self _ _

theorem lt_trunc_add (v : Nat) : v < trunc v + 2 ^ expo v := by
  unfold trunc
  have := Nat.div_add_mod v (2 ^ expo v)
  have h2 := Nat.mod_lt v (show 0 < 2 ^ expo v by positivity)
  rw [Nat.mul_comm] at this
  omega

theorem trunc_lower (v : Nat) (h : 0 < expo v) : 2 ^ (expo v + 47) ≤ trunc v := by
  have h1 := expo_lower v h
  unfold trunc
  have : 2 ^ 47 ≤ v / 2 ^ expo v := by
    rw [Nat.le_div_iff_mul_le (by positivity), ← pow_add, Nat.add_comm]
    exact h1
  calc 2 ^ (expo v + 47) = 2 ^ 47 * 2 ^ expo v := by rw [← pow_add, Nat.add_comm]
    _ ≤ _ := Nat.mul_le_mul_right _ this

theorem expo_eq_zero {v : Nat} (h : v < 2 ^ 48) : expo v = 0 := by
  unfold expo
  rw [Nat.div_eq_of_lt h]; rfl

theorem le_trunc_of_representable (v m e : Nat) (hm : m < 2 ^ 48) (h : m * 2 ^ e ≤ v) :
    m * 2 ^ e ≤ trunc v := by
  rcases Nat.lt_or_ge e (expo v) with he | he
  · have h1 := trunc_lower v (by omega)
    have h2 : m * 2 ^ e ≤ 2 ^ (48 + e) := by
      rw [pow_add]; exact Nat.mul_le_mul_right _ hm.le
    have h3 : 2 ^ (48 + e) ≤ 2 ^ (expo v + 47) := Nat.pow_le_pow_right (by norm_num) (by omega)
    omega
  · obtain ⟨d, rfl⟩ := Nat.exists_eq_add_of_le he
    unfold trunc
    rw [Nat.pow_add, Nat.mul_comm (2 ^ expo v), ← Nat.mul_assoc] at h ⊢
    exact Nat.mul_le_mul_right _ ((Nat.le_div_iff_mul_le (by positivity)).2 h)

/-! ## Checked arithmetic -/

theorem check_ok {v m r : Int} : check v m = .ok r ↔ (0 ≤ v ∧ v ≤ m) ∧ r = v := by
  unfold check
  split
  · rename_i h; simp [h, eq_comm]
  · rename_i h; simp only [reduceCtorEq, false_iff]; tauto

theorem floorDiv_ok {a b r : Int} : floorDiv a b = .ok r ↔ b ≠ 0 ∧ r = a.fdiv b := by
  unfold floorDiv
  split
  · rename_i h; simp [h]
  · rename_i h; simp [h, eq_comm]

theorem mul_ok {a b r : Int} : mul a b = .ok r ↔ (0 ≤ a * b ∧ a * b ≤ MAX256) ∧ r = a * b := check_ok
theorem add_ok {a b r : Int} : add a b = .ok r ↔ (0 ≤ a + b ∧ a + b ≤ MAX256) ∧ r = a + b := check_ok
theorem sub_ok {a b r : Int} : sub a b = .ok r ↔ (0 ≤ a - b ∧ a - b ≤ MAX256) ∧ r = a - b := check_ok

theorem mulDivF_ok {a b c r : Int} : mulDivF a b c = .ok r ↔
    c ≠ 0 ∧ r = (a * b).fdiv c ∧ 0 ≤ r ∧ r ≤ MAX256 := by
  unfold mulDivF
  rw [Py.bind_eq_ok]
  simp only [floorDiv_ok, check_ok]
  constructor
  · rintro ⟨q, ⟨h1, rfl⟩, h2, rfl⟩; exact ⟨h1, rfl, h2.1, h2.2⟩
  · rintro ⟨h1, rfl, h2, h3⟩; exact ⟨_, ⟨h1, rfl⟩, ⟨h2, h3⟩, rfl⟩

theorem mulDivC_ok {a b c r : Int} : mulDivC a b c = .ok r ↔
    c ≠ 0 ∧ r = (a * b + c - 1).fdiv c ∧ 0 ≤ r ∧ r ≤ MAX256 := by
  unfold mulDivC
  rw [Py.bind_eq_ok]
  simp only [floorDiv_ok, check_ok]
  constructor
  · rintro ⟨q, ⟨h1, rfl⟩, h2, rfl⟩; exact ⟨h1, rfl, h2.1, h2.2⟩
  · rintro ⟨h1, rfl, h2, h3⟩; exact ⟨_, ⟨h1, rfl⟩, ⟨h2, h3⟩, rfl⟩

/-- Floor division by a positive integer as an inequality characterisation. -/
theorem fdiv_char {a b : Int} (hb : 0 < b) (q : Int) : q = a.fdiv b ↔ q * b ≤ a ∧ a < (q + 1) * b := by
  rw [Int.fdiv_eq_ediv_of_nonneg _ hb.le]
  constructor
  · rintro rfl
    exact ⟨Int.ediv_mul_le _ hb.ne', Int.lt_ediv_add_one_mul_self _ hb⟩
  · rintro ⟨h1, h2⟩
    apply le_antisymm
    · exact (Int.le_ediv_iff_mul_le hb).2 h1
    · have := (Int.ediv_lt_iff_lt_mul hb).2 h2
      omega

/-- Ceiling division by a positive integer as an inequality characterisation. -/
theorem cdiv_char {a b : Int} (hb : 0 < b) (q : Int) :
    q = (a + b - 1).fdiv b ↔ (q - 1) * b < a ∧ a ≤ q * b := by
  rw [fdiv_char hb]
  constructor
  · rintro ⟨h1, h2⟩; constructor <;> linarith
  · rintro ⟨h1, h2⟩; constructor <;> linarith

theorem MAX256_pos : 0 < MAX256 := by decide
theorem MAX128_pos : 0 < MAX128 := by decide
theorem ONE_pos : 0 < ONE := by decide

end Carbon.Bench
