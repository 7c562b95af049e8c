import Mathlib.Algebra.Order.Ring.Pow
import Mathlib.Tactic.FieldSimp
import Mathlib.Tactic.Linarith
import Mathlib.Tactic.Positivity
import Mathlib.Tactic.Ring
import Mathlib.Data.Rat.Floor
import Verif.Prop.SdkBase

/-!
# Floating-point arithmetic

The numbers of the program are Python floats (the annotations at carbon/carbon_order_ui.py:74-77, the conversions at
254-258). A sum, difference, product or quotient of floats is the exact result followed by a rounding, and a square
(`**2`, which calls the C function `pow`) is within the same relative error. Overflow, underflow, infinities and NaN are
left out: exponents are unbounded.
-/

set_option linter.unusedSectionVars false

namespace Carbon

/-- The standard model of rounding: `fl` rounds the result of `+`, `-`, `*`, `/`, and `sq` is `**2`, both with a relative error of
at most `u`. -/
structure Rounding (K : Type) [Field K] [LinearOrder K] where
  u : K
  u_nonneg : 0 ≤ u
  u_lt : u < 1
  fl : K → K
  sq : K → K
  fl_err : ∀ x, |fl x - x| ≤ u * |x|
  sq_err : ∀ x, |sq x - x ^ 2| ≤ u * x ^ 2

namespace Rounding

section Field
variable {K : Type} [Field K] [LinearOrder K]

/-- No rounding at all. -/
def exact [IsStrictOrderedRing K] : Rounding K where
  u := 0
  u_nonneg := le_refl 0
  u_lt := zero_lt_one
  fl := id
  sq := fun x => x ^ 2
  fl_err := by simp
  sq_err := by simp

variable (R : Rounding K)

/-- `a + b` of floats. -/
def add (a b : K) : K := R.fl (a + b)

/-- `a - b` of floats. -/
def sub (a b : K) : K := R.fl (a - b)

/-- `a * b` of floats. -/
def mul (a b : K) : K := R.fl (a * b)

/-- `a / b` of floats; division by zero raises. -/
def div (a b : K) : Py K := if b = 0 then .error .zeroDiv else .ok (R.fl (a / b))

/-- A rounding that respects the order and leaves floats as they are. -/
structure Regular : Prop where
  mono : ∀ {a b : K}, a ≤ b → R.fl a ≤ R.fl b
  idem : ∀ a : K, R.fl (R.fl a) = R.fl a
  square : ∀ a : K, R.sq a = R.fl (a * a)

/-- `x` is a float. -/
def Rep (x : K) : Prop := R.fl x = x

/-- `a` is the result of at most `n` roundings of a calculation with result `b`: their ratio is at most `(1 - u)⁻ⁿ`. -/
def Near (n : ℕ) (a b : K) : Prop := b * (1 - R.u) ^ n ≤ a ∧ a * (1 - R.u) ^ n ≤ b

variable {R} [IsStrictOrderedRing K]

theorem t_pos : 0 < 1 - R.u := by have := R.u_lt; linarith

theorem t_le : 1 - R.u ≤ 1 := by have := R.u_nonneg; linarith

theorem tn_pos (n : ℕ) : 0 < (1 - R.u) ^ n := pow_pos t_pos n

theorem tn_le (n : ℕ) : (1 - R.u) ^ n ≤ 1 := pow_le_one₀ t_pos.le t_le

theorem fl_zero : R.fl 0 = 0 := by
  have := R.fl_err 0
  simpa using this

theorem Near.nonneg {n : ℕ} {a b : K} (h : R.Near n a b) (hb : 0 ≤ b) : 0 ≤ a :=
  le_trans (mul_nonneg hb (tn_pos n).le) h.1

theorem Near.pos {n : ℕ} {a b : K} (h : R.Near n a b) (hb : 0 < b) : 0 < a :=
  lt_of_lt_of_le (mul_pos hb (tn_pos n)) h.1

theorem Near.symm {n : ℕ} {a b : K} (h : R.Near n a b) : R.Near n b a := ⟨h.2, h.1⟩

theorem near_refl (b : K) : R.Near 0 b b := by simp [Near]

theorem Near.mono {n m : ℕ} {a b : K} (h : R.Near n a b) (hb : 0 ≤ b) (hnm : n ≤ m) : R.Near m a b := by
  have ha := h.nonneg hb
  have hp : (1 - R.u) ^ m ≤ (1 - R.u) ^ n := pow_le_pow_of_le_one t_pos.le t_le hnm
  exact ⟨le_trans (mul_le_mul_of_nonneg_left hp hb) h.1, le_trans (mul_le_mul_of_nonneg_left hp ha) h.2⟩

theorem Near.trans {n m : ℕ} {a b c : K} (h : R.Near n a b) (g : R.Near m b c) : R.Near (n + m) a c := by
  constructor
  · rw [pow_add, mul_comm ((1 - R.u) ^ n), ← mul_assoc]
    exact le_trans (mul_le_mul_of_nonneg_right g.1 (tn_pos n).le) h.1
  · rw [pow_add, ← mul_assoc]
    exact le_trans (mul_le_mul_of_nonneg_right h.2 (tn_pos m).le) g.2

theorem near_of_err {a b : K} (hb : 0 ≤ b) (h : |a - b| ≤ R.u * b) : R.Near 1 a b := by
  obtain ⟨h1, h2⟩ := abs_le.mp h
  have hu := R.u_nonneg
  have hl := R.u_lt
  constructor
  · rw [pow_one]; nlinarith
  · rw [pow_one]
    have : a ≤ b * (1 + R.u) := by nlinarith
    have h3 := mul_le_mul_of_nonneg_right this (t_pos (R := R)).le
    have : b * (1 + R.u) * (1 - R.u) = b - b * R.u ^ 2 := by ring
    have : 0 ≤ b * R.u ^ 2 := by positivity
    linarith

theorem near_fl {b : K} (hb : 0 ≤ b) : R.Near 1 (R.fl b) b :=
  near_of_err hb (by have := R.fl_err b; rwa [abs_of_nonneg hb] at this)

theorem near_sq (b : K) : R.Near 1 (R.sq b) (b ^ 2) := near_of_err (sq_nonneg b) (R.sq_err b)

theorem Near.add {n m : ℕ} {a b c d : K} (h : R.Near n a b) (g : R.Near m c d) (hb : 0 ≤ b) (hd : 0 ≤ d) :
    R.Near (max n m + 1) (R.add a c) (b + d) := by
  have h' := h.mono hb (le_max_left n m)
  have g' := g.mono hd (le_max_right n m)
  have hs : R.Near (max n m) (a + c) (b + d) := by
    constructor
    · rw [add_mul]; exact add_le_add h'.1 g'.1
    · rw [add_mul]; exact add_le_add h'.2 g'.2
  have := (near_fl (R := R) (b := a + c) (add_nonneg (h.nonneg hb) (g.nonneg hd))).trans hs
  rwa [add_comm 1] at this

theorem Near.mul_exact {n m : ℕ} {a b c d : K} (h : R.Near n a b) (g : R.Near m c d) (hb : 0 ≤ b) (hd : 0 ≤ d) :
    R.Near (n + m) (a * c) (b * d) := by
  have ha := h.nonneg hb
  have hc := g.nonneg hd
  constructor
  · calc b * d * (1 - R.u) ^ (n + m) = (b * (1 - R.u) ^ n) * (d * (1 - R.u) ^ m) := by rw [pow_add]; ring
      _ ≤ a * c := mul_le_mul h.1 g.1 (mul_nonneg hd (tn_pos m).le) ha
  · calc a * c * (1 - R.u) ^ (n + m) = (a * (1 - R.u) ^ n) * (c * (1 - R.u) ^ m) := by rw [pow_add]; ring
      _ ≤ b * d := mul_le_mul h.2 g.2 (mul_nonneg hc (tn_pos m).le) hb

theorem Near.mul {n m : ℕ} {a b c d : K} (h : R.Near n a b) (g : R.Near m c d) (hb : 0 ≤ b) (hd : 0 ≤ d) :
    R.Near (n + m + 1) (R.mul a c) (b * d) := by
  have := (near_fl (R := R) (b := a * c) (mul_nonneg (h.nonneg hb) (g.nonneg hd))).trans (h.mul_exact g hb hd)
  rwa [add_comm 1] at this

theorem Near.inv {n : ℕ} {a b : K} (h : R.Near n a b) (hb : 0 < b) : R.Near n a⁻¹ b⁻¹ := by
  have ha := h.pos hb
  constructor
  · rw [← div_eq_inv_mul, ← one_div, div_le_div_iff₀ hb ha, one_mul, mul_comm]; exact h.2
  · rw [← div_eq_inv_mul, ← one_div, div_le_div_iff₀ ha hb, one_mul, mul_comm]; exact h.1

theorem Near.div {n m : ℕ} {a b c d : K} (h : R.Near n a b) (g : R.Near m c d) (hb : 0 ≤ b) (hd : 0 < d) :
    ∃ r, R.div a c = .ok r ∧ R.Near (n + m + 1) r (b / d) := by
  refine ⟨R.fl (a / c), if_neg (g.pos hd).ne', ?_⟩
  have hq := h.mul_exact (g.inv hd) hb (inv_nonneg.mpr hd.le)
  rw [← div_eq_mul_inv, ← div_eq_mul_inv] at hq
  have := (near_fl (R := R) (b := a / c) (div_nonneg (h.nonneg hb) (g.nonneg hd.le))).trans hq
  rwa [add_comm 1] at this

theorem Near.sq {n : ℕ} {a b : K} (h : R.Near n a b) (hb : 0 ≤ b) : R.Near (2 * n + 1) (R.sq a) (b ^ 2) := by
  have hs := h.mul_exact h hb hb
  rw [← pow_two, ← pow_two] at hs
  have := (near_sq (R := R) a).trans hs
  rwa [add_comm 1, ← two_mul] at this

theorem near_sub {a b : K} (h : b ≤ a) : R.Near 1 (R.sub a b) (a - b) := near_fl (sub_nonneg.mpr h)

theorem relative_of {a b d : K} (hb : 0 ≤ b) (hd0 : 0 ≤ d) (hd1 : d < 1) (h1 : b * (1 - d) ≤ a) (h2 : a * (1 - d) ≤ b) :
    |a - b| ≤ d / (1 - d) * b := by
  have hd : 0 < 1 - d := by linarith
  rw [abs_le, div_mul_eq_mul_div]
  constructor
  · have h3 : d * b ≤ d * b / (1 - d) := by
      rw [le_div_iff₀ hd]
      have := mul_nonneg (mul_nonneg hd0 hb) hd0
      nlinarith
    nlinarith
  · rw [le_div_iff₀ hd]; nlinarith

/-- The relative error after `n` roundings. -/
theorem Near.relative {n : ℕ} {a b : K} (h : R.Near n a b) (hb : 0 ≤ b) (hn : n * R.u < 1) :
    |a - b| ≤ n * R.u / (1 - n * R.u) * b := by
  have hu := R.u_nonneg
  have hp : 1 - n * R.u ≤ (1 - R.u) ^ n := by
    have := one_add_mul_le_pow (a := -R.u) (by have := R.u_lt; linarith) n
    calc 1 - n * R.u = 1 + n * -R.u := by ring
      _ ≤ (1 + -R.u) ^ n := this
      _ = (1 - R.u) ^ n := by rw [sub_eq_add_neg]
  exact relative_of hb (mul_nonneg (Nat.cast_nonneg n) hu) hn (le_trans (mul_le_mul_of_nonneg_left hp hb) h.1)
    (le_trans (mul_le_mul_of_nonneg_left hp (h.nonneg hb)) h.2)

end Field

/-! ### Rounding to a number of binary digits -/

section Binary
variable {K : Type} [Field K] [LinearOrder K] [IsStrictOrderedRing K] [FloorRing K]

/-- The distance of neighbouring floats of `p` digits around `x > 0`. -/
def ulp (p : ℕ) (x : K) : K := 2 ^ (Int.log 2 x + 1 - p)

/-- A positive number rounded to `p` binary digits, ties to the even one (IEEE 754 with unbounded exponents). -/
def flPos (p : ℕ) (x : K) : K := Sdk.roundHE (x / ulp p x) * ulp p x

/-- Rounding to `p` binary digits. -/
def flBin (p : ℕ) (x : K) : K := if x < 0 then -flPos p (-x) else if x = 0 then 0 else flPos p x

theorem ulp_pos (p : ℕ) (x : K) : 0 < ulp p x := zpow_pos (by norm_num) _

theorem ulp_half {p : ℕ} {x : K} (hx : 0 < x) : ulp p x / 2 ≤ x / 2 ^ p := by
  have h := Int.zpow_log_le_self (b := 2) (by norm_num) hx
  have e : ulp p x = ((2 : ℕ) : K) ^ Int.log 2 x * 2 / 2 ^ p := by
    unfold ulp
    rw [zpow_sub₀ (by norm_num), zpow_add₀ (by norm_num), zpow_natCast, zpow_one, Nat.cast_ofNat]
  rw [e]
  have hp : (0 : K) < 2 ^ p := by positivity
  rw [div_div, mul_comm ((2 : K) ^ p) 2, ← div_div, mul_div_assoc, div_self (by norm_num), mul_one]
  exact div_le_div_of_nonneg_right h hp.le

theorem flPos_err {p : ℕ} {x : K} (hx : 0 < x) : |flPos p x - x| ≤ x / 2 ^ p := by
  have hu := ulp_pos p x
  have e : flPos p x - x = (Sdk.roundHE (x / ulp p x) - x / ulp p x) * ulp p x := by
    unfold flPos; rw [sub_mul, div_mul_cancel₀ _ hu.ne']
  rw [e, abs_mul, abs_of_pos hu]
  have := mul_le_mul_of_nonneg_right (Sdk.roundHE_err (x / ulp p x)) hu.le
  have := ulp_half (p := p) hx
  linarith

theorem flBin_err (p : ℕ) (x : K) : |flBin p x - x| ≤ 1 / 2 ^ p * |x| := by
  unfold flBin
  rw [div_mul_eq_mul_div, one_mul]
  rcases lt_trichotomy x 0 with h | h | h
  · rw [if_pos h, abs_of_neg h, ← abs_neg]
    have := flPos_err (p := p) (x := -x) (neg_pos.mpr h)
    rwa [show -(-flPos p (-x) - x) = flPos p (-x) - -x by ring]
  · subst h; simp
  · rw [if_neg (not_lt.mpr h.le), if_neg h.ne', abs_of_pos h]; exact flPos_err h

theorem flPos_range {p : ℕ} (hp : 1 ≤ p) {x : K} (hx : 0 < x) :
    (2 : K) ^ Int.log 2 x ≤ flPos p x ∧ flPos p x ≤ 2 ^ (Int.log 2 x + 1) := by
  have hu := ulp_pos p x
  have h1 := Int.zpow_log_le_self (b := 2) (by norm_num) hx
  have h2 := (Int.lt_zpow_succ_log_self (b := 2) (by norm_num) x).le
  rw [Nat.cast_ofNat] at h1 h2
  obtain ⟨q, rfl⟩ : ∃ q, p = q + 1 := ⟨p - 1, by omega⟩
  have e1 : (2 : K) ^ Int.log 2 x = ((2 ^ q : ℤ) : K) * ulp (q + 1) x := by
    unfold ulp
    rw [Int.cast_pow, Int.cast_ofNat, ← zpow_natCast (2 : K) q, ← zpow_add₀ (by norm_num)]
    congr 1; push_cast; ring
  have e2 : (2 : K) ^ (Int.log 2 x + 1) = ((2 ^ (q + 1) : ℤ) : K) * ulp (q + 1) x := by
    unfold ulp
    rw [Int.cast_pow, Int.cast_ofNat, ← zpow_natCast (2 : K) (q + 1), ← zpow_add₀ (by norm_num)]
    congr 1; push_cast; ring
  unfold flPos
  constructor
  · rw [e1]
    refine mul_le_mul_of_nonneg_right ?_ hu.le
    rw [Int.cast_le, ← Sdk.roundHE_int (K := K) (2 ^ q)]
    refine Sdk.roundHE_mono ?_
    rw [le_div_iff₀ hu, ← e1]; exact h1
  · rw [e2]
    refine mul_le_mul_of_nonneg_right ?_ hu.le
    rw [Int.cast_le, ← Sdk.roundHE_int (K := K) (2 ^ (q + 1))]
    refine Sdk.roundHE_mono ?_
    rw [div_le_iff₀ hu, ← e2]; exact h2

theorem flPos_pos {p : ℕ} (hp : 1 ≤ p) {x : K} (hx : 0 < x) : 0 < flPos p x :=
  lt_of_lt_of_le (zpow_pos (by norm_num) _) (flPos_range hp hx).1

theorem flPos_mono {p : ℕ} (hp : 1 ≤ p) {x y : K} (hx : 0 < x) (h : x ≤ y) : flPos p x ≤ flPos p y := by
  have hy := lt_of_lt_of_le hx h
  rcases eq_or_lt_of_le (Int.log_mono_right (b := 2) hx h) with he | hl
  · have hu : ulp p x = ulp p y := by unfold ulp; rw [he]
    unfold flPos
    rw [hu]
    have hp := ulp_pos p y
    refine mul_le_mul_of_nonneg_right ?_ hp.le
    rw [Int.cast_le]
    exact Sdk.roundHE_mono (div_le_div_of_nonneg_right h hp.le)
  · exact le_trans (flPos_range hp hx).2 (le_trans (zpow_le_zpow_right₀ (by norm_num) (by omega)) (flPos_range hp hy).1)

theorem flBin_mono {p : ℕ} (hp : 1 ≤ p) {x y : K} (h : x ≤ y) : flBin p x ≤ flBin p y := by
  unfold flBin
  rcases lt_trichotomy x 0 with hx | hx | hx
  · rw [if_pos hx]
    have := flPos_pos hp (neg_pos.mpr hx)
    rcases lt_trichotomy y 0 with hy | hy | hy
    · rw [if_pos hy]; exact neg_le_neg (flPos_mono hp (neg_pos.mpr hy) (neg_le_neg h))
    · rw [if_neg (by rw [hy]; exact lt_irrefl _), if_pos hy]; linarith
    · rw [if_neg (not_lt.mpr hy.le), if_neg hy.ne']; have := flPos_pos hp hy; linarith
  · subst hx
    rw [if_neg (lt_irrefl _), if_pos rfl, if_neg (not_lt.mpr h)]
    split
    · exact le_refl _
    · next hy => exact (flPos_pos hp (lt_of_le_of_ne h (Ne.symm hy))).le
  · have hy := lt_of_lt_of_le hx h
    rw [if_neg (not_lt.mpr hx.le), if_neg hx.ne', if_neg (not_lt.mpr hy.le), if_neg hy.ne']
    exact flPos_mono hp hx h

theorem flPos_idem {p : ℕ} (hp : 1 ≤ p) {x : K} (hx : 0 < x) : flPos p (flPos p x) = flPos p x := by
  have hr := flPos_range hp hx
  rcases eq_or_lt_of_le hr.2 with he | hl
  · rw [he]
    have hlog : Int.log 2 ((2 : K) ^ (Int.log 2 x + 1)) = Int.log 2 x + 1 := by
      have := Int.log_zpow (R := K) (b := 2) (by norm_num) (Int.log 2 x + 1)
      rwa [Nat.cast_ofNat] at this
    obtain ⟨q, rfl⟩ : ∃ q, p = q + 1 := ⟨p - 1, by omega⟩
    set z : K := 2 ^ (Int.log 2 x + 1) with hz
    have e : z = ((2 ^ q : ℤ) : K) * ulp (q + 1) z := by
      unfold ulp
      rw [hlog, Int.cast_pow, Int.cast_ofNat, ← zpow_natCast (2 : K) q, ← zpow_add₀ (by norm_num), hz]
      congr 1; push_cast; ring
    have hd : z / ulp (q + 1) z = ((2 ^ q : ℤ) : K) := by
      rw [div_eq_iff (ulp_pos _ _).ne']; exact e
    unfold flPos
    rw [hd, Sdk.roundHE_int]
    exact e.symm
  · have hpos := flPos_pos hp hx
    have hlog : Int.log 2 (flPos p x) = Int.log 2 x := by
      refine le_antisymm ?_ ?_
      · have := (Int.lt_zpow_iff_log_lt (b := 2) (by norm_num) hpos).mp (by rw [Nat.cast_ofNat]; exact hl)
        omega
      · exact (Int.zpow_le_iff_le_log (b := 2) (by norm_num) hpos).mp (by rw [Nat.cast_ofNat]; exact hr.1)
    have hu : ulp p (flPos p x) = ulp p x := by unfold ulp; rw [hlog]
    conv_lhs => unfold flPos
    rw [show Sdk.roundHE (x / ulp p x) * ulp p x = flPos p x from rfl, hu]
    conv_lhs => rw [show flPos p x = Sdk.roundHE (x / ulp p x) * ulp p x from rfl]
    rw [mul_div_cancel_right₀ _ (ulp_pos p x).ne', Sdk.roundHE_int]
    rfl

theorem flBin_idem {p : ℕ} (hp : 1 ≤ p) (x : K) : flBin p (flBin p x) = flBin p x := by
  rcases lt_trichotomy x 0 with h | h | h
  · have hx : flBin p x = -flPos p (-x) := if_pos h
    have := flPos_pos hp (neg_pos.mpr h)
    rw [hx]
    unfold flBin
    rw [if_pos (by linarith), neg_neg, flPos_idem hp (neg_pos.mpr h)]
  · subst h; simp [flBin]
  · have hx : flBin p x = flPos p x := by unfold flBin; rw [if_neg (not_lt.mpr h.le), if_neg h.ne']
    have := flPos_pos hp h
    rw [hx]
    unfold flBin
    rw [if_neg (not_lt.mpr this.le), if_neg this.ne', flPos_idem hp h]

/-- Floats of `p` binary digits. -/
def binary (p : ℕ) (hp : 1 ≤ p) : Rounding K where
  u := 1 / 2 ^ p
  u_nonneg := by positivity
  u_lt := by
    rw [div_lt_one (by positivity)]
    exact one_lt_pow₀ (by norm_num) (by omega)
  fl := flBin p
  sq := fun x => flBin p (x * x)
  fl_err := flBin_err p
  sq_err := fun x => by
    have := flBin_err p (x * x)
    rw [abs_of_nonneg (mul_self_nonneg x)] at this
    rw [pow_two]; exact this

/-- Python floats: 53 binary digits. -/
def double : Rounding ℚ := binary 53 (by norm_num)

theorem binary_regular (p : ℕ) (hp : 1 ≤ p) : (binary (K := K) p hp).Regular := ⟨flBin_mono hp, flBin_idem hp, fun _ => rfl⟩

theorem double_regular : double.Regular := binary_regular _ _

end Binary

theorem exact_regular {K : Type} [Field K] [LinearOrder K] [IsStrictOrderedRing K] : (exact (K := K)).Regular :=
  ⟨fun h => h, fun _ => rfl, fun a => pow_two a⟩

end Rounding

end Carbon
