import Mathlib.Analysis.SpecialFunctions.Pow.NNReal
import Mathlib.Data.Nat.Sqrt
import Verif.Float.Rounding

/-!
# Square roots of floats

`math.sqrt` of a float (used at carbon/carbon_order_ui.py:199-200, 231-232, 625) is the exact root followed by a rounding.
-/

set_option linter.unusedSectionVars false

namespace Carbon

namespace Rounding

section Field
variable {K : Type} [Field K] [LinearOrder K]

/-- A square root with a relative error of at most one rounding. -/
structure Root (R : Rounding K) where
  rt : K → K
  rt_nonneg : ∀ x, 0 ≤ rt x
  rt_lo : ∀ x, 0 ≤ x → x * (1 - R.u) ^ 2 ≤ rt x ^ 2
  rt_hi : ∀ x, 0 ≤ x → rt x ^ 2 * (1 - R.u) ^ 2 ≤ x

/-- A root that respects the order and undoes the square of a float. -/
structure Root.Regular {R : Rounding K} (Q : R.Root) : Prop where
  mono : ∀ {a b : K}, 0 ≤ a → a ≤ b → Q.rt a ≤ Q.rt b
  square : ∀ {b : K}, 0 ≤ b → R.Rep b → Q.rt (R.fl (b * b)) = b

/-- `sqrt(x)`; raises `ValueError` for negative numbers. -/
def Root.sqrt {R : Rounding K} (Q : R.Root) (x : K) : Py K := if x < 0 then .error .value else .ok (Q.rt x)

end Field

/-- The exact root. -/
noncomputable def exactRoot : (exact (K := ℝ)).Root where
  rt := Real.sqrt
  rt_nonneg := Real.sqrt_nonneg
  rt_lo := fun x hx => by simp [exact, Real.sq_sqrt hx]
  rt_hi := fun x hx => by simp [exact, Real.sq_sqrt hx]

theorem exactRoot_regular : exactRoot.Regular :=
  ⟨fun _ h => Real.sqrt_le_sqrt h, fun hb _ => Real.sqrt_mul_self hb⟩

/-! ### Roots of `p` binary digits -/

/-- The integer next to the root of `t`, ties to the even one. -/
def rootHE (t : ℚ) : ℕ :=
  let n := Nat.sqrt ⌊t⌋₊
  if t < (n + 1 / 2) ^ 2 then n else if (n + 1 / 2 : ℚ) ^ 2 < t then n + 1 else if n % 2 = 0 then n else n + 1

/-- The distance of neighbouring floats of `p` digits around the root of `x > 0`. -/
def rootUlp (p : ℕ) (x : ℚ) : ℚ := 2 ^ (Int.log 4 x + 1 - p)

/-- The root rounded to `p` binary digits. -/
def rtBin (p : ℕ) (x : ℚ) : ℚ := if x ≤ 0 then 0 else rootHE (x / rootUlp p x ^ 2) * rootUlp p x

theorem rootUlp_pos (p : ℕ) (x : ℚ) : 0 < rootUlp p x := zpow_pos (by norm_num) _

theorem sqrt_bounds {t : ℚ} (ht : 0 ≤ t) : ((Nat.sqrt ⌊t⌋₊ : ℕ) : ℚ) ^ 2 ≤ t ∧ t < ((Nat.sqrt ⌊t⌋₊ : ℕ) + 1 : ℚ) ^ 2 := by
  constructor
  · have h1 : Nat.sqrt ⌊t⌋₊ ^ 2 ≤ ⌊t⌋₊ := Nat.sqrt_le' _
    have h2 : ((Nat.sqrt ⌊t⌋₊ ^ 2 : ℕ) : ℚ) ≤ (⌊t⌋₊ : ℚ) := by exact_mod_cast h1
    have h3 := Nat.floor_le ht
    push_cast at h2
    linarith
  · have h1 : ⌊t⌋₊ < (Nat.sqrt ⌊t⌋₊ + 1) ^ 2 := Nat.lt_succ_sqrt' _
    have h2 : ⌊t⌋₊ + 1 ≤ (Nat.sqrt ⌊t⌋₊ + 1) ^ 2 := h1
    have h3 : ((⌊t⌋₊ + 1 : ℕ) : ℚ) ≤ (((Nat.sqrt ⌊t⌋₊ + 1) ^ 2 : ℕ) : ℚ) := by exact_mod_cast h2
    have h4 := Nat.lt_floor_add_one t
    push_cast at h3
    linarith

/-- The integer is next to the root. -/
theorem rootHE_bounds {t : ℚ} (ht : 0 ≤ t) :
    t ≤ (rootHE t + 1 / 2) ^ 2 ∧ (1 ≤ rootHE t → (rootHE t - 1 / 2 : ℚ) ^ 2 ≤ t) ∧ Nat.sqrt ⌊t⌋₊ ≤ rootHE t := by
  obtain ⟨h1, h2⟩ := sqrt_bounds ht
  unfold rootHE
  dsimp only
  set n := Nat.sqrt ⌊t⌋₊
  have hn : (0 : ℚ) ≤ n := Nat.cast_nonneg n
  split
  · next h =>
    refine ⟨h.le, fun hn1 => ?_, le_refl _⟩
    have : (1 : ℚ) ≤ n := by exact_mod_cast hn1
    nlinarith
  · next h =>
    split
    · next h' =>
      push_cast
      refine ⟨by nlinarith, fun _ => by linarith [show ((n : ℚ) + 1 - 1 / 2) ^ 2 = (n + 1 / 2) ^ 2 by ring], by omega⟩
    · next h' =>
      have e : t = (n + 1 / 2 : ℚ) ^ 2 := le_antisymm (not_lt.mp h') (not_lt.mp h)
      split
      · refine ⟨e.le, fun hn1 => ?_, le_refl _⟩
        have : (1 : ℚ) ≤ n := by exact_mod_cast hn1
        nlinarith
      · push_cast
        refine ⟨by nlinarith, fun _ => by rw [e]; exact (show ((n : ℚ) + 1 - 1 / 2) ^ 2 = (n + 1 / 2) ^ 2 by ring).le, by omega⟩

theorem rootHE_of_near {t : ℚ} {m : ℕ} (ht : 0 ≤ t) (hm : 1 ≤ m) (h1 : (m - 1 / 2 : ℚ) ^ 2 < t) (h2 : t < (m + 1 / 2) ^ 2) : rootHE t = m := by
  obtain ⟨a1, a2, _⟩ := rootHE_bounds ht
  have hm' : (1 : ℚ) ≤ m := by exact_mod_cast hm
  have hr : (0 : ℚ) ≤ rootHE t := Nat.cast_nonneg _
  have l1 : (m - 1 / 2 : ℚ) < rootHE t + 1 / 2 := lt_of_pow_lt_pow_left₀ 2 (by linarith) (lt_of_lt_of_le h1 a1)
  have l1' : m < rootHE t + 1 := by have : (m : ℚ) < ((rootHE t + 1 : ℕ) : ℚ) := by push_cast; linarith
                                    exact_mod_cast this
  have l2 : rootHE t ≤ m := by
    by_contra hc
    have hc : m + 1 ≤ rootHE t := by omega
    have hc' : (m + 1 : ℚ) ≤ rootHE t := by exact_mod_cast hc
    have := a2 (by omega)
    have : (rootHE t - 1 / 2 : ℚ) < m + 1 / 2 := lt_of_pow_lt_pow_left₀ 2 (by linarith) (lt_of_le_of_lt this h2)
    linarith
  omega

theorem rootHE_mono {s t : ℚ} (hs : 0 ≤ s) (h : s ≤ t) : rootHE s ≤ rootHE t := by
  rcases eq_or_lt_of_le h with he | hl
  · rw [he]
  · by_contra hc
    have hc : rootHE t + 1 ≤ rootHE s := by omega
    have hc' : (rootHE t + 1 : ℚ) ≤ rootHE s := by exact_mod_cast hc
    have h1 := (rootHE_bounds hs).2.1 (by omega)
    have h2 := (rootHE_bounds (le_trans hs h)).1
    have hr : (0 : ℚ) ≤ rootHE t := Nat.cast_nonneg _
    have : (rootHE s - 1 / 2 : ℚ) < rootHE t + 1 / 2 := lt_of_pow_lt_pow_left₀ 2 (by linarith) (by linarith)
    linarith

theorem scaled_range {p : ℕ} (hp : 1 ≤ p) {x : ℚ} (hx : 0 < x) :
    (2 ^ (p - 1) : ℚ) ^ 2 ≤ x / rootUlp p x ^ 2 ∧ x / rootUlp p x ^ 2 < (2 ^ p : ℚ) ^ 2 := by
  have h1 := Int.zpow_log_le_self (b := 4) (by norm_num) hx
  have h2 := Int.lt_zpow_succ_log_self (b := 4) (by norm_num) x
  have hu := rootUlp_pos p x
  obtain ⟨q, rfl⟩ : ∃ q, p = q + 1 := ⟨p - 1, by omega⟩
  have e4 : ∀ z : ℤ, (((4 : ℕ) : ℚ)) ^ z = ((2 : ℚ) ^ z) ^ 2 := fun z => by
    rw [show ((4 : ℕ) : ℚ) = 2 ^ 2 by norm_num, ← zpow_natCast, ← zpow_natCast, ← zpow_mul, ← zpow_mul, mul_comm]
  rw [e4] at h1 h2
  rw [Nat.add_sub_cancel]
  have e1 : (2 : ℚ) ^ Int.log 4 x = 2 ^ q * rootUlp (q + 1) x := by
    unfold rootUlp
    rw [← zpow_natCast (2 : ℚ) q, ← zpow_add₀ (by norm_num)]
    congr 1; push_cast; ring
  have e2 : (2 : ℚ) ^ (Int.log 4 x + 1) = 2 ^ (q + 1) * rootUlp (q + 1) x := by
    unfold rootUlp
    rw [← zpow_natCast (2 : ℚ) (q + 1), ← zpow_add₀ (by norm_num)]
    congr 1; push_cast; ring
  rw [e1, mul_pow] at h1
  rw [e2, mul_pow] at h2
  constructor
  · rw [le_div_iff₀ (by positivity)]; exact h1
  · rw [div_lt_iff₀ (by positivity)]; exact h2

theorem root_range {p : ℕ} (hp : 1 ≤ p) {x : ℚ} (hx : 0 < x) :
    2 ^ (p - 1) ≤ rootHE (x / rootUlp p x ^ 2) ∧ rootHE (x / rootUlp p x ^ 2) ≤ 2 ^ p := by
  obtain ⟨h1, h2⟩ := scaled_range hp hx
  have ht : 0 ≤ x / rootUlp p x ^ 2 := by have := rootUlp_pos p x; positivity
  constructor
  · refine le_trans ?_ (rootHE_bounds ht).2.2
    rw [Nat.le_sqrt']
    refine Nat.le_floor ?_
    push_cast
    exact h1
  · by_contra hc
    have hc : 2 ^ p + 1 ≤ rootHE (x / rootUlp p x ^ 2) := by omega
    have hc' : (2 ^ p + 1 : ℚ) ≤ rootHE (x / rootUlp p x ^ 2) := by exact_mod_cast hc
    have h3 := (rootHE_bounds ht).2.1 (le_trans (Nat.le_add_left 1 _) hc)
    have hpp : (0 : ℚ) < 2 ^ p := by positivity
    have : (rootHE (x / rootUlp p x ^ 2) - 1 / 2 : ℚ) < 2 ^ p := lt_of_pow_lt_pow_left₀ 2 hpp.le (lt_of_le_of_lt h3 h2)
    linarith

theorem rtBin_nonneg (p : ℕ) (x : ℚ) : 0 ≤ rtBin p x := by
  unfold rtBin
  split
  · exact le_refl _
  · exact mul_nonneg (Nat.cast_nonneg _) (rootUlp_pos p x).le

theorem rtBin_err {p : ℕ} (hp : 1 ≤ p) {x : ℚ} (hx : 0 ≤ x) :
    x * (1 - 1 / 2 ^ p) ^ 2 ≤ rtBin p x ^ 2 ∧ rtBin p x ^ 2 * (1 - 1 / 2 ^ p) ^ 2 ≤ x := by
  rcases eq_or_lt_of_le hx with h0 | h0
  · rw [← h0]; simp [rtBin]
  · have e : rtBin p x = rootHE (x / rootUlp p x ^ 2) * rootUlp p x := if_neg (not_le.mpr h0)
    have hu := rootUlp_pos p x
    set v := rootUlp p x
    set t := x / v ^ 2 with htd
    have ht : 0 < t := by positivity
    have hxt : x = t * v ^ 2 := by rw [htd, div_mul_cancel₀ _ (by positivity)]
    obtain ⟨b1, b2, _⟩ := rootHE_bounds ht.le
    have hm := (root_range hp h0).1
    have hm1 : 1 ≤ rootHE t := le_trans Nat.one_le_two_pow hm
    have hm' : (2 ^ (p - 1) : ℚ) ≤ rootHE t := by exact_mod_cast hm
    set m : ℚ := (rootHE t : ℚ) with hmd
    have hp2 : (2 : ℚ) ^ p = 2 * 2 ^ (p - 1) := by
      obtain ⟨q, rfl⟩ : ∃ q, p = q + 1 := ⟨p - 1, by omega⟩
      rw [Nat.add_sub_cancel, pow_succ]; ring
    set u : ℚ := 1 / 2 ^ p with hu'
    have hpp : (0 : ℚ) < 2 ^ p := by positivity
    have hu0 : 0 < u := by positivity
    have hu1 : u ≤ 1 := by rw [hu', div_le_one hpp]; exact one_le_pow₀ (by norm_num)
    have hum : 1 / 2 ≤ u * m := by
      rw [hu', div_mul_eq_mul_div, one_mul, le_div_iff₀ hpp]; linarith
    have hm0 : 1 ≤ m := by rw [hmd]; exact_mod_cast hm1
    rw [e, mul_pow]
    constructor
    · rw [hxt]
      have k1 : (m + 1 / 2) * (1 - u) ≤ m := by nlinarith
      have k2 : ((m + 1 / 2) * (1 - u)) ^ 2 ≤ m ^ 2 := pow_le_pow_left₀ (mul_nonneg (by linarith) (by linarith)) k1 2
      rw [mul_pow] at k2
      have k3 : t * (1 - u) ^ 2 ≤ m ^ 2 := le_trans (mul_le_mul_of_nonneg_right b1 (sq_nonneg _)) k2
      calc t * v ^ 2 * (1 - u) ^ 2 = t * (1 - u) ^ 2 * v ^ 2 := by ring
        _ ≤ m ^ 2 * v ^ 2 := mul_le_mul_of_nonneg_right k3 (by positivity)
    · rw [hxt]
      have k1 : m * (1 - u) ≤ m - 1 / 2 := by nlinarith
      have k2 : (m * (1 - u)) ^ 2 ≤ (m - 1 / 2) ^ 2 := pow_le_pow_left₀ (mul_nonneg (by linarith) (by linarith)) k1 2
      rw [mul_pow] at k2
      have k3 := le_trans k2 (b2 hm1)
      calc m ^ 2 * v ^ 2 * (1 - u) ^ 2 = m ^ 2 * (1 - u) ^ 2 * v ^ 2 := by ring
        _ ≤ t * v ^ 2 := mul_le_mul_of_nonneg_right k3 (by positivity)

theorem rtBin_mono {p : ℕ} (hp : 1 ≤ p) {x y : ℚ} (hx : 0 ≤ x) (h : x ≤ y) : rtBin p x ≤ rtBin p y := by
  rcases eq_or_lt_of_le hx with h0 | h0
  · rw [← h0]
    have : rtBin p 0 = 0 := if_pos (le_refl _)
    rw [this]; exact rtBin_nonneg p y
  · have hy := lt_of_lt_of_le h0 h
    unfold rtBin
    rw [if_neg (not_le.mpr h0), if_neg (not_le.mpr hy)]
    rcases eq_or_lt_of_le (Int.log_mono_right (b := 4) h0 h) with he | hl
    · have hu : rootUlp p x = rootUlp p y := by unfold rootUlp; rw [he]
      rw [hu]
      have hv := rootUlp_pos p y
      refine mul_le_mul_of_nonneg_right ?_ hv.le
      exact_mod_cast rootHE_mono (by positivity) (div_le_div_of_nonneg_right h (by positivity))
    · have r1 : (rootHE (x / rootUlp p x ^ 2) : ℚ) ≤ 2 ^ p := by exact_mod_cast (root_range hp h0).2
      have r2 : (2 ^ (p - 1) : ℚ) ≤ rootHE (y / rootUlp p y ^ 2) := by exact_mod_cast (root_range hp hy).1
      have hv := rootUlp_pos p y
      calc (rootHE (x / rootUlp p x ^ 2) : ℚ) * rootUlp p x ≤ 2 ^ p * rootUlp p x := mul_le_mul_of_nonneg_right r1 (rootUlp_pos p x).le
        _ = 2 ^ (Int.log 4 x + 1) := by
          unfold rootUlp
          rw [← zpow_natCast (2 : ℚ) p, ← zpow_add₀ (by norm_num)]
          congr 1; ring
        _ ≤ 2 ^ Int.log 4 y := zpow_le_zpow_right₀ (by norm_num) (by omega)
        _ = 2 ^ (p - 1) * rootUlp p y := by
          unfold rootUlp
          rw [← zpow_natCast (2 : ℚ) (p - 1), ← zpow_add₀ (by norm_num)]
          congr 1; push_cast [hp]; ring
        _ ≤ _ := mul_le_mul_of_nonneg_right r2 hv.le

/-- A positive float is an integer of `p` digits times a power of two. -/
theorem rep_pos {p : ℕ} (hp : 1 ≤ p) {b : ℚ} (hb : 0 < b) (h : flBin p b = b) :
    ∃ m : ℕ, b = m * ulp p b ∧ 2 ^ (p - 1) ≤ m ∧ m < 2 ^ p := by
  have e : flPos p b = b := by
    unfold flBin at h
    rwa [if_neg (not_lt.mpr hb.le), if_neg hb.ne'] at h
  have hu := ulp_pos p b
  have h1 := Int.zpow_log_le_self (b := 2) (by norm_num) hb
  have h2 := Int.lt_zpow_succ_log_self (b := 2) (by norm_num) b
  rw [Nat.cast_ofNat] at h1 h2
  have e1 : (2 : ℚ) ^ Int.log 2 b = 2 ^ (p - 1) * ulp p b := by
    unfold ulp
    rw [← zpow_natCast (2 : ℚ) (p - 1), ← zpow_add₀ (by norm_num)]
    congr 1; push_cast [hp]; ring
  have e2 : (2 : ℚ) ^ (Int.log 2 b + 1) = 2 ^ p * ulp p b := by
    unfold ulp
    rw [← zpow_natCast (2 : ℚ) p, ← zpow_add₀ (by norm_num)]
    congr 1; ring
  have hz : b = (Sdk.roundHE (b / ulp p b) : ℚ) * ulp p b := by conv_lhs => rw [← e]; unfold flPos
  set z := Sdk.roundHE (b / ulp p b)
  have hz1 : (2 ^ (p - 1) : ℚ) ≤ z := by
    rw [e1] at h1; conv_rhs at h1 => rw [hz]
    exact le_of_mul_le_mul_right h1 hu
  have hz2 : (z : ℚ) < 2 ^ p := by
    rw [e2] at h2; conv_lhs at h2 => rw [hz]
    exact lt_of_mul_lt_mul_right h2 hu.le
  have hz0 : 0 ≤ z := by
    have : (0 : ℚ) ≤ z := le_trans (by positivity) hz1
    exact_mod_cast this
  obtain ⟨m, hm⟩ := Int.eq_ofNat_of_zero_le hz0
  rw [hm] at hz hz1 hz2
  refine ⟨m, by simpa using hz, ?_, ?_⟩
  · have : ((2 ^ (p - 1) : ℕ) : ℚ) ≤ m := by push_cast; simpa using hz1
    exact_mod_cast this
  · have : (m : ℚ) < ((2 ^ p : ℕ) : ℚ) := by push_cast; simpa using hz2
    exact_mod_cast this

theorem log_four {x : ℚ} {e : ℤ} (hx : 0 < x) (h1 : ((2 : ℚ) ^ e) ^ 2 ≤ x) (h2 : x < ((2 : ℚ) ^ (e + 1)) ^ 2) : Int.log 4 x = e := by
  have e4 : ∀ z : ℤ, (((4 : ℕ) : ℚ)) ^ z = ((2 : ℚ) ^ z) ^ 2 := fun z => by
    rw [show ((4 : ℕ) : ℚ) = 2 ^ 2 by norm_num, ← zpow_natCast, ← zpow_natCast, ← zpow_mul, ← zpow_mul, mul_comm]
  refine le_antisymm ?_ ?_
  · have := (Int.lt_zpow_iff_log_lt (b := 4) (by norm_num) hx).mp (by rw [e4]; exact h2)
    omega
  · exact (Int.zpow_le_iff_le_log (b := 4) (by norm_num) hx).mp (by rw [e4]; exact h1)

/-- The root of the rounded square of a float is the float. -/
theorem rtBin_square {p : ℕ} (hp : 2 ≤ p) {b : ℚ} (hb : 0 ≤ b) (h : flBin p b = b) : rtBin p (flBin p (b * b)) = b := by
  have hp1 : 1 ≤ p := by omega
  rcases eq_or_lt_of_le hb with h0 | h0
  · rw [← h0]; simp [flBin, rtBin]
  · obtain ⟨m, hm, m1, m2⟩ := rep_pos hp1 h0 h
    have hv := ulp_pos p b
    set v := ulp p b with hvd
    have hbb : 0 < b * b := mul_pos h0 h0
    have hx : flBin p (b * b) = flPos p (b * b) := by unfold flBin; rw [if_neg (not_lt.mpr hbb.le), if_neg hbb.ne']
    rw [hx]
    have hpos := flPos_pos hp1 hbb
    have herr := abs_le.mp (flPos_err (p := p) hbb)
    set x := flPos p (b * b) with hxd
    have hpp : (0 : ℚ) < 2 ^ p := by positivity
    have m1' : (2 ^ (p - 1) : ℚ) ≤ m := by exact_mod_cast m1
    have m2' : (m : ℚ) + 1 ≤ 2 ^ p := by exact_mod_cast m2
    have hp2 : (2 : ℚ) ^ p = 2 * 2 ^ (p - 1) := by
      obtain ⟨q, rfl⟩ : ∃ q, p = q + 1 := ⟨p - 1, by omega⟩
      rw [Nat.add_sub_cancel, pow_succ]; ring
    have hq2 : (2 : ℚ) ≤ 2 ^ (p - 1) := by
      calc (2 : ℚ) = 2 ^ 1 := by norm_num
        _ ≤ 2 ^ (p - 1) := pow_le_pow_right₀ (by norm_num) (by omega)
    have hmpos : (0 : ℚ) < m := by linarith
    -- the square in units of the last digit
    have hsq : b * b = (m : ℚ) ^ 2 * v ^ 2 := by rw [hm]; ring
    have hq : b * b / 2 ^ p < m * v ^ 2 := by
      rw [hsq, div_lt_iff₀ hpp]
      have : (m : ℚ) ^ 2 < m * 2 ^ p := by nlinarith
      have hv2 : 0 < v ^ 2 := by positivity
      nlinarith
    have hlo : ((m : ℚ) - 1 / 2) ^ 2 * v ^ 2 < x := by
      have : ((m : ℚ) ^ 2 - b * b / 2 ^ p / v ^ 2) * v ^ 2 ≤ x := by
        rw [sub_mul, div_mul_cancel₀ _ (by positivity), ← hsq]; linarith [herr.1]
      refine lt_of_lt_of_le ?_ this
      refine mul_lt_mul_of_pos_right ?_ (by positivity)
      have k : b * b / 2 ^ p / v ^ 2 = (m : ℚ) ^ 2 / 2 ^ p := by rw [hsq]; field_simp
      rw [k]
      have : (m : ℚ) ^ 2 / 2 ^ p ≤ m - m / 2 ^ p := by
        rw [div_le_iff₀ hpp, sub_mul, div_mul_cancel₀ _ hpp.ne']; nlinarith
      have : 1 / 2 ≤ (m : ℚ) / 2 ^ p := by rw [le_div_iff₀ hpp]; linarith
      nlinarith
    have hhi : x < ((m : ℚ) + 1 / 2) ^ 2 * v ^ 2 := by
      have hv2 : 0 < v ^ 2 := by positivity
      nlinarith [herr.2]
    -- the digits of the root
    have hlog : Int.log 4 x = Int.log 2 b := by
      have e1 : (2 : ℚ) ^ Int.log 2 b = 2 ^ (p - 1) * v := by
        rw [hvd]; unfold ulp
        rw [← zpow_natCast (2 : ℚ) (p - 1), ← zpow_add₀ (by norm_num)]
        congr 1; push_cast [hp1]; ring
      have e2 : (2 : ℚ) ^ (Int.log 2 b + 1) = 2 ^ p * v := by
        rw [hvd]; unfold ulp
        rw [← zpow_natCast (2 : ℚ) p, ← zpow_add₀ (by norm_num)]
        congr 1; ring
      refine log_four hpos ?_ ?_
      · -- a power of two is a float
        have hpow : flPos p (((2 : ℚ) ^ Int.log 2 b) ^ 2) = ((2 : ℚ) ^ Int.log 2 b) ^ 2 := by
          have he : ((2 : ℚ) ^ Int.log 2 b) ^ 2 = 2 ^ (2 * Int.log 2 b) := by
            rw [← zpow_natCast, ← zpow_mul, mul_comm]; rfl
          rw [he]
          have hl : Int.log 2 ((2 : ℚ) ^ (2 * Int.log 2 b)) = 2 * Int.log 2 b := by
            have := Int.log_zpow (R := ℚ) (b := 2) (by norm_num) (2 * Int.log 2 b)
            rwa [Nat.cast_ofNat] at this
          set z : ℚ := 2 ^ (2 * Int.log 2 b) with hz
          have e : z = ((2 ^ (p - 1) : ℤ) : ℚ) * ulp p z := by
            unfold ulp
            rw [hl, Int.cast_pow, Int.cast_ofNat, ← zpow_natCast (2 : ℚ) (p - 1), ← zpow_add₀ (by norm_num), hz]
            congr 1; push_cast [hp1]; ring
          have hd : z / ulp p z = ((2 ^ (p - 1) : ℤ) : ℚ) := by rw [div_eq_iff (ulp_pos _ _).ne']; exact e
          unfold flPos
          rw [hd, Sdk.roundHE_int]
          exact e.symm
        rw [← hpow]
        refine flPos_mono hp1 (by positivity) ?_
        rw [e1, hsq, mul_pow]
        exact mul_le_mul_of_nonneg_right (pow_le_pow_left₀ (by positivity) m1' 2) (by positivity)
      · rw [e2, mul_pow]
        refine lt_of_lt_of_le hhi (mul_le_mul_of_nonneg_right ?_ (by positivity))
        exact pow_le_pow_left₀ (by positivity) (by linarith) 2
    have hru : rootUlp p x = v := by unfold rootUlp; rw [hlog]; rfl
    unfold rtBin
    rw [if_neg (not_le.mpr hpos), hru, rootHE_of_near (m := m)]
    · exact hm.symm
    · positivity
    · have : 2 ^ (p - 1) ≤ m := m1
      exact le_trans Nat.one_le_two_pow this
    · rw [lt_div_iff₀ (by positivity)]; exact hlo
    · rw [div_lt_iff₀ (by positivity)]; exact hhi

/-- Roots of `p` binary digits. -/
def binaryRoot (p : ℕ) (hp : 1 ≤ p) : (binary (K := ℚ) p hp).Root where
  rt := rtBin p
  rt_nonneg := rtBin_nonneg p
  rt_lo := fun _ hx => (rtBin_err hp hx).1
  rt_hi := fun _ hx => (rtBin_err hp hx).2

/-- `math.sqrt`. -/
def doubleRoot : double.Root := binaryRoot 53 (by norm_num)

theorem doubleRoot_regular : doubleRoot.Regular := ⟨rtBin_mono (by norm_num), fun hb h => rtBin_square (by norm_num) hb h⟩

end Rounding

end Carbon
