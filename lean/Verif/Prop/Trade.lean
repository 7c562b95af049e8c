import Verif.Bench.TradeAccuracy

/-!
# Properties of the integer trade functions (C01 – C07, C56, C57)
-/

namespace Carbon.Prop.Trade

open Carbon Carbon.Bench Carbon.Spec

/-! ## C01, C02: rate words -/

/-- The numbers a rate word can hold: a mantissa of 48 bits, scaled by a power of two. -/
def Representable (n : ℕ) : Prop := ∃ m e, m < 2 ^ 48 ∧ n = m * 2 ^ e

/-- **C01** Storing and reading back a rate gives the largest representable number not above it. -/
theorem C01_roundtrip_greatest (v : ℕ) :
    IsGreatest {n | Representable n ∧ n ≤ v} (decodeFloat (encodeFloat v)) := by
  rw [decode_encode]
  refine ⟨⟨⟨_, _, mantissa_lt v, rfl⟩, trunc_le v⟩, ?_⟩
  rintro n ⟨⟨m, e, hm, rfl⟩, hle⟩
  exact le_trunc_of_representable v m e hm hle

/-- **C01** Values below 2^48 are stored exactly. -/
theorem C01_exact_below (v : ℕ) (h : v < 2 ^ 48) : decodeFloat (encodeFloat v) = v := by
  rw [decode_encode]
  simp [trunc, expo_eq_zero h]

/-- **C01** The relative loss is below 2^-47. -/
theorem C01_relative_loss (v : ℕ) (hv : 0 < v) :
    (v - decodeFloat (encodeFloat v)) * 2 ^ 47 < v := by
  rw [decode_encode]
  have h1 := lt_trunc_add v
  rcases Nat.eq_zero_or_pos (expo v) with h | h
  · rw [h] at h1
    have : v - trunc v = 0 := by omega
    rw [this, Nat.zero_mul]; exact hv
  · have h2 := expo_lower v h
    have h3 : v - trunc v < 2 ^ expo v := by
      have h4 := trunc_le v
      generalize 2 ^ expo v = p at h1 ⊢
      omega
    calc (v - trunc v) * 2 ^ 47 < 2 ^ expo v * 2 ^ 47 := Nat.mul_lt_mul_of_pos_right h3 (by positivity)
      _ = 2 ^ (expo v + 47) := by rw [pow_add]
      _ ≤ v := h2

example : decodeFloat (encodeFloat (2 ^ 50 + 3)) = 2 ^ 50 := by decide
example : Representable (5 * 2 ^ 60) := ⟨5, 60, by norm_num, rfl⟩

/-- **C02** Encoding preserves the order of rates. -/
theorem C02_monotone (u v : ℕ) (h : u ≤ v) :
    decodeFloat (encodeFloat u) ≤ decodeFloat (encodeFloat v) := by
  obtain ⟨⟨hr, hle⟩, _⟩ := C01_roundtrip_greatest u
  exact (C01_roundtrip_greatest v).2 ⟨hr, hle.trans h⟩

/-- **C02** Representable numbers, in particular decoded ones, survive a further round trip unchanged. -/
theorem C02_representable_exact (v : ℕ) (h : Representable v) : decodeFloat (encodeFloat v) = v :=
  le_antisymm (C01_roundtrip_greatest v).1.2 ((C01_roundtrip_greatest v).2 ⟨h, le_rfl⟩)

/-- **C02** Re-encoding a decoded value reproduces the same stored word. -/
theorem C02_word_stable (v : ℕ) :
    encodeFloat (decodeFloat (encodeFloat v)) = encodeFloat v := by
  rw [decode_encode]
  have he : expo (trunc v) = expo v := by
    rcases Nat.eq_zero_or_pos (expo v) with h | h
    · have h1 : trunc v = v := by simp [trunc, h]
      rw [h1]
    · have h1 := trunc_lower v h
      have h2 := (trunc_le v).trans_lt (expo_upper v)
      have h3 := expo_upper (trunc v)
      have h4 : expo v + 47 < expo (trunc v) + 48 := by
        by_contra hc
        exact absurd (h3.trans_le (Nat.pow_le_pow_right (by norm_num) (not_lt.1 hc))) (not_lt.2 h1)
      have h5 : 0 < expo (trunc v) := by omega
      have h6 := expo_lower _ h5
      have h7 : expo (trunc v) + 47 < expo v + 48 := by
        by_contra hc
        exact absurd (h6.trans_lt h2) (not_lt.2 (Nat.pow_le_pow_right (by norm_num) (not_lt.1 hc)))
      omega
  rw [encodeFloat_eq, encodeFloat_eq v, he]
  congr 1
  unfold trunc
  exact Nat.mul_div_cancel _ (by positivity)

example : decodeFloat (encodeFloat 12345678901234567) ≤ decodeFloat (encodeFloat 12345678901234568) :=
  C02_monotone _ _ (by norm_num)

/-! ## C03, C04: rounding always favours the order -/

/-- **C03** A trade by source amount never pays out more than the exact curve, whatever the
amount, the fill state and the size of the numbers. -/
theorem C03_payout_le_curve (x : ℤ) (o : EncOrder) (hx : 0 ≤ x) (hy : 0 ≤ o.y) (hz : 0 ≤ o.z) :
    (tradeBySourceAmount x o : ℚ) ≤ curveOut x o.y o.z (wordValue o.A) (wordValue o.B) := by
  rcases tradeFunc_cases x o tradeBySourceAmountFunc 0 with ⟨r, hf, h0, _, heq⟩ | h
  · unfold tradeBySourceAmount
    rw [heq]
    by_cases hA : (decodeFloat o.A : ℤ) = 0
    · rw [hA] at hf
      obtain ⟨_, hr⟩ := source_core_zero hf
      rw [wordValue_eq_zero.2 hA, wordValue_eq, curveOut_zero, ← Int.cast_mul, le_div_int (by decide)]
      exact ((fdiv_char (by decide) _).1 hr).1
    · obtain ⟨_, hD, hle⟩ := source_core hA (by positivity) hf
      rw [wordValue_eq, wordValue_eq, curveOut_int hA, le_div_int hD]
      exact hle
  · unfold tradeBySourceAmount
    rw [h]
    simpa using curveOut_nonneg (by exact_mod_cast hx) (by exact_mod_cast hy) (by exact_mod_cast hz)
      (wordValue_nonneg _) (wordValue_nonneg _)

/-- **C04** A trade by target amount that gets a real quote (below the fallback value) never charges less than
the exact curve, and asks only for amounts the curve can reach. -/
theorem C04_cost_ge_curve (d : ℤ) (o : EncOrder) (h : tradeByTargetAmount d o < 2 ^ 128 - 1) :
    curveIn d o.y o.z (wordValue o.A) (wordValue o.B) ≤ tradeByTargetAmount d o ∧
    (wordValue o.A = 0 → 0 < wordValue o.B) ∧
    (wordValue o.A ≠ 0 → 0 ≤ d ∧
      wordValue o.A * d < wordValue o.A * o.y + wordValue o.B * o.z) := by
  rcases tradeFunc_cases d o tradeByTargetAmountFunc MAX128 with ⟨r, hf, h0, _, heq⟩ | h'
  · unfold tradeByTargetAmount at *
    rw [heq] at *
    by_cases hA : (decodeFloat o.A : ℤ) = 0
    · rw [hA] at hf
      obtain ⟨_, hB, hr⟩ := target_core_zero hf
      refine ⟨?_, ?_, ?_⟩
      · rw [wordValue_eq_zero.2 hA, wordValue_eq, curveIn_zero, ← Int.cast_mul, div_int_le hB]
        exact ((cdiv_char hB _).1 hr).2
      · intro _
        refine lt_of_le_of_ne (wordValue_nonneg _) (fun hb => ?_)
        rw [eq_comm, wordValue_eq_zero] at hb
        simp [hb] at hB
      · intro hne
        exact absurd (wordValue_eq_zero.2 hA) hne
    · have hApos : (0:ℤ) < (decodeFloat o.A : ℤ) := lt_of_le_of_ne (by positivity) (Ne.symm hA)
      have hsub : 0 ≤ o.y * (decodeFloat o.A : ℤ) + o.z * (decodeFloat o.B : ℤ) := by
        unfold tradeByTargetAmountFunc at hf
        rw [if_neg hA] at hf
        simp only [Py.bind_eq_ok, mul_ok, add_ok] at hf
        obtain ⟨_, _, _, ⟨_, rfl⟩, _, ⟨_, rfl⟩, _, ⟨hh, rfl⟩, _⟩ := hf
        exact hh.1
      obtain ⟨_, hd, hD, hle⟩ := target_core hA (by positivity) hf
      refine ⟨?_, ?_, ?_⟩
      · rw [wordValue_eq, wordValue_eq, curveIn_int hA, div_int_le hD]
        exact hle
      · intro h0; exact absurd (wordValue_eq_zero.1 h0) hA
      · intro _
        refine ⟨hd, ?_⟩
        have hpos := (pos_iff_pos_of_mul_pos hD).1
        have h1 : 0 < o.y * (decodeFloat o.A : ℤ) + o.z * (decodeFloat o.B : ℤ) := by
          refine lt_of_le_of_ne hsub (fun hh => ?_)
          rw [← hh] at hD; simp at hD
        have h2 := hpos h1
        have h3 : (((decodeFloat o.A : ℤ) * d : ℤ) : ℚ) <
            (((decodeFloat o.A : ℤ) * o.y + (decodeFloat o.B : ℤ) * o.z : ℤ) : ℚ) := by
          exact_mod_cast (by linarith :
            (decodeFloat o.A : ℤ) * d < (decodeFloat o.A : ℤ) * o.y + (decodeFloat o.B : ℤ) * o.z)
        rw [wordValue_eq, wordValue_eq]
        push_cast at h3 ⊢
        rw [div_mul_eq_mul_div, div_mul_eq_mul_div, div_mul_eq_mul_div, ← add_div]
        exact div_lt_div_of_pos_right h3 (by positivity)
  · exfalso
    unfold tradeByTargetAmount at h
    rw [h'] at h
    exact absurd h (by unfold MAX128; exact lt_irrefl _)

/-- A concrete order used in the examples: 10^20 of 2·10^20 units left, prices 1 to about 4. -/
def sampleOrder : EncOrder := ⟨10 ^ 20, 2 * 10 ^ 20, encodeFloat (2 ^ 48), encodeFloat (2 ^ 48)⟩

example : tradeBySourceAmount (10 ^ 18) sampleOrder = 2233250620347394540 := by decide
example : tradeByTargetAmount (10 ^ 18) sampleOrder = 445930880713489410 ∧
    tradeByTargetAmount (10 ^ 18) sampleOrder < 2 ^ 128 - 1 := by decide
/-- An order so large that the rescaling branch is taken. -/
example : tradeBySourceAmount (10 ^ 18) ⟨10 ^ 30, 2 * 10 ^ 30, encodeFloat (2 ^ 48), encodeFloat (2 ^ 48)⟩
    = 2249999999998312500 := by decide

/-! ## C05: quotes are total and in range -/

/-- **C05** Whatever the inputs, both quotes are unsigned 128 bit numbers. -/
theorem C05_range (x : ℤ) (o : EncOrder) :
    (0 ≤ tradeBySourceAmount x o ∧ tradeBySourceAmount x o < 2 ^ 128) ∧
    (0 ≤ tradeByTargetAmount x o ∧ tradeByTargetAmount x o < 2 ^ 128) := by
  have hM : MAX128 = 2 ^ 128 - 1 := rfl
  constructor
  · rcases tradeFunc_cases x o tradeBySourceAmountFunc 0 with ⟨r, _, h0, h1, heq⟩ | h
    · unfold tradeBySourceAmount; omega
    · unfold tradeBySourceAmount; omega
  · rcases tradeFunc_cases x o tradeByTargetAmountFunc MAX128 with ⟨r, _, h0, h1, heq⟩ | h
    · unfold tradeByTargetAmount; omega
    · unfold tradeByTargetAmount; omega

/-- **C05** Nothing, or less than nothing, buys nothing. -/
theorem C05_nonpositive_source (x : ℤ) (o : EncOrder) (hx : x ≤ 0) : tradeBySourceAmount x o = 0 := by
  rcases tradeFunc_cases x o tradeBySourceAmountFunc 0 with ⟨r, hf, h0, _, heq⟩ | h
  · unfold tradeBySourceAmount
    rw [heq]
    by_cases hA : (decodeFloat o.A : ℤ) = 0
    · rw [hA] at hf
      obtain ⟨_, hr⟩ := source_core_zero hf
      have h1 := ((fdiv_char (by decide) _).1 hr).1
      have h2 : x * ((decodeFloat o.B : ℤ) * (decodeFloat o.B : ℤ)) ≤ 0 :=
        mul_nonpos_of_nonpos_of_nonneg hx (mul_self_nonneg _)
      have : (0:ℤ) < ONE * ONE := by decide
      nlinarith
    · obtain ⟨_, hD, hle⟩ := source_core hA (by positivity) hf
      have h2 := mul_nonpos_of_nonneg_of_nonpos
        (mul_self_nonneg (o.y * (decodeFloat o.A : ℤ) + o.z * (decodeFloat o.B : ℤ))) hx
      have h3 := mul_nonneg h0 hD.le
      have h4 : r * (_ : ℤ) = 0 := le_antisymm (hle.trans (by rw [← mul_assoc]; exact h2)) h3
      rcases mul_eq_zero.1 h4 with h | h
      · exact h
      · exact absurd h hD.ne'
  · exact h

/-- **C05** A quote whose true value does not fit is the worst possible one for the trader, not a wrapped one:
if the exact cost exceeds the 128 bit range then the maximal amount is charged. -/
theorem C05_overflow_target (d : ℤ) (o : EncOrder)
    (h : 2 ^ 128 - 1 < curveIn d o.y o.z (wordValue o.A) (wordValue o.B)) :
    tradeByTargetAmount d o = 2 ^ 128 - 1 := by
  by_contra hne
  have h1 := (C05_range d o).2.2
  have h2 := (C04_cost_ge_curve d o (by omega)).1
  have h3 : ((tradeByTargetAmount d o : ℤ) : ℚ) ≤ 2 ^ 128 - 1 := by
    exact_mod_cast (by omega : tradeByTargetAmount d o ≤ 2 ^ 128 - 1)
  linarith

example : tradeBySourceAmount (-5) sampleOrder = 0 := C05_nonpositive_source _ _ (by norm_num)
/-- More than the order's curve can ever pay out. -/
example : tradeByTargetAmount (10 ^ 22) sampleOrder = 2 ^ 128 - 1 := by decide

/-! ## C06: exact rounding when the numbers fit -/

/-- The denominators stay within 256 bits, so that no rescaling takes place (96 bits are the scale). -/
def SourceFits (x : ℤ) (o : EncOrder) : Prop :=
  let a := wordValue o.A; let b := wordValue o.B
  0 < a * x * (a * o.y + b * o.z) + (o.z : ℚ) ^ 2 ∧
  (a * x * (a * o.y + b * o.z) + (o.z : ℚ) ^ 2) * 2 ^ 96 ≤ 2 ^ 256 - 1 ∧
  (a * o.y + b * o.z) * 2 ^ 96 ≤ 2 ^ 256 - 1

/-- Same for the trade by target amount; the amount must also be one the curve can reach. -/
def TargetFits (d : ℤ) (o : EncOrder) : Prop :=
  let a := wordValue o.A; let b := wordValue o.B
  a * d < a * o.y + b * o.z ∧
  (o.z : ℚ) ^ 2 * 2 ^ 96 ≤ 2 ^ 256 - 1 ∧
  (a * o.y + b * o.z) * (a * o.y + b * o.z - a * d) * 2 ^ 96 ≤ 2 ^ 256 - 1 ∧
  (a * o.y + b * o.z) * 2 ^ 96 ≤ 2 ^ 256 - 1

/-- **C06** In the unscaled regime a source trade pays exactly the floor of the curve value. -/
theorem C06_source_exact (x : ℤ) (o : EncOrder) (hx : 0 ≤ x) (hy : 0 ≤ o.y) (hz : 0 ≤ o.z)
    (ha : wordValue o.A ≠ 0) (hfit : SourceFits x o) :
    tradeBySourceAmount x o =
      if ⌊curveOut x o.y o.z (wordValue o.A) (wordValue o.B)⌋ < 2 ^ 128
      then ⌊curveOut x o.y o.z (wordValue o.A) (wordValue o.B)⌋ else 0 := by
  obtain ⟨h1, h2, h3⟩ := hfit
  simp only [wordValue_eq] at *
  have hA : (decodeFloat o.A : ℤ) ≠ 0 := fun h => ha (by rw [h]; simp)
  generalize hAdef : (decodeFloat o.A : ℤ) = A at *
  generalize hBdef : (decodeFloat o.B : ℤ) = B at *
  have hA0 : 0 < A := lt_of_le_of_ne (hAdef ▸ Int.natCast_nonneg _) (Ne.symm hA)
  have hB0 : 0 ≤ B := hBdef ▸ Int.natCast_nonneg _
  have e1 : ((A * ((o.y * A + o.z * B) * x) + (o.z * ONE) * (o.z * ONE) : ℤ) : ℚ) =
      ((A : ℚ) / 2 ^ 48 * x * ((A : ℚ) / 2 ^ 48 * o.y + (B : ℚ) / 2 ^ 48 * o.z) + (o.z : ℚ) ^ 2) * 2 ^ 96 := by
    unfold ONE; push_cast; ring
  have hD0 : 0 < A * ((o.y * A + o.z * B) * x) + (o.z * ONE) * (o.z * ONE) := by
    have : (0:ℚ) < ((A * ((o.y * A + o.z * B) * x) + (o.z * ONE) * (o.z * ONE) : ℤ) : ℚ) := by
      rw [e1]; positivity
    exact_mod_cast this
  have hD : A * ((o.y * A + o.z * B) * x) + (o.z * ONE) * (o.z * ONE) ≤ MAX256 := by
    have : ((A * ((o.y * A + o.z * B) * x) + (o.z * ONE) * (o.z * ONE) : ℤ) : ℚ) ≤ (MAX256 : ℤ) := by
      rw [e1]; refine h2.trans (le_of_eq ?_); unfold MAX256; norm_num
    exact_mod_cast this
  have hN : o.y * A + o.z * B ≤ MAX256 := by
    have e2 : ((o.y * A + o.z * B : ℤ) : ℚ) = ((A : ℚ) / 2 ^ 48 * o.y + (B : ℚ) / 2 ^ 48 * o.z) * 2 ^ 48 := by
      push_cast; ring
    have h0 : (0:ℚ) ≤ (A : ℚ) / 2 ^ 48 * o.y + (B : ℚ) / 2 ^ 48 * o.z := by
      have : (0:ℚ) ≤ o.y := by exact_mod_cast hy
      have : (0:ℚ) ≤ o.z := by exact_mod_cast hz
      have : (0:ℚ) ≤ A := by exact_mod_cast hA0.le
      have : (0:ℚ) ≤ B := by exact_mod_cast hB0
      positivity
    have : ((o.y * A + o.z * B : ℤ) : ℚ) ≤ (MAX256 : ℤ) := by
      rw [e2]
      refine le_trans ?_ (h3.trans (le_of_eq ?_))
      · exact mul_le_mul_of_nonneg_left (by norm_num) h0
      · unfold MAX256; norm_num
    exact_mod_cast this
  have hf := source_exact hx hy hz hA0 hB0 hN hD0 hD
  rw [curveOut_int hA, floor_div_int hD0]
  subst hAdef hBdef
  split
  · rename_i hlt
    exact tradeFunc_ok hf (fdiv_nonneg' (by
      have := mul_nonneg (mul_self_nonneg (o.y * (decodeFloat o.A : ℤ) + o.z * (decodeFloat o.B : ℤ))) hx
      rw [← mul_assoc]; exact this) hD0.le) (by unfold MAX128; omega)
  · rename_i hlt
    exact tradeFunc_big hf (by unfold MAX128; omega)

/-- **C06** In the unscaled regime a target trade charges exactly the ceiling of the curve value, capped at the
largest 128 bit number. -/
theorem C06_target_exact (d : ℤ) (o : EncOrder) (hd : 0 ≤ d) (hy : 0 ≤ o.y) (hz : 0 ≤ o.z)
    (ha : wordValue o.A ≠ 0) (hfit : TargetFits d o) :
    tradeByTargetAmount d o =
      min ⌈curveIn d o.y o.z (wordValue o.A) (wordValue o.B)⌉ (2 ^ 128 - 1) := by
  obtain ⟨h1, h2, h3, h4⟩ := hfit
  simp only [wordValue_eq] at *
  have hA : (decodeFloat o.A : ℤ) ≠ 0 := fun h => ha (by rw [h]; simp)
  generalize hAdef : (decodeFloat o.A : ℤ) = A at *
  generalize hBdef : (decodeFloat o.B : ℤ) = B at *
  have hA0 : 0 < A := lt_of_le_of_ne (hAdef ▸ Int.natCast_nonneg _) (Ne.symm hA)
  have hB0 : 0 ≤ B := hBdef ▸ Int.natCast_nonneg _
  have hyq : (0:ℚ) ≤ o.y := by exact_mod_cast hy
  have hzq : (0:ℚ) ≤ o.z := by exact_mod_cast hz
  have hAq : (0:ℚ) ≤ A := by exact_mod_cast hA0.le
  have hBq : (0:ℚ) ≤ B := by exact_mod_cast hB0
  have h0 : (0:ℚ) ≤ (A : ℚ) / 2 ^ 48 * o.y + (B : ℚ) / 2 ^ 48 * o.z := by positivity
  have e2 : ((o.y * A + o.z * B : ℤ) : ℚ) = ((A : ℚ) / 2 ^ 48 * o.y + (B : ℚ) / 2 ^ 48 * o.z) * 2 ^ 48 := by
    push_cast; ring
  have e3 : ((d * A : ℤ) : ℚ) = ((A : ℚ) / 2 ^ 48 * d) * 2 ^ 48 := by push_cast; ring
  have hM : ((MAX256 : ℤ) : ℚ) = 2 ^ 256 - 1 := by unfold MAX256; norm_num
  have hxA : d * A < o.y * A + o.z * B := by
    have : ((d * A : ℤ) : ℚ) < ((o.y * A + o.z * B : ℤ) : ℚ) := by
      rw [e2, e3]; exact mul_lt_mul_of_pos_right h1 (by positivity)
    exact_mod_cast this
  have hN : o.y * A + o.z * B ≤ MAX256 := by
    have : ((o.y * A + o.z * B : ℤ) : ℚ) ≤ (MAX256 : ℤ) := by
      rw [e2, hM]
      exact le_trans (mul_le_mul_of_nonneg_left (by norm_num) h0) h4
    exact_mod_cast this
  have hT : (o.z * ONE) * (o.z * ONE) ≤ MAX256 := by
    have : (((o.z * ONE) * (o.z * ONE) : ℤ) : ℚ) ≤ (MAX256 : ℤ) := by
      rw [hM]; refine le_trans (le_of_eq ?_) h2
      unfold ONE; push_cast; ring
    exact_mod_cast this
  have hD : (o.y * A + o.z * B) * (o.y * A + o.z * B - d * A) ≤ MAX256 := by
    have : (((o.y * A + o.z * B) * (o.y * A + o.z * B - d * A) : ℤ) : ℚ) ≤ (MAX256 : ℤ) := by
      rw [hM]; refine le_trans (le_of_eq ?_) h3
      push_cast; ring
    exact_mod_cast this
  have hf := target_exact hd hy hz hA0 hB0 hN hT hxA hD
  have hD0 : 0 < (o.y * A + o.z * B) * (o.y * A + o.z * B - d * A) := by
    have h5 : 0 ≤ d * A := mul_nonneg hd hA0.le
    exact mul_pos (by omega) (by omega)
  rw [curveIn_int hA, ceil_div_int hD0]
  subst hAdef hBdef
  generalize hr : ((d * (o.z * ONE * (o.z * ONE)) + _ - 1 : ℤ).fdiv _) = r at *
  have hr0 : 0 ≤ r := by
    rw [← hr]
    refine fdiv_nonneg' ?_ hD0.le
    have := mul_nonneg hd (mul_self_nonneg (o.z * ONE))
    omega
  by_cases hle : r ≤ MAX128
  · rw [check, if_pos ⟨hr0, hle.trans (by decide)⟩] at hf
    rw [min_eq_left (by unfold MAX128 at hle; exact hle)]
    exact tradeFunc_ok hf hr0 hle
  · rw [min_eq_right (by unfold MAX128 at hle; omega)]
    by_cases hle2 : r ≤ MAX256
    · rw [check, if_pos ⟨hr0, hle2⟩] at hf
      exact tradeFunc_big hf (by omega)
    · rw [check, if_neg (by omega)] at hf
      exact tradeFunc_error hf

/-- The sample order is in the unscaled regime. -/
theorem sample_fits : SourceFits (10 ^ 18) sampleOrder ∧ TargetFits (10 ^ 18) sampleOrder := by
  have h : wordValue sampleOrder.A = 1 ∧ wordValue sampleOrder.B = 1 := by
    have : sampleOrder.A % 2 ^ 48 = 2 ^ 47 ∧ sampleOrder.A / 2 ^ 48 = 1 := by decide
    have h2 : sampleOrder.B % 2 ^ 48 = 2 ^ 47 ∧ sampleOrder.B / 2 ^ 48 = 1 := by decide
    unfold wordValue
    rw [this.1, this.2, h2.1, h2.2]
    norm_num
  unfold SourceFits TargetFits
  simp only [h.1, h.2]
  simp only [sampleOrder]
  norm_num

/-! ## C07: no profit from rounding -/

/-- The exact curve: `d` units are within what `x` buys iff `x` covers what `d` costs. -/
theorem curve_galois {x d y z a b : ℚ} (ha : 0 < a) (hx : 0 ≤ x) (hz : 0 < z)
    (hN : 0 < a * y + b * z) (hd : a * d < a * y + b * z) :
    d ≤ curveOut x y z a b ↔ curveIn d y z a b ≤ x := by
  unfold curveOut curveIn
  rw [if_neg ha.ne', if_neg ha.ne']
  have h1 : 0 < a * x * (a * y + b * z) + z ^ 2 := by positivity
  have h2 : 0 < (a * y + b * z) * (a * y + b * z - a * d) := mul_pos hN (by linarith)
  rw [le_div_iff₀ h1, div_le_iff₀ h2]
  constructor <;> intro h <;> nlinarith

/-- **C07** In the unscaled regime buying by source and by target amount fit together perfectly: an
amount `d` costs at most `x` exactly if `x` buys at least `d`. -/
theorem C07_galois (x d : ℤ) (o : EncOrder) (hx : 0 ≤ x) (hd : 0 ≤ d) (hy : 0 ≤ o.y) (hz : 0 < o.z)
    (ha : wordValue o.A ≠ 0)
    (hsf : SourceFits x o) (htf : TargetFits d o) (hx2 : x < 2 ^ 128 - 1)
    (hout : curveOut x o.y o.z (wordValue o.A) (wordValue o.B) < 2 ^ 128) :
    tradeByTargetAmount d o ≤ x ↔ d ≤ tradeBySourceAmount x o := by
  rw [C06_source_exact x o hx hy hz.le ha hsf, C06_target_exact d o hd hy hz.le ha htf]
  have hfl : ⌊curveOut x o.y o.z (wordValue o.A) (wordValue o.B)⌋ < 2 ^ 128 := by
    rw [Int.floor_lt]; exact_mod_cast hout
  rw [if_pos hfl, Int.le_floor, min_le_iff]
  have hapos : 0 < wordValue o.A := lt_of_le_of_ne (wordValue_nonneg _) (Ne.symm ha)
  have hNpos : 0 < wordValue o.A * o.y + wordValue o.B * o.z := by
    have hdq : (0:ℚ) ≤ d := by exact_mod_cast hd
    have := mul_nonneg hapos.le hdq
    linarith [htf.1]
  rw [curve_galois hapos (by exact_mod_cast hx) (by exact_mod_cast hz) hNpos htf.1, Int.ceil_le]
  constructor
  · rintro (h | h)
    · exact h
    · omega
  · exact Or.inl

/-- **C07** Asking for what `x` buys never costs more than `x`. -/
theorem C07_target_of_source (x : ℤ) (o : EncOrder) (hx : 0 ≤ x) (hy : 0 ≤ o.y) (hz : 0 < o.z)
    (ha : wordValue o.A ≠ 0)
    (hsf : SourceFits x o) (htf : TargetFits (tradeBySourceAmount x o) o) (hx2 : x < 2 ^ 128 - 1)
    (hout : curveOut x o.y o.z (wordValue o.A) (wordValue o.B) < 2 ^ 128) :
    tradeByTargetAmount (tradeBySourceAmount x o) o ≤ x :=
  (C07_galois x _ o hx (C05_range x o).1.1 hy hz ha hsf htf hx2 hout).2 le_rfl

/-- **C07** Paying what `d` costs buys at least `d`. -/
theorem C07_source_of_target (d : ℤ) (o : EncOrder) (hd : 0 ≤ d) (hy : 0 ≤ o.y) (hz : 0 < o.z)
    (ha : wordValue o.A ≠ 0)
    (hsf : SourceFits (tradeByTargetAmount d o) o) (htf : TargetFits d o)
    (hx2 : tradeByTargetAmount d o < 2 ^ 128 - 1)
    (hout : curveOut (tradeByTargetAmount d o) o.y o.z (wordValue o.A) (wordValue o.B) < 2 ^ 128) :
    d ≤ tradeBySourceAmount (tradeByTargetAmount d o) o :=
  (C07_galois _ d o (C05_range d o).2.1 hd hy hz ha hsf htf hx2 hout).1 le_rfl

/-- **C07** Paying less than what `d` costs buys less than `d`. -/
theorem C07_underpaying (x d : ℤ) (o : EncOrder) (hx : 0 ≤ x) (hd : 0 ≤ d) (hy : 0 ≤ o.y) (hz : 0 < o.z)
    (ha : wordValue o.A ≠ 0)
    (hsf : SourceFits x o) (htf : TargetFits d o) (hx2 : x < 2 ^ 128 - 1)
    (hout : curveOut x o.y o.z (wordValue o.A) (wordValue o.B) < 2 ^ 128)
    (hlt : x < tradeByTargetAmount d o) : tradeBySourceAmount x o < d := by
  by_contra hcon
  have := (C07_galois x d o hx hd hy hz ha hsf htf hx2 hout).2 (not_lt.1 hcon)
  omega

example : tradeByTargetAmount 2233250620347394540 sampleOrder = 10 ^ 18 := by decide
example : tradeBySourceAmount (10 ^ 18 - 1) sampleOrder < 2233250620347394540 := by decide

/-! ## C56: rounding loss is bounded in every regime -/

/-- **C56** A source trade that the order can fill and that gets a non-zero quote is at most four units, plus one part
in `2^48·(a+b)` (the top of the square root price range in units of 2^-48), below the exact curve. -/
theorem C56_source_accuracy (x : ℤ) (o : EncOrder) (hy : 0 ≤ o.y) (hyz : o.y ≤ o.z)
    (ha : wordValue o.A ≠ 0)
    (hfill : curveOut x o.y o.z (wordValue o.A) (wordValue o.B) ≤ o.y)
    (hq : tradeBySourceAmount x o ≠ 0) :
    curveOut x o.y o.z (wordValue o.A) (wordValue o.B) ≤
      (tradeBySourceAmount x o + 4) * (1 + 1 / (2 ^ 48 * (wordValue o.A + wordValue o.B))) := by
  rcases tradeFunc_cases x o tradeBySourceAmountFunc 0 with ⟨r, hf, h0, h1, heq⟩ | h
  · unfold tradeBySourceAmount
    rw [heq]
    simp only [wordValue_eq] at *
    have hA : (decodeFloat o.A : ℤ) ≠ 0 := fun h => ha (by rw [h]; simp)
    generalize hAdef : (decodeFloat o.A : ℤ) = A at *
    generalize hBdef : (decodeFloat o.B : ℤ) = B at *
    have hA0 : 0 < A := lt_of_le_of_ne (hAdef ▸ Int.natCast_nonneg _) (Ne.symm hA)
    have hB0 : 0 ≤ B := hBdef ▸ Int.natCast_nonneg _
    obtain ⟨_, hD, _⟩ := source_core hA hA0.le hf
    rw [curveOut_int hA] at hfill ⊢
    rw [div_int_le hD] at hfill
    have hc := source_accuracy_core hA0 hB0 hy hyz hB0 h1 hfill hf
    have hABq : (0:ℚ) < (A : ℚ) + B := by exact_mod_cast (by omega : 0 < A + B)
    have hDq : (0:ℚ) < ((A * ((o.y * A + o.z * B) * x) + (o.z * ONE) * (o.z * ONE) : ℤ) : ℚ) := by
      exact_mod_cast hD
    have e : (1 : ℚ) + 1 / (2 ^ 48 * ((A : ℚ) / 2 ^ 48 + (B : ℚ) / 2 ^ 48)) =
        ((A : ℚ) + B + 1) / ((A : ℚ) + B) := by
      have : (2 : ℚ) ^ 48 * ((A : ℚ) / 2 ^ 48 + (B : ℚ) / 2 ^ 48) = A + B := by ring
      rw [this]; field_simp
    rw [e, div_le_iff₀ hDq, mul_div_assoc', div_mul_eq_mul_div, le_div_iff₀ hABq]
    have hc' : ((((o.y * A + o.z * B) * ((o.y * A + o.z * B) * x)) * (A + B) : ℤ) : ℚ) ≤
      (((r + 4) * (A * ((o.y * A + o.z * B) * x) + (o.z * ONE) * (o.z * ONE)) * (A + B + 1) : ℤ) : ℚ) := by
      exact_mod_cast hc
    push_cast at hc' ⊢
    linarith
  · exact absurd h hq

/-- **C56** A target trade that gets a real quote is charged at most four units above the exact curve. -/
theorem C56_target_accuracy (d : ℤ) (o : EncOrder) (ha : wordValue o.A ≠ 0) (hd : d ≤ 2 ^ 128)
    (hq : tradeByTargetAmount d o < 2 ^ 128 - 1) :
    (tradeByTargetAmount d o : ℚ) ≤ curveIn d o.y o.z (wordValue o.A) (wordValue o.B) + 4 := by
  rcases tradeFunc_cases d o tradeByTargetAmountFunc MAX128 with ⟨r, hf, h0, h1, heq⟩ | h
  · unfold tradeByTargetAmount at *
    rw [heq] at *
    simp only [wordValue_eq] at *
    have hA : (decodeFloat o.A : ℤ) ≠ 0 := fun h => ha (by rw [h]; simp)
    generalize hAdef : (decodeFloat o.A : ℤ) = A at *
    generalize hBdef : (decodeFloat o.B : ℤ) = B at *
    have hA0 : 0 < A := lt_of_le_of_ne (hAdef ▸ Int.natCast_nonneg _) (Ne.symm hA)
    obtain ⟨_, _, hE, _⟩ := target_core hA hA0.le hf
    have hc := target_accuracy_core hA0 (by unfold MAX128; omega) h1 hf
    rw [curveIn_int hA]
    have hEq : (0:ℚ) < (((o.y * A + o.z * B) * (o.y * A + o.z * B - d * A) : ℤ) : ℚ) := by exact_mod_cast hE
    have hc' : ((r * ((o.y * A + o.z * B) * (o.y * A + o.z * B - d * A)) : ℤ) : ℚ) ≤
      ((d * ((o.z * ONE) * (o.z * ONE)) + 4 * ((o.y * A + o.z * B) * (o.y * A + o.z * B - d * A)) : ℤ) : ℚ) := by
      exact_mod_cast hc
    rw [Int.cast_mul, Int.cast_add, Int.cast_mul 4] at hc'
    rw [div_add' _ _ _ hEq.ne', le_div_iff₀ hEq]
    exact hc'
  · unfold tradeByTargetAmount at hq
    rw [h] at hq
    exact absurd hq (by unfold MAX128; exact lt_irrefl _)

/-- A large order in the rescaled regime to which C56 applies: 10^30 units, about 10^18 sold. -/
example : tradeByTargetAmount (10 ^ 18) ⟨10 ^ 30, 2 * 10 ^ 30, encodeFloat (2 ^ 48), encodeFloat (2 ^ 48)⟩
    = 444444444444592593 := by decide

/-! ## C57: what an encoded order promises -/

/-- **C57** The stored square root of a rate is the largest representable number whose square does not exceed the rate. -/
theorem C57_rate_greatest (num den n : ℕ) (h : encodeRate num den = .ok n) :
    IsGreatest {m | Representable m ∧ m ^ 2 * den ≤ num * 2 ^ 96} n := by
  unfold encodeRate at h
  split at h
  · cases h
  · rename_i hden
    simp only [Except.ok.injEq] at h
    have hdpos : 0 < den := Nat.pos_of_ne_zero hden
    have ht : n = trunc (Nat.sqrt (num * 2 ^ 96 / den)) := by
      rw [← h, Nat.shiftRight_eq_div_pow, Nat.shiftLeft_eq]; rfl
    have key : ∀ m, m ^ 2 * den ≤ num * 2 ^ 96 ↔ m ≤ Nat.sqrt (num * 2 ^ 96 / den) := by
      intro m
      rw [Nat.le_sqrt', Nat.le_div_iff_mul_le hdpos]
    subst ht
    refine ⟨⟨⟨_, _, mantissa_lt _, rfl⟩, (key _).2 (trunc_le _)⟩, ?_⟩
    rintro m ⟨⟨k, e, hk, rfl⟩, hm⟩
    exact le_trunc_of_representable _ k e hk ((key _).1 hm)

/-- **C57** Encoding an order with lowest ≤ marginal ≤ highest rate and lowest < marginal after rounding: the
decoded lowest rate is the rounded-down lowest rate, the decoded highest rate does not exceed the requested
highest rate, and the capacity is at least the liquidity. -/
theorem C57_order (y : ℕ) (lo hi mid : ℕ × ℕ) (o : EncOrder)
    (h : encodeOrder y lo hi mid = .ok o)
    (hmid : mid.1 * hi.2 ≤ hi.1 * mid.2) :
    o.y = y ∧
    (wordValue o.B) ^ 2 * lo.2 ≤ lo.1 ∧
    (wordValue o.B + wordValue o.A) ^ 2 * hi.2 ≤ hi.1 ∧
    (∀ L M, encodeRate lo.1 lo.2 = .ok L → encodeRate mid.1 mid.2 = .ok M → L < M → o.y ≤ o.z) := by
  unfold encodeOrder at h
  simp only [Py.bind_eq_ok] at h
  obtain ⟨L, hL, H, hH, M, hM, h⟩ := h
  unfold encodeOrderFixed at h
  split at h
  · cases h
  rename_i hHL
  simp only [Py.bind_eq_ok, Py.pure_eq_ok] at h
  obtain ⟨z, hz, rfl⟩ := h
  have gL := C57_rate_greatest _ _ _ hL
  have gH := C57_rate_greatest _ _ _ hH
  have gM := C57_rate_greatest _ _ _ hM
  have hdec : ∀ v : ℕ, wordValue (encodeFloat v) = (decodeFloat (encodeFloat v) : ℚ) / 2 ^ 48 := by
    intro v; rw [wordValue_eq]; push_cast; rfl
  have hMH : M ≤ H := by
    refine gH.2 ⟨gM.1.1, ?_⟩
    have hmden : mid.2 ≠ 0 := by
      intro h0
      rw [h0] at hM
      simp [encodeRate] at hM
    have h1 := gM.1.2
    have h2 : (M ^ 2 * hi.2) * mid.2 ≤ (hi.1 * 2 ^ 96) * mid.2 := by
      calc (M ^ 2 * hi.2) * mid.2 = (M ^ 2 * mid.2) * hi.2 := by ring
        _ ≤ (mid.1 * 2 ^ 96) * hi.2 := Nat.mul_le_mul_right _ h1
        _ = (mid.1 * hi.2) * 2 ^ 96 := by ring
        _ ≤ (hi.1 * mid.2) * 2 ^ 96 := Nat.mul_le_mul_right _ hmid
        _ = (hi.1 * 2 ^ 96) * mid.2 := by ring
    exact Nat.le_of_mul_le_mul_right h2 (Nat.pos_of_ne_zero hmden)
  have hsq : ∀ (v n d : ℕ), v ^ 2 * d ≤ n * 2 ^ 96 → ((v : ℚ) / 2 ^ 48) ^ 2 * d ≤ n := by
    intro v n d hv
    have : ((v ^ 2 * d : ℕ) : ℚ) ≤ ((n * 2 ^ 96 : ℕ) : ℚ) := by exact_mod_cast hv
    push_cast at this
    rw [div_pow, div_mul_eq_mul_div, div_le_iff₀ (by positivity)]
    refine this.trans (le_of_eq ?_)
    norm_num
  refine ⟨rfl, ?_, ?_, ?_⟩
  · simp only
    rw [hdec, C02_representable_exact L gL.1.1]
    exact hsq _ _ _ gL.1.2
  · simp only
    rw [hdec, hdec, C02_representable_exact L gL.1.1, ← add_div]
    have h1 : decodeFloat (encodeFloat (H - L)) ≤ H - L := (C01_roundtrip_greatest _).1.2
    have h2 : L + decodeFloat (encodeFloat (H - L)) ≤ H := by omega
    have h3 : (L + decodeFloat (encodeFloat (H - L))) ^ 2 * hi.2 ≤ hi.1 * 2 ^ 96 :=
      (Nat.mul_le_mul_right _ (Nat.pow_le_pow_left h2 2)).trans gH.1.2
    have := hsq _ _ _ h3
    push_cast at this
    exact this
  · intro L' M' hL' hM' hlt
    rw [hL] at hL'; rw [hM] at hM'
    cases hL'; cases hM'
    simp only
    unfold encodeCapacity at hz
    split at hz
    · exact le_of_eq (Except.ok.inj hz)
    · rw [floorDiv_ok] at hz
      obtain ⟨_, hz⟩ := hz
      have hpos : (0:ℤ) < (M : ℤ) - L := by omega
      obtain ⟨_, h2⟩ := (fdiv_char hpos _).1 hz
      have h3 : (y : ℤ) * ((M : ℤ) - L) ≤ (y : ℤ) * ((H : ℤ) - L) :=
        mul_le_mul_of_nonneg_left (by omega) (by positivity)
      have h4 : (y : ℤ) * ((M : ℤ) - L) < (z + 1) * ((M : ℤ) - L) := lt_of_le_of_lt h3 h2
      have := lt_of_mul_lt_mul_right h4 hpos.le
      omega

/-- 5 units between rates 1 and 4, currently at 9/4. -/
example : encodeOrder 5 (1, 1) (4, 1) (9, 4) =
    .ok ⟨5, 10, encodeFloat (2 ^ 48), encodeFloat (2 ^ 48)⟩ := by
  have h1 : Nat.sqrt (1 * 2 ^ 96 / 1) = 2 ^ 48 := Nat.sqrt_eq' (2 ^ 48)
  have h2 : Nat.sqrt (4 * 2 ^ 96 / 1) = 2 ^ 49 := Nat.sqrt_eq' (2 ^ 49)
  have h3 : Nat.sqrt (9 * 2 ^ 96 / 4) = 3 * 2 ^ 47 := Nat.sqrt_eq' (3 * 2 ^ 47)
  unfold encodeOrder encodeRate
  simp only [h1, h2, h3]
  decide

end Carbon.Prop.Trade
