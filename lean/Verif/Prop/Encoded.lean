import Verif.Sdk.Encoded
import Verif.Prop.Trade
import Verif.Prop.CpcTrade

/-!
# C95: orders encoded for the contract
-/

set_option linter.unusedSectionVars false

namespace Carbon.EncodedOrder

open CarbonPair (pyDiv)
open Prop.Trade (Representable)

/-! ## Words -/

theorem decode_encode (n : ℕ) : decodeFloat (encodeFloat (n : ℤ)) = .ok (Bench.decodeFloat (Bench.encodeFloat n) : ℤ) := by
  unfold encodeFloat decodeFloat
  rw [if_neg (by omega), Int.toNat_natCast, if_neg (by omega), Int.toNat_natCast]

/-- **C95** A whole number that is not negative is stored as the largest number with a mantissa of 48 bits that does not exceed it. -/
theorem C95_word (n : ℕ) : ∃ m : ℕ, decodeFloat (encodeFloat (n : ℤ)) = .ok (m : ℤ) ∧ IsGreatest {k | Representable k ∧ k ≤ n} m :=
  ⟨_, decode_encode n, Prop.Trade.C01_roundtrip_greatest n⟩

/-- **C95** Negative numbers cannot be read back. -/
theorem C95_negative (n : ℤ) (h : n < 0) : decodeFloat (encodeFloat n) = .error .value := by
  unfold encodeFloat decodeFloat
  rw [if_pos h, if_pos h]

/-! ## Rates -/

theorem encodeRate_ok (v : ℝ) (hv : 0 ≤ v) : encodeRate v = .ok (Bench.trunc ⌊√v * 2 ^ 48⌋.toNat) := by
  unfold encodeRate
  rw [CPC.sqrtE_ok hv, Py.ok_bind]
  dsimp only
  rw [Nat.shiftRight_eq_div_pow, Nat.shiftLeft_eq]
  rfl

theorem encodeRate_neg (v : ℝ) (hv : v < 0) : encodeRate v = .error .value := by
  unfold encodeRate Curve.sqrtE
  rw [if_pos hv, Py.error_bind]

theorem floor_toNat (v : ℝ) : ((⌊√v * 2 ^ 48⌋.toNat : ℕ) : ℝ) ≤ √v * 2 ^ 48 ∧ √v * 2 ^ 48 < (⌊√v * 2 ^ 48⌋.toNat : ℕ) + 1 := by
  have h0 : (0 : ℝ) ≤ √v * 2 ^ 48 := by positivity
  have h1 : (0 : ℤ) ≤ ⌊√v * 2 ^ 48⌋ := Int.floor_nonneg.mpr h0
  have h2 : ((⌊√v * 2 ^ 48⌋.toNat : ℕ) : ℝ) = (⌊√v * 2 ^ 48⌋ : ℤ) := by
    have : ((⌊√v * 2 ^ 48⌋.toNat : ℕ) : ℤ) = ⌊√v * 2 ^ 48⌋ := Int.toNat_of_nonneg h1
    exact_mod_cast congrArg (Int.cast : ℤ → ℝ) this
  rw [h2]
  exact ⟨Int.floor_le _, Int.lt_floor_add_one _⟩

theorem trunc_close (n : ℕ) : (n : ℝ) * (1 - 1 / 2 ^ 47) ≤ Bench.trunc n := by
  rcases Nat.eq_zero_or_pos n with h | h
  · subst h; simp
  · have h1 := Prop.Trade.C01_relative_loss n h
    rw [Bench.decode_encode] at h1
    have h2 := Bench.trunc_le n
    have h3 : ((n - Bench.trunc n : ℕ) : ℝ) * 2 ^ 47 < n := by exact_mod_cast h1
    rw [Nat.cast_sub h2] at h3
    have h4 : ((n : ℝ) - Bench.trunc n) < n / 2 ^ 47 := by rw [lt_div_iff₀ (by positivity)]; exact h3
    have : (n : ℝ) * (1 - 1 / 2 ^ 47) = n - n / 2 ^ 47 := by ring
    linarith

/-- **C95** The stored square root of a rate is the largest representable multiple of `2 ^ (-48)` whose square does not exceed the
rate. -/
theorem C95_rate (v : ℝ) (hv : 0 ≤ v) : ∃ n, encodeRate v = .ok n ∧
    IsGreatest {m : ℕ | Representable m ∧ ((m : ℝ) / 2 ^ 48) ^ 2 ≤ v} n := by
  refine ⟨_, encodeRate_ok v hv, ?_⟩
  obtain ⟨h1, h2⟩ := floor_toNat v
  have key : ∀ m : ℕ, ((m : ℝ) / 2 ^ 48) ^ 2 ≤ v ↔ m ≤ ⌊√v * 2 ^ 48⌋.toNat := by
    intro m
    rw [← Real.le_sqrt (by positivity) hv, div_le_iff₀ (by positivity)]
    constructor
    · intro h
      have : (m : ℝ) < (⌊√v * 2 ^ 48⌋.toNat : ℕ) + 1 := lt_of_le_of_lt h h2
      exact Nat.lt_succ_iff.mp (by exact_mod_cast this)
    · intro h
      exact le_trans (by exact_mod_cast h) h1
  refine ⟨⟨⟨_, _, Bench.mantissa_lt _, rfl⟩, (key _).mpr (Bench.trunc_le _)⟩, ?_⟩
  rintro m ⟨⟨k, e, hk, rfl⟩, hm⟩
  exact Bench.le_trunc_of_representable _ k e hk ((key _).mp hm)

theorem greatest_unique {s : Set ℕ} {a b : ℕ} (ha : IsGreatest s a) (hb : IsGreatest s b) : a = b := ha.unique hb

/-- **C95** Rates are stored as by the benchmark implementation of the contract's encoding. -/
theorem C95_agrees (num den : ℕ) (hd : 0 < den) : encodeRate ((num : ℝ) / den) = Bench.encodeRate num den := by
  obtain ⟨n, hn, hg⟩ := C95_rate ((num : ℝ) / den) (by positivity)
  have hb : ∃ m, Bench.encodeRate num den = .ok m := by
    unfold Bench.encodeRate
    rw [if_neg hd.ne']
    exact ⟨_, rfl⟩
  obtain ⟨m, hm⟩ := hb
  have hg2 := Prop.Trade.C57_rate_greatest num den m hm
  rw [hn, hm]
  congr 1
  refine greatest_unique hg ?_
  convert hg2 using 1
  ext k
  refine and_congr_right fun _ => ?_
  have hd' : (0 : ℝ) < den := by exact_mod_cast hd
  rw [div_pow, div_le_div_iff₀ (by positivity) hd', ← pow_mul]
  norm_cast

/-! ## Orders -/

theorem capacity_default (y pHi pLo : ℝ) : capacity y pHi pLo none none = .ok y := rfl

/-- The word of a difference of stored roots, read back. -/
theorem decode_word (n : ℕ) : (decode (encodeFloat (n : ℤ)) : Py ℝ) = .ok ((Bench.trunc n : ℝ) / 2 ^ 48) := by
  unfold decode
  rw [decode_encode, Py.ok_bind, Bench.decode_encode, Int.cast_natCast]

/-- **C95** An order encoded from a range of prices: the prices of the encoded order do not exceed the requested ones; the lower price is
stored to the precision of a single rate, the upper one loses at most another part in `2 ^ 47` of its root. Without a marginal price and
a capacity the order is full, and its marginal price is its start price. -/
theorem C95_prices (y pHi pLo : ℝ) (hlo : 0 ≤ pLo) (hhi : pLo ≤ pHi) (token : Option Str) :
    ∃ o, encode y pHi pLo none none token = .ok o ∧ o.y = SdkTkn.toInt y ∧ o.z = o.y ∧ o.token = token.getD "TKN".toList ∧
      ∃ s e : ℝ, o.pStart = .ok s ∧ o.pEnd = .ok e ∧ o.pMarg = .ok s ∧ e ≤ s ∧ e ≤ pLo ∧ s ≤ pHi ∧
        (√pLo - 1 / 2 ^ 48) * (1 - 1 / 2 ^ 47) < √e ∧ (√pHi - 1 / 2 ^ 48) * (1 - 1 / 2 ^ 47) ^ 2 < √s := by
  have hp : 0 ≤ pHi := hlo.trans hhi
  obtain ⟨h1, h2⟩ := floor_toNat pHi
  obtain ⟨l1, l2⟩ := floor_toNat pLo
  set nH := ⌊√pHi * 2 ^ 48⌋.toNat with hnH
  set nL := ⌊√pLo * 2 ^ 48⌋.toNat with hnL
  have hn : nL ≤ nH := by
    have : (nL : ℝ) < nH + 1 := by
      refine lt_of_le_of_lt l1 (lt_of_le_of_lt ?_ h2)
      exact mul_le_mul_of_nonneg_right (Real.sqrt_le_sqrt hhi) (by positivity)
    exact Nat.lt_succ_iff.mp (by exact_mod_cast this)
  have hLH : Bench.trunc nL ≤ Bench.trunc nH :=
    Bench.le_trunc_of_representable _ _ _ (Bench.mantissa_lt nL) ((Bench.trunc_le nL).trans hn)
  set H := Bench.trunc nH with hH
  set L := Bench.trunc nL with hL
  have hrL : Bench.trunc L = L := by
    rw [← Bench.decode_encode]
    exact Prop.Trade.C02_representable_exact L ⟨_, _, Bench.mantissa_lt nL, rfl⟩
  set o : EncodedOrder := ⟨token.getD "TKN".toList, SdkTkn.toInt y, SdkTkn.toInt y, encodeFloat ((H : ℤ) - L), encodeFloat L⟩ with ho
  have henc : encode y pHi pLo none none token = .ok o := by
    unfold encode
    rw [capacity_default, Py.ok_bind, encodeRate_ok pHi hp, Py.ok_bind, encodeRate_ok pLo hlo, Py.ok_bind]
  have hB : (decode o.B : Py ℝ) = .ok ((L : ℝ) / 2 ^ 48) := by
    show decode (encodeFloat (L : ℤ)) = _
    rw [decode_word, hrL]
  have hA : (decode o.A : Py ℝ) = .ok ((Bench.trunc (H - L) : ℝ) / 2 ^ 48) := by
    show decode (encodeFloat ((H : ℤ) - L)) = _
    rw [← decode_word, Nat.cast_sub hLH]
  set D := Bench.trunc (H - L) with hD
  have hDle : D ≤ H - L := Bench.trunc_le _
  have hs : (o.pStart : Py ℝ) = .ok (((L : ℝ) / 2 ^ 48 + D / 2 ^ 48) ^ 2) := by
    unfold pStart
    rw [hB, Py.ok_bind, hA, Py.ok_bind]
  have he : (o.pEnd : Py ℝ) = .ok ((L : ℝ) / 2 ^ 48 * (L / 2 ^ 48)) := by
    unfold pEnd
    rw [hB, Py.ok_bind]
  have hm : (o.pMarg : Py ℝ) = o.pStart := if_pos rfl
  have cLn : (L : ℝ) ≤ nL := by exact_mod_cast Bench.trunc_le nL
  have cHn : (H : ℝ) ≤ nH := by exact_mod_cast Bench.trunc_le nH
  have cD : (L : ℝ) + D ≤ H := by
    have : L + D ≤ H := by omega
    exact_mod_cast this
  have rs : √(((L : ℝ) / 2 ^ 48 + D / 2 ^ 48) ^ 2) = (L + D) / 2 ^ 48 := by rw [Real.sqrt_sq (by positivity)]; ring
  have re : √((L : ℝ) / 2 ^ 48 * (L / 2 ^ 48)) = L / 2 ^ 48 := Real.sqrt_mul_self (by positivity)
  refine ⟨o, henc, rfl, rfl, rfl, _, _, hs, he, hm.trans hs, ?_, ?_, ?_, ?_, ?_⟩
  · rw [← sq]
    have : (0 : ℝ) ≤ D / 2 ^ 48 := by positivity
    gcongr
    linarith
  · have h : (L : ℝ) / 2 ^ 48 ≤ √pLo := by rw [div_le_iff₀ (by positivity)]; exact cLn.trans l1
    rw [← sq]
    calc ((L : ℝ) / 2 ^ 48) ^ 2 ≤ √pLo ^ 2 := by gcongr
      _ = pLo := Real.sq_sqrt hlo
  · have h : (L : ℝ) / 2 ^ 48 + D / 2 ^ 48 ≤ √pHi := by
      rw [← add_div, div_le_iff₀ (by positivity)]; exact cD.trans (cHn.trans h1)
    calc ((L : ℝ) / 2 ^ 48 + D / 2 ^ 48) ^ 2 ≤ √pHi ^ 2 := by gcongr
      _ = pHi := Real.sq_sqrt hp
  · rw [re, lt_div_iff₀ (by positivity)]
    have h := trunc_close nL
    have h3 : (√pLo - 1 / 2 ^ 48) * 2 ^ 48 < nL := by
      have : (√pLo - 1 / 2 ^ 48) * 2 ^ 48 = √pLo * 2 ^ 48 - 1 := by ring
      rw [this]; linarith
    calc (√pLo - 1 / 2 ^ 48) * (1 - 1 / 2 ^ 47) * 2 ^ 48 = (√pLo - 1 / 2 ^ 48) * 2 ^ 48 * (1 - 1 / 2 ^ 47) := mul_right_comm _ _ _
      _ < (nL : ℝ) * (1 - 1 / 2 ^ 47) := mul_lt_mul_of_pos_right h3 (by norm_num)
      _ ≤ (L : ℝ) := h
  · rw [rs, lt_div_iff₀ (by positivity)]
    have h := trunc_close nH
    have h' := trunc_close (H - L)
    rw [Nat.cast_sub hLH] at h'
    have hL0 : (0 : ℝ) ≤ L := by positivity
    have h3 : (√pHi - 1 / 2 ^ 48) * 2 ^ 48 < nH := by
      have : (√pHi - 1 / 2 ^ 48) * 2 ^ 48 = √pHi * 2 ^ 48 - 1 := by ring
      rw [this]; linarith
    calc (√pHi - 1 / 2 ^ 48) * (1 - 1 / 2 ^ 47) ^ 2 * 2 ^ 48 = (√pHi - 1 / 2 ^ 48) * 2 ^ 48 * (1 - 1 / 2 ^ 47) * (1 - 1 / 2 ^ 47) := by ring
      _ < (nH : ℝ) * (1 - 1 / 2 ^ 47) * (1 - 1 / 2 ^ 47) := by
        refine mul_lt_mul_of_pos_right (mul_lt_mul_of_pos_right h3 (by norm_num)) (by norm_num)
      _ ≤ (H : ℝ) * (1 - 1 / 2 ^ 47) := mul_le_mul_of_nonneg_right h (by norm_num)
      _ ≤ (L : ℝ) + D := by
        have : (H : ℝ) * (1 - 1 / 2 ^ 47) = (H - L) * (1 - 1 / 2 ^ 47) + L * (1 - 1 / 2 ^ 47) := by ring
        rw [this]
        have : (L : ℝ) * (1 - 1 / 2 ^ 47) ≤ L := mul_le_of_le_one_right hL0 (by norm_num)
        linarith

/-- **C95** Negative prices and a marginal price together with a capacity are refused. -/
theorem C95_refused (y pHi pLo : ℝ) (pMarg z : Option ℝ) (token : Option Str)
    (h : pHi < 0 ∨ pLo < 0 ∨ (pMarg.isSome ∧ z.isSome)) : encode y pHi pLo pMarg z token = .error .value := by
  unfold encode
  by_cases hb : pMarg.isSome ∧ z.isSome
  · obtain ⟨m, rfl⟩ := Option.isSome_iff_exists.mp hb.1
    obtain ⟨w, rfl⟩ := Option.isSome_iff_exists.mp hb.2
    rfl
  · have hc : ∃ c, capacity y pHi pLo pMarg z = .ok c := by
      unfold capacity
      cases pMarg with
      | none => cases z with
        | none => exact ⟨_, rfl⟩
        | some w => exact ⟨_, rfl⟩
      | some m => cases z with
        | none =>
          dsimp only
          by_cases hm : pHi ≤ m
          · rw [if_pos hm]; exact ⟨_, rfl⟩
          · rw [if_neg hm]; exact ⟨_, rfl⟩
        | some w => exact absurd ⟨rfl, rfl⟩ hb
    obtain ⟨c, hc⟩ := hc
    rw [hc, Py.ok_bind]
    rcases h with h | h | h
    · rw [encodeRate_neg pHi h]; rfl
    · by_cases hp : pHi < 0
      · rw [encodeRate_neg pHi hp]; rfl
      · rw [encodeRate_ok pHi (not_lt.mp hp), Py.ok_bind, encodeRate_neg pLo h]; rfl
    · exact absurd h hb

/-- **C95** fails for an order that is partly filled: whatever marginal price below the start price is given, the capacity becomes negative,
and the encoded order has no marginal price. -/
theorem C95_marginal_violated (y pHi pLo m : ℝ) (hy : 1 ≤ y) (hlo : 0 ≤ pLo) (hm : pLo < m) (hmh : m < pHi) (token : Option Str) :
    ∃ o, encode y pHi pLo (some m) none token = .ok o ∧ 0 < o.y ∧ o.z < 0 ∧ (o.pMarg : Py ℝ) = .error (.custom "NotImplementedError") := by
  have hp : 0 ≤ pHi := (hlo.trans hm.le).trans hmh.le
  have hneg : y * (pHi - pLo) / (m - pHi) < 0 := div_neg_of_pos_of_neg (mul_pos (by linarith) (by linarith)) (by linarith)
  have hfl : ⌊y * (pHi - pLo) / (m - pHi)⌋ < 0 := Int.floor_lt.mpr (by exact_mod_cast hneg)
  set q := ⌊y * (pHi - pLo) / (m - pHi)⌋ with hq
  have hc : capacity y pHi pLo (some m) none = .ok (q : ℝ) := by
    unfold capacity
    dsimp only
    rw [if_neg (not_le.mpr hmh)]
  have hz : SdkTkn.toInt (q : ℝ) = q := by
    unfold SdkTkn.toInt
    rw [if_neg (by push Not; exact_mod_cast hfl), Int.ceil_intCast]
  have hyi : 0 < SdkTkn.toInt y := by
    unfold SdkTkn.toInt
    rw [if_pos (by linarith)]
    exact Int.floor_pos.mpr hy
  refine ⟨⟨token.getD "TKN".toList, SdkTkn.toInt y, SdkTkn.toInt (q : ℝ), encodeFloat ((Bench.trunc ⌊√pHi * 2 ^ 48⌋.toNat : ℤ) -
    (Bench.trunc ⌊√pLo * 2 ^ 48⌋.toNat : ℕ)), encodeFloat (Bench.trunc ⌊√pLo * 2 ^ 48⌋.toNat : ℕ)⟩, ?_, hyi, ?_, ?_⟩
  · unfold encode
    rw [hc, Py.ok_bind, encodeRate_ok pHi hp, Py.ok_bind, encodeRate_ok pLo hlo, Py.ok_bind]
  · show SdkTkn.toInt (q : ℝ) < 0
    rw [hz]; exact hfl
  · unfold pMarg
    dsimp only
    rw [if_neg (by rw [hz]; omega), if_neg (by omega)]

/-- **C95** fails for a range given in the wrong order: the order is encoded, and none of its start price and its marginal price can be
read. -/
theorem C95_order_violated : ∃ o, encode (5 : ℚ) 1 4 = .ok o ∧ (o.pStart : Py ℚ) = .error .value ∧ (o.pMarg : Py ℚ) = .error .value := by
  refine ⟨⟨"TKN".toList, 5, 5, -(2 ^ 48), 2 * 2 ^ 48 + 2 ^ 47⟩, ?_, ?_, ?_⟩ <;> decide +kernel

/-- **C95** Parameters given as whole numbers are stored rounded down to 48 bits. -/
theorem C95_parameters (y z : ℝ) (a b : ℕ) (token : Str) :
    ∃ o, encodeYZAB y z (.int a) (.int b) token = .ok o ∧ o.y = SdkTkn.toInt y ∧ o.z = SdkTkn.toInt z ∧
      ∃ ra rb : ℕ, IsGreatest {k | Representable k ∧ k ≤ a} ra ∧ IsGreatest {k | Representable k ∧ k ≤ b} rb ∧
        (o.pEnd : Py ℝ) = .ok (((rb : ℝ) / 2 ^ 48) ^ 2) ∧ (o.pStart : Py ℝ) = .ok ((((ra : ℝ) + rb) / 2 ^ 48) ^ 2) := by
  have ga := Prop.Trade.C01_roundtrip_greatest a
  have gb := Prop.Trade.C01_roundtrip_greatest b
  rw [Bench.decode_encode] at ga gb
  refine ⟨⟨token, SdkTkn.toInt y, SdkTkn.toInt z, encodeFloat a, encodeFloat b⟩, rfl, rfl, rfl, _, _, ga, gb, ?_, ?_⟩
  · unfold pEnd
    dsimp only
    rw [decode_word, Py.ok_bind, sq]
  · unfold pStart
    dsimp only
    rw [decode_word, Py.ok_bind, decode_word, Py.ok_bind]
    congr 1
    ring

/-- **C95** fails for parameters given as floats, which is what the documentation asks for: they are always refused. -/
theorem C95_floats_violated (y z a b : ℝ) (token : Str) : encodeYZAB y z (.float a) (.float b) token = .error .type := rfl

/-- An order selling at 4 down to 1: both prices are stored exactly. -/
example : (encode (1000 : ℚ) 4 1).map (fun o => (o.y, o.z, (o.pStart : Py ℚ), (o.pEnd : Py ℚ), (o.pMarg : Py ℚ))) =
    .ok (1000, 1000, .ok 4, .ok 1, .ok 4) := by
  decide +kernel

end Carbon.EncodedOrder
