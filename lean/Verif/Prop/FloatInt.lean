import Mathlib.Tactic.Linarith
import Mathlib.Tactic.FieldSimp
import Mathlib.Tactic.Ring
import Mathlib.Tactic.Positivity
import Mathlib.Tactic.NormNum
import Mathlib.Data.Rat.Floor
import Verif.Helpers.FloatInt
import Verif.Prop.Token

/-!
# Compact integers (C53)
-/

namespace Carbon

set_option exponentiation.threshold 400

namespace FloatInt

theorem lt_bindig (n : ℕ) : n < 2 ^ bindig n := by
  unfold bindig
  exact Nat.lt_of_succ_le (Nat.le_pow_clog (by norm_num) _)

theorem bindig_le {n d : ℕ} : bindig n ≤ d ↔ n < 2 ^ d := by
  unfold bindig
  rw [Nat.clog_le_iff_le_pow (by norm_num)]
  exact Nat.succ_le_iff

theorem bindig_lower {n : ℕ} (hn : 0 < n) : 2 ^ (bindig n - 1) ≤ n := by
  by_contra h
  push Not at h
  have h1 := bindig_le.2 h
  have h2 := lt_bindig n
  have h3 : bindig n ≠ 0 := by
    intro e
    rw [e] at h2
    simp at h2
    omega
  omega

/-- The value stored for an estimate `d` of the number of digits. -/
def cut (n d : ℕ) : ℕ := n / 2 ^ (d - 40) * 2 ^ (d - 40)

theorem fromIntWith_nat (dig : ℕ → ℕ) (n : ℕ) (h : n ≠ 0 → dig n ≤ 296) :
    ∃ f, fromIntWith dig n = .ok f ∧ f.significant = ((n / 2 ^ (dig n - 40) : ℕ) : ℤ) ∧ (n ≠ 0 → f.exponent = dig n - 40) ∧
      f.asint = (cut n (dig n) : ℕ) := by
  unfold fromIntWith make
  rw [if_neg (by omega)]
  by_cases h0 : n = 0
  · subst h0
    exact ⟨⟨0, 0⟩, by simp, by simp, by simp, by simp [asint, cut]⟩
  · rw [if_neg (by omega)]
    have hd := h h0
    dsimp only
    rw [Int.toNat_natCast]
    have hb : ((bitsSignificant : ℕ) : ℤ) = 40 := rfl
    have he : (2 : ℤ) ^ bitsExponent = 256 := rfl
    rw [if_neg (by rw [hb, he]; omega), hb]
    by_cases hs : (dig n : ℤ) - 40 ≤ 0
    · rw [if_pos hs]
      have e : dig n - 40 = 0 := by omega
      refine ⟨⟨n, 0⟩, by simp, by simp [e], fun _ => by simp [e], by simp [asint, cut, e]⟩
    · rw [if_neg hs, if_pos (by omega)]
      have e : ((dig n : ℤ) - 40).toNat = dig n - 40 := by omega
      rw [e]
      refine ⟨_, rfl, ?_, fun _ => rfl, ?_⟩
      · dsimp only
        rw [Int.shiftRight_eq_div_pow]
        push_cast
        rfl
      · unfold asint cut
        dsimp only
        rw [Int.shiftRight_eq_div_pow, Int.shiftLeft_eq]
        push_cast
        rfl

theorem cut_le (n d : ℕ) : cut n d ≤ n := Nat.div_mul_le_self _ _

theorem lt_cut (n d : ℕ) : n < cut n d + 2 ^ (d - 40) := by
  unfold cut
  have := Nat.lt_div_mul_add (a := n) (b := 2 ^ (d - 40)) (by positivity)
  omega

/-- C53: whatever estimate of the number of digits is used, the value given back is at most the original, and it is exact if the
estimate is at most 40. The loss is below the weight of the digits dropped. -/
theorem C53_estimate (dig : ℕ → ℕ) (n : ℕ) (h : n ≠ 0 → dig n ≤ 296) :
    ∃ f, fromIntWith dig n = .ok f ∧ f.asint ≤ n ∧ (n : ℤ) < f.asint + 2 ^ (dig n - 40) ∧ (dig n ≤ 40 → f.asint = n) := by
  obtain ⟨f, h1, _, _, h2⟩ := fromIntWith_nat dig n h
  refine ⟨f, h1, ?_, ?_, ?_⟩
  · rw [h2]; exact_mod_cast cut_le n _
  · rw [h2]; exact_mod_cast lt_cut n _
  · intro hd
    rw [h2]
    have : dig n - 40 = 0 := by omega
    simp [cut, this]

/-- C53: an integer below 2^296 is stored; the value given back is at most the original, the relative loss is below 2^-39, and nothing is
lost if it has at most 40 bits. The significant has at most 40 bits. -/
theorem C53_store (n : ℕ) (hn : n < 2 ^ 296) :
    ∃ f, fromInt n = .ok f ∧ f.asint ≤ n ∧ (0 < n → ((n : ℤ) - f.asint) * 2 ^ 39 < n) ∧ (n < 2 ^ 40 → f.asint = n) ∧
      0 ≤ f.significant ∧ f.significant < 2 ^ 40 ∧ f.exponent ≤ 256 := by
  obtain ⟨f, h1, hs, hx, h2⟩ := fromIntWith_nat bindig n fun _ => bindig_le.2 hn
  have hlt := lt_cut n (bindig n)
  have hle := cut_le n (bindig n)
  have hb := lt_bindig n
  refine ⟨f, h1, by rw [h2]; exact_mod_cast hle, ?_, ?_, ?_, ?_, ?_⟩
  · intro h0
    rw [h2]
    have hl := bindig_lower h0
    by_cases hd : bindig n ≤ 40
    · have e : bindig n - 40 = 0 := by omega
      have : cut n (bindig n) = n := by simp [cut, e]
      rw [this]
      have : (0 : ℤ) < n := by exact_mod_cast h0
      linarith
    · have e : bindig n - 1 = (bindig n - 40) + 39 := by omega
      rw [e, pow_add] at hl
      have h3 : (n : ℤ) - (cut n (bindig n) : ℕ) < 2 ^ (bindig n - 40) := by
        have : (n : ℤ) < (cut n (bindig n) : ℕ) + 2 ^ (bindig n - 40) := by exact_mod_cast hlt
        linarith
      calc ((n : ℤ) - (cut n (bindig n) : ℕ)) * 2 ^ 39 < (2 : ℤ) ^ (bindig n - 40) * 2 ^ 39 := by
            apply mul_lt_mul_of_pos_right h3 (by norm_num)
        _ ≤ (n : ℤ) := by exact_mod_cast hl
  · intro h40
    rw [h2]
    have e : bindig n - 40 = 0 := by have := bindig_le.2 h40; omega
    simp [cut, e]
  · rw [hs]; positivity
  · rw [hs]
    have : n / 2 ^ (bindig n - 40) < 2 ^ 40 := by
      rw [Nat.div_lt_iff_lt_mul (by positivity), ← pow_add]
      exact hb.trans_le (Nat.pow_le_pow_right (by norm_num) (by omega))
    exact_mod_cast this
  · by_cases h0 : n = 0
    · subst h0
      have : fromInt ((0 : ℕ) : ℤ) = .ok ⟨0, 0⟩ := rfl
      have e : f = ⟨0, 0⟩ := Except.ok.inj (h1.symm.trans this)
      rw [e]
      norm_num
    · rw [hx h0]
      have := bindig_le.2 hn
      omega

/-- C53: an integer can be stored exactly if it is not negative and below 2^296. -/
theorem C53_range (raw : ℤ) : (∃ f, fromInt raw = .ok f) ↔ 0 ≤ raw ∧ raw < 2 ^ 296 := by
  constructor
  · rintro ⟨f, h⟩
    by_contra hc
    have hr : raw < 0 ∨ (0 < raw ∧ 2 ^ 296 ≤ raw) := by
      by_cases h0 : raw < 0
      · exact Or.inl h0
      · right
        push Not at hc h0
        have := hc h0
        exact ⟨lt_of_lt_of_le (by norm_num) this, this⟩
    unfold fromInt fromIntWith at h
    rcases hr with h0 | ⟨h0, h1⟩
    · rw [if_pos h0] at h; cases h
    · rw [if_neg (by omega), if_neg (by omega)] at h
      dsimp only at h
      have h2 : ¬ raw.toNat < 2 ^ 296 := by
        intro hlt
        have : (raw.toNat : ℤ) < 2 ^ 296 := by exact_mod_cast hlt
        rw [Int.toNat_of_nonneg h0.le] at this
        linarith
      rw [← bindig_le] at h2
      have hb : ((bitsSignificant : ℕ) : ℤ) = 40 := rfl
      have he : (2 : ℤ) ^ bitsExponent = 256 := rfl
      rw [if_pos (by rw [hb, he]; omega)] at h
      cases h
  · rintro ⟨h0, h1⟩
    obtain ⟨n, rfl⟩ := Int.eq_ofNat_of_zero_le h0
    obtain ⟨f, h, _⟩ := C53_store n (by exact_mod_cast h1)
    exact ⟨f, h⟩

/-- C53: the value stored is the largest one of at most 40 significant bits that does not exceed the original. -/
theorem C53_largest (n : ℕ) (f : FloatInt) (h : fromInt n = .ok f) (s e : ℕ) (hs : s < 2 ^ 40) (hle : s * 2 ^ e ≤ n) :
    ((s * 2 ^ e : ℕ) : ℤ) ≤ f.asint := by
  have hn : n < 2 ^ 296 := by exact_mod_cast ((C53_range n).1 ⟨f, h⟩).2
  obtain ⟨g, h1, _, _, h2⟩ := fromIntWith_nat bindig n fun _ => bindig_le.2 hn
  have : f = g := Except.ok.inj (h.symm.trans h1)
  rw [this, h2]
  norm_cast
  unfold cut
  set d := bindig n - 40 with hd
  by_cases hde : d ≤ e
  · have h3 : s * 2 ^ (e - d) ≤ n / 2 ^ d := by
      rw [Nat.le_div_iff_mul_le (by positivity), mul_assoc, ← pow_add, Nat.sub_add_cancel hde]
      exact hle
    calc s * 2 ^ e = s * 2 ^ (e - d) * 2 ^ d := by rw [mul_assoc, ← pow_add, Nat.sub_add_cancel hde]
      _ ≤ _ := Nat.mul_le_mul_right _ h3
  · push Not at hde
    have hn0 : 0 < n := by
      rcases Nat.eq_zero_or_pos n with h0 | h0
      · subst h0
        have : bindig 0 = 0 := by decide
        rw [this] at hd
        omega
      · exact h0
    have hl := bindig_lower hn0
    have e1 : bindig n - 1 = d + 39 := by omega
    have e2 : 2 ^ 39 ≤ n / 2 ^ d := by
      rw [Nat.le_div_iff_mul_le (by positivity), ← pow_add, Nat.add_comm, ← e1]
      exact hl
    calc s * 2 ^ e ≤ 2 ^ 40 * 2 ^ e := Nat.mul_le_mul_right _ hs.le
      _ = 2 ^ (40 + e) := (pow_add _ _ _).symm
      _ ≤ 2 ^ (39 + d) := Nat.pow_le_pow_right (by norm_num) (by omega)
      _ = 2 ^ 39 * 2 ^ d := pow_add _ _ _
      _ ≤ _ := Nat.mul_le_mul_right _ e2

theorem stored_form (n : ℕ) (f : FloatInt) (h : fromInt n = .ok f) :
    ∃ s e : ℕ, s < 2 ^ 40 ∧ f.asint = ((s * 2 ^ e : ℕ) : ℤ) ∧ s * 2 ^ e ≤ n := by
  have hn : n < 2 ^ 296 := by exact_mod_cast ((C53_range n).1 ⟨f, h⟩).2
  obtain ⟨g, h1, h2, _, _, h3, h4, _⟩ := C53_store n hn
  have : f = g := Except.ok.inj (h.symm.trans h1)
  subst this
  have e1 : f.asint = f.significant * 2 ^ f.exponent := by unfold asint; rw [Int.shiftLeft_eq]
  obtain ⟨s, hs⟩ := Int.eq_ofNat_of_zero_le h3
  refine ⟨s, f.exponent, by rw [hs] at h4; exact_mod_cast h4, ?_, ?_⟩
  · rw [e1, hs]; push_cast; rfl
  · rw [e1, hs] at h2; exact_mod_cast h2

/-- C53: storing keeps the order. -/
theorem C53_monotone (n m : ℕ) (hnm : n ≤ m) (f g : FloatInt) (hf : fromInt n = .ok f) (hg : fromInt m = .ok g) : f.asint ≤ g.asint := by
  obtain ⟨s, e, hs, h1, h2⟩ := stored_form n f hf
  rw [h1]
  exact C53_largest m g hg s e hs (h2.trans hnm)

/-- C53: storing a value that was given back changes nothing. -/
theorem C53_again (n : ℕ) (f : FloatInt) (hf : fromInt n = .ok f) : ∃ g, fromInt f.asint = .ok g ∧ g.asint = f.asint := by
  obtain ⟨s, e, hs, h1, h2⟩ := stored_form n f hf
  have hn : n < 2 ^ 296 := by exact_mod_cast ((C53_range n).1 ⟨f, hf⟩).2
  obtain ⟨g, h3, h4, _⟩ := C53_store (s * 2 ^ e) (h2.trans_lt hn)
  refine ⟨g, by rw [h1]; exact h3, le_antisymm (by rw [h1]; exact h4) ?_⟩
  rw [h1]
  exact C53_largest _ g h3 s e hs le_rfl

section
variable {K : Type} [Field K] [LinearOrder K] [IsStrictOrderedRing K] [FloorRing K]

/-- C53: a non-negative fraction below 2^296 units of the scale is stored; the value given back is at most the original, and the loss is
below one unit of the scale plus one part in 2^39. -/
theorem C53_fraction (oe : ℕ) (x : K) (h0 : 0 ≤ x) (hx : x * 2 ^ oe < 2 ^ 296) :
    ∃ f, fromFloat oe x = .ok f ∧ asfloat (K := K) oe f ≤ x ∧ x - asfloat (K := K) oe f < 1 / 2 ^ oe + x / 2 ^ 39 := by
  have ho : ((one oe : ℤ) : K) = 2 ^ oe := by unfold one; rw [Int.shiftLeft_eq, one_mul]; push_cast; rfl
  have hp : (0 : K) < 2 ^ oe := by positivity
  have hx0 : 0 ≤ x * 2 ^ oe := mul_nonneg h0 hp.le
  have ht : SdkTkn.toInt (x * ((one oe : ℤ) : K)) = ⌊x * 2 ^ oe⌋ := by
    unfold SdkTkn.toInt
    rw [ho, if_pos hx0]
  have hf0 : 0 ≤ ⌊x * 2 ^ oe⌋ := Int.floor_nonneg.2 hx0
  obtain ⟨n, hn⟩ := Int.eq_ofNat_of_zero_le hf0
  have hlo := Int.floor_le (x * 2 ^ oe)
  have hhi := Int.lt_floor_add_one (x * 2 ^ oe)
  rw [hn] at hlo hhi
  push_cast at hlo hhi
  have hlt : n < 2 ^ 296 := by
    have : (n : K) < 2 ^ 296 := hlo.trans_lt hx
    exact_mod_cast this
  obtain ⟨f, h1, h2, h3, h4, _⟩ := C53_store n hlt
  refine ⟨f, ?_, ?_, ?_⟩
  · unfold fromFloat
    rw [ht, hn]
    exact h1
  · unfold asfloat
    rw [ho, div_le_iff₀ hp]
    have : (f.asint : K) ≤ n := by exact_mod_cast h2
    exact this.trans hlo
  · unfold asfloat
    rw [ho]
    have hloss : ((n : K) - f.asint) * 2 ^ 39 ≤ n := by
      rcases Nat.eq_zero_or_pos n with h | h
      · subst h
        rw [h4 (by norm_num)]
        norm_num
      · exact_mod_cast (h3 h).le
    have e : (n : K) - f.asint ≤ x * 2 ^ oe / 2 ^ 39 := by
      rw [le_div_iff₀ (by norm_num)]
      exact hloss.trans hlo
    have : x - f.asint / 2 ^ oe = (x * 2 ^ oe - f.asint) / 2 ^ oe := by field_simp
    rw [this, div_lt_iff₀ hp, add_mul, div_mul_cancel₀ _ hp.ne', div_mul_eq_mul_div]
    linarith

end

/-- C53 fails: a number in the top range is stored with an exponent that needs nine bits, above the largest number `max()`. -/
theorem C53_exponent_violated : ∃ f g, fromInt (2 ^ 295) = .ok f ∧ max = .ok g ∧ f.exponent = 256 ∧ ¬ f.exponent < 2 ^ 8 ∧ g.asint < f.asint := by
  refine ⟨⟨2 ^ 39, 256⟩, ⟨2 ^ 40 - 1, 255⟩, ?_, rfl, rfl, by decide, by decide⟩
  have hd : bindig (2 ^ 295) = 296 := by
    apply le_antisymm
    · rw [bindig_le]; exact Nat.pow_lt_pow_right (by norm_num) (by norm_num)
    · by_contra h
      push Not at h
      have : bindig (2 ^ 295) ≤ 295 := by omega
      rw [bindig_le] at this
      exact lt_irrefl _ this
  have := fromIntWith_nat bindig (2 ^ 295) fun _ => by rw [hd]
  obtain ⟨f, h1, h2, h3, _⟩ := this
  rw [hd] at h2 h3
  have h3 : f.exponent = 296 - 40 := h3 (by positivity)
  have : f = ⟨2 ^ 39, 256⟩ := by
    obtain ⟨a, b⟩ := f
    simp only at h2 h3
    rw [h2, h3, Nat.pow_div (by norm_num) (by norm_num)]
    norm_num
  rw [this] at h1
  rw [← h1]
  unfold fromInt
  push_cast
  rfl

example : fromInt (2 ^ 45 + 77) = .ok ⟨2 ^ 39 + 1, 6⟩ ∧ (⟨2 ^ 39 + 1, 6⟩ : FloatInt).asint = 2 ^ 45 + 64 := by
  constructor
  · decide +kernel
  · decide

end FloatInt

end Carbon
