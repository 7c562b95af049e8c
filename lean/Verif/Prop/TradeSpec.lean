import Verif.Bench.TradeSpec
import Verif.Prop.Trade
import Verif.Prop.Encoded
import Verif.Carbon.OrderLemmas
import Mathlib.Tactic.Positivity
import Mathlib.Tactic.FieldSimp

/-!
# C116, C117: the integer trade functions and the reference implementation

The benchmark compares the two on some files of samples. Here they are compared for all orders and amounts.
-/

namespace Carbon.Prop.TradeSpec

open Bench Spec Prop.Trade
open CarbonPair (pyDiv)

/-- What the reference pays out, as a number. -/
noncomputable def payout (x y L M : ℝ) : ℝ := M * M * x * y / (M * (M - L) * x + y)

/-- What the reference charges, as a number. -/
noncomputable def charge (d y L M : ℝ) : ℝ := d * y / (M * (L - M) * d + M * M * y)

theorem sourceFunc_ok {x y L M v : ℝ} :
    Ref.sourceFunc x y L M = .ok v ↔ M * (M - L) * x + y ≠ 0 ∧ v = payout x y L M := by
  unfold Ref.sourceFunc pyDiv payout
  by_cases h : M * (M - L) * x + y = 0
  · rw [if_pos h]; exact ⟨fun h => (by cases h), fun hh => absurd h hh.1⟩
  · rw [if_neg h]; exact ⟨fun hh => ⟨h, (Except.ok.inj hh).symm⟩, fun hh => by rw [hh.2]⟩

theorem targetFunc_ok {x y L M v : ℝ} :
    Ref.targetFunc x y L M = .ok v ↔ M * (L - M) * x + M * M * y ≠ 0 ∧ v = charge x y L M := by
  unfold Ref.targetFunc pyDiv charge
  by_cases h : M * (L - M) * x + M * M * y = 0
  · rw [if_pos h]; exact ⟨fun h => (by cases h), fun hh => absurd h hh.1⟩
  · rw [if_neg h]; exact ⟨fun hh => ⟨h, (Except.ok.inj hh).symm⟩, fun hh => by rw [hh.2]⟩

theorem ref_encode {o : RateOrder ℝ} (h1 : 0 ≤ o.lowest) (h2 : 0 ≤ o.highest) (h3 : 0 ≤ o.marginal) :
    Ref.encodeOrder o = .ok ⟨o.liquidity, √o.lowest, √o.highest, √o.marginal⟩ := by
  unfold Ref.encodeOrder
  rw [Curve.sqrtE_ok h1, Curve.sqrtE_ok h2, Curve.sqrtE_ok h3]
  rfl

theorem execute_source {o : RateOrder ℝ} (h1 : 0 ≤ o.lowest) (h2 : 0 ≤ o.highest) (h3 : 0 ≤ o.marginal) (x : ℝ) :
    Ref.execute true x o = Ref.sourceFunc x o.liquidity √o.lowest √o.marginal := by
  unfold Ref.execute
  rw [ref_encode h1 h2 h3]
  rfl

theorem execute_target {o : RateOrder ℝ} (h1 : 0 ≤ o.lowest) (h2 : 0 ≤ o.highest) (h3 : 0 ≤ o.marginal) (x : ℝ) :
    Ref.execute false x o = Ref.targetFunc x o.liquidity √o.lowest √o.marginal := by
  unfold Ref.execute
  rw [ref_encode h1 h2 h3]
  rfl

/-! ## C116: the reference -/

/-- C116: an order survives being encoded and decoded by the reference; negative rates raise. -/
theorem C116_roundtrip (o : RateOrder ℝ) :
    (0 ≤ o.lowest → 0 ≤ o.highest → 0 ≤ o.marginal → ∃ e, Ref.encodeOrder o = .ok e ∧ Ref.decodeOrder e = o) ∧
      (o.lowest < 0 ∨ o.highest < 0 ∨ o.marginal < 0 → Ref.encodeOrder o = .error .value) := by
  constructor
  · intro h1 h2 h3
    refine ⟨_, ref_encode h1 h2 h3, ?_⟩
    unfold Ref.decodeOrder
    dsimp only
    rw [Real.sq_sqrt h1, Real.sq_sqrt h2, Real.sq_sqrt h3]
  · intro h
    unfold Ref.encodeOrder Curve.sqrtE
    by_cases h1 : o.lowest < 0
    · rw [if_pos h1]; rfl
    · by_cases h2 : o.highest < 0
      · rw [if_neg h1, if_pos h2]; rfl
      · rw [if_neg h1, if_neg h2, if_pos ((h.resolve_left h1).resolve_left h2)]; rfl

/-- C116: asking the reference for what a source amount buys and then for what that costs gives back the source amount. -/
theorem C116_inverse {o : RateOrder ℝ} (h1 : 0 ≤ o.lowest) (h2 : 0 ≤ o.highest) (h3 : 0 < o.marginal) (hy : o.liquidity ≠ 0) {x v : ℝ}
    (h : Ref.execute true x o = .ok v) : Ref.execute false v o = .ok x := by
  rw [execute_source h1 h2 h3.le, sourceFunc_ok] at h
  rw [execute_target h1 h2 h3.le, targetFunc_ok]
  obtain ⟨hd, rfl⟩ := h
  have hM : √o.marginal ≠ 0 := (Real.sqrt_pos.2 h3).ne'
  unfold payout charge
  generalize √o.lowest = L at *
  generalize √o.marginal = M at *
  generalize o.liquidity = y at *
  have e : M * (L - M) * (M * M * x * y / (M * (M - L) * x + y)) + M * M * y = M * M * y * y / (M * (M - L) * x + y) := by
    rw [eq_div_iff hd, add_mul, mul_assoc, div_mul_cancel₀ _ hd]
    ring
  rw [e]
  refine ⟨div_ne_zero (by positivity) hd, ?_⟩
  generalize M * (M - L) * x + y = D at hd
  field_simp

/-- C116: as long as the order has enough liquidity, the average rate of a trade is between the lowest and the marginal rate. -/
theorem C116_rate {o : RateOrder ℝ} (h1 : 0 ≤ o.lowest) (h2 : 0 ≤ o.highest) (h3 : o.lowest ≤ o.marginal) (hy : 0 < o.liquidity) {x : ℝ}
    (hx : 0 ≤ x) : ∃ v, Ref.execute true x o = .ok v ∧ 0 ≤ v ∧ v ≤ o.marginal * x ∧ (v ≤ o.liquidity → o.lowest * x ≤ v) := by
  have hLM := Real.sqrt_le_sqrt h3
  have hL := Real.sqrt_nonneg o.lowest
  have hM := Real.sqrt_nonneg o.marginal
  rw [execute_source h1 h2 (h1.trans h3)]
  have e1 := Real.mul_self_sqrt h1
  have e2 := Real.mul_self_sqrt (h1.trans h3)
  generalize √o.lowest = L at *
  generalize √o.marginal = M at *
  generalize o.liquidity = y at *
  have hA : 0 ≤ M * (M - L) * x := mul_nonneg (mul_nonneg hM (by linarith)) hx
  have hD : 0 < M * (M - L) * x + y := by linarith
  refine ⟨_, sourceFunc_ok.2 ⟨hD.ne', rfl⟩, by unfold payout; positivity, ?_, ?_⟩
  · unfold payout
    rw [div_le_iff₀ hD, ← e2]
    nlinarith [mul_nonneg (mul_nonneg (mul_nonneg hM hM) hx) hA]
  · intro hv
    unfold payout at hv ⊢
    rw [div_le_iff₀ hD] at hv
    rw [le_div_iff₀ hD, ← e1]
    have k : L * M * x ≤ y := by
      by_contra hc
      nlinarith [not_le.1 hc]
    have s1 : L * L * x * (M * (M - L) * x) ≤ L * (M - L) * x * y := by
      have := mul_le_mul_of_nonneg_left k (mul_nonneg (mul_nonneg hL (sub_nonneg.2 hLM)) hx)
      nlinarith [this]
    have s2 : L * (M - L) * x * y + L * L * x * y ≤ M * M * x * y := by
      have : L * (M - L) + L * L ≤ M * M := by nlinarith
      nlinarith [mul_le_mul_of_nonneg_right this (mul_nonneg hx hy.le)]
    linarith

/-! ## The exact curve of an encoded order -/

theorem curveOut_payout {x y z a b : ℚ} (hz : z ≠ 0) (hy : y ≠ 0) :
    ((curveOut x y z a b : ℚ) : ℝ) = payout x y b (b + a * y / z) := by
  have hz' : (z : ℝ) ≠ 0 := by exact_mod_cast hz
  have hy' : (y : ℝ) ≠ 0 := by exact_mod_cast hy
  unfold curveOut payout
  by_cases ha : a = 0
  · rw [if_pos ha, ha]
    push_cast
    rw [zero_mul, zero_div, add_zero, sub_self, mul_zero, zero_mul, zero_add]
    field_simp
  · rw [if_neg ha]
    push_cast
    have e1 : ((b : ℝ) + a * y / z) = (a * y + b * z) / z := by field_simp; ring
    rw [e1]
    have e2 : ((a : ℝ) * y + b * z) / z * ((a * y + b * z) / z - b) * x + y = y * (a * x * (a * y + b * z) + z ^ 2) / z ^ 2 := by
      field_simp
      ring
    rw [e2]
    field_simp

theorem curveIn_charge {d y z a b : ℚ} (hz : z ≠ 0) (hy : y ≠ 0) :
    ((curveIn d y z a b : ℚ) : ℝ) = charge d y b (b + a * y / z) := by
  have hz' : (z : ℝ) ≠ 0 := by exact_mod_cast hz
  have hy' : (y : ℝ) ≠ 0 := by exact_mod_cast hy
  unfold curveIn charge
  by_cases ha : a = 0
  · rw [if_pos ha, ha]
    push_cast
    rw [zero_mul, zero_div, add_zero, sub_self, mul_zero, zero_mul, zero_add]
    field_simp
  · rw [if_neg ha]
    push_cast
    have e1 : ((b : ℝ) + a * y / z) = (a * y + b * z) / z := by field_simp; ring
    rw [e1]
    have e2 : ((a : ℝ) * y + b * z) / z * (b - (a * y + b * z) / z) * d + (a * y + b * z) / z * ((a * y + b * z) / z) * y =
        y * ((a * y + b * z) * (a * y + b * z - a * d)) / z ^ 2 := by
      field_simp
      ring
    rw [e2]
    field_simp

theorem decode_word (w : ℕ) : ((wordValue w : ℚ) : ℝ) = (decodeFloat w : ℝ) / 2 ^ 48 := by
  rw [wordValue_eq]
  push_cast
  rfl

/-- The rates that an encoded order is read back with. -/
theorem decodeOrder_ok {o : EncOrder} {d : RateOrder ℝ} (h : decodeOrder o = .ok d) :
    d.liquidity = o.y ∧ d.lowest = (wordValue o.B : ℝ) ^ 2 ∧ d.highest = ((wordValue o.B : ℝ) + wordValue o.A) ^ 2 ∧
      (o.y ≠ o.z → o.z ≠ 0) ∧
      d.marginal = ((wordValue o.B : ℝ) + (if o.y = o.z then (wordValue o.A : ℝ) else (wordValue o.A : ℝ) * o.y / o.z)) ^ 2 := by
  unfold Bench.decodeOrder at h
  rw [Py.bind_eq_ok] at h
  obtain ⟨M, hM, h⟩ := h
  have := Except.ok.inj h
  subst this
  simp only [decode_word]
  unfold decodeRate
  by_cases hyz : o.y = o.z
  · rw [if_pos (by exact_mod_cast hyz)] at hM
    have := Except.ok.inj hM
    subst this
    refine ⟨trivial, rfl, by ring, fun hc => absurd hyz hc, ?_⟩
    rw [if_pos hyz]
    ring
  · rw [if_neg (by exact_mod_cast hyz), Py.bind_eq_ok] at hM
    obtain ⟨q, hq, hM⟩ := hM
    have := Except.ok.inj hM
    subst this
    unfold pyDiv at hq
    by_cases hz : (o.z : ℝ) = 0
    · rw [if_pos hz] at hq; cases hq
    · rw [if_neg hz] at hq
      have := Except.ok.inj hq
      subst this
      refine ⟨trivial, rfl, by ring, fun _ hc => hz (by exact_mod_cast hc), ?_⟩
      rw [if_neg hyz]
      ring

/-- C116: what the contract pays out never exceeds what the reference pays out for the rates that the stored order is read back with. -/
theorem C116_source {x : ℤ} {o : EncOrder} (hx : 0 ≤ x) (hy : 0 ≤ o.y) (hz : 0 ≤ o.z) {d : RateOrder ℝ} (hd : decodeOrder o = .ok d)
    {v : ℝ} (hv : Ref.execute true (x : ℝ) d = .ok v) : (tradeBySourceAmount x o : ℝ) ≤ v := by
  obtain ⟨e1, e2, e3, hz0, e4⟩ := decodeOrder_ok hd
  have n1 : 0 ≤ d.lowest := by rw [e2]; positivity
  have n2 : 0 ≤ d.highest := by rw [e3]; positivity
  have n3 : 0 ≤ d.marginal := by rw [e4]; positivity
  rw [execute_source n1 n2 n3, sourceFunc_ok] at hv
  obtain ⟨hD, rfl⟩ := hv
  have hb : (0 : ℝ) ≤ wordValue o.B := by exact_mod_cast wordValue_nonneg o.B
  have ha : (0 : ℝ) ≤ wordValue o.A := by exact_mod_cast wordValue_nonneg o.A
  have hyR : (0 : ℝ) ≤ o.y := by exact_mod_cast hy
  have hzR : (0 : ℝ) ≤ o.z := by exact_mod_cast hz
  have h3 := C03_payout_le_curve x o hx hy hz
  have h3 : ((tradeBySourceAmount x o : ℚ) : ℝ) ≤ ((curveOut x o.y o.z (wordValue o.A) (wordValue o.B) : ℚ) : ℝ) := by exact_mod_cast h3
  have h3 : (tradeBySourceAmount x o : ℝ) ≤ ((curveOut x o.y o.z (wordValue o.A) (wordValue o.B) : ℚ) : ℝ) := by exact_mod_cast h3
  have rL : √d.lowest = wordValue o.B := by rw [e2, Real.sqrt_sq hb]
  have hin : (0 : ℝ) ≤ (wordValue o.B : ℝ) + (if o.y = o.z then (wordValue o.A : ℝ) else (wordValue o.A : ℝ) * o.y / o.z) := by
    split <;> positivity
  have rM := Real.sqrt_sq hin
  rw [← e4] at rM
  refine h3.trans ?_
  by_cases hyz : o.y = o.z
  · by_cases hy0 : o.y = 0
    · have hc : curveOut x o.y o.z (wordValue o.A) (wordValue o.B) = 0 ∨ wordValue o.A = 0 := by
        by_cases hA : wordValue o.A = 0
        · exact .inr hA
        · left
          unfold curveOut
          rw [if_neg hA, ← hyz, hy0]
          simp
      rcases hc with hc | hc
      · rw [hc]
        unfold payout
        rw [e1, hy0]
        simp
      · exfalso
        apply hD
        rw [rL, rM, if_pos hyz, hc, e1, hy0]
        simp
    · have hyq : (o.y : ℚ) ≠ 0 := by exact_mod_cast hy0
      have hzq : (o.z : ℚ) ≠ 0 := by rw [← hyz]; exact hyq
      rw [curveOut_payout hzq hyq, rL, rM, if_pos hyz, e1]
      apply le_of_eq
      push_cast
      congr 1
      rw [← hyz, mul_div_assoc, div_self (by exact_mod_cast hy0), mul_one]
  · have hzne := hz0 hyz
    have hzq : (o.z : ℚ) ≠ 0 := by exact_mod_cast hzne
    by_cases hy0 : o.y = 0
    · -- nothing left: the reference pays nothing, and neither does the curve unless the range is one price
      by_cases hA : wordValue o.A = 0
      · exfalso
        apply hD
        rw [rL, rM, if_neg hyz, hA, e1, hy0]
        simp
      · by_cases hB : (wordValue o.B : ℝ) = 0
        · have : wordValue o.B = 0 := by exact_mod_cast hB
          rw [this]
          unfold curveOut
          rw [if_neg hA, hy0]
          unfold payout
          rw [e1, hy0]
          simp
        · exfalso
          apply hD
          rw [rL, rM, if_neg hyz, e1, hy0]
          simp
    · have hyq : (o.y : ℚ) ≠ 0 := by exact_mod_cast hy0
      rw [curveOut_payout hzq hyq, rL, rM, if_neg hyz, e1]
      apply le_of_eq
      push_cast
      rfl

/-- C116: what the contract charges, unless it refuses, is at least what the reference charges for the rates that the stored order is
read back with. -/
theorem C116_target {x : ℤ} {o : EncOrder} (hy : 0 < o.y) (hz : 0 ≤ o.z) {d : RateOrder ℝ} (hd : decodeOrder o = .ok d)
    (hr : tradeByTargetAmount x o < 2 ^ 128 - 1) : ∃ v, Ref.execute false (x : ℝ) d = .ok v ∧ v ≤ (tradeByTargetAmount x o : ℝ) := by
  obtain ⟨e1, e2, e3, hz0, e4⟩ := decodeOrder_ok hd
  have n1 : 0 ≤ d.lowest := by rw [e2]; positivity
  have n2 : 0 ≤ d.highest := by rw [e3]; positivity
  have n3 : 0 ≤ d.marginal := by rw [e4]; positivity
  have hb : (0 : ℝ) ≤ wordValue o.B := by exact_mod_cast wordValue_nonneg o.B
  have ha : (0 : ℝ) ≤ wordValue o.A := by exact_mod_cast wordValue_nonneg o.A
  have hyR : (0 : ℝ) < o.y := by exact_mod_cast hy
  have hzR : (0 : ℝ) ≤ o.z := by exact_mod_cast hz
  obtain ⟨h4, h5, h6⟩ := C04_cost_ge_curve x o hr
  have h4 : ((curveIn x o.y o.z (wordValue o.A) (wordValue o.B) : ℚ) : ℝ) ≤ (tradeByTargetAmount x o : ℝ) := by exact_mod_cast h4
  have rL : √d.lowest = wordValue o.B := by rw [e2, Real.sqrt_sq hb]
  have hzne : o.z ≠ 0 := by
    intro hc
    by_cases hyz : o.y = o.z
    · omega
    · exact hz0 hyz hc
  have hzp : (0 : ℝ) < o.z := lt_of_le_of_ne hzR (by exact_mod_cast hzne.symm)
  have rM : √d.marginal = (wordValue o.B : ℝ) + (wordValue o.A : ℝ) * o.y / o.z := by
    rw [e4, Real.sqrt_sq (by split <;> positivity)]
    split
    · rename_i hyz
      rw [hyz, mul_div_assoc, div_self hzp.ne', mul_one]
    · rfl
  rw [execute_target n1 n2 n3, rL, rM, e1]
  refine ⟨_, targetFunc_ok.2 ⟨?_, rfl⟩, ?_⟩
  · have e : ((wordValue o.B : ℝ) + (wordValue o.A : ℝ) * o.y / o.z) * ((wordValue o.B : ℝ) - (wordValue o.B + wordValue o.A * o.y / o.z)) * x +
        ((wordValue o.B : ℝ) + wordValue o.A * o.y / o.z) * (wordValue o.B + wordValue o.A * o.y / o.z) * o.y =
        o.y * ((wordValue o.A * o.y + wordValue o.B * o.z) * (wordValue o.A * o.y + wordValue o.B * o.z - wordValue o.A * x)) / o.z ^ 2 := by
      field_simp
      ring
    rw [e]
    apply ne_of_gt
    by_cases hA : wordValue o.A = 0
    · have hB : (0 : ℝ) < wordValue o.B := by exact_mod_cast h5 hA
      have hA' : (wordValue o.A : ℝ) = 0 := by exact_mod_cast hA
      rw [hA']
      have : (0 : ℝ) * o.y + wordValue o.B * o.z - 0 * x = wordValue o.B * o.z := by ring
      rw [this]
      positivity
    · obtain ⟨hx0, hlt⟩ := h6 hA
      have hlt : (wordValue o.A : ℝ) * x < wordValue o.A * o.y + wordValue o.B * o.z := by exact_mod_cast hlt
      have hA' : (0 : ℝ) < wordValue o.A := lt_of_le_of_ne ha (by exact_mod_cast Ne.symm hA)
      have : (0 : ℝ) < wordValue o.A * o.y + wordValue o.B * o.z - wordValue o.A * x := by linarith
      positivity
  · have := curveIn_charge (d := (x : ℚ)) (y := (o.y : ℚ)) (z := (o.z : ℚ)) (a := wordValue o.A) (b := wordValue o.B)
      (by exact_mod_cast hzne) (by exact_mod_cast hy.ne')
    push_cast at this
    rw [← this]
    exact h4

/-! ## C117: the order that was asked for -/

theorem rate_bounds {num den n : ℕ} (h : Bench.encodeRate num den = .ok n) :
    0 < den ∧ (n : ℝ) / 2 ^ 48 ≤ √((num : ℝ) / den) ∧ √((num : ℝ) / den) * (1 - 1 / 2 ^ 47) - 1 / 2 ^ 48 ≤ (n : ℝ) / 2 ^ 48 := by
  have hd : 0 < den := by
    rcases Nat.eq_zero_or_pos den with h0 | h0
    · unfold Bench.encodeRate at h
      rw [if_pos h0] at h
      cases h
    · exact h0
  refine ⟨hd, ?_⟩
  rw [← EncodedOrder.C95_agrees num den hd, EncodedOrder.encodeRate_ok _ (by positivity)] at h
  have := Except.ok.inj h
  subst this
  obtain ⟨h1, h2⟩ := EncodedOrder.floor_toNat ((num : ℝ) / den)
  generalize ⌊√((num : ℝ) / den) * 2 ^ 48⌋.toNat = k at *
  generalize √((num : ℝ) / den) = s at *
  have h3 := EncodedOrder.trunc_close k
  have h4 : (Bench.trunc k : ℝ) ≤ k := by exact_mod_cast Bench.trunc_le k
  constructor
  · rw [div_le_iff₀ (by positivity)]
    linarith
  · rw [le_div_iff₀ (by positivity)]
    have e : (s * (1 - 1 / 2 ^ 47) - 1 / 2 ^ 48) * 2 ^ 48 = (s * 2 ^ 48) * (1 - 1 / 2 ^ 47) - 1 := by ring
    rw [e]
    have : (s * 2 ^ 48) * (1 - 1 / 2 ^ 47) ≤ ((k : ℝ) + 1) * (1 - 1 / 2 ^ 47) :=
      mul_le_mul_of_nonneg_right h2.le (by norm_num)
    have e2 : ((k : ℝ) + 1) * (1 - 1 / 2 ^ 47) = k * (1 - 1 / 2 ^ 47) + (1 - 1 / 2 ^ 47) := by ring
    have : (0 : ℝ) < 1 / 2 ^ 47 := by norm_num
    linarith

theorem rate_le {num den num' den' n n' : ℕ} (h : Bench.encodeRate num den = .ok n) (h' : Bench.encodeRate num' den' = .ok n')
    (hle : num * den' ≤ num' * den) : n ≤ n' := by
  have g := C57_rate_greatest _ _ _ h
  have g' := C57_rate_greatest _ _ _ h'
  refine g'.2 ⟨g.1.1, ?_⟩
  have h2 : (n ^ 2 * den') * den ≤ (num' * 2 ^ 96) * den := by
    calc (n ^ 2 * den') * den = (n ^ 2 * den) * den' := by ring
      _ ≤ (num * 2 ^ 96) * den' := Nat.mul_le_mul_right _ g.1.2
      _ = (num * den') * 2 ^ 96 := by ring
      _ ≤ (num' * den) * 2 ^ 96 := Nat.mul_le_mul_right _ hle
      _ = (num' * 2 ^ 96) * den := by ring
  exact Nat.le_of_mul_le_mul_right h2 (rate_bounds h).1

/-- How the stored order relates to the one asked for: `m` is the root of the marginal rate that it trades at, and `k` bounds by how much
the rounding of the capacity can raise it. -/
structure Stored (y : ℕ) (sL sM : ℝ) (o : EncOrder) (m k : ℝ) : Prop where
  liquidity : o.y = y
  capacity : o.y ≤ o.z
  marginal : m = (wordValue o.B : ℝ) + wordValue o.A * o.y / o.z
  low_le : (wordValue o.B : ℝ) ≤ sL
  low_ge : sL * (1 - 1 / 2 ^ 47) - 1 / 2 ^ 48 ≤ wordValue o.B
  bonus_nonneg : 0 ≤ k
  bonus_le : k ≤ 1 / y
  marg_ge : (wordValue o.B : ℝ) ≤ m
  marg_le : m ≤ sM * (1 + k)
  diff_le : m - wordValue o.B ≤ (sM - wordValue o.B) * (1 + k)
  marg_lower : sM * (1 - 1 / 2 ^ 46) - 1 / 2 ^ 48 ≤ m
  marg_top : m ≤ (wordValue o.B : ℝ) + wordValue o.A

theorem stored {y : ℕ} {lo hi mid : ℕ × ℕ} {o : EncOrder} (hy : 0 < y) (h : Bench.encodeOrder y lo hi mid = .ok o)
    (hlo : lo.1 * mid.2 ≤ mid.1 * lo.2) (hmid : mid.1 * hi.2 ≤ hi.1 * mid.2) :
    ∃ m k, Stored y √((lo.1 : ℝ) / lo.2) √((mid.1 : ℝ) / mid.2) o m k ∧ (hi.1 * mid.2 = mid.1 * hi.2 → k = 0) := by
  unfold Bench.encodeOrder at h
  simp only [Py.bind_eq_ok] at h
  obtain ⟨L, hL, H, hH, M, hM, h⟩ := h
  unfold encodeOrderFixed at h
  split at h
  · cases h
  rename_i hHL
  simp only [Py.bind_eq_ok, Py.pure_eq_ok] at h
  obtain ⟨z, hz, rfl⟩ := h
  have hLM := rate_le hL hM hlo
  have hMH := rate_le hM hH hmid
  obtain ⟨dL, bL, cL⟩ := rate_bounds hL
  obtain ⟨dM, bM, cM⟩ := rate_bounds hM
  have eB : ((wordValue (encodeFloat L) : ℚ) : ℝ) = (L : ℝ) / 2 ^ 48 := by
    rw [decode_word, C02_representable_exact L (C57_rate_greatest _ _ _ hL).1.1]
  have eA : ((wordValue (encodeFloat (H - L)) : ℚ) : ℝ) = (Bench.trunc (H - L) : ℝ) / 2 ^ 48 := by
    rw [decode_word, Bench.decode_encode]
  have hyR : (0 : ℝ) < y := by exact_mod_cast hy
  have hA1 : (Bench.trunc (H - L) : ℝ) ≤ (H : ℝ) - L := by
    rw [← Nat.cast_sub (not_lt.1 hHL)]
    exact_mod_cast Bench.trunc_le _
  have hA2 : ((H : ℝ) - L) * (1 - 1 / 2 ^ 47) ≤ Bench.trunc (H - L) := by
    have := EncodedOrder.trunc_close (H - L)
    rwa [Nat.cast_sub (not_lt.1 hHL)] at this
  have hA0 : (0 : ℝ) ≤ (Bench.trunc (H - L) : ℝ) := by positivity
  have hL0 : (0 : ℝ) ≤ (L : ℝ) := by positivity
  have hLMR : (L : ℝ) ≤ M := by exact_mod_cast hLM
  have hMHR : (M : ℝ) ≤ H := by exact_mod_cast hMH
  generalize √((lo.1 : ℝ) / lo.2) = sL at *
  generalize √((mid.1 : ℝ) / mid.2) = sM at *
  have lower : ∀ t : ℝ, (M - L) * (1 - 1 / 2 ^ 47) ≤ t → sM * (1 - 1 / 2 ^ 46) - 1 / 2 ^ 48 ≤ ((L : ℝ) + t) / 2 ^ 48 := by
    intro t ht
    have hs : (0 : ℝ) ≤ sM := le_trans (by positivity) bM
    have h1 : (M : ℝ) * (1 - 1 / 2 ^ 47) ≤ L + t := by
      have : (L : ℝ) * (1 / 2 ^ 47) ≥ 0 := by positivity
      nlinarith
    have h2 : (sM * (1 - 1 / 2 ^ 47) - 1 / 2 ^ 48) * (1 - 1 / 2 ^ 47) ≤ ((M : ℝ) / 2 ^ 48) * (1 - 1 / 2 ^ 47) :=
      mul_le_mul_of_nonneg_right cM (by norm_num)
    have h3 : ((M : ℝ) / 2 ^ 48) * (1 - 1 / 2 ^ 47) ≤ ((L : ℝ) + t) / 2 ^ 48 := by
      rw [div_mul_eq_mul_div]
      exact div_le_div_of_nonneg_right h1 (by positivity)
    have h4 : sM * (1 - 1 / 2 ^ 46) - 1 / 2 ^ 48 ≤ (sM * (1 - 1 / 2 ^ 47) - 1 / 2 ^ 48) * (1 - 1 / 2 ^ 47) := by
      have e : (sM * (1 - 1 / 2 ^ 47) - 1 / 2 ^ 48) * (1 - 1 / 2 ^ 47) - (sM * (1 - 1 / 2 ^ 46) - 1 / 2 ^ 48) =
          sM * (1 / 2 ^ 94) + 1 / 2 ^ 95 := by
        ring
      have : (0 : ℝ) ≤ sM * (1 / 2 ^ 94) + 1 / 2 ^ 95 := by positivity
      linarith
    linarith
  by_cases hf : H = M
  · -- a full order
    unfold encodeCapacity at hz
    rw [if_pos hf] at hz
    have := Except.ok.inj hz
    subst this
    refine ⟨((L : ℝ) + Bench.trunc (H - L)) / 2 ^ 48, 0, ⟨rfl, le_rfl, ?_, by rw [eB]; exact bL, by rw [eB]; exact cL, le_rfl, by positivity, ?_, ?_, ?_, ?_, ?_⟩,
      fun _ => rfl⟩
    · rw [eA, eB]
      push_cast
      rw [mul_div_assoc, div_self hyR.ne']
      ring
    · rw [eB]
      exact div_le_div_of_nonneg_right (by linarith) (by positivity)
    · rw [add_zero, mul_one]
      refine le_trans ?_ bM
      exact div_le_div_of_nonneg_right (by rw [← hf]; linarith) (by positivity)
    · rw [eB, add_zero, mul_one]
      have : ((L : ℝ) + Bench.trunc (H - L)) / 2 ^ 48 ≤ sM := by
        refine le_trans ?_ bM
        exact div_le_div_of_nonneg_right (by rw [← hf]; linarith) (by positivity)
      linarith
    · exact lower _ (by rw [← hf]; exact hA2)
    · rw [eA, eB, add_div]
  · -- a partly filled order
    unfold encodeCapacity at hz
    rw [if_neg hf, floorDiv_ok] at hz
    obtain ⟨hne, hz⟩ := hz
    have hLM' : L < M := lt_of_le_of_ne hLM (by rintro rfl; exact hne (by omega))
    have hMH' : M < H := lt_of_le_of_ne hMH (fun hc => hf hc.symm)
    have hpos : (0 : ℤ) < (M : ℤ) - L := by omega
    obtain ⟨z1, z2⟩ := (fdiv_char hpos _).1 hz
    have hzy : (y : ℤ) ≤ z := by
      have h3 : (y : ℤ) * ((M : ℤ) - L) ≤ (y : ℤ) * ((H : ℤ) - L) := mul_le_mul_of_nonneg_left (by omega) (by positivity)
      have h4 : (y : ℤ) * ((M : ℤ) - L) < (z + 1) * ((M : ℤ) - L) := lt_of_le_of_lt h3 z2
      have := lt_of_mul_lt_mul_right h4 hpos.le
      omega
    have hzR : (y : ℝ) ≤ z := by exact_mod_cast hzy
    have hz0 : (0 : ℝ) < z := lt_of_lt_of_le hyR hzR
    have z1 : (z : ℝ) * ((M : ℝ) - L) ≤ (y : ℝ) * ((H : ℝ) - L) := by exact_mod_cast z1
    have z2 : (y : ℝ) * ((H : ℝ) - L) ≤ ((z : ℝ) + 1) * ((M : ℝ) - L) := by exact_mod_cast z2.le
    have hA0' : (0 : ℝ) ≤ (Bench.trunc (H - L) : ℝ) * y / z := by positivity
    have up : (Bench.trunc (H - L) : ℝ) * y / z ≤ ((M : ℝ) - L) * (1 + 1 / z) := by
      rw [div_le_iff₀ hz0]
      have e : ((M : ℝ) - L) * (1 + 1 / z) * z = ((z : ℝ) + 1) * ((M : ℝ) - L) := by field_simp
      rw [e]
      refine le_trans ?_ z2
      rw [mul_comm]
      exact mul_le_mul_of_nonneg_left hA1 hyR.le
    have hk : (0 : ℝ) ≤ 1 / (z : ℝ) := by positivity
    refine ⟨((L : ℝ) + Bench.trunc (H - L) * y / z) / 2 ^ 48, 1 / z,
      ⟨rfl, hzy, ?_, by rw [eB]; exact bL, by rw [eB]; exact cL, hk, one_div_le_one_div_of_le hyR hzR, ?_, ?_, ?_, ?_, ?_⟩, ?_⟩
    · rw [eA, eB]
      push_cast
      ring
    · rw [eB]
      exact div_le_div_of_nonneg_right (by linarith) (by positivity)
    · have h1 : ((L : ℝ) + Bench.trunc (H - L) * y / z) ≤ M * (1 + 1 / z) := by
        have : (0 : ℝ) ≤ L * (1 / z) := by positivity
        nlinarith
      calc ((L : ℝ) + Bench.trunc (H - L) * y / z) / 2 ^ 48 ≤ M * (1 + 1 / z) / 2 ^ 48 :=
            div_le_div_of_nonneg_right h1 (by positivity)
        _ = ((M : ℝ) / 2 ^ 48) * (1 + 1 / z) := by ring
        _ ≤ sM * (1 + 1 / z) := mul_le_mul_of_nonneg_right bM (by positivity)
    · rw [eB]
      calc ((L : ℝ) + Bench.trunc (H - L) * y / z) / 2 ^ 48 - L / 2 ^ 48 = (Bench.trunc (H - L) * y / z) / 2 ^ 48 := by ring
        _ ≤ (((M : ℝ) - L) * (1 + 1 / z)) / 2 ^ 48 := div_le_div_of_nonneg_right up (by positivity)
        _ = ((M : ℝ) / 2 ^ 48 - L / 2 ^ 48) * (1 + 1 / z) := by ring
        _ ≤ (sM - L / 2 ^ 48) * (1 + 1 / z) := mul_le_mul_of_nonneg_right (by linarith) (by positivity)
    · refine lower _ ?_
      rw [le_div_iff₀ hz0]
      calc ((M : ℝ) - L) * (1 - 1 / 2 ^ 47) * z = (z * ((M : ℝ) - L)) * (1 - 1 / 2 ^ 47) := by ring
        _ ≤ (y * ((H : ℝ) - L)) * (1 - 1 / 2 ^ 47) := mul_le_mul_of_nonneg_right z1 (by norm_num)
        _ = (((H : ℝ) - L) * (1 - 1 / 2 ^ 47)) * y := by ring
        _ ≤ Bench.trunc (H - L) * y := mul_le_mul_of_nonneg_right hA2 hyR.le
    · rw [eA, eB, ← add_div]
      refine div_le_div_of_nonneg_right ?_ (by positivity)
      have : (Bench.trunc (H - L) : ℝ) * y / z ≤ Bench.trunc (H - L) := by
        rw [div_le_iff₀ hz0]
        exact mul_le_mul_of_nonneg_left hzR hA0
      linarith
    · intro hc
      exact absurd (le_antisymm (rate_le hH hM (le_of_eq hc)) hMH) hf

/-- Lower roots never make the reference pay more, as long as the order can pay. -/
theorem payout_mono {x y L M L' M' : ℝ} (hx : 0 ≤ x) (hy : 0 < y) (hL' : 0 ≤ L') (hLL : L' ≤ L) (hLM' : L' ≤ M') (hMM : M' ≤ M)
    (hLM : L ≤ M) (hfit : L * M * x ≤ 2 * y) : payout x y L' M' ≤ payout x y L M := by
  unfold payout
  have hM' : 0 ≤ M' := hL'.trans hLM'
  have hM : 0 ≤ M := hM'.trans hMM
  have hD' : 0 < M' * (M' - L') * x + y := by
    have : 0 ≤ M' * (M' - L') * x := mul_nonneg (mul_nonneg hM' (by linarith)) hx
    linarith
  have hD : 0 < M * (M - L) * x + y := by
    have : 0 ≤ M * (M - L) * x := mul_nonneg (mul_nonneg hM (by linarith)) hx
    linarith
  rw [div_le_div_iff₀ hD' hD]
  have key : M' * M' * (M * (M - L) * x + y) ≤ M * M * (M' * (M' - L') * x + y) := by
    have e : M * M * (M' * (M' - L') * x + y) - M' * M' * (M * (M - L) * x + y) =
        (M - M') * (M + M') * y - M * M' * x * (M * L' - M' * L) := by ring
    have h1 : M * L' - M' * L ≤ (M - M') * L := by nlinarith
    have h2 : M * M' * x * (M * L' - M' * L) ≤ M * M' * x * ((M - M') * L) :=
      mul_le_mul_of_nonneg_left h1 (by positivity)
    have h3 : M * M' * x * ((M - M') * L) ≤ (M - M') * M' * (2 * y) := by
      have : (M - M') * M' * (L * M * x) ≤ (M - M') * M' * (2 * y) :=
        mul_le_mul_of_nonneg_left hfit (mul_nonneg (by linarith) hM')
      nlinarith
    have h4 : (M - M') * M' * (2 * y) ≤ (M - M') * (M + M') * y := by
      have : 0 ≤ (M - M') * (M - M') * y := by positivity
      nlinarith
    linarith
  have := mul_le_mul_of_nonneg_right key (mul_nonneg hx hy.le)
  nlinarith

/-- Lower roots never make the reference charge less. -/
theorem charge_mono {d y L M L' M' : ℝ} (hd : 0 ≤ d) (hdy : d ≤ y) (hL' : 0 ≤ L') (hLL : L' ≤ L) (hM' : 0 ≤ M') (hMM : M' ≤ M)
    (hD' : 0 < M' * (L' - M') * d + M' * M' * y) : charge d y L M ≤ charge d y L' M' := by
  unfold charge
  refine div_le_div_of_nonneg_left (mul_nonneg hd (hd.trans hdy)) hD' ?_
  have e : ∀ L M : ℝ, M * (L - M) * d + M * M * y = M * (M * (y - d) + L * d) := by intro L M; ring
  rw [e, e]
  have h1 : M' * (y - d) + L' * d ≤ M * (y - d) + L * d :=
    add_le_add (mul_le_mul_of_nonneg_right hMM (by linarith)) (mul_le_mul_of_nonneg_right hLL hd)
  have h2 : 0 ≤ M' * (y - d) + L' * d := add_nonneg (mul_nonneg hM' (by linarith)) (mul_nonneg hL' hd)
  exact mul_le_mul hMM h1 h2 (hM'.trans hMM)

theorem fits_of_payout {x y L M : ℝ} (hM : 0 ≤ M) (hLM : L ≤ M) (hx : 0 ≤ x) (hy : 0 < y) (hv : payout x y L M ≤ y) :
    L * M * x ≤ y := by
  unfold payout at hv
  have hD : 0 < M * (M - L) * x + y := by
    have : 0 ≤ M * (M - L) * x := mul_nonneg (mul_nonneg hM (by linarith)) hx
    linarith
  rw [div_le_iff₀ hD] at hv
  by_contra hc
  nlinarith [not_le.1 hc]

theorem execute_ok {b : Bool} {x : ℤ} {y : ℕ} {lo hi mid : ℕ × ℕ} {r : ℤ} (h : Bench.execute b x y lo hi mid = .ok r) :
    ∃ o, Bench.encodeOrder y lo hi mid = .ok o ∧ r = if b then Bench.tradeBySourceAmount x o else Bench.tradeByTargetAmount x o := by
  unfold Bench.execute at h
  rw [Py.bind_eq_ok] at h
  obtain ⟨o, ho, h⟩ := h
  exact ⟨o, ho, (Except.ok.inj h).symm⟩

theorem rates_nonneg {y : ℕ} {lo hi mid : ℕ × ℕ} : 0 ≤ (requested (K := ℝ) y lo hi mid).lowest ∧
    0 ≤ (requested (K := ℝ) y lo hi mid).highest ∧ 0 ≤ (requested (K := ℝ) y lo hi mid).marginal := by
  unfold requested
  dsimp only
  exact ⟨by positivity, by positivity, by positivity⟩

/-- What the contract pays for the stored order is at most the payout at its roots. -/
theorem quote_le {x : ℤ} {y : ℕ} {sL sM m k : ℝ} {o : EncOrder} (hy : 0 < y) (hx : 0 ≤ x) (st : Stored y sL sM o m k) :
    (Bench.tradeBySourceAmount x o : ℝ) ≤ payout x y (wordValue o.B) m := by
  have hy' : 0 < o.y := by rw [st.liquidity]; exact_mod_cast hy
  have hz : 0 < o.z := lt_of_lt_of_le hy' st.capacity
  have h3 := C03_payout_le_curve x o hx hy'.le hz.le
  have h3 : (Bench.tradeBySourceAmount x o : ℝ) ≤ ((curveOut x o.y o.z (wordValue o.A) (wordValue o.B) : ℚ) : ℝ) := by exact_mod_cast h3
  rw [curveOut_payout (by exact_mod_cast hz.ne') (by exact_mod_cast hy'.ne')] at h3
  rw [st.marginal]
  have e : ((o.y : ℤ) : ℝ) = (y : ℝ) := by rw [st.liquidity]; rfl
  push_cast at h3
  rw [e] at h3 ⊢
  exact h3

theorem root_le {lo mid : ℕ × ℕ} (h : lo.1 * mid.2 ≤ mid.1 * lo.2) (h1 : 0 < lo.2) (h2 : 0 < mid.2) :
    √((lo.1 : ℝ) / lo.2) ≤ √((mid.1 : ℝ) / mid.2) := by
  apply Real.sqrt_le_sqrt
  rw [div_le_div_iff₀ (by exact_mod_cast h1) (by exact_mod_cast h2)]
  exact_mod_cast h

theorem dens {y : ℕ} {lo hi mid : ℕ × ℕ} {o : EncOrder} (h : Bench.encodeOrder y lo hi mid = .ok o) : 0 < lo.2 ∧ 0 < mid.2 := by
  unfold Bench.encodeOrder at h
  simp only [Py.bind_eq_ok] at h
  obtain ⟨L, hL, H, hH, M, hM, h⟩ := h
  exact ⟨(rate_bounds hL).1, (rate_bounds hM).1⟩

/-- C117: for an order whose marginal rate is the highest, the contract never pays out more than the reference, as long as the order has
the liquidity. -/
theorem C117_source {x : ℤ} {y : ℕ} {lo hi mid : ℕ × ℕ} {r : ℤ} {v : ℝ} (hx : 0 ≤ x) (hy : 0 < y) (hlo : lo.1 * mid.2 ≤ mid.1 * lo.2)
    (hfull : hi.1 * mid.2 = mid.1 * hi.2) (hr : Bench.execute true x y lo hi mid = .ok r)
    (hv : Ref.execute true (x : ℝ) (requested y lo hi mid) = .ok v) (hfit : v ≤ y) : (r : ℝ) ≤ v := by
  obtain ⟨o, ho, rfl⟩ := execute_ok hr
  obtain ⟨d1, d2⟩ := dens ho
  obtain ⟨m, k, st, hk⟩ := stored hy ho hlo (le_of_eq hfull.symm)
  obtain ⟨n1, n2, n3⟩ := rates_nonneg (y := y) (lo := lo) (hi := hi) (mid := mid)
  rw [execute_source n1 n2 n3, sourceFunc_ok] at hv
  unfold requested at hv
  dsimp only at hv
  obtain ⟨-, rfl⟩ := hv
  have hLM := root_le hlo d1 d2
  have hb : (0 : ℝ) ≤ wordValue o.B := by exact_mod_cast wordValue_nonneg o.B
  have hxR : (0 : ℝ) ≤ x := by exact_mod_cast hx
  have hyR : (0 : ℝ) < y := by exact_mod_cast hy
  have hmle := st.marg_le
  rw [hk hfull, add_zero, mul_one] at hmle
  have hf := fits_of_payout (Real.sqrt_nonneg _) hLM hxR hyR hfit
  exact (quote_le hy hx st).trans (payout_mono hxR hyR hb st.low_le st.marg_ge hmle hLM (by linarith))

/-- C117: for any order the contract pays out at most what the reference pays out when the root of its marginal rate is increased by one
part in the liquidity, as long as the order has the liquidity. -/
theorem C117_source_bound {x : ℤ} {y : ℕ} {lo hi mid : ℕ × ℕ} {r : ℤ} {v : ℝ} (hx : 0 ≤ x) (hy : 0 < y)
    (hlo : lo.1 * mid.2 ≤ mid.1 * lo.2) (hmid : mid.1 * hi.2 ≤ hi.1 * mid.2) (hr : Bench.execute true x y lo hi mid = .ok r)
    (hv : Ref.execute true (x : ℝ) ⟨y, lo.1 / lo.2, hi.1 / hi.2, mid.1 / mid.2 * (1 + 1 / y) ^ 2⟩ = .ok v)
    (hfit : v ≤ y) : (r : ℝ) ≤ v := by
  obtain ⟨o, ho, rfl⟩ := execute_ok hr
  obtain ⟨d1, d2⟩ := dens ho
  obtain ⟨m, k, st, hk⟩ := stored hy ho hlo hmid
  obtain ⟨n1, n2, n3⟩ := rates_nonneg (y := y) (lo := lo) (hi := hi) (mid := mid)
  have hyR : (0 : ℝ) < y := by exact_mod_cast hy
  rw [execute_source (by dsimp only; positivity) (by dsimp only; positivity) (by dsimp only; positivity), sourceFunc_ok] at hv
  dsimp only at hv
  rw [Real.sqrt_mul (by positivity), Real.sqrt_sq (by positivity)] at hv
  obtain ⟨-, rfl⟩ := hv
  have hLM := root_le hlo d1 d2
  have hb : (0 : ℝ) ≤ wordValue o.B := by exact_mod_cast wordValue_nonneg o.B
  have hxR : (0 : ℝ) ≤ x := by exact_mod_cast hx
  have hs : (0 : ℝ) ≤ √((mid.1 : ℝ) / mid.2) := Real.sqrt_nonneg _
  have hmle : m ≤ √((mid.1 : ℝ) / mid.2) * (1 + 1 / y) :=
    st.marg_le.trans (mul_le_mul_of_nonneg_left (by linarith [st.bonus_le]) hs)
  have hLM' : √((lo.1 : ℝ) / lo.2) ≤ √((mid.1 : ℝ) / mid.2) * (1 + 1 / y) := by
    have : 0 ≤ √((mid.1 : ℝ) / mid.2) * (1 / y) := by positivity
    linarith
  have hf := fits_of_payout (by positivity) hLM' hxR hyR hfit
  exact (quote_le hy hx st).trans (payout_mono hxR hyR hb st.low_le st.marg_ge hmle hLM' (by linarith))

/-- What the contract charges for the stored order, unless it refuses, is at least the charge at its roots. -/
theorem quote_ge {d : ℤ} {y : ℕ} {sL sM m k : ℝ} {o : EncOrder} (hy : 0 < y) (st : Stored y sL sM o m k)
    (hr : Bench.tradeByTargetAmount d o < 2 ^ 128 - 1) :
    charge d y (wordValue o.B) m ≤ Bench.tradeByTargetAmount d o ∧
      0 < m * ((wordValue o.B : ℝ) - m) * d + m * m * y := by
  have hy' : 0 < o.y := by rw [st.liquidity]; exact_mod_cast hy
  have hz : 0 < o.z := lt_of_lt_of_le hy' st.capacity
  obtain ⟨h4, h5, h6⟩ := C04_cost_ge_curve d o hr
  have h4 : ((curveIn d o.y o.z (wordValue o.A) (wordValue o.B) : ℚ) : ℝ) ≤ (Bench.tradeByTargetAmount d o : ℝ) := by exact_mod_cast h4
  rw [curveIn_charge (by exact_mod_cast hz.ne') (by exact_mod_cast hy'.ne')] at h4
  have e : ((o.y : ℤ) : ℝ) = (y : ℝ) := by rw [st.liquidity]; rfl
  push_cast at h4
  have hzp : (0 : ℝ) < o.z := by exact_mod_cast hz
  have hyp : (0 : ℝ) < o.y := by exact_mod_cast hy'
  constructor
  · rw [st.marginal, ← e]
    exact h4
  · rw [st.marginal, ← e]
    have e2 : ((wordValue o.B : ℝ) + (wordValue o.A : ℝ) * o.y / o.z) * ((wordValue o.B : ℝ) - (wordValue o.B + wordValue o.A * o.y / o.z)) * d +
        ((wordValue o.B : ℝ) + wordValue o.A * o.y / o.z) * (wordValue o.B + wordValue o.A * o.y / o.z) * o.y =
        o.y * ((wordValue o.A * o.y + wordValue o.B * o.z) * (wordValue o.A * o.y + wordValue o.B * o.z - wordValue o.A * d)) / o.z ^ 2 := by
      field_simp
      ring
    rw [e2]
    have ha : (0 : ℝ) ≤ wordValue o.A := by exact_mod_cast wordValue_nonneg o.A
    have hb : (0 : ℝ) ≤ wordValue o.B := by exact_mod_cast wordValue_nonneg o.B
    by_cases hA : wordValue o.A = 0
    · have hB : (0 : ℝ) < wordValue o.B := by exact_mod_cast h5 hA
      have hA' : (wordValue o.A : ℝ) = 0 := by exact_mod_cast hA
      rw [hA']
      have : (0 : ℝ) * o.y + wordValue o.B * o.z - 0 * d = wordValue o.B * o.z := by ring
      rw [this]
      positivity
    · obtain ⟨hx0, hlt⟩ := h6 hA
      have hlt : (wordValue o.A : ℝ) * d < wordValue o.A * o.y + wordValue o.B * o.z := by exact_mod_cast hlt
      have hA' : (0 : ℝ) < wordValue o.A := lt_of_le_of_ne ha (by exact_mod_cast Ne.symm hA)
      have : (0 : ℝ) < wordValue o.A * o.y + wordValue o.B * o.z - wordValue o.A * d := by linarith
      positivity

/-- C117: for an order whose marginal rate is the highest, the contract, unless it refuses, never charges less than the reference. -/
theorem C117_target {d : ℤ} {y : ℕ} {lo hi mid : ℕ × ℕ} {r : ℤ} (hd : 0 ≤ d) (hdy : d ≤ y) (hy : 0 < y)
    (hlo : lo.1 * mid.2 ≤ mid.1 * lo.2) (hfull : hi.1 * mid.2 = mid.1 * hi.2) (hr : Bench.execute false d y lo hi mid = .ok r)
    (hmax : r < 2 ^ 128 - 1) : ∃ v, Ref.execute false (d : ℝ) (requested y lo hi mid) = .ok v ∧ v ≤ r := by
  obtain ⟨o, ho, rfl⟩ := execute_ok hr
  obtain ⟨m, k, st, hk⟩ := stored hy ho hlo (le_of_eq hfull.symm)
  obtain ⟨n1, n2, n3⟩ := rates_nonneg (y := y) (lo := lo) (hi := hi) (mid := mid)
  obtain ⟨q1, q2⟩ := quote_ge hy st hmax
  have hmle := st.marg_le
  rw [hk hfull, add_zero, mul_one] at hmle
  have hb : (0 : ℝ) ≤ wordValue o.B := by exact_mod_cast wordValue_nonneg o.B
  have hdR : (0 : ℝ) ≤ d := by exact_mod_cast hd
  have hdyR : (d : ℝ) ≤ y := by exact_mod_cast hdy
  have hm0 := hb.trans st.marg_ge
  rw [execute_target n1 n2 n3]
  unfold requested
  dsimp only
  refine ⟨_, targetFunc_ok.2 ⟨?_, rfl⟩, (charge_mono hdR hdyR hb st.low_le hm0 hmle q2).trans q1⟩
  have e : ∀ L M : ℝ, M * (L - M) * d + M * M * y = M * (M * (y - d) + L * d) := by intro L M; ring
  rw [e] at q2 ⊢
  have h1 : m * (y - d) + wordValue o.B * d ≤ √((mid.1 : ℝ) / mid.2) * (y - d) + √((lo.1 : ℝ) / lo.2) * d :=
    add_le_add (mul_le_mul_of_nonneg_right hmle (by linarith)) (mul_le_mul_of_nonneg_right st.low_le hdR)
  have h2 : 0 ≤ m * (y - d) + wordValue o.B * d := add_nonneg (mul_nonneg hm0 (by linarith)) (mul_nonneg hb hdR)
  exact (lt_of_lt_of_le q2 (mul_le_mul hmle h1 h2 (Real.sqrt_nonneg _))).ne'

/-- The quote of the contract is close to the payout at the roots of the stored order. -/
theorem quote_close {x : ℤ} {y : ℕ} {sL sM m k : ℝ} {o : EncOrder} (hy : 0 < y) (st : Stored y sL sM o m k)
    (hfit : payout x y (wordValue o.B) m ≤ y) (hq : Bench.tradeBySourceAmount x o ≠ 0) (hm : 0 < m) :
    payout x y (wordValue o.B) m ≤ (Bench.tradeBySourceAmount x o + 4) * (1 + 1 / (2 ^ 48 * m)) := by
  have hy' : 0 < o.y := by rw [st.liquidity]; exact_mod_cast hy
  have hz : 0 < o.z := lt_of_lt_of_le hy' st.capacity
  have e : ((o.y : ℤ) : ℝ) = (y : ℝ) := by rw [st.liquidity]; rfl
  have ec := curveOut_payout (x := x) (y := o.y) (z := o.z) (a := wordValue o.A) (b := wordValue o.B) (by exact_mod_cast hz.ne')
    (by exact_mod_cast hy'.ne')
  push_cast at ec
  rw [← st.marginal, e] at ec
  rw [← ec] at hfit ⊢
  have hr0 : 0 ≤ Bench.tradeBySourceAmount x o := (C05_range x o).1.1
  have hr0 : (0 : ℝ) ≤ Bench.tradeBySourceAmount x o := by exact_mod_cast hr0
  by_cases hA : wordValue o.A = 0
  · have hle : ((curveOut x o.y o.z (wordValue o.A) (wordValue o.B) : ℚ) : ℝ) ≤ Bench.tradeBySourceAmount x o + 1 := by
      rcases tradeFunc_cases x o tradeBySourceAmountFunc 0 with ⟨r, hf, h0, _, heq⟩ | h
      · unfold Bench.tradeBySourceAmount
        rw [heq]
        have hA' := wordValue_eq_zero.1 hA
        rw [hA'] at hf
        obtain ⟨_, hrr⟩ := source_core_zero hf
        have h2 := ((fdiv_char (by decide) _).1 hrr).2
        have : curveOut x o.y o.z (wordValue o.A) (wordValue o.B) ≤ ((r + 1 : ℤ) : ℚ) := by
          rw [hA, wordValue_eq, curveOut_zero, ← Int.cast_mul, div_int_le (by decide)]
          exact h2.le
        exact_mod_cast this
      · exact absurd h hq
    refine hle.trans ?_
    have : (0 : ℝ) ≤ 1 / (2 ^ 48 * m) := by positivity
    nlinarith
  · have h := C56_source_accuracy x o hy'.le st.capacity hA (by
      have : ((curveOut x o.y o.z (wordValue o.A) (wordValue o.B) : ℚ) : ℝ) ≤ ((o.y : ℤ) : ℝ) := by rw [e]; exact hfit
      exact_mod_cast this) hq
    have h : ((curveOut x o.y o.z (wordValue o.A) (wordValue o.B) : ℚ) : ℝ) ≤
        (((Bench.tradeBySourceAmount x o + 4) * (1 + 1 / (2 ^ 48 * (wordValue o.A + wordValue o.B))) : ℚ) : ℝ) := by exact_mod_cast h
    refine h.trans ?_
    push_cast
    refine mul_le_mul_of_nonneg_left ?_ (by linarith)
    have := st.marg_top
    have h1 : (2 : ℝ) ^ 48 * m ≤ 2 ^ 48 * (wordValue o.A + wordValue o.B) := mul_le_mul_of_nonneg_left (by linarith) (by positivity)
    have := one_div_le_one_div_of_le (by positivity) h1
    linarith

/-- The loss from storing the roots. -/
theorem payout_close {x : ℝ} {y : ℕ} {l p m k : ℝ} {o : EncOrder} (hx : 0 ≤ x) (hy : 0 < y) (hlp : l ≤ p) (hp : 0 < p)
    (st : Stored y l p o m k) (hfit : l * p * x ≤ y) {e : ℝ} (he : e = 4 / 2 ^ 48 * (1 + 1 / p)) (he1 : e ≤ 1) :
    p * (1 - e) ≤ m ∧ payout x y l p * (1 - 3 * e) ≤ (1 + k) ^ 2 * payout x y (wordValue o.B) m := by
  have hyR : (0 : ℝ) < y := by exact_mod_cast hy
  have hb : (0 : ℝ) ≤ wordValue o.B := by exact_mod_cast wordValue_nonneg o.B
  have hep : e * p = 4 / 2 ^ 48 * (p + 1) := by rw [he]; field_simp
  have hm : p * (1 - e) ≤ m := by
    refine le_trans ?_ st.marg_lower
    have : p * (1 - e) = p - e * p := by ring
    rw [this, hep]
    norm_num
    linarith
  refine ⟨hm, ?_⟩
  have hk := st.bonus_nonneg
  have hm0 : 0 ≤ m := hb.trans st.marg_ge
  have hD : 0 < p * (p - l) * x + y := by
    have : 0 ≤ p * (p - l) * x := mul_nonneg (mul_nonneg hp.le (by linarith)) hx
    linarith
  have hD' : 0 < m * (m - wordValue o.B) * x + y := by
    have : 0 ≤ m * (m - wordValue o.B) * x := mul_nonneg (mul_nonneg hm0 (by linarith [st.marg_ge])) hx
    linarith
  have he0 : 0 ≤ e := by rw [he]; positivity
  have hDD : m * (m - wordValue o.B) * x + y ≤ (1 + k) ^ 2 * (1 + e) * (p * (p - l) * x + y) := by
    have h1 : m * (m - wordValue o.B) ≤ (p * (1 + k)) * ((p - wordValue o.B) * (1 + k)) :=
      mul_le_mul st.marg_le st.diff_le (by linarith [st.marg_ge]) (mul_nonneg hp.le (by linarith))
    have h2 : p - wordValue o.B ≤ (p - l) + (2 / 2 ^ 48 * l + 1 / 2 ^ 48) := by
      have := st.low_ge
      norm_num at this ⊢
      linarith
    have h3 : p * (p - wordValue o.B) * x ≤ p * (p - l) * x + p * (2 / 2 ^ 48 * l + 1 / 2 ^ 48) * x := by
      have := mul_le_mul_of_nonneg_right (mul_le_mul_of_nonneg_left h2 hp.le) hx
      linarith
    have h4 : p * (2 / 2 ^ 48 * l + 1 / 2 ^ 48) * x ≤ e * (p * (p - l) * x + y) := by
      have a1 : p * (2 / 2 ^ 48 * l) * x ≤ 2 / 2 ^ 48 * y := by
        have : p * (2 / 2 ^ 48 * l) * x = 2 / 2 ^ 48 * (l * p * x) := by ring
        rw [this]
        exact mul_le_mul_of_nonneg_left hfit (by norm_num)
      have a2 : p * (1 / 2 ^ 48) * x ≤ 1 / 2 ^ 48 / p * (p * (p - l) * x + y) := by
        rw [div_mul_eq_mul_div, le_div_iff₀ hp]
        have : p * (1 / 2 ^ 48) * x * p = 1 / 2 ^ 48 * (p * (p - l) * x + l * p * x) := by ring
        rw [this]
        exact mul_le_mul_of_nonneg_left (by linarith) (by norm_num)
      have a3 : e = 4 / 2 ^ 48 + 4 * (1 / 2 ^ 48 / p) := by rw [he]; ring
      have a4 : 0 ≤ 1 / 2 ^ 48 / p := by positivity
      have a5 : y ≤ p * (p - l) * x + y := by
        have : 0 ≤ p * (p - l) * x := mul_nonneg (mul_nonneg hp.le (by linarith)) hx
        linarith
      rw [a3]
      have a6 : 2 / 2 ^ 48 * (y : ℝ) ≤ 4 / 2 ^ 48 * (p * (p - l) * x + y) := by
        have := mul_le_mul_of_nonneg_left a5 (by norm_num : (0 : ℝ) ≤ 2 / 2 ^ 48)
        have : (2 : ℝ) / 2 ^ 48 * (p * (p - l) * x + y) ≤ 4 / 2 ^ 48 * (p * (p - l) * x + y) :=
          mul_le_mul_of_nonneg_right (by norm_num) hD.le
        linarith
      have a7 : 1 / 2 ^ 48 / p * (p * (p - l) * x + y) ≤ 4 * (1 / 2 ^ 48 / p) * (p * (p - l) * x + y) :=
        mul_le_mul_of_nonneg_right (by linarith) hD.le
      linarith
    have h5 : m * (m - wordValue o.B) * x ≤ (1 + k) ^ 2 * (p * (p - wordValue o.B) * x) := by
      have := mul_le_mul_of_nonneg_right h1 hx
      linarith
    have h6 : (1 : ℝ) ≤ (1 + k) ^ 2 := by nlinarith
    have h7 : p * (p - wordValue o.B) * x + y ≤ (1 + e) * (p * (p - l) * x + y) := by linarith
    calc m * (m - wordValue o.B) * x + y ≤ (1 + k) ^ 2 * (p * (p - wordValue o.B) * x) + (1 + k) ^ 2 * y := by nlinarith
      _ = (1 + k) ^ 2 * (p * (p - wordValue o.B) * x + y) := by ring
      _ ≤ (1 + k) ^ 2 * ((1 + e) * (p * (p - l) * x + y)) := mul_le_mul_of_nonneg_left h7 (by positivity)
      _ = _ := by ring
  unfold payout
  rw [div_mul_eq_mul_div, mul_div_assoc', div_le_div_iff₀ hD hD']
  have hN : p * p * (1 - e) ^ 2 ≤ m * m := by
    have := mul_le_mul hm hm (mul_nonneg hp.le (by linarith)) hm0
    nlinarith
  have hee : (1 - 3 * e) * (1 + e) ≤ (1 - e) ^ 2 := by nlinarith [mul_nonneg he0 he0]
  have hxy : 0 ≤ x * y := mul_nonneg hx hyR.le
  by_cases h3 : 0 ≤ 1 - 3 * e
  · calc p * p * x * y * (1 - 3 * e) * (m * (m - wordValue o.B) * x + y)
        ≤ p * p * x * y * (1 - 3 * e) * ((1 + k) ^ 2 * (1 + e) * (p * (p - l) * x + y)) :=
          mul_le_mul_of_nonneg_left hDD (by positivity)
      _ = (1 + k) ^ 2 * (p * p * (x * y) * ((1 - 3 * e) * (1 + e))) * (p * (p - l) * x + y) := by ring
      _ ≤ (1 + k) ^ 2 * (p * p * (x * y) * (1 - e) ^ 2) * (p * (p - l) * x + y) := by
          refine mul_le_mul_of_nonneg_right (mul_le_mul_of_nonneg_left ?_ (by positivity)) hD.le
          exact mul_le_mul_of_nonneg_left hee (by positivity)
      _ = (1 + k) ^ 2 * ((p * p * (1 - e) ^ 2) * (x * y)) * (p * (p - l) * x + y) := by ring
      _ ≤ (1 + k) ^ 2 * (m * m * (x * y)) * (p * (p - l) * x + y) := by
          refine mul_le_mul_of_nonneg_right (mul_le_mul_of_nonneg_left ?_ (by positivity)) hD.le
          exact mul_le_mul_of_nonneg_right hN hxy
      _ = (1 + k) ^ 2 * (m * m * x * y) * (p * (p - l) * x + y) := by ring
  · have h1 : p * p * x * y * (1 - 3 * e) * (m * (m - wordValue o.B) * x + y) ≤ 0 :=
      mul_nonpos_of_nonpos_of_nonneg (mul_nonpos_of_nonneg_of_nonpos (by positivity) (by linarith)) hD'.le
    have h2 : 0 ≤ (1 + k) ^ 2 * (m * m * x * y) * (p * (p - l) * x + y) := by positivity
    linarith

theorem accuracy {x : ℤ} {y : ℕ} {l p m k : ℝ} {o : EncOrder} (hx : 0 ≤ x) (hy : 0 < y) (hl : 0 ≤ l) (hlp : l ≤ p)
    (st : Stored y l p o m k) (hfit : l * p * x ≤ y) (hfit' : payout x y (wordValue o.B) m ≤ y) (hq : Bench.tradeBySourceAmount x o ≠ 0) :
    payout x y l p * (1 - 1 / 2 ^ 44 * (1 + 1 / p)) ≤ (Bench.tradeBySourceAmount x o + 4) * (1 + k) ^ 2 := by
  have hxR : (0 : ℝ) ≤ x := by exact_mod_cast hx
  have hyR : (0 : ℝ) < y := by exact_mod_cast hy
  have hr0 : 0 ≤ Bench.tradeBySourceAmount x o := (C05_range x o).1.1
  have hr0 : (0 : ℝ) ≤ Bench.tradeBySourceAmount x o := by exact_mod_cast hr0
  have hrhs : 0 ≤ ((Bench.tradeBySourceAmount x o : ℝ) + 4) * (1 + k) ^ 2 := by positivity
  rcases (hl.trans hlp).eq_or_lt with hp | hp
  · rw [← hp]
    unfold payout
    simpa using hrhs
  have hD : 0 < p * (p - l) * x + y := by
    have : 0 ≤ p * (p - l) * x := mul_nonneg (mul_nonneg hp.le (by linarith)) hxR
    linarith
  have hpay : 0 ≤ payout x y l p := by unfold payout; positivity
  obtain ⟨e, he⟩ : ∃ e, e = 4 / 2 ^ 48 * (1 + 1 / p) := ⟨_, rfl⟩
  have he4 : 1 / 2 ^ 44 * (1 + 1 / p) = 4 * e := by rw [he]; ring
  rw [he4]
  have he0 : 0 < e := by rw [he]; positivity
  by_cases h4 : 1 / 4 ≤ e
  · have : payout x y l p * (1 - 4 * e) ≤ 0 := mul_nonpos_of_nonneg_of_nonpos hpay (by linarith)
    linarith
  have h4 := not_le.1 h4
  obtain ⟨c1, c2⟩ := payout_close hxR hy hlp hp st hfit he (by linarith)
  have hm : 0 < m := lt_of_lt_of_le (mul_pos hp (by linarith)) c1
  have c3 := quote_close hy st hfit' hq hm
  have c4 : (1 : ℝ) + 1 / (2 ^ 48 * m) ≤ 1 + e := by
    have h1 : 2 ^ 48 * (p / 2) ≤ 2 ^ 48 * m := by
      refine mul_le_mul_of_nonneg_left (le_trans ?_ c1) (by positivity)
      nlinarith
    have h2 := one_div_le_one_div_of_le (by positivity) h1
    have h3 : 1 / (2 ^ 48 * (p / 2)) ≤ e := by
      have : 1 / (2 ^ 48 * (p / 2)) = 2 / 2 ^ 48 * (1 / p) := by field_simp
      rw [this, he]
      have : 0 < 1 / p := by positivity
      nlinarith
    linarith
  have c5 : payout x y (wordValue o.B) m ≤ (Bench.tradeBySourceAmount x o + 4) * (1 + e) :=
    c3.trans (mul_le_mul_of_nonneg_left c4 (by linarith))
  have c6 : payout x y l p * (1 - 3 * e) ≤ (1 + k) ^ 2 * ((Bench.tradeBySourceAmount x o + 4) * (1 + e)) :=
    c2.trans (mul_le_mul_of_nonneg_left c5 (by positivity))
  have c7 := mul_le_mul_of_nonneg_right c6 (by linarith : (0 : ℝ) ≤ 1 - e)
  have c8 : payout x y l p * (1 - 4 * e) ≤ payout x y l p * (1 - 3 * e) * (1 - e) := by
    rw [mul_assoc]
    exact mul_le_mul_of_nonneg_left (by nlinarith) hpay
  have c9 : (1 + k) ^ 2 * (((Bench.tradeBySourceAmount x o : ℝ) + 4) * (1 + e)) * (1 - e) ≤ ((Bench.tradeBySourceAmount x o : ℝ) + 4) * (1 + k) ^ 2 := by
    have : (1 + k) ^ 2 * (((Bench.tradeBySourceAmount x o : ℝ) + 4) * (1 + e)) * (1 - e) =
        (((Bench.tradeBySourceAmount x o : ℝ) + 4) * (1 + k) ^ 2) * (1 - e * e) := by ring
    rw [this]
    nlinarith [mul_nonneg hrhs (mul_nonneg he0.le he0.le)]
  linarith

/-- C117: for an order whose marginal rate is the highest, the contract pays, if anything and if the order has the liquidity, at most four
units less than the reference, apart from one part in `2 ^ 44` and one part in `2 ^ 44` times the root of the rate. -/
theorem C117_source_accuracy {x : ℤ} {y : ℕ} {lo hi mid : ℕ × ℕ} {r : ℤ} {v : ℝ} (hx : 0 ≤ x) (hy : 0 < y)
    (hlo : lo.1 * mid.2 ≤ mid.1 * lo.2) (hfull : hi.1 * mid.2 = mid.1 * hi.2) (hr : Bench.execute true x y lo hi mid = .ok r) (hr0 : r ≠ 0)
    (hv : Ref.execute true (x : ℝ) (requested y lo hi mid) = .ok v) (hfit : v ≤ y) :
    v * (1 - 1 / 2 ^ 44 * (1 + 1 / √((mid.1 : ℝ) / mid.2))) ≤ r + 4 := by
  obtain ⟨o, ho, rfl⟩ := execute_ok hr
  obtain ⟨d1, d2⟩ := dens ho
  obtain ⟨m, k, st, hk⟩ := stored hy ho hlo (le_of_eq hfull.symm)
  obtain ⟨n1, n2, n3⟩ := rates_nonneg (y := y) (lo := lo) (hi := hi) (mid := mid)
  rw [execute_source n1 n2 n3, sourceFunc_ok] at hv
  unfold requested at hv
  dsimp only at hv
  obtain ⟨-, rfl⟩ := hv
  have hLM := root_le hlo d1 d2
  have hb : (0 : ℝ) ≤ wordValue o.B := by exact_mod_cast wordValue_nonneg o.B
  have hxR : (0 : ℝ) ≤ x := by exact_mod_cast hx
  have hyR : (0 : ℝ) < y := by exact_mod_cast hy
  have hmle := st.marg_le
  rw [hk hfull, add_zero, mul_one] at hmle
  have hf := fits_of_payout (Real.sqrt_nonneg _) hLM hxR hyR hfit
  have hf' := (payout_mono hxR hyR hb st.low_le st.marg_ge hmle hLM (by linarith)).trans hfit
  have := accuracy hx hy (Real.sqrt_nonneg _) hLM st hf hf' hr0
  rw [hk hfull, add_zero, one_pow, mul_one] at this
  exact this

/-- C117: for any order the same holds up to a factor of one part in the liquidity, squared. -/
theorem C117_source_accuracy_bound {x : ℤ} {y : ℕ} {lo hi mid : ℕ × ℕ} {r : ℤ} {v w : ℝ} (hx : 0 ≤ x) (hy : 0 < y)
    (hlo : lo.1 * mid.2 ≤ mid.1 * lo.2) (hmid : mid.1 * hi.2 ≤ hi.1 * mid.2) (hr : Bench.execute true x y lo hi mid = .ok r) (hr0 : r ≠ 0)
    (hv : Ref.execute true (x : ℝ) (requested y lo hi mid) = .ok v)
    (hw : Ref.execute true (x : ℝ) ⟨y, lo.1 / lo.2, hi.1 / hi.2, mid.1 / mid.2 * (1 + 1 / y) ^ 2⟩ = .ok w)
    (hfit : w ≤ y) : v * (1 - 1 / 2 ^ 44 * (1 + 1 / √((mid.1 : ℝ) / mid.2))) ≤ (r + 4) * (1 + 1 / y) ^ 2 := by
  obtain ⟨o, ho, rfl⟩ := execute_ok hr
  obtain ⟨d1, d2⟩ := dens ho
  obtain ⟨m, k, st, hk⟩ := stored hy ho hlo hmid
  obtain ⟨n1, n2, n3⟩ := rates_nonneg (y := y) (lo := lo) (hi := hi) (mid := mid)
  have hxR : (0 : ℝ) ≤ x := by exact_mod_cast hx
  have hyR : (0 : ℝ) < y := by exact_mod_cast hy
  rw [execute_source n1 n2 n3, sourceFunc_ok] at hv
  rw [execute_source (by dsimp only; positivity) (by dsimp only; positivity) (by dsimp only; positivity), sourceFunc_ok] at hw
  unfold requested at hv
  dsimp only at hv hw
  rw [Real.sqrt_mul (by positivity), Real.sqrt_sq (by positivity)] at hw
  obtain ⟨-, rfl⟩ := hv
  obtain ⟨-, rfl⟩ := hw
  have hLM := root_le hlo d1 d2
  have hb : (0 : ℝ) ≤ wordValue o.B := by exact_mod_cast wordValue_nonneg o.B
  have hs : (0 : ℝ) ≤ √((mid.1 : ℝ) / mid.2) := Real.sqrt_nonneg _
  have hmle : m ≤ √((mid.1 : ℝ) / mid.2) * (1 + 1 / y) :=
    st.marg_le.trans (mul_le_mul_of_nonneg_left (by linarith [st.bonus_le]) hs)
  have hsy : 0 ≤ √((mid.1 : ℝ) / mid.2) * (1 / y) := by positivity
  have hLM' : √((lo.1 : ℝ) / lo.2) ≤ √((mid.1 : ℝ) / mid.2) * (1 + 1 / y) := by linarith
  have hf := fits_of_payout (by positivity) hLM' hxR hyR hfit
  have hf' := (payout_mono hxR hyR hb st.low_le st.marg_ge hmle hLM' (by linarith)).trans hfit
  have hf0 : √((lo.1 : ℝ) / lo.2) * √((mid.1 : ℝ) / mid.2) * x ≤ y := by
    refine le_trans ?_ hf
    refine mul_le_mul_of_nonneg_right (mul_le_mul_of_nonneg_left ?_ (Real.sqrt_nonneg _)) hxR
    linarith
  refine (accuracy hx hy (Real.sqrt_nonneg _) hLM st hf0 hf' hr0).trans ?_
  have hr1 : 0 ≤ Bench.tradeBySourceAmount x o := (C05_range x o).1.1
  have hr1 : (0 : ℝ) ≤ Bench.tradeBySourceAmount x o := by exact_mod_cast hr1
  refine mul_le_mul_of_nonneg_left ?_ (by positivity)
  exact pow_le_pow_left₀ (by linarith [st.bonus_nonneg]) (by linarith [st.bonus_le]) 2

/-- C117: the contract, unless it refuses, charges at most four units more than the reference, apart from one part in `2 ^ 45` and one part
in `2 ^ 45` times the root of the lowest rate. -/
theorem C117_target_accuracy {d : ℤ} {y : ℕ} {lo hi mid : ℕ × ℕ} {r : ℤ} {v : ℝ} (hd : 0 ≤ d) (hdy : d ≤ y) (hd128 : d ≤ 2 ^ 128) (hy : 0 < y)
    (hlo0 : 0 < lo.1) (hlo : lo.1 * mid.2 ≤ mid.1 * lo.2) (hmid : mid.1 * hi.2 ≤ hi.1 * mid.2)
    (hr : Bench.execute false d y lo hi mid = .ok r) (hmax : r < 2 ^ 128 - 1)
    (hv : Ref.execute false (d : ℝ) (requested y lo hi mid) = .ok v) :
    r * (1 - 1 / 2 ^ 45 * (1 + 1 / √((lo.1 : ℝ) / lo.2))) ≤ v + 4 := by
  obtain ⟨o, ho, rfl⟩ := execute_ok hr
  obtain ⟨d1, d2⟩ := dens ho
  obtain ⟨m, k, st, -⟩ := stored hy ho hlo hmid
  obtain ⟨n1, n2, n3⟩ := rates_nonneg (y := y) (lo := lo) (hi := hi) (mid := mid)
  rw [execute_target n1 n2 n3, targetFunc_ok] at hv
  unfold requested at hv
  dsimp only at hv
  obtain ⟨-, rfl⟩ := hv
  obtain ⟨q1, q2⟩ := quote_ge hy st hmax
  have hlp := root_le hlo d1 d2
  have hl : 0 < √((lo.1 : ℝ) / lo.2) := Real.sqrt_pos.2 (div_pos (by exact_mod_cast hlo0) (by exact_mod_cast d1))
  have hdR : (0 : ℝ) ≤ d := by exact_mod_cast hd
  have hdyR : (d : ℝ) ≤ y := by exact_mod_cast hdy
  have hyR : (0 : ℝ) < y := by exact_mod_cast hy
  have hb : (0 : ℝ) ≤ wordValue o.B := by exact_mod_cast wordValue_nonneg o.B
  have hm0 := hb.trans st.marg_ge
  rw [if_neg (by decide)] at hmax ⊢
  generalize √((lo.1 : ℝ) / lo.2) = l at *
  generalize √((mid.1 : ℝ) / mid.2) = p at *
  have hp : 0 < p := lt_of_lt_of_le hl hlp
  -- the quote against the charge at the stored roots
  have hq : (Bench.tradeByTargetAmount d o : ℝ) ≤ charge d y (wordValue o.B) m + 4 := by
    have hy' : 0 < o.y := by rw [st.liquidity]; exact_mod_cast hy
    have hz : 0 < o.z := lt_of_lt_of_le hy' st.capacity
    have e : ((o.y : ℤ) : ℝ) = (y : ℝ) := by rw [st.liquidity]; rfl
    have ec := curveIn_charge (d := d) (y := o.y) (z := o.z) (a := wordValue o.A) (b := wordValue o.B) (by exact_mod_cast hz.ne')
      (by exact_mod_cast hy'.ne')
    push_cast at ec
    rw [← st.marginal, e] at ec
    rw [← ec]
    by_cases hA : wordValue o.A = 0
    · rcases tradeFunc_cases d o tradeByTargetAmountFunc MAX128 with ⟨r, hf, h0, h1, heq⟩ | h
      · unfold Bench.tradeByTargetAmount
        rw [heq]
        have hA' := wordValue_eq_zero.1 hA
        rw [hA'] at hf
        obtain ⟨_, hB, hrr⟩ := target_core_zero hf
        have h2 := ((cdiv_char hB _).1 hrr).1
        have : (((r - 1 : ℤ)) : ℚ) ≤ curveIn d o.y o.z (wordValue o.A) (wordValue o.B) := by
          rw [hA, wordValue_eq, curveIn_zero, ← Int.cast_mul, le_div_int hB]
          exact h2.le
        have : (((r - 1 : ℤ)) : ℝ) ≤ ((curveIn d o.y o.z (wordValue o.A) (wordValue o.B) : ℚ) : ℝ) := by exact_mod_cast this
        push_cast at this
        linarith
      · unfold Bench.tradeByTargetAmount at hmax
        rw [h] at hmax
        exact absurd hmax (by unfold MAX128; exact lt_irrefl _)
    · have := C56_target_accuracy d o hA hd128 hmax
      have : ((Bench.tradeByTargetAmount d o : ℚ) : ℝ) ≤ ((curveIn d o.y o.z (wordValue o.A) (wordValue o.B) + 4 : ℚ) : ℝ) := by
        exact_mod_cast this
      push_cast at this
      exact this
  obtain ⟨e, he⟩ : ∃ e, e = 4 / 2 ^ 48 * (1 + 1 / l) := ⟨_, rfl⟩
  have he2 : 1 / 2 ^ 45 * (1 + 1 / l) = 2 * e := by rw [he]; ring
  rw [he2]
  have he0 : 0 < e := by rw [he]; positivity
  have hr0 : 0 ≤ Bench.tradeByTargetAmount d o := (C05_range d o).2.1
  have hr0 : (0 : ℝ) ≤ Bench.tradeByTargetAmount d o := by exact_mod_cast hr0
  have ed : ∀ L M : ℝ, M * (L - M) * d + M * M * y = M * (M * (y - d) + L * d) := by intro L M; ring
  have hyd : (0 : ℝ) ≤ y - d := by linarith
  have hDp : 0 < p * (p * (y - d) + l * d) := by
    refine mul_pos hp ?_
    rcases hdR.eq_or_lt with h0 | h0
    · rw [← h0]; simp only [sub_zero, mul_zero, add_zero]; positivity
    · have : 0 ≤ p * (y - d) := mul_nonneg hp.le hyd
      have := mul_pos hl h0
      linarith
  have hg : 0 ≤ charge d y l p := by
    unfold charge
    rw [ed]
    positivity
  by_cases h1 : 1 / 2 ≤ e
  · have : (Bench.tradeByTargetAmount d o : ℝ) * (1 - 2 * e) ≤ 0 := mul_nonpos_of_nonneg_of_nonpos hr0 (by linarith)
    linarith
  have h1 := not_le.1 h1
  have hel : e * l = 4 / 2 ^ 48 * (l + 1) := by rw [he]; field_simp
  have hb2 : l * (1 - e) ≤ wordValue o.B := by
    refine le_trans ?_ st.low_ge
    have : l * (1 - e) = l - e * l := by ring
    rw [this, hel]
    norm_num
    linarith
  have hm2 : p * (1 - e) ≤ m := by
    refine le_trans ?_ st.marg_lower
    have h2 : 4 / 2 ^ 48 * (p + 1) ≤ e * p := by
      rw [he]
      have : p * (1 / l) ≥ 1 := by
        rw [mul_one_div, ge_iff_le, le_div_iff₀ hl]
        linarith
      nlinarith
    have : p * (1 - e) = p - e * p := by ring
    rw [this]
    norm_num at h2 ⊢
    linarith
  have hD' : (1 - e) ^ 2 * (p * (p * (y - d) + l * d)) ≤ m * (m * (y - d) + wordValue o.B * d) := by
    have a1 : (1 - e) * (p * (y - d) + l * d) ≤ m * (y - d) + wordValue o.B * d := by
      have b1 := mul_le_mul_of_nonneg_right hm2 hyd
      have b2 := mul_le_mul_of_nonneg_right hb2 hdR
      linarith
    have a2 := mul_le_mul hm2 a1 (mul_nonneg (by linarith) (pos_of_mul_pos_right hDp hp.le).le) hm0
    linarith
  have key : charge d y (wordValue o.B) m * (1 - e) ^ 2 ≤ charge d y l p := by
    unfold charge
    rw [ed] at q2 ⊢
    rw [ed, div_mul_eq_mul_div, div_le_div_iff₀ q2 hDp]
    have : 0 ≤ (d : ℝ) * y := mul_nonneg hdR hyR.le
    have := mul_le_mul_of_nonneg_left hD' this
    linarith
  have hg' : 0 ≤ charge d y (wordValue o.B) m := by
    unfold charge
    exact div_nonneg (mul_nonneg hdR hyR.le) q2.le
  have k2 : charge d y (wordValue o.B) m * (1 - 2 * e) ≤ charge d y l p := by
    refine le_trans (mul_le_mul_of_nonneg_left ?_ hg') key
    nlinarith [mul_nonneg he0.le he0.le]
  have k3 := mul_le_mul_of_nonneg_right hq (by linarith : (0 : ℝ) ≤ 1 - 2 * e)
  nlinarith

/-- C117 fails for orders below their highest rate: the capacity is rounded down, which raises the marginal rate, and an order can pay
out more than the reference: here 1 instead of 254/255. -/
theorem C117_partly_filled_violated : ∃ (x : ℤ) (y : ℕ) (lo hi mid : ℕ × ℕ) (r : ℤ) (v : ℝ), 0 ≤ x ∧ 0 < y ∧ lo.1 * mid.2 ≤ mid.1 * lo.2 ∧
    mid.1 * hi.2 ≤ hi.1 * mid.2 ∧ Bench.execute true x y lo hi mid = .ok r ∧ Ref.execute true (x : ℝ) (requested y lo hi mid) = .ok v ∧
    v ≤ y ∧ v < r := by
  refine ⟨127, 1, (1, 256), (225, 4096), (1, 64), 1, 254 / 255, by norm_num, by norm_num, by norm_num, by norm_num, ?_, ?_, by norm_num, by norm_num⟩
  · have h1 : Nat.sqrt (1 * 2 ^ 96 / 256) = 2 ^ 44 := Nat.sqrt_eq' (2 ^ 44)
    have h2 : Nat.sqrt (225 * 2 ^ 96 / 4096) = 15 * 2 ^ 42 := Nat.sqrt_eq' (15 * 2 ^ 42)
    have h3 : Nat.sqrt (1 * 2 ^ 96 / 64) = 2 ^ 45 := Nat.sqrt_eq' (2 ^ 45)
    unfold Bench.execute Bench.encodeOrder Bench.encodeRate
    simp only [h1, h2, h3]
    decide +kernel
  · obtain ⟨n1, n2, n3⟩ := rates_nonneg (y := 1) (lo := (1, 256)) (hi := (225, 4096)) (mid := (1, 64))
    rw [execute_source n1 n2 n3, sourceFunc_ok]
    unfold requested payout
    dsimp only
    have e1 : √(((1 : ℕ) : ℝ) / ((256 : ℕ) : ℝ)) = 1 / 16 := by
      rw [show (((1 : ℕ) : ℝ) / ((256 : ℕ) : ℝ)) = (1 / 16) ^ 2 by norm_num, Real.sqrt_sq (by norm_num)]
    have e2 : √(((1 : ℕ) : ℝ) / ((64 : ℕ) : ℝ)) = 1 / 8 := by
      rw [show (((1 : ℕ) : ℝ) / ((64 : ℕ) : ℝ)) = (1 / 8) ^ 2 by norm_num, Real.sqrt_sq (by norm_num)]
    rw [e1, e2]
    norm_num

/-- An order of 1000 units between rates 1 and 4: for 10 units the reference pays 2000/51, a little more than 39, and the contract 39. -/
example : Bench.execute true 10 1000 (1, 1) (4, 1) (4, 1) = .ok 39 ∧ Bench.execute false 39 1000 (1, 1) (4, 1) (4, 1) = .ok 10 ∧
    Ref.execute true (10 : ℝ) (requested 1000 (1, 1) (4, 1) (4, 1)) = .ok (2000 / 51) := by
  have h1 : Nat.sqrt (1 * 2 ^ 96 / 1) = 2 ^ 48 := Nat.sqrt_eq' (2 ^ 48)
  have h2 : Nat.sqrt (4 * 2 ^ 96 / 1) = 2 ^ 49 := Nat.sqrt_eq' (2 ^ 49)
  refine ⟨?_, ?_, ?_⟩
  · unfold Bench.execute Bench.encodeOrder Bench.encodeRate
    simp only [h1, h2]
    decide +kernel
  · unfold Bench.execute Bench.encodeOrder Bench.encodeRate
    simp only [h1, h2]
    decide +kernel
  · obtain ⟨n1, n2, n3⟩ := rates_nonneg (y := 1000) (lo := (1, 1)) (hi := (4, 1)) (mid := (4, 1))
    rw [execute_source n1 n2 n3, sourceFunc_ok]
    unfold requested payout
    dsimp only
    have e1 : √(((1 : ℕ) : ℝ) / ((1 : ℕ) : ℝ)) = 1 := by norm_num
    have e2 : √(((4 : ℕ) : ℝ) / ((1 : ℕ) : ℝ)) = 2 := by
      rw [show (((4 : ℕ) : ℝ) / ((1 : ℕ) : ℝ)) = 2 ^ 2 by norm_num, Real.sqrt_sq (by norm_num)]
    rw [e1, e2]
    norm_num

end Carbon.Prop.TradeSpec
