import Verif.Prop.OrderUI
import Verif.Prop.OrderUIPrice
import Verif.Prop.OrderUIParams
import Verif.Prop.OrderUIHistory
import Verif.Prop.Order
import Verif.Prop.Liquidity

/-!
# Concrete states for the theorems about single orders (C16-C24, C62-C66, C68, C103, C108, C109)
-/

namespace Carbon.Witness

open Carbon UICurve

/-- Two linked orders. -/
def linkedPair : World ℚ := ⟨sampleCurve, some sampleLinked⟩

theorem linked_sound : ∀ l, linkedPair.linked = some l → Sound l := by
  intro l h; cases h; exact sampleLinked_sound

theorem eps_le {x : ℚ} (h : 1 ≤ x) : EPS ≤ x := le_trans (by unfold EPS; norm_num) h

/-- `C16_dx_then_dy`. -/
example := C16_dx_then_dy sampleCurve sample_sound 25 (by norm_num) (by norm_num [sampleCurve])
/-- `C16_dy_then_dx`. -/
example := C16_dy_then_dx sampleCurve sample_sound 25 (by norm_num)
/-- `C16_iff`. -/
example := C16_iff sampleCurve sample_sound (40 / 3) 25 (by norm_num) (by norm_num) (by norm_num [sampleCurve])
/-- `C17_x_then_y`. -/
example := C17_x_then_y sampleCurve sample_sound 25 (by norm_num) (by norm_num [sampleCurve])
/-- `C17_execute`. -/
example := C17_execute linkedPair sample_sound linked_sound 25 (eps_le (by norm_num)) (by norm_num [linkedPair, sampleCurve]) true false false
/-- `C18_two_pieces`. -/
example := C18_two_pieces sampleCurve sample_sound 10 15 (by norm_num) (by norm_num) (by norm_num [sampleCurve])
/-- `C18_split`. -/
example := C18_split [10, 5, 10] linkedPair sample_sound linked_sound
  (by intro d hd; apply eps_le; simp only [List.mem_cons, List.not_mem_nil, or_false] at hd; rcases hd with rfl | rfl | rfl <;> norm_num)
  (by norm_num [linkedPair, sampleCurve])
theorem sample_proper : Proper sampleCurve := by unfold Proper; decide +kernel
/-- `C19_marginal_in_range`. -/
example := C19_marginal_in_range sampleCurve sample_sound sample_proper 25 (by norm_num) (by norm_num [sampleCurve])
/-- `C19_effective`. -/
example := C19_effective sampleCurve sample_sound 25 (by norm_num) (by norm_num [sampleCurve])
/-- `C20_monotone`. -/
example := C20_monotone sampleCurve sample_sound 10 20 (by norm_num) (by norm_num) (by norm_num [sampleCurve])
/-- `C20_monotone_source`. -/
example := C20_monotone_source sampleCurve sample_sound 10 20 (by norm_num) (by norm_num)
/-- `C21_never_overdrawn`. -/
example := C21_never_overdrawn linkedPair (by norm_num [linkedPair, sampleCurve]) (by norm_num [linkedPair, sampleCurve]) 60 (by norm_num) true true
  false false
/-- `C21_all_or_nothing_partial`. -/
example := C21_all_or_nothing_partial linkedPair sample_sound linked_sound 60 (eps_le (by norm_num)) true false false
/-- `C22_unlinked_partial`. -/
example := C22_unlinked_partial (⟨sampleCurve, none⟩ : World ℚ) rfl 25 true false false
/-- `C22_same_quote`. -/
example := C22_same_quote linkedPair sample_sound linked_sound 25 (eps_le (by norm_num)) (by norm_num [linkedPair, sampleCurve]) true false false
/-- `C64_buyx`. -/
example := C64_buyx linkedPair sample_sound linked_sound (40 / 3) 25 (by norm_num) (by decide +kernel) (eps_le (by norm_num))
  (by norm_num [linkedPair, sampleCurve]) true false false
/-- `C64_too_much`. -/
example := C64_too_much linkedPair sample_sound 50 (450 / 7) (by norm_num) (by decide +kernel) (by norm_num [linkedPair, sampleCurve, EPS])
  true false false

theorem real_pMarg : realCurve.pMarg = .ok (some (9 / 4)) := by
  rw [pMarg_ok realCurve_sound]
  have : realCurve.pair.hasQuote realCurve.tkn = true := by simp only [realCurve]; decide +kernel
  simp only [inConv, this, if_true]
  norm_num [realCurve]

theorem real_pb : realCurve.pb = 1 := by
  rw [(pa_eq realCurve_proper).2]
  have : realCurve.pair.hasQuote realCurve.tkn = true := by simp only [realCurve]; decide +kernel
  simp only [inConv, this, if_true, pbRaw]
  norm_num [realCurve]

theorem real_S : 0 < realCurve.S := by norm_num [realCurve]

/-- `C23_beyond_end`. -/
example := C23_beyond_end ⟨realCurve, none⟩ realCurve_sound realCurve_proper real_S (by simp) (1 / 2) (by norm_num)
  (Or.inr ⟨by change (1 / 2 : ℝ) < realCurve.pb; rw [real_pb]; norm_num, rfl⟩)
/-- `C23_wrong_side`. -/
example := C23_wrong_side ⟨realCurve, none⟩ realCurve_sound realCurve_proper real_S (by simp) 3 (9 / 4) (by norm_num) real_pMarg
  (Or.inr ⟨by norm_num, rfl⟩)

/-- An order with one price. -/
noncomputable def flatCurve : UICurve ℝ := ⟨CarbonPair.ethUsdc, "USDC".toList, 1, 0, 100, 50⟩
theorem flat_sound : Sound flatCurve := by constructor <;> norm_num [flatCurve]
theorem flat_proper : Proper flatCurve := by
  right; exact ⟨rfl, by simp only [flatCurve]; decide +kernel⟩
theorem flat_quote : flatCurve.pair.hasQuote flatCurve.tkn = true := by simp only [flatCurve]; decide +kernel

/-- `C23_flat_violated`. -/
example := C23_flat_violated ⟨flatCurve, none⟩ flat_sound flat_proper rfl (1 / 2) (by norm_num)
  (by change flatCurve.inConv _ ≤ flatCurve.pbRaw; simp only [inConv, flat_quote, if_true, pbRaw]; norm_num [flatCurve])
/-- `C23_capacity_changed`. -/
example := C23_capacity_changed ⟨{ realCurve with yint := 0, y := 0 }, none⟩ rfl 2
/-- `C62_from_prices`. -/
example := C62_from_prices "eth/USDC".toList CarbonPair.ethUsdc (by decide +kernel) (by decide +kernel) "ETH".toList (Or.inl rfl) 2000 1500 10 5
  (by norm_num) (by norm_num) (by norm_num) (by norm_num) (by norm_num)
/-- `C62_rejects`. -/
example := C62_rejects "eth/USDC".toList CarbonPair.ethUsdc (by decide +kernel) "ETH".toList 2000 1500 10 11 (by norm_num)
/-- `C63_share`. -/
example := C63_share sampleCurve (by decide +kernel) (by decide +kernel) 2 3 5 (by norm_num) (by norm_num)
/-- `C63_point_range`. -/
example := C63_point_range (⟨CarbonPair.ethUsdc, "USDC".toList, 2, 0, 100, 50⟩ : UICurve ℚ) (by decide +kernel) (by decide +kernel) 2 3 5
  (by norm_num) (by norm_num) (by decide +kernel) (by decide +kernel)
/-- `C65_invariant`. -/
example := C65_invariant realCurve realCurve_sound real_S 25 (by norm_num) (by norm_num [realCurve])
/-- `C66_from_Qxy`. -/
example := C66_from_Qxy "eth/USDC".toList CarbonPair.ethUsdc (by decide +kernel) "ETH".toList (Or.inl rfl) (1 / 2) 20 10 5
  (by norm_num) (by norm_num) (by norm_num) (by norm_num) (by norm_num) (by norm_num)

/-- An order of the simulator: prices 1 to 16, capacity 4, holdings 2. -/
noncomputable def simCurve : Curve ℝ := ⟨1, 3, 4, 1, 16, 2, false⟩
theorem simCurve_good : Curve.Good simCurve := by
  unfold simCurve
  refine ⟨?_, ?_, ?_, ?_, ?_, ?_, ?_, ?_⟩ <;> norm_num

/-- `C24_agree`. -/
example := Curve.C24_agree simCurve_good (by norm_num [simCurve]) (by norm_num [simCurve])
  ⟨CarbonPair.ethUsdc, "USDC".toList, 1, 3, 4, 2⟩ ⟨rfl, rfl, rfl, rfl⟩ 1 (by norm_num) (by norm_num [simCurve])

/-- `C24_flat`. -/
example := Curve.C24_flat (c := ⟨2, 0, 4, 4, 4, 2, true⟩) (by refine ⟨?_, ?_, ?_, ?_, ?_, ?_, ?_, ?_⟩ <;> norm_num) rfl (by norm_num) 1
  (by norm_num) (by norm_num)
/-- `C68_from_prices`. -/
example := Curve.C68_from_prices 1 16 2 4 (by norm_num) (by norm_num) (by norm_num) (by norm_num) (by norm_num)
/-- `C68_default_capacity`. -/
example := Curve.C68_default_capacity 1 16 2 (by norm_num) (by norm_num) (by norm_num)
/-- `C68_from_marginal`. -/
example := Curve.C68_from_marginal 1 16 2 4 (by norm_num) (by norm_num) (by norm_num) (by norm_num) (by norm_num)
/-- `C68_roundtrip`. -/
example := Curve.C68_roundtrip simCurve_good

theorem sample_clear : Clear sampleCurve 25 := ⟨by norm_num, .inl (by norm_num [sampleCurve])⟩

/-- `C67_step`. -/
example := C67_step sampleCurve sampleLinked sample_sound sampleLinked_sound 25 sample_clear true false false
/-- `C67_history`: a sale of the first order. -/
example : ∃ fa fb a b, Hist sampleCurve sampleLinked fa fb a b ∧ fa = -25 ∧ Sound a ∧ a.y = sampleCurve.y + fa := by
  obtain ⟨fa, fb, a, b, h, h2⟩ := C67_not_stuck sampleCurve sampleLinked sample_sound sampleLinked_sound 25 sample_clear
  obtain ⟨h3, -, h4, -⟩ := C67_history _ _ _ _ _ _ h sample_sound sampleLinked_sound
  exact ⟨fa, fb, a, b, h, h2 (eps_le (by norm_num)) (by norm_num [sampleCurve]), h3, h4⟩

/-- `C108_no_decimals`. -/
example := C108_no_decimals realCurve 48 (Or.inl rfl)
/-- `C109_width`. -/
example := C109_width (3 / 4) (by norm_num)
/-- `C109_flat`. -/
example := C109_flat flatCurve flat_sound rfl

open Analytics in
/-- `C103_entries`. -/
example := Analytics.C103_entries CarbonPair.ethUsdc [soldCurve] (by
    intro c hc _
    rw [List.mem_singleton.mp hc]; exact soldCurve_listed) (fun i => (i : ℝ) + 1) 3 (by intro i _; push_cast; linarith) false true
/-- `C103_other_pairs`. -/
example := Analytics.C103_other_pairs CarbonPair.ethUsdc [Analytics.soldCurve] []
  ⟨{ tknb := "DAI".toList, tknq := "USDC".toList, tknbOrig := "DAI".toList, tknqOrig := "USDC".toList }, "DAI".toList, 1 / 2, 1 / 2, 4, 1⟩
  (by dsimp only; decide +kernel) [1, 2, 3] false true

end Carbon.Witness
