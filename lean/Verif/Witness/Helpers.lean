import Verif.Prop.FloatInt
import Verif.Prop.Params
import Verif.Prop.SharedVar
import Verif.Prop.Version
import Verif.Prop.SolTest
import Verif.Prop.Strategy
import Verif.Prop.Univ3
import Verif.Prop.StartCond

/-! Instances of the theorems about numbers, parameters, versions, strategies and pools: each example applies the theorem named in
its comment to concrete values. -/

namespace Carbon.Witness

/-! ## Numbers with a significant of 40 bits -/

section
open FloatInt

theorem stored45 : fromInt ((2 ^ 45 + 77 : ℕ) : ℤ) = .ok ⟨2 ^ 39 + 1, 6⟩ := by decide +kernel
theorem stored46 : fromInt ((2 ^ 46 + 77 : ℕ) : ℤ) = .ok ⟨2 ^ 39, 7⟩ := by decide +kernel

/-- `C53_estimate`. -/
example := C53_estimate (fun _ => 46) (2 ^ 45 + 77) (fun _ => by norm_num)

/-- `C53_store`. -/
example := C53_store (2 ^ 200 + 3) (by decide +kernel)

/-- `C53_largest`. -/
example := C53_largest _ _ stored45 (2 ^ 39) 6 (by norm_num) (by norm_num)

/-- `C53_monotone`. -/
example := C53_monotone _ _ (by norm_num) _ _ stored45 stored46

/-- `C53_again`. -/
example := C53_again _ _ stored45

/-- `C53_fraction`. -/
example := C53_fraction (K := ℚ) 48 (7 / 3) (by norm_num) (lt_of_lt_of_le (b := 2 ^ 52) (by norm_num) (pow_le_pow_right₀ (by norm_num) (by norm_num)))

end

/-! ## Parameters -/

section
open Params

def twoParams : Params ℕ := ⟨[("a".toList, 1), ("b".toList, 2)], some [("c".toList, 3)]⟩

/-- `C51_attribute_partial`. -/
example : (twoParams.getAttr "c".toList).1 = .ok (.value (some 3)) := by
  rw [C51_attribute_partial twoParams "c".toList (by decide) (by decide)]
  rfl

/-- `C51_stays`. -/
example := C51_stays twoParams "a".toList 1 (by decide) [.setItem "a".toList 5, .set "a".toList 6 false, .getItem "c".toList, .add [("a".toList, 7)]]
  (by
    intro op hop k v
    simp only [List.mem_cons, List.not_mem_nil, or_false] at hop
    rcases hop with rfl | rfl | rfl | rfl <;> simp)

/-- `C51_set_default_partial`. -/
example := C51_set_default_partial twoParams (by simp [twoParams]) [("c".toList, 9), ("a".toList, 4)] (by decide) "c".toList

/-- `C51_set_default_violated`. -/
example := C51_set_default_violated (⟨[("a".toList, 1)], none⟩ : Params ℕ) rfl [("c".toList, 9)] "c".toList (by decide)

end

/-! ## Shared variables -/

section
open Carbon.Shared Prop.SharedVar

def plus (x y : ℚ) : Py ℚ := .ok (x + y)

def fiveTwice : State ℚ := (State.bind (State.new empty 0 ⟨0, 5⟩) 1 (.ref 0))

/-- `C121_alias`. -/
example : run empty [.make 0 5, .alias 1 0] = .ok fiveTwice ∧ ∃ t, run fiveTwice [.aug 1 plus (.lit 1), .make 2 8, .setval 0 4] = .ok t ∧
    t.number 0 = t.number 1 := by
  refine ⟨rfl, _, rfl, (C121_alias (s := fiveTwice) (p := [.aug 1 plus (.lit 1), .make 2 8, .setval 0 4]) rfl ⟨0, rfl, rfl⟩ ?_).2⟩
  intro c hc
  simp only [List.mem_cons, List.not_mem_nil, or_false] at hc
  rcases hc with rfl | rfl | rfl <;> simp [Assigns]

/-- `C121_frame`. -/
example : ∃ s t : State ℚ, run empty [.make 0 5, .make 1 7] = .ok s ∧ exec s (.aug 1 plus (.lit 1)) = .ok t ∧ t.number 0 = .ok 5 :=
  ⟨_, _, rfl, rfl, C121_frame (p := [.make 0 5, .make 1 7]) (c := .aug 1 plus (.lit 1)) rfl rfl rfl (by decide) (by
    rintro ⟨l, h1, h2⟩
    cases h1
    cases h2)⟩

/-- `C121_assign`. -/
example : ∃ s t : State ℚ, run empty [.make 0 5, .make 1 7] = .ok s ∧ exec s (.alias 0 1) = .ok t ∧ Shares t 0 1 :=
  ⟨_, _, rfl, rfl, (C121_assign (p := [.make 0 5, .make 1 7]) rfl (by decide)).1 1 rfl rfl⟩

/-- `C121_number_partial`. -/
example : ∃ t : State ℚ, run empty [.make 0 5, .alias 1 0, .aug 1 plus (.lit 1)] = .ok t ∧ t.valueIsNumber 1 = .ok true :=
  ⟨_, rfl, C121_number_partial (p := [.make 0 5, .alias 1 0, .aug 1 plus (.lit 1)]) rfl (by
    intro c hc
    simp only [List.mem_cons, List.not_mem_nil, or_false] at hc
    rcases hc with rfl | rfl | rfl <;> simp [Plain]) (l := 0) rfl⟩

end

/-! ## Versions -/

section
open Carbon.Version Prop.Version

/-- `C118_split`. -/
example : splitVersion " 1.10.3-beta".toList = .ok [1, 10, 3] :=
  C118_split (l := [1, 10, 3]) (w := " ".toList) (t := "-beta".toList) (by decide) (by simp [Blank]) (by decide)

theorem v19 : splitVersion "1.9".toList = .ok [1, 9] := by decide +kernel
theorem v110 : splitVersion "1.10".toList = .ok [1, 10] := by decide +kernel
theorem v2 : splitVersion "2".toList = .ok [2] := by decide +kernel

/-- `C118_order`. -/
example : requireVersion "2.5".toList "1.9".toList (some "1.10".toList) false = .ok (some true) := by
  rw [C118_order v19 v110]
  decide

/-- `C118_total`. -/
example := C118_total (own := "2.5".toList) v19 v110 v2

/-- `C118_raise`. -/
example : requireVersion "2".toList "1.10".toList none true = .ok none := (C118_raise v110 (actual := none) v2).1.2 (by decide)

end

/-! ## Checks of numbers -/

section
open Carbon.SolTest Carbon.StdImports Prop.SolTest

/-- `C119_error`. -/
example : (check ⟨2, 2, 0⟩ ((500 : ℤ) : ℚ)).2 = .ok 500 := (C119_error _ 500 500 rfl).2 ⟨rfl, by norm_num, by norm_num⟩

/-- `C119_warning`. -/
example : (check ⟨2, 1, 0⟩ ((50000 : ℤ) : ℚ)).2 = .ok 50000 := (C119_warning _ 50000 50000 rfl).2 ⟨rfl, by norm_num, by norm_num⟩

/-- `C119_side`. -/
example : (check ⟨2, 1, 0⟩ ((500 : ℤ) : ℚ)).2 = .error (.custom "UnderflowWarning") :=
  ((C119_side _ 500 (.inr rfl)).2.2.1 rfl).2 ⟨by norm_num, by norm_num⟩

/-- `C119_log`. -/
example := C119_log ⟨2, 0, 0⟩ 50000 rfl (by norm_num) (by norm_num)

/-- `C120_text`. -/
example := C120_text (K := ℚ) "a".toList [.other "a".toList, .num 3] (1 / 100) (by simp)

end

/-! ## Strategies -/

section
open Strat

def funded : Strat ℚ := make 110 120 90 80 (some 1) (some 100)
def unfunded : Strat ℚ := { funded with amtRsk := none, amtCsh := none }

/-- `C54_prices_partial`. -/
example := C54_prices_partial funded (by decide +kernel) 200 100 (by norm_num) false (.inl rfl)

/-- `C54_once`. -/
example : ∃ r, funded.rescaleStrat 200 100 = .ok r ∧ ([(3, 4), (0, 0)] : List (ℚ × ℚ)).foldlM (fun r p => r.rescaleStrat p.1 p.2) r = .ok r := by
  obtain ⟨r, hr, -⟩ := C54_prices_partial funded (by decide +kernel) 200 100 (by norm_num) false (.inl rfl)
  exact ⟨r, hr, C54_once _ _ _ _ _ hr _⟩

/-- `C54_composes`. -/
example := C54_composes funded (by decide +kernel) 100 200 50 (by norm_num) (by norm_num)

/-- `C54_back`. -/
example := C54_back funded (by decide +kernel) 100 200 (by norm_num) (by norm_num)

/-- `C54_zero`. -/
example := C54_zero funded 100 false (.inl rfl)

/-- `C86_value`. -/
example := C86_value unfunded ⟨rfl, rfl⟩ 100 (1 / 4) 1000 (by norm_num)

/-- `C86_keeps`. -/
example := C86_keeps funded (.inl (by decide +kernel)) 100 (1 / 4) 1000

/-- `C86_rescale`. -/
example := C86_rescale unfunded ⟨rfl, rfl⟩ rfl 100 (1 / 4) 1000 3 (by norm_num) (by norm_num) (by norm_num)

/-- `C55_order_partial`. -/
example := C55_order_partial (100 : ℚ) (1 / 5) (.two (1 / 4) (1 / 2)) (.two (1 / 2) 0) (by norm_num) (by norm_num) (by norm_num [Arg.widthOk])
  (by norm_num [Arg.sell, Arg.buy]) none none none none

/-- `C55_utilization`. -/
example : ∃ s, fromMgw (100 : ℚ) (1 / 5) (.two (1 / 4) (1 / 2)) (.two (1 / 2) 0) = .ok s ∧
    s.psellMarginal = some (s.pSellA + 1 / 2 * (s.pSellB - s.pSellA)) := by
  obtain ⟨s, hs, -⟩ := C55_order_partial (100 : ℚ) (1 / 5) (.two (1 / 4) (1 / 2)) (.two (1 / 2) 0) (by norm_num) (by norm_num)
    (by norm_num [Arg.widthOk]) (by norm_num [Arg.sell, Arg.buy]) none none none none
  refine ⟨s, hs, ?_⟩
  have := (C55_utilization _ _ _ _ (by norm_num) (by norm_num [Arg.widthOk]) (by norm_num [Arg.sell, Arg.buy]) _ _ _ _ s hs).1
  norm_num [Arg.sell] at this
  norm_num [this]

/-- `C55_wide_violated`. -/
example := C55_wide_violated (100 : ℚ) (1 / 5) 2 (by norm_num)

/-- `C55_zero_width_violated`. -/
example := C55_zero_width_violated (100 : ℚ) (1 / 5) (1 / 2) (by norm_num) (by norm_num) (by norm_num)

/-- `C87_ranges`. -/
example := C87_ranges 4 9 (by norm_num) (by norm_num) true (some 600) (some (1 / 30)) none none

/-- `C87_order`. -/
example := C87_order 9 4 (by norm_num) true none none none none

end

/-! ## Pools -/

section
open Univ3

def activePool : Univ3 := ⟨"A".toList, "B".toList, 2 ^ 96 + 2 ^ 84, 4, 1000, 500, 6, 18⟩
def evenPool : Univ3 := ⟨"A".toList, "B".toList, 2 ^ 96 + 2 ^ 84, 4, 1000, 500, 6, 6⟩

theorem active_made : new "A".toList "B".toList (2 ^ 96 + 2 ^ 84) 4 1000 500 (some 6) (some 18) = .ok activePool := by decide +kernel

theorem active_ticks : activePool.tickab = (0, 10) := by decide +kernel
theorem even_ticks : evenPool.tickab = (0, 10) := by decide +kernel

theorem pool_active : Active activePool := by
  have ht := active_ticks
  unfold activePool at ht ⊢
  constructor
  · decide
  · decide
  all_goals first
    | (unfold papb papbRaw price priceF decf tickBase; rw [ht]; norm_num)
    | (unfold papb papbRaw decf tickBase; rw [ht]; norm_num)
    | decide +kernel

theorem even_active : Active evenPool := by
  have ht := even_ticks
  unfold evenPool at ht ⊢
  constructor
  · decide
  · decide
  all_goals first
    | (unfold papb papbRaw price priceF decf tickBase; rw [ht]; norm_num)
    | (unfold papb papbRaw decf tickBase; rw [ht]; norm_num)
    | decide +kernel

/-- `C92_ticks`. -/
example := C92_ticks active_made

/-- `C92_range`. -/
example := C92_range (K := ℚ) active_made

/-- `C92_inverse`. -/
example := C92_inverse (K := ℚ) active_made

/-- `C92_sp96`. -/
example := C92_sp96 (2 ^ 96 + 2 ^ 84) (by norm_num)

/-- `C92_curve`. -/
example := C92_curve activePool pool_active none

/-- `C92_curve_refused`: the price is above the range. -/
example := C92_curve_refused { activePool with tick := -4 } (by
  have ht : ({ activePool with tick := -4 } : Univ3).tickab = (-10, 0) := by decide +kernel
  rintro ⟨-, h⟩
  unfold papb papbRaw price priceF decf tickBase at h
  rw [ht] at h
  norm_num [activePool] at h) none

/-- `C92_reserves_partial`. -/
example := C92_reserves_partial activePool pool_active (by decide) none

/-- `C92_reserves_violated`. -/
example : ∃ c : CPC ℝ, evenPool.curve none = .ok c ∧ evenPool.reserve0 ≠ .ok c.xAct := by
  obtain ⟨c, hc, -⟩ := C92_curve evenPool even_active none
  exact ⟨c, hc, (C92_reserves_violated evenPool even_active (by decide) c none hc).1⟩

theorem addr_usdc : ("USDC".toList, "0xA0b86991c6218b36c1d19D4a2e9Eb0cE3606eB48".toList, (6 : ℤ)) ∈ addrdec := by decide +kernel
theorem addr_weth : ("WETH".toList, "0xC02aaA39b223FE8D0A0e5C4F27eAD9083C756Cc2".toList, (18 : ℤ)) ∈ addrdec := by decide +kernel

/-- `C92_names`. -/
example := C92_names (2 ^ 96) 0 1000 500 (by decide) _ _ addr_usdc addr_weth

/-- `C92_names_second`. -/
example := C92_names_second (2 ^ 96) 0 1000 500 (by decide) _ addr_usdc "DAI".toList (by decide +kernel) 18

/-- `C92_fee`. -/
example := C92_fee (K := ℚ) active_made

end

/-! ## Start conditions -/

section
open StartCond

def cond : StartCond ℚ := ⟨some [120, 110, 90, 80], some [110, 90], some [1, 1], some [2000], some [200, 210], none, 0, 1⟩

/-- `C140_complete`. -/
example := C140_complete cond (Strat.make 110 120 90 80 (some 5) (some 1000) (some 110) (some 90)) (by decide +kernel)

/-- `C140_seed_violated`. -/
example := C140_seed_violated { cond with weights := some [1, 0] } 120 110 90 80 110 90 1 0 2000 200 [] [210] rfl rfl rfl rfl rfl (by norm_num)
  (by norm_num) (by norm_num)

/-- `C140_single_violated`. -/
example := C140_single_violated { cond with chart := some [200] } 200 rfl

end

end Carbon.Witness
