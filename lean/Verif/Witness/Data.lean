import Verif.Prop.OrderBook
import Verif.Prop.PathInterp
import Verif.Prop.DataTools
import Verif.Prop.Formulas
import Verif.Prop.CryptoCompare

/-! Instances of the theorems about order books, paths, tables of data, formulas and the data service: each example applies the theorem
named in its comment to concrete values. -/

namespace Carbon.Witness

/-! ## Order books of the charts -/

section
open Analytics OrderBook

/-- `C102_truncate_partial`: two levels and two gaps after them. -/
example := C102_truncate_partial [.num (1 : ℚ), .num 2, .num 3, .num 4] [10, 19] (by decide) [none, some .nan]
  (by intro g hg; simp only [List.mem_cons, List.not_mem_nil, or_false] at hg; rcases hg with rfl | rfl <;> simp) .bid (by decide)
/-- `C102_gap_violated`. -/
example := C102_gap_violated 2 (fun i => (i : ℚ) + 1) (fun i => 3 * (i + 1)) 7 .ask (by decide)
/-- `C102_effective`. -/
example := C102_effective 3 (fun i => (i : ℚ) + 1) (fun i => (i + 1) ^ 2) false (fun i _ => by positivity)
/-- `C102_marginal`. -/
example := C102_marginal 3 (fun i => (i : ℚ) + 1) (fun i => (i + 1) ^ 2) false (fun i _ => by push_cast; linarith)

private theorem marg (n : ℕ) (rev : Bool) :
    (book (n + 1) (fun i => (i : ℚ) + 1) (fun i => ((i : ℚ) + 1) ^ 2) rev).margPrices = vec n (fun i => 2 * (i : ℚ) + 3) := by
  obtain ⟨m, h1, h2, _⟩ := C102_marginal n (fun i => (i : ℚ) + 1) (fun i => ((i : ℚ) + 1) ^ 2) rev (fun i _ => by push_cast; linarith)
  rw [h1]
  unfold vec
  refine List.map_congr_left fun i hi => ?_
  have hi := List.mem_range.mp hi
  have a := h2 i hi.le
  have b := h2 (i + 1) hi
  rw [Finset.sum_range_succ, a] at b
  push_cast at b
  congr 1
  linear_combination b

/-- `C102_rising`. -/
example := C102_rising 3 (fun i => (i : ℚ) + 1) (fun i => ((i : ℚ) + 1) ^ 2) (fun i => 2 * (i : ℚ) + 3) false (by norm_num)
  (fun i _ => by push_cast; linarith) (marg 3 false) (fun i _ => by push_cast; linarith) (fun _ => by norm_num)
/-- `C102_area_partial`. -/
example := C102_area_partial 2 (fun i => (i : ℚ) + 1) (fun i => ((i : ℚ) + 1) ^ 2) (fun i => 2 * (i : ℚ) + 3) true
  (fun i _ => by push_cast; linarith) (marg 4 true) (fun i _ => by push_cast; linarith)
/-- `C102_liquidity`. -/
example := C102_liquidity 2 (fun i => (i : ℚ) + 1) (fun i => ((i : ℚ) + 1) ^ 2) (fun i => 2 * (i : ℚ) + 3) false
  (fun i _ => by push_cast; linarith) (fun i _ => by push_cast; nlinarith [show (0 : ℚ) ≤ i from Nat.cast_nonneg i]) (marg 3 false)
  (fun i _ => by push_cast; simp)

/-- `C102_area_violated`: three levels at one price. -/
example := C102_area_violated 1 (fun i => (i : ℚ) + 1) (fun i => 2 * ((i : ℚ) + 1)) (fun _ => 2) false
  (fun i _ => by push_cast; linarith) (fun i _ => by push_cast; linarith) (by decide +kernel) 0 (by decide) rfl
/-- `C102_grid_partial`, `C102_grid_violated`. -/
example := C102_grid_partial (10 : ℚ) (1 / 10000) (1 / 100000) 5 (by decide)
example := C102_grid_violated (1 / 10000 : ℚ) 2 le_rfl (by norm_num)

end

/-! ## Paths between given points -/

section
open PathInt

private theorem walk (z : ℕ → ℝ) : ∃ l, gaussianBridge 100 120 (1 / 2) 4 z = .ok l :=
  (C101_bridge 100 120 (1 / 2) (n := 4) (by decide) z).2.mpr ⟨by norm_num, by norm_num⟩

/-- `C101_length_violated`, `C101_ends`. -/
example (z : ℕ → ℝ) : ∃ l, gaussianBridge 100 120 (1 / 2) 4 z = .ok l ∧ l.length ≠ 6 ∧ l.getLast? = some 120 := by
  obtain ⟨l, h⟩ := walk z
  exact ⟨l, h, C101_length_violated (by decide) z h, (C101_ends _ _ _ _ _ _ h).2.2⟩
/-- `C101_positive_violated`. -/
example := C101_positive_violated (a := 100) (b := 120) (sig := 1 / 10) (by norm_num) (by norm_num) (by norm_num)
/-- `C101_through_partial`. -/
example (z : ℕ → ℕ → ℝ) : ∃ out, interpolate [(0, 100), (1, 110), (3, 90)] (1 / 24) z (some (1 / 2)) = .ok out ∧ (1, 110) ∈ out := by
  obtain ⟨out, h⟩ := C101_runs (path := [(0, 100), (1, 110), (3, 90)]) (by simp) (period := 1 / 24) (by norm_num) (by norm_num) (by norm_num) z
    (sig := 1 / 2) (by norm_num) none
  exact ⟨out, h, (C101_through_partial (by norm_num) (by norm_num) h).1 _ (by simp)⟩
/-- `C101_vol_units`: prices in cents and times in days. -/
example : ∃ v, estimateVolNp [1, 2, 3, 8] 3 = .ok v ∧
    estimateVolNp ([1, 2, 3, 8].map (100 * ·)) (365 * 3) = .ok (100 * v.1 / Real.sqrt 365, v.2 / Real.sqrt 365) := by
  have h : ∃ v, estimateVolNp [1, 2, 3, 8] 3 = .ok v := by
    unfold estimateVolNp
    norm_num
  obtain ⟨v, hv⟩ := h
  exact ⟨v, hv, C101_vol_units hv (by norm_num) (by norm_num)⟩

end

/-! ## Tables of data -/

section
open Data Prop.DataTools

def days : List (ℚ × Char) := [(0, 'a'), (1, 'b'), (2, 'c'), (4, 'd')]
private theorem days_in_order : InOrder days := by unfold InOrder days; decide +kernel
private theorem days_bounds : bounds days = .ok (0, 4) := by decide +kernel

/-- `C122_rows`. -/
example := C122_rows (rows := days) (minDt := none) (fromTs := none) (fromPc := some (1 / 4)) (periodDays := none) (periodPc := some (1 / 2))
  (w := [(1, 'b'), (2, 'c')]) (by decide +kernel)
/-- `C122_all`, `C122_days`, `C122_early`. -/
example := C122_all days_in_order (by unfold days; simp)
example := C122_days days_bounds 1 2 (by norm_num)
example := C122_early days_bounds (-3) (some 2) (by norm_num)
/-- `C122_parts`. -/
example := C122_parts (rows := days) (w1 := [(0, 'a'), (1, 'b'), (2, 'c')]) (w2 := [(2, 'c'), (4, 'd')]) days_in_order days_bounds (q := 1 / 2)
  (by norm_num) (by decide +kernel) (by decide +kernel)
/-- `C122_invert`. -/
example := C122_invert "ETH/USDC".toList [((0 : ℚ), (1000 : ℚ)), (1, 1250)] (by decide +kernel)
/-- `C122_tokens`. -/
example := C122_tokens (a := "ETH ".toList) (b := " USDC".toList) (by decide +kernel) (by decide +kernel)
/-- `C122_time`. -/
example := C122_time (rows := days) (w := [(1, 'b'), (2, 'c')]) days_in_order (minDt := none) (fromTs := none) (fromPc := some (1 / 4))
  (periodDays := none) (periodPc := some (1 / 2)) (by decide +kernel) (t := 4) (t' := 1) (by decide +kernel) (by decide +kernel)
/-- `C123_join_partial`. -/
example := C123_join_partial (l := ["ETH".toList, "USDC".toList]) (by simp) (by decide +kernel)

def before : Rec Nat := [("p".toList, some 1), ("q".toList, some 5), ("id0".toList, some 0)]
def after : Rec Nat := [("p".toList, some 2), ("q".toList, some 5), ("id0".toList, some 1)]

/-- `C124_all`. -/
example := C124_all (r := after) (r0 := before) (d := [("p".toList, some 2), ("q".toList, none), ("id0".toList, some 1)]) (by decide +kernel)
/-- `C124_diff`. -/
example := C124_diff (r := after) (r0 := before) (d := [("p".toList, some 2)]) (by decide +kernel) (by decide +kernel) "p".toList (some 2)
/-- `C124_restore_partial`. -/
example := C124_restore_partial (r := after) (r0 := before) (d := [("p".toList, some 2)]) (by decide +kernel) (by decide +kernel) (k := "q".toList)
  (v0 := some 5) (v := some 5) (by decide +kernel) (by decide +kernel) (by decide) (by decide +kernel) (by decide +kernel)

def fixedDict : List (Str × DVal ℝ) := [("strat_type".toList, .text "Fixed".toList), ("p_sell_a".toList, .num 110), ("p_sell_b".toList, .num 120),
  ("p_buy_a".toList, .num 100), ("p_buy_b".toList, .num 90)]
noncomputable def mgwDict : List (Str × DVal ℝ) := [("strat_type".toList, .text "mgw".toList), ("strat_m".toList, .num 100), ("strat_g".toList, .num (1 / 10)),
  ("strat_wsell".toList, .num (1 / 5)), ("strat_wbuy".toList, .num (1 / 4)), ("strat_usell".toList, .num 0), ("strat_ubuy".toList, .num 1)]
noncomputable def mgwDict1 : List (Str × DVal ℝ) := [("strat_type".toList, .text "mgw".toList), ("strat_m".toList, .num 100), ("strat_g".toList, .num (1 / 10)),
  ("strat_w".toList, .num (1 / 5)), ("strat_u".toList, .two 0 1)]
def rangeDict : List (Str × DVal ℝ) := [("strat_type".toList, .text "UV3".toList), ("p_lo".toList, .num 90), ("p_hi".toList, .num 120),
  ("start_below".toList, .flag true), ("fee_pc".toList, .num 1)]

/-- `C124_fixed`. -/
example := C124_fixed (d := fixedDict) (t := "Fixed".toList) (a := 110) (b := 120) (c := 100) (e := 90) rfl (by decide +kernel) rfl rfl rfl rfl
/-- `C124_mgw`: one width for each side, and one for both. -/
example := (C124_mgw (d := mgwDict) (t := "mgw".toList) (m := 100) (g := 1 / 10) (wl := 1 / 5) (wr := 1 / 4) (ul := 0) (ur := 1) rfl
  (by decide +kernel) rfl rfl).1 rfl rfl rfl rfl
example := (C124_mgw (d := mgwDict1) (t := "mgw".toList) (m := 100) (g := 1 / 10) (wl := 1 / 5) (wr := 1 / 4) (ul := 0) (ur := 1) rfl
  (by decide +kernel) rfl rfl).2 rfl rfl rfl rfl
/-- `C124_range`. -/
example := C124_range (d := rangeDict) (t := "UV3".toList) (lo := 90) (hi := 120) (fee := 1) (below := true) rfl (by decide +kernel) rfl rfl rfl rfl
/-- `C125_positive`. -/
example := C125_positive (100 : ℚ) [11 / 10, 1 / 2] (by norm_num) (by decide +kernel)
/-- `C125_times`. -/
example := C125_times (1000 : ℚ) 2 (n := 4) (by decide)

end

/-! ## Formulas -/

section
open Formulas

/-- Two formulas, one of them in a namespace. -/
def library : Formulas Nat := (((new : Formulas Nat).add "k".toList 1).2.add "swap".toList 2 (ns := some "eq".toList)).2
private theorem library_made : Made library := Made.add (Made.add (Made.new _ _) _ _ _ _ _ _ _ _) _ _ _ _ _ _ _ _
private theorem library_plain : Plain library := Plain.add (Plain.add (Plain.new _ _) _ _ _ _ _ _ _ _) _ _ _ _ _ _ _ _

/-- `C141_nskey`, `C141_nskey_violated`. -/
example := C141_nskey "eq".toList "swap".toList (by decide +kernel) (by decide +kernel)
example := C141_nskey_violated "a".toList "b".toList "c".toList (by decide +kernel) (by decide +kernel)
/-- `C141_add`. -/
example := C141_add library "p".toList 3 none none (some "price".toList) (some "eq".toList) false "eq.p".toList (by decide +kernel)
/-- `C141_aliases_partial`, `C141_aliases_violated`. -/
example := C141_aliases_partial library "p".toList 3 none none none false ["price".toList] rfl
example := C141_aliases_violated library "p".toList "price".toList "eq".toList [] 3 none none none false (by decide +kernel) (by rfl)
/-- `C141_default_violated`. -/
example := C141_default_violated "eq".toList "p".toList (3 : Nat) true (by decide +kernel)
/-- `C141_stale_violated`, `C141_isalias_violated`. -/
example := C141_stale_violated library "p".toList "price".toList 3 4 rfl (by decide +kernel)
example := C141_isalias_violated library "p".toList "price".toList 3 rfl (by decide +kernel)
/-- `C141_keys`, `C141_keys_violated`, `C141_getall`. -/
example := C141_keys library library_made none (some "eq".toList)
example := C141_keys_violated library library_made "p".toList 3 "a.b".toList (by decide +kernel)
example := C141_getall library library_made none
/-- `C141_addfrom`. -/
example := C141_addfrom new library library_made (some "m".toList) "k".toList "m.k".toList (by decide +kernel)
  (by
    intro j hj _ _ h
    have e : library.keys = ["k".toList, "eq.swap".toList] := by decide +kernel
    rw [e] at hj
    simp only [List.mem_cons, List.not_mem_nil, or_false] at hj
    rcases hj with rfl | rfl
    · rfl
    · exact absurd h (by decide +kernel))
/-- `C141_moved_violated`. -/
example := C141_moved_violated library "p".toList "m".toList 3 (by decide +kernel) (by decide +kernel)
/-- `C141_mainkey_partial`. -/
example := C141_mainkey_partial library library_plain "eq.swap".toList ⟨2, none, none, "eq.swap".toList, false, Tags.fromstr none⟩ (by rfl)
/-- `C141_filter_plain`. -/
example := C141_filter_plain library (fun _ => []) "cost: $5".toList (by
  intro a k b _ e
  have h : '=' ∈ "cost: $5".toList := by
    rw [e]
    refine List.mem_append_left _ (List.mem_append_right _ ?_)
    unfold tag
    exact List.mem_append_left _ (List.mem_append_left _ (by decide +kernel))
  exact absurd h (by decide +kernel))
/-- `C141_filter`. -/
example := C141_filter library (fun _ => "x".toList) [("see ".toList, "k".toList), (" and ".toList, "none".toList)] " as well".toList
  (by
    intro p hp
    have key : ∀ k ∈ ["k".toList, "none".toList], TagKey k := by
      intro k hk
      refine ⟨?_, fun c hc => ?_⟩
      · revert k; decide +kernel
      · simp only [List.mem_cons, List.not_mem_nil, or_false] at hk
        rcases hk with rfl | rfl <;> revert c <;> decide +kernel
    simp only [List.mem_cons, List.not_mem_nil, or_false] at hp
    rcases hp with rfl | rfl
    · exact ⟨by decide +kernel, key _ (by simp)⟩
    · exact ⟨by decide +kernel, key _ (by simp)⟩) (by decide +kernel)
/-- `C142_text_partial`. -/
example := Tags.C142_text_partial "b,a".toList ⟨["a".toList, "b".toList]⟩ (by decide +kernel) "a".toList

end

/-! ## The data service -/

section
open CC0

/-- `C143_request`, `C143_method`. -/
example := C143_request sampleClient sampleApi "/x".toList [("a".toList, some (.int 1)), ("b".toList, none)] (by decide +kernel)
example := C143_method sampleClient sampleApi "/x".toList [] "POST".toList (by decide +kernel)
/-- `C143_hit`. -/
example := C143_hit sampleClient [("c".toList, some "ETH".toList)] "c".toList (some "ETH".toList) (.ok (some "BTC".toList), []) true true (by rfl)
/-- `C143_miss_partial`, `C143_miss_violated`, `C143_flags_violated`. -/
example := C143_miss_partial sampleClient [("c".toList, some "ETH".toList)] "d".toList (.ok (some "BTC".toList), []) true true rfl (by rfl)
example := C143_miss_violated quietClient [("c".toList, some "ETH".toList)] "d".toList (.ok (some "BTC".toList), []) true true rfl (by rfl)
example := C143_flags_violated sampleClient sampleApi [] "c".toList "/data/all/coinlist".toList false true rfl (by rfl)
/-- `C143_list`. -/
example := C143_list sampleClient sampleApi "/data/all/coinlist".toList ⟨true, false, some "ETH, BTC".toList, []⟩ (by rfl)
/-- `C144_request`, `C144_freq`. -/
example := C144_request sampleClient sampleApi "hour".toList (some "ETH".toList) none none .default none true (Or.inr (Or.inl rfl))
example := C144_freq sampleClient sampleApi "week".toList (some "ETH".toList) none none .default none true (by decide +kernel)

def asked (fsym : String) : Request := ⟨"/data/v2/histoday".toList, [("fsym".toList, .str fsym.toList), ("tsym".toList, .str "usd".toList),
  ("limit".toList, .int 2000)]⟩

/-- `C144_table`, `C144_error`, `C144_raw_violated`, `C144_empty_violated`. -/
example := C144_table quietClient sampleApi "day".toList (some "ETH".toList) none none .default none (asked "ETH") (by rfl) (by rfl) (by rfl)
  (by decide +kernel)
example := C144_error quietClient sampleApi "day".toList (some "XXX".toList) none none .default none true (asked "XXX") (by rfl) (by rfl) (by rfl)
example := C144_raw_violated quietClient sampleApi "day".toList (some "ETH".toList) none none .default none (asked "ETH") (by rfl) (by rfl) (by rfl)
example := C144_empty_violated quietClient sampleApi "day".toList (some "NEW".toList) none none .default none (asked "NEW") (by rfl) (by rfl)
  (by rfl) (by rfl)
/-- `C144_raises`. -/
example := C144_raises quietClient sampleApi [("ETH".toList, "USD".toList)] ("NEW".toList, "USD".toList) [("BTC".toList, "USD".toList)] none
  true true true none .key (by intro q hq; rw [List.mem_singleton.mp hq]; exact ⟨_, rfl⟩) (by rfl)
/-- `C144_field`. -/
example := C144_field quietClient sampleApi [("ETH".toList, "USD".toList)] "price".toList true true true none sampleTab
  (by intro q hq; rw [List.mem_singleton.mp hq]; rfl) ⟨_, List.mem_cons_self, _, rfl⟩ (by decide +kernel) (by decide +kernel)

end

end Carbon.Witness
