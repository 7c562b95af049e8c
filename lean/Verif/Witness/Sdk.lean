import Verif.Prop.OrderUISdk
import Verif.Prop.Token
import Verif.Prop.SdkBase
import Verif.Prop.SdkMarket

/-! Instances of the theorems about tokens, the client of the SDK and imported strategies: each example applies the theorem named
in its comment to concrete values. -/

namespace Carbon.Witness

/-! ## Imported strategies -/

section
open UICurve

/-- `C107_marginal`. -/
example := C107_marginal twoTokens _ _ _ _ _ _ _ (sample_importable (b := "ETH".toList) (q := "USDC".toList) (by decide))
  "ETH".toList "USDC".toList (by decide +kernel) (by decide +kernel) names_eth (by norm_num [sampleStrategy]) (by norm_num [sampleStrategy])

/-- `C107_order`. -/
example := C107_order twoTokens (sampleStrategy "ETH".toList "USDC".toList) none (by show "USDC".toList ≠ "ETH".toList; decide)

end

/-! ## Containers of tokens -/

section
open TokenC

def cel : SdkTkn := tkn "CEL" "0xaaaebe" 4
def usdc6 : SdkTkn := tkn "USDC" "0xa0b869" 6
def celUsdc : TokenC := ⟨true, [("CEL".toList, cel), ("USDC".toList, usdc6)], [("0xaaaebe".toList, cel), ("0xa0b869".toList, usdc6)]⟩

theorem celUsdc_made : make [cel, usdc6] = .ok celUsdc := by decide +kernel

/-- `C52_ticker`. -/
example : celUsdc.ticker "usdc".toList none false = .ok (some usdc6) := by
  rw [C52_ticker celUsdc_made]
  decide +kernel

/-- `C52_address`. -/
example : celUsdc.addr "0xAAAEbe".toList none false = .ok (some cel) := by
  rw [C52_address celUsdc_made]
  decide +kernel

/-- `C52_consistent_partial`. -/
example := C52_consistent_partial celUsdc_made
  (by
    intro t ht
    rcases List.mem_cons.1 ht with rfl | ht
    · exact ⟨"cel".toList, "0xAAAEbe".toList, .num 4, none, by decide +kernel⟩
    · obtain rfl := List.mem_singleton.1 ht
      exact ⟨"usdc".toList, "0xA0b869".toList, .num 6, none, by decide +kernel⟩)
  (by decide +kernel)

/-- `C52_or_address`. -/
example : celUsdc.addr1Name "0xA0B869".toList = "USDC".toList ∧ celUsdc.addr1Name "0xFF".toList = "0xff".toList := by
  refine ⟨((C52_or_address celUsdc_made "0xA0B869".toList).1 usdc6 (by decide +kernel)).2, ?_⟩
  rw [((C52_or_address celUsdc_made "0xFF".toList).2 (by decide +kernel)).2]
  decide +kernel

/-- `C85_round_trip`. -/
example := SdkTkn.C85_round_trip (K := ℚ) usdc6 6 rfl 1666666

/-- `C85_loss`. -/
example := SdkTkn.C85_loss usdc6 6 rfl (5 / 3 : ℚ)

end

/-! ## The client -/

section
open Sdk

/-- `C97_entries`. -/
example := C97_entries (K := ℚ) [("amount".toList, .inl 7), ("pair".toList, .inr (.str "ETH/USDC".toList))]
  (by
    intro kv hkv v hv
    rcases List.mem_cons.1 hkv with rfl | hkv
    · exact absurd hv (by simp)
    · obtain rfl := List.mem_singleton.1 hkv
      obtain rfl := Sum.inr.inj hv
      exact trivial)

/-- `C97_round_mono`. -/
example := C97_round_mono (x := (12345 / 7 : ℚ)) (y := 12346 / 7) (by norm_num) (n := 3) (by norm_num)

/-- `C97_round_digits_partial`. -/
example := C97_round_digits_partial (x := (1234567 / 100 : ℚ)) (m := 4) (n := 6) (by norm_num) (by norm_num) (by norm_num)

/-- `C97_names`. -/
example := C97_names "getRateByPair".toList (by decide) (by decide)

/-- `C97_names_distinct`. -/
example := C97_names_distinct "minRate".toList "minRate".toList (by decide) (by decide) (by decide) (by decide) rfl

/-- `C97_words`. -/
example := C97_words "get".toList ["min".toList, "rate".toList] (by decide) (by decide)

/-- `C97_join`. -/
example := C97_join (a := "http://localhost".toList) (b := "api".toList) (by decide) (by decide) (by decide) (by decide)

/-- `C97_join_assoc`. -/
example := C97_join_assoc (a := "http://localhost/".toList) (b := "api".toList) (c := "/scall".toList) (by decide) (by decide) (by decide)

theorem localhost_neat : Neat localhost := ⟨by decide, by decide, by decide, by decide, by decide⟩

/-- `C98_fetch`. -/
example : fetch localhost server (fun _ => false) "getLiquidityByPair".toList 5 =
    .ok (⟨.post, "http://localhost:3118/api/scall/get_liquidity_by_pair".toList, some 5⟩, 5) :=
  (C98_fetch localhost_neat server _ ⟨_, _, rfl, by decide⟩ 5 _ _).2 ⟨by decide, _, rfl, rfl⟩

/-- `C98_async`. -/
example := C98_async localhost_neat server (fun _ => false) (ep := "getPairs".toList) ⟨by decide, by decide⟩ 5

/-- `C98_default_violated`. -/
example := C98_default_violated (c := { localhost with syncdefault := true }) (P := ℕ) (α := ℕ)
  ⟨by decide, by decide, by decide, by decide, by decide⟩ rfl (fun _ => some ⟨200, some { success := some true, data := some 9 }⟩)
  (fun _ => false) (ep := "getPairs".toList) ⟨by decide, by decide⟩ 5 9 rfl

/-! ## Markets -/

theorem bid_side : Side quotes weth usdc 1500 1600 5000 := ⟨rfl, rfl, rfl, by norm_num, by norm_num⟩
theorem ask_side : Side quotes usdc weth (1 / 2500) (1 / 2000) 3 := ⟨rfl, rfl, rfl, by norm_num, by norm_num⟩

/-- `C99_reverse`. -/
example := C99_reverse twoTokens_quoted bid_side ask_side (arg' := .str "usdc/weth".toList)
  (p' := ⟨"USDC".toList, "WETH".toList, "usdc".toList, "weth".toList, false, none, none⟩) (by decide) rfl rfl

/-- `C99_order`. -/
example := C99_order twoTokens_quoted bid_side ask_side

/-- A service without orders that sell WETH. -/
def oneSided : Api ℚ := { quotes with maxRate := fun s _ => if s = "0xc02a".toList then .ok 1600 else .ok 0 }

/-- `C99_one_sided_violated`. -/
example := C99_one_sided_violated twoTokens_quoted (api := oneSided) (nb := 1500) (xb := 1600) (lb := 5000) (na := 1 / 2500)
  ⟨rfl, rfl, rfl, by norm_num, by norm_num⟩ rfl rfl

/-- `C99_flag_violated`. -/
example := C99_flag_violated twoTokens_quoted bid_side ask_side

/-- `C99_foreign`. -/
example := C99_foreign twoTokens_quoted quotes "DAI".toList (by decide) (by decide)

/-- `C99_depth`. -/
example := C99_depth twoTokens_quoted bid_side ask_side

/-- `C99_depth_side`. -/
example : ∃ d, getDepthByPair quotes (some twoTokens) 2000 (.str "weth/usdc".toList) "WETH".toList = .ok d ∧ d.sells = "WETH".toList := by
  cases h : getDepthByPair quotes (some twoTokens) 2000 (.str "weth/usdc".toList) "WETH".toList with
  | error e =>
    have : (match getDepthByPair quotes (some twoTokens) 2000 (.str "weth/usdc".toList) "WETH".toList with
      | .ok _ => true | .error _ => false) = true := by decide +kernel
    rw [h] at this
    exact absurd this Bool.false_ne_true
  | ok d => exact ⟨d, rfl, (C99_depth_side twoTokens_quoted (.inl rfl) h).2.1⟩

theorem quotes_depths (s t : Str) (rs : List ℚ) (as : List (Option ℚ)) :
    quotes.depths s t rs = .ok as ↔ List.Forall₂ (fun r a => ∃ x, a = some x ∧ quotes.depth s t r = .ok x) rs as := by
  unfold quotes
  dsimp only
  rw [Except.ok.injEq]
  induction rs generalizing as with
  | nil => cases as <;> simp
  | cons r rs ih =>
    cases as with
    | nil => simp
    | cons a as =>
      rw [List.map_cons, List.cons.injEq, List.forall₂_cons, ih]
      refine and_congr_left fun _ => ⟨fun h => ⟨r, h.symm, rfl⟩, ?_⟩
      rintro ⟨x, rfl, h⟩
      rw [Except.ok.inj h]

/-- `C99_depths`. -/
example := (C99_depths twoTokens_quoted quotes_depths [1600, 1550] (by decide) "USDC".toList (.inr rfl) [some 1600, some 1550]).2
  (.cons ⟨_, rfl, by decide +kernel⟩ (.cons ⟨_, rfl, by decide +kernel⟩ .nil))

/-- `C99_depths_violated`. -/
example := C99_depths_violated twoTokens_quoted quotes [1600, 0] (by decide)

def market : Market ℚ := ⟨"WETH/USDC".toList, some 1600, some 2000, 5000, 3, some 1500, some 2500⟩

/-- `C99_interpolate`. -/
example := C99_interpolate market rfl rfl rfl rfl (by norm_num) (by norm_num) (1 / 4) (by norm_num) (by norm_num)

/-- `C99_mid`. -/
example := C99_mid market rfl rfl (by norm_num) (by norm_num)

theorem quotes_many (l : List (Str × Str)) (r : List Bool) (h : quotes.hasLiquidities l = .ok r) :
    List.Forall₂ (fun x y => quotes.hasLiquidity x.1 x.2 = .ok y) l r := by
  obtain rfl := Except.ok.inj h
  rw [List.forall₂_map_right_iff, List.forall₂_same]
  exact fun _ _ => rfl

/-- `C99_many`. -/
example : ∃ out, hasLiquidityByPairs quotes (some twoTokens) (["weth/usdc".toList].map .inl) = .ok out ∧ out.length = 2 := by
  cases h : hasLiquidityByPairs quotes (some twoTokens) (["weth/usdc".toList].map .inl) with
  | error e =>
    have : (match hasLiquidityByPairs quotes (some twoTokens) (["weth/usdc".toList].map .inl) with
      | .ok _ => true | .error _ => false) = true := by decide +kernel
    rw [h] at this
    exact absurd this Bool.false_ne_true
  | ok out =>
    refine ⟨out, rfl, (C99_many (ts := [weth, usdc]) (by decide +kernel) quotes_many ["weth/usdc".toList] ?_ h).1⟩
    intro s hs p hp
    obtain rfl := List.mem_singleton.1 hs
    rw [twoTokens_quoted.pair] at hp
    obtain rfl := Except.ok.inj hp
    decide

/-! ## Strategies and trades -/

def ethToken : SdkTkn := ⟨"ETH".toList, "0xeeee".toList, some 18, "ETH".toList⟩
def ethTable : TokenC := ⟨true, [("ETH".toList, ethToken), ("USDC".toList, usdc)], [("0xeeee".toList, ethToken), ("0xa0b8".toList, usdc)]⟩

theorem eth_quoted : Quoted (some ethTable) (.str "eth/usdc".toList)
    ⟨"ETH".toList, "USDC".toList, "eth".toList, "usdc".toList, false, none, none⟩ ethTable ethToken usdc :=
  ⟨rfl, by decide, by decide, by decide, rfl, by decide, rfl⟩

theorem eth_created : createStrategy (some ethTable) (.str "eth/usdc".toList) (2500 : ℚ) 2000 3 1600 1500 5000 =
    .ok (.create ⟨"0xeeee".toList, "0xa0b8".toList, 1500, 1600, 5000, 2000, 2500, 3⟩) := by decide +kernel

/-- `C100_create`. -/
example := C100_create eth_created

/-- `C100_pair_violated`. -/
example := C100_pair_violated ethTable eth_quoted.pair twoTokens_quoted.pair (2500 : ℚ) 2000 3 1600 1500 5000

/-- `C100_pair_partial`. -/
example := C100_pair_partial eth_quoted rfl rfl (ss := (2500 : ℚ)) (se := 2000) (sa := 3) (bs := 1600) (be := 1500) (ba := 5000) (by norm_num)

/-- `C100_overlap`. -/
example := C100_overlap (some ethTable) (.str "eth/usdc".toList) (ss := (2500 : ℚ)) (se := 2000) (sa := 3) (bs := 2100) (be := 1500) (ba := 5000)
  (by norm_num)

def stored : RawStrategy ℚ where
  id := .int 7
  baseToken := "0xC02a".toList
  quoteToken := "0xA0b8".toList
  buyPriceLow := 1000
  buyPriceHigh := 1500
  buyBudget := 1000
  sellPriceLow := 2000
  sellPriceHigh := 3000
  sellBudget := 10
  token0 := "0xC02a".toList
  token1 := "0xA0b8".toList
  order0 := ⟨.int 1, .int 4, .int 0, .int 0⟩
  order1 := ⟨.int 2, .int 5, .int 0, .int 0⟩

def user : Api ℚ := { quotes with userStrategies := fun _ => .ok [stored] }

/-- `C100_strategies`. -/
example : ∃ out, getUserStrategies user (some twoTokens) "0x1".toList .all = .ok out ∧ out.length = 1 := by
  cases h : getUserStrategies user (some twoTokens) "0x1".toList .all with
  | error e =>
    have : (match getUserStrategies user (some twoTokens) "0x1".toList .all with
      | .ok _ => true | .error _ => false) = true := by decide +kernel
    rw [h] at this
    exact absurd this Bool.false_ne_true
  | ok out =>
    obtain ⟨raw, hraw, hf⟩ := C100_strategies h
    obtain rfl := Except.ok.inj hraw
    exact ⟨out, rfl, hf.length_eq.symm⟩

/-- `C100_base`. -/
example := C100_base (K := ℚ) (api := { quotes with userStrategies := fun _ => .ok [{ stored with token0 := "0xA0b8".toList, token1 := "0xC02a".toList }] })
  (T := twoTokens) (user := "0x1".toList) (d := .all) rfl (List.mem_singleton_self _) (by decide +kernel) []

def bought : TradeData ℚ := ⟨"WETH/USDC".toList, "WETH".toList, .buy, 1, usdc, weth, true, [], [], [("totalSourceAmount".toList, 2000),
  ("totalTargetAmount".toList, 1)]⟩
theorem buys : prepareTrade quotes (some twoTokens) twoTokens (.str "weth/usdc".toList) .buy "WETH".toList 1 = .ok bought := by decide +kernel

/-- `C100_prepare`. -/
example := C100_prepare twoTokens_quoted buys

/-- `C100_compose`. -/
example := C100_compose twoTokens_quoted buys (dev := none) (by simp) (tx := .byTarget "0xa0b8".toList "0xc02a".toList [] 2200) (by decide +kernel)
  (by decide +kernel)

end

end Carbon.Witness
