import Verif.Prop.Order
import Verif.Prop.SimBook
import Verif.Prop.SimTrade
import Verif.Prop.TradeLog
import Verif.Prop.TradeOutcome
import Verif.Prop.RunSim
import Verif.Prop.Effective

/-! Instances of the theorems about the simulator: each example applies the theorem named in its comment to a book with concrete
orders. -/

namespace Carbon.Witness

open Sim

/-! ## A book over the reals -/

/-- Sells 10 ETH between 4 and 9 and buys with 10 USDC between 1 and 1/4. -/
noncomputable def realStrat : StrategyArgs ℝ :=
  { tkn := "ETH".toList, amtSell := some 10, psellStart := some 4, psellEnd := some 9, amtBuy := some 10, pbuyStart := some 1,
    pbuyEnd := some (1 / 4) }

noncomputable def askOrder : SOrder ℝ := ⟨⟨1 / 3, 1 / 6, 10, 1 / 9, 1 / 4, 10, false⟩, "ETH".toList, ethusdc, ethusdc.pairIso, false, 0, 1⟩
noncomputable def bidOrder : SOrder ℝ := ⟨⟨1 / 2, 1 / 2, 10, 1 / 4, 1, 10, false⟩, "USDC".toList, ethusdc, ethusdc.pairIso, false, 1, 0⟩

noncomputable def emptyBook (m : Method) : Sim ℝ := ⟨0, [], [], 0, some ethusdc, false, m, true⟩
noncomputable def realBook (m : Method) : Sim ℝ := ⟨2, [(0, askOrder), (1, bidOrder)], [], 0, some ethusdc, false, m, true⟩

theorem root_of (x : ℝ) {y : ℝ} (h : 0 ≤ y) (e : x = y ^ 2) : √x = y := by rw [e]; exact Real.sqrt_sq h

theorem buildCurve_plain {amt lo hi b c : ℝ} (hlo : 0 < lo) (hle : lo < hi) (hb : √lo = b) (hc : √hi = b + c) :
    buildCurve amt lo hi none none = .ok ⟨b, c, amt, lo, hi, amt, false⟩ := by
  unfold buildCurve
  dsimp only
  unfold Curve.init
  rw [shape_of hle.le hlo.le rfl rfl rfl, Py.ok_bind]
  dsimp only
  unfold Curve.capacity
  dsimp only
  rw [Py.ok_bind, hb, hc, decide_eq_false hle.ne']
  congr 2
  ring

theorem ask_built : sellOrder ethusdc "ETH".toList (some 10) (some (1 / 9)) (some (1 / 4)) 0 1 none none = .ok askOrder := by
  unfold sellOrder
  simp only [Option.isSome_none, Bool.and_self, Bool.false_eq_true, if_false]
  rw [if_pos (by norm_num)]
  unfold buildOrder
  rw [Option.getD_some, buildCurve_plain (b := 1 / 3) (c := 1 / 6) (by norm_num) (by norm_num) (root_of _ (by norm_num) (by norm_num))
    (root_of _ (by norm_num) (by norm_num))]
  rfl

theorem bid_built : sellOrder ethusdc "USDC".toList (some 10) (some (1 / 4)) (some 1) 1 0 none none = .ok bidOrder := by
  unfold sellOrder
  simp only [Option.isSome_none, Bool.and_self, Bool.false_eq_true, if_false]
  rw [if_pos (by norm_num)]
  unfold buildOrder
  rw [Option.getD_some, buildCurve_plain (b := 1 / 2) (c := 1 / 2) (by norm_num) (by norm_num) (root_of _ (by norm_num) (by norm_num))
    (root_of _ (by norm_num) (by norm_num))]
  rfl

theorem ask_reported : ∃ rep, report askOrder = .ok rep := by
  obtain ⟨_, _, _, _, _, _, _, _, h⟩ := RunSim.fromOrder_fit (s := "ETH/USDC".toList) (p := ethusdc) (by decide +kernel) (o := askOrder) rfl
    (.inl rfl) (x := 1 / 9) (y := 1 / 4) (by norm_num) (by norm_num)
    (by rw [root_of (1 / 9) (y := 1 / 3) (by norm_num) (by norm_num)]; rfl)
    (by rw [root_of (1 / 9) (y := 1 / 3) (by norm_num) (by norm_num), root_of (1 / 4) (y := 1 / 2) (by norm_num) (by norm_num)]; norm_num [askOrder])
    (by norm_num [askOrder]) (by norm_num [askOrder]) rfl rfl
  exact h

theorem bid_reported : ∃ rep, report bidOrder = .ok rep := by
  obtain ⟨_, _, _, _, _, _, _, _, h⟩ := RunSim.fromOrder_fit (s := "ETH/USDC".toList) (p := ethusdc) (by decide +kernel) (o := bidOrder) rfl
    (.inr rfl) (x := 1 / 4) (y := 1) (by norm_num) (by norm_num)
    (by rw [root_of (1 / 4) (y := 1 / 2) (by norm_num) (by norm_num)]; rfl)
    (by rw [root_of (1 / 4) (y := 1 / 2) (by norm_num) (by norm_num), Real.sqrt_one]; norm_num [bidOrder])
    (by norm_num [bidOrder]) (by norm_num [bidOrder]) rfl rfl
  exact h

theorem eth_price {v w : ℝ} (hv : v ≠ 0) (hw : w = 1 / v) : ethusdc.convertPrice (some v) "ETH".toList = .ok (some w) := by
  unfold CarbonPair.convertPrice
  rw [show ethusdc.hasToken "ETH".toList = true by decide +kernel, show ethusdc.hasQuote "ETH".toList = false by decide +kernel]
  dsimp only
  rw [if_neg (by decide), if_neg (by decide), UICurve.pyDiv_ok hv, hw]
  rfl

theorem usdc_price (v : ℝ) : ethusdc.convertPrice (some v) "USDC".toList = .ok (some v) := by
  unfold CarbonPair.convertPrice
  rw [show ethusdc.hasToken "USDC".toList = true by decide +kernel, show ethusdc.hasQuote "USDC".toList = true by decide +kernel]
  rfl

theorem book_added (m : Method) : (emptyBook m).addStrategy realStrat = (.ok (0, 1), realBook m) := by
  obtain ⟨r1, h1⟩ := ask_reported
  obtain ⟨r2, h2⟩ := bid_reported
  have hp : (emptyBook m).pairTokens realStrat.pair realStrat.tkn = .ok (ethusdc, "USDC".toList) := by
    unfold pairTokens getPair realStrat emptyBook
    dsimp only
    rw [Py.ok_bind, show ethusdc.other "ETH".toList = some "USDC".toList by decide +kernel]
  have hso : strategyOrders ethusdc "USDC".toList 0 1 realStrat = .ok (askOrder, .ok bidOrder) := by
    unfold strategyOrders realStrat
    dsimp only
    rw [show ethusdc.convertPrice (none : Option ℝ) "ETH".toList = .ok none from rfl,
      show ethusdc.convertPrice (none : Option ℝ) "USDC".toList = .ok none from rfl, eth_price (v := 4) (w := 1 / 4) (by norm_num) rfl,
      eth_price (v := 9) (w := 1 / 9) (by norm_num) rfl, usdc_price, usdc_price]
    simp only [Py.ok_bind]
    rw [ask_built, bid_built]
    rfl
  unfold addStrategy
  rw [hp]
  dsimp only
  rw [show (emptyBook m).nextId = 0 from rfl, show strategyOrders ethusdc "USDC".toList 0 (0 + 1) realStrat = _ from hso]
  dsimp only
  rw [h1, Py.ok_bind, h2]
  rfl

theorem book_new (m : Method) : new (.str "ETH/USDC".toList) false m = .ok (emptyBook m) := by
  unfold new
  rw [show CarbonPair.create (.str "ETH/USDC".toList) none = .ok (some ethusdc) by decide +kernel]
  rfl

theorem book_run (m : Method) : run (emptyBook m) [.add realStrat] = realBook m := congrArg Prod.snd (book_added m)

theorem real_sensible : Sensible realStrat := by
  unfold Sensible SensibleSide realStrat
  refine ⟨⟨?_, ?_, ?_, ?_⟩, ?_, ?_, ?_, ?_⟩ <;> rintro v ⟨⟩ <;> norm_num

theorem real_careful (m : Method) : ∀ op ∈ [Op.add realStrat], Careful m op := by
  intro op hop
  rw [List.mem_singleton.1 hop]
  exact real_sensible

theorem real_orderly (m : Method) : AllOrderly (emptyBook m) [.add realStrat] := ⟨.inl ⟨_, by rw [book_added]⟩, trivial⟩

theorem real_reachable (m : Method) : Reachable (realBook m) := ⟨_, _, _, _, _, _, book_new m, (book_run m).symm⟩

theorem real_healthy (m : Method) : Healthy (realBook m) := by
  rw [← book_run m]
  exact run_healthy rfl (new_healthy (book_new m)).1 _ (real_careful m)

theorem real_links (m : Method) : Links (realBook m) := fun k o hk => by
  rw [← book_run m] at hk ⊢
  exact C29_links _ _ _ _ (book_new m) _ (real_orderly m) k o hk

/-! ## Books and trades -/

theorem rat_new (m : Method) : new (K := ℚ) (.str "ETH/USDC".toList) false m = .ok (sim0 m) := by cases m <;> rfl

/-- `C28_unique_ids`. -/
example := C28_unique_ids _ _ _ _ (rat_new .fast) hist

/-- `C28_fresh`. -/
example : (4 : ℕ) ∉ ids (run (sim0 .fast) [.add strat]) :=
  (C28_fresh _ _ _ _ (rat_new .fast) [.add strat] [.add strat, .delete 2] strat 4 5 (by decide +kernel)).2.1

theorem hist_orderly : AllOrderly (sim0 .fast) [.add strat, .add strat, .delete 2] :=
  ⟨.inl ⟨(0, 1), by decide +kernel⟩, .inl ⟨(2, 3), by decide +kernel⟩, by
    intro o ho
    have : (Dict.get (step (step (sim0 .fast) (.add strat)) (.add strat)).orders 2).map SOrder.linked = some 3 := by decide +kernel
    rw [ho] at this
    exact fun h => absurd (h ▸ Option.some.inj this : (0 : ℕ) = 3) (by decide), trivial⟩

/-- `C29_links`. -/
example : ∃ o l, Dict.get (run (sim0 .fast) [.add strat, .add strat, .delete 2]).orders 0 = some o ∧
    Dict.get (run (sim0 .fast) [.add strat, .add strat, .delete 2]).orders o.linked = some l := by
  cases h : Dict.get (run (sim0 .fast) [.add strat, .add strat, .delete 2]).orders 0 with
  | none =>
    have : (Dict.get (run (sim0 .fast) [.add strat, .add strat, .delete 2]).orders 0).isSome = true := by decide +kernel
    rw [h] at this
    exact absurd this (by decide)
  | some o =>
    obtain ⟨-, l, hl, -⟩ := C29_links _ _ _ _ (rat_new .fast) _ hist_orderly 0 o h
    exact ⟨o, l, rfl, hl⟩

/-- `C30_missing`. -/
example := C30_missing (realBook .fast) 7 (by simp [ids, realBook])

/-- `C30_delete_partial`. -/
example : ((realBook .exact).deleteOrder 0).1 = .ok [0, 1] := by
  have := (C30_delete_partial _ _ _ _ (book_new .exact) _ (real_orderly _) 0 askOrder (by rw [book_run]; rfl) (by simp [askOrder])).1
  rwa [book_run] at this

/-- `C30_violated`. -/
example := C30_violated (realBook .exact) (real_healthy _).ids 1 bidOrder askOrder rfl rfl (by decide) rfl rfl

/-- `C31_success`. -/
example := C31_success (emptyBook .alpha) (new_ids (book_new .alpha)).1 realStrat 0 1 (by rw [book_added])

/-- `C33_balances_partial`. -/
example := C33_balances_partial _ _ _ _ (book_new .alpha) _ (real_careful .alpha) 0 askOrder (by rw [book_run]; rfl)

/-- `C34_dry_run`. -/
example := C34_dry_run traded true { tkn := "ETH".toList, amt := 3, execute := false } rfl

/-- `C36_touched_partial`. -/
example := C36_touched_partial traded (by rw [traded]; exact (run_ids rfl (new_ids (rat_new .fast)).1 _).1) false { tkn := "ETH".toList, amt := 2 } 2
  (by decide +kernel)

/-! ## Outcomes -/

theorem eth_pair (m : Method) : (realBook m).getPair .none = .ok ethusdc := rfl

def usdceth : CarbonPair := ⟨"USDC".toList, "ETH".toList, "USDC".toList, "ETH".toList, false, none, none⟩
theorem eth_rev : ethusdc.reverse = .ok usdceth := by decide +kernel

theorem eth_suppliers (m : Method) : suppliers (realBook m) ethusdc usdceth "ETH".toList none = [askOrder] := by
  have h : ("USDC".toList = "ETH".toList) = False := eq_false (by decide)
  unfold suppliers
  simp only [realBook, askOrder, bidOrder, List.map_cons, List.map_nil, List.filter_cons, List.filter_nil, h, true_or, true_and, false_and,
    decide_false, Bool.false_eq_true, if_false]
  rw [if_pos]
  rw [decide_eq_true_iff]
  exact ⟨by norm_num, fun l hl => by cases hl⟩

/-- `C129_sale_exact`. -/
theorem eth_sale : Succeeds (realBook .exact) false { tkn := "ETH".toList, amt := 2 } "ETH".toList (some 2) none :=
  (C129_sale_exact (realBook .exact) (real_healthy _) (real_links _) rfl { tkn := "ETH".toList, amt := 2 } (by norm_num) rfl rfl rfl
    ethusdc usdceth rfl eth_rev (by decide +kernel) 10 (by rw [eth_suppliers]; norm_num [askOrder])).1 (by norm_num)

/-- `C129_sale_exact`: too much is asked for. -/
theorem eth_refused : Refused (realBook .exact) false { tkn := "ETH".toList, amt := 12 } :=
  (C129_sale_exact (realBook .exact) (real_healthy _) (real_links _) rfl { tkn := "ETH".toList, amt := 12 } (by norm_num) rfl rfl rfl
    ethusdc usdceth rfl eth_rev (by decide +kernel) 10 (by rw [eth_suppliers]; norm_num [askOrder])).2.1 (by norm_num) rfl

/-- `C129_sale_fast`. -/
example : Succeeds (realBook .fast) false { tkn := "ETH".toList, amt := 12 } "ETH".toList (some 10) none := by
  have := (C129_sale_fast (realBook .fast) (real_healthy _) (real_links _) rfl { tkn := "ETH".toList, amt := 12 } (by norm_num) rfl rfl rfl
    ethusdc usdceth rfl eth_rev (by decide +kernel)).2 (by rw [eth_suppliers]; simp)
  rw [eth_suppliers] at this
  norm_num [askOrder] at this
  exact this

theorem ask_cost : askOrder.curve.amtBySrc askOrder.curve.y = .ok 60 := by
  unfold Curve.amtBySrc askOrder
  norm_num [CarbonPair.pyDiv]

theorem ask_charge : askOrder.curve.dxdy (-askOrder.curve.y) = .ok 60 := by
  obtain ⟨s, -, h1, h2, -⟩ := Curve.C24_agree ((real_healthy .exact).shape 0 askOrder rfl rfl |>.good (by norm_num [askOrder]) (by norm_num [askOrder]))
    (by norm_num [askOrder]) (by norm_num [askOrder])
    ⟨ethusdc, "ETH".toList, askOrder.curve.B, askOrder.curve.S, askOrder.curve.yint, askOrder.curve.y⟩ ⟨rfl, rfl, rfl, rfl⟩ askOrder.curve.y
    (by norm_num [askOrder]) le_rfl
  rw [ask_cost] at h2
  rw [h1, h2]

/-- `C129_purchase_exact`. -/
example : Succeeds (realBook .exact) true { tkn := "USDC".toList, amt := 30 } "ETH".toList none (some 30) := by
  refine (C129_purchase_exact (realBook .exact) (real_healthy _) (real_links _) rfl { tkn := "USDC".toList, amt := 30 } (by norm_num) rfl rfl rfl
    ethusdc usdceth rfl eth_rev "ETH".toList (by decide +kernel) (fun _ => 60) ?_ 60 ?_ ?_).1 (by norm_num)
  · rw [eth_suppliers]
    intro o ho
    rw [List.mem_singleton.1 ho]
    exact ask_charge
  · rw [eth_suppliers]; norm_num
  · rw [eth_suppliers]; simp

/-- `C129_purchase_fast`. -/
example : Succeeds (realBook .fast) true { tkn := "USDC".toList, amt := 70 } "ETH".toList none (some 60) := by
  have := (C129_purchase_fast (realBook .fast) (real_healthy _) (real_links _) rfl { tkn := "USDC".toList, amt := 70 } (by norm_num) rfl rfl rfl
    ethusdc usdceth rfl eth_rev "ETH".toList (by decide +kernel) (fun _ => 60) (by
      rw [eth_suppliers]
      intro o ho
      rw [List.mem_singleton.1 ho]
      exact ask_cost)).2 (by rw [eth_suppliers]; simp)
  rw [eth_suppliers] at this
  norm_num at this
  exact this

/-- `C129_zero`. -/
example := C129_zero (realBook .alpha) (real_healthy _) true { tkn := "ETH".toList, amt := 0 } rfl fun _ => rfl

/-- `C128_refused_partial`, `C128_dry`. -/
example : ∃ e s', (realBook .exact).call false { tkn := "ETH".toList, amt := 12 } = (.error e, s') ∧ s' = realBook .exact ∧ s'.numtrades = 0 := by
  obtain ⟨e, he⟩ := eth_refused
  refine ⟨e, _, he, C128_refused_partial _ _ (real_healthy _) (real_links _) false _ (fun h => by cases h) ?_ e he,
    (C128_dry _ _ (real_reachable _) false _ e he).1⟩
  intro p hp
  cases hp
  decide +kernel

/-- `C32_conservation_partial`, `C32_history_partial`, `C104_totals`. -/
example : ∃ recs s', (realBook .exact).call false { tkn := "ETH".toList, amt := 2 } = (.ok recs, s') ∧
    (∃ rec ∈ recs, rec.uid = (0, none)) ∧ (∃ rec ∈ recs, rec.uid = (0, none)) ∧ ∀ r ∈ recs, 0 < r.amt1 ∧ 0 < r.amt2 := by
  obtain ⟨recs, agg, s', h, -⟩ := eth_sale
  obtain ⟨_, rec, -, h1, h2, -⟩ := C32_conservation_partial _ (real_healthy _) (real_links _) false _ (fun h => by cases h) recs s' h
  obtain ⟨_, rec', -, h3, h4, -⟩ := C32_history_partial _ _ _ _ (book_new .exact) _ (real_careful _) (real_orderly _) false
    { tkn := "ETH".toList, amt := 2 } (fun h => by cases h) recs s' (by rw [book_run]; exact h)
  rw [book_run] at h4
  obtain ⟨_, _, _, -, -, -, -, -, h5, -⟩ := C104_totals _ _ (real_reachable _) (real_healthy _) false _ (fun h => by cases h) recs h
  exact ⟨recs, s', h, ⟨rec, h1, h2⟩, ⟨rec', h3, h4⟩, h5⟩

/-- `C35_limit_price_partial`. -/
example := C35_limit_price_partial (realBook .fast) (real_healthy _) (real_links _) true { tkn := "ETH".toList, amt := 1, limitPrice := some (1 / 10) }
  (fun h => by cases h) (fun _ => by simp) (1 / 10) rfl

/-- `C35_limit_amt_partial`. -/
example := C35_limit_amt_partial (realBook .fast) (real_healthy _) (real_links _) true { tkn := "ETH".toList, amt := 1, limitAmt := some 100 }
  (fun h => by cases h) (fun _ => by simp) 100 rfl ethusdc rfl (by decide +kernel) "USDC".toList (by decide +kernel)

/-! ## The log -/

/-- `C104_numbers`. -/
example := C104_numbers traded traded_reachable false { tkn := "ETH".toList, amt := 2 }

/-- `C104_records`, `C104_flag_violated`. -/
example : ∃ recs s', traded.call false { tkn := "ETH".toList, amt := 2 } = (.ok recs, s') ∧ recs ≠ [] ∧
    ∃ agg, recs.getLast? = some agg ∧ agg.partialFill = true := by
  cases h : traded.call false { tkn := "ETH".toList, amt := 2 } with
  | mk r s' =>
  cases r with
  | error e =>
    have : (traded.call false { tkn := "ETH".toList, amt := 2 }).1.isOk = true := by decide +kernel
    rw [h] at this
    exact absurd this Bool.false_ne_true
  | ok recs =>
    obtain ⟨_, _, _, -, h1, -⟩ := C104_records _ _ traded_reachable _ _ _ h
    obtain ⟨agg, h2, -, -, h3⟩ := C104_flag_violated _ _ traded_reachable _ (by norm_num) _ h
    exact ⟨recs, s', rfl, by rw [h1]; simp, agg, h2, h3⟩

/-- `C104_flag_partial`. -/
example : ∃ recs agg, (traded.call true { tkn := "ETH".toList, amt := 1 }).1 = .ok recs ∧ recs.getLast? = some agg ∧
    (agg.partialFill = true ↔ agg.amt2 ≠ 1) := by
  cases h : traded.call true { tkn := "ETH".toList, amt := 1 } with
  | mk r s' =>
  cases r with
  | error e =>
    have : (traded.call true { tkn := "ETH".toList, amt := 1 }).1.isOk = true := by decide +kernel
    rw [h] at this
    exact absurd this Bool.false_ne_true
  | ok recs =>
    obtain ⟨agg, h2, -, h3⟩ := C104_flag_partial _ _ traded_reachable _ (by norm_num) _ h
    exact ⟨recs, agg, rfl, h2, h3⟩

/-! ## Effective prices -/

/-- `C106_simulator_violated`. -/
example := Analytics.C106_simulator_violated traded none 2 Analytics.ask ethusdc (by decide +kernel)

/-- `C106_defaults`. -/
example := Analytics.C106_defaults traded 2 Analytics.ask ethusdc (by decide +kernel) none

/-- `C106_price_partial`. -/
example := Analytics.C106_price_partial none (realBook .exact) (real_reachable _) (real_healthy _) (real_links _) false "ETH".toList 2
  (.str "ETH/USDC".toList)

/-- `C105_preview`. -/
example := C105_preview (realBook .exact) (real_reachable _) (real_healthy _) (real_links _) false { tkn := "ETH".toList, amt := 2 }
  (fun h => by cases h)

/-- `C106_simulated`. -/
example := Analytics.C106_simulated none (realBook .exact) (real_reachable _) (real_healthy _) (real_links _) false 2 ethusdc

/-! ## Simulations -/

section
open RunSim

/-- `C96_links`. -/
example := C96_links RunSim.ethusdc [sample none, sample (some 2000)]
  (by
    intro s hs
    rcases List.mem_cons.1 hs with rfl | hs
    · exact sample_fit none (by simp)
    · rw [List.mem_singleton.1 hs]
      exact sample_fit (some 2000) (by norm_num))
  (emptyBook .exact) (new_ids (book_new .exact)).1 rfl

/-- `C96_step`. -/
example : ∃ r x y x' y', runSim [sample none] [100, 115] = .ok r ∧ r.rsk[0]? = some x ∧ r.csh[0]? = some y ∧ r.rsk[1]? = some x' ∧
    r.csh[1]? = some y' ∧ x' * 115 + y' ≤ x * 115 + y := by
  have hs := sample_setup none (by simp) [100, 115] rfl (by
    intro q hq; simp only [List.mem_cons, List.not_mem_nil, or_false] at hq; rcases hq with rfl | rfl <;> norm_num)
  obtain ⟨r, hr, e1, _⟩ := C96_runs _ _ _ _ hs
  obtain ⟨_, l1, l2, _⟩ := C96_series _ _ _ _ hr
  rw [e1] at l1 l2
  have a1 := List.getElem?_eq_getElem (l := r.rsk) (i := 0) (by rw [l1]; simp)
  have a2 := List.getElem?_eq_getElem (l := r.csh) (i := 0) (by rw [l2]; simp)
  have a3 := List.getElem?_eq_getElem (l := r.rsk) (i := 1) (by rw [l1]; simp)
  have a4 := List.getElem?_eq_getElem (l := r.csh) (i := 1) (by rw [l2]; simp)
  exact ⟨r, _, _, _, _, hr, a1, a2, a3, a4, (C96_step _ _ _ _ hs r hr 0 115 _ _ _ _ (by rw [e1]; rfl) a1 a2 a3 a4).1⟩

/-- `C96_rescaled`. -/
example := C96_rescaled RunSim.ethusdc (sample (some 2000)) (sample_fit _ (by norm_num)) 3 (by norm_num) (.inr (by norm_num))

end

end Carbon.Witness
