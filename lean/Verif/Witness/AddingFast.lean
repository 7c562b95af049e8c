import Verif.Prop.AddingOrderAlpha
import Verif.Witness.Adding

/-! Instances of the theorems of `Verif/Prop/AddingOrderFast.lean` and `Verif/Prop/AddingOrderAlpha.lean`: two strategies that sell 10 and 5 ETH. -/

namespace Carbon.Witness

open Sim

noncomputable def lesserStrat : StrategyArgs ℝ := { realStrat with amtSell := some 5 }

noncomputable def lesserAsk : SOrder ℝ := ⟨⟨1 / 3, 1 / 6, 5, 1 / 9, 1 / 4, 5, false⟩, "ETH".toList, ethusdc, ethusdc.pairIso, false, 0, 1⟩

theorem lesser_built : sellOrder ethusdc "ETH".toList (some 5) (some (1 / 9)) (some (1 / 4)) 0 1 none none = .ok lesserAsk := by
  unfold sellOrder
  simp only [Option.isSome_none, Bool.and_self, Bool.false_eq_true, if_false]
  rw [if_pos (by norm_num)]
  unfold buildOrder
  rw [Option.getD_some, buildCurve_plain (b := 1 / 3) (c := 1 / 6) (by norm_num) (by norm_num) (root_of _ (by norm_num) (by norm_num))
    (root_of _ (by norm_num) (by norm_num))]
  rfl

theorem lesser_reported : ∃ rep, report lesserAsk = .ok rep := by
  obtain ⟨_, _, _, _, _, _, _, _, h⟩ := RunSim.fromOrder_fit (s := "ETH/USDC".toList) (p := ethusdc) (by decide +kernel) (o := lesserAsk) rfl
    (.inl rfl) (x := 1 / 9) (y := 1 / 4) (by norm_num) (by norm_num)
    (by rw [root_of (1 / 9) (y := 1 / 3) (by norm_num) (by norm_num)]; rfl)
    (by rw [root_of (1 / 9) (y := 1 / 3) (by norm_num) (by norm_num), root_of (1 / 4) (y := 1 / 2) (by norm_num) (by norm_num)]; norm_num [lesserAsk])
    (by norm_num [lesserAsk]) (by norm_num [lesserAsk]) rfl rfl
  exact h

theorem lesser_added (m : Method) : (emptyBook m).addStrategy lesserStrat =
    (.ok (0, 1), ({ realBook m with orders := [(0, lesserAsk), (1, bidOrder)] } : Sim ℝ)) := by
  obtain ⟨r1, h1⟩ := lesser_reported
  obtain ⟨r2, h2⟩ := bid_reported
  have hp : (emptyBook m).pairTokens lesserStrat.pair lesserStrat.tkn = .ok (ethusdc, "USDC".toList) := by
    unfold pairTokens getPair lesserStrat realStrat emptyBook
    dsimp only
    rw [Py.ok_bind, show ethusdc.other "ETH".toList = some "USDC".toList by decide +kernel]
  have hso : strategyOrders ethusdc "USDC".toList 0 1 lesserStrat = .ok (lesserAsk, .ok bidOrder) := by
    unfold strategyOrders lesserStrat realStrat
    dsimp only
    rw [show ethusdc.convertPrice (none : Option ℝ) "ETH".toList = .ok none from rfl,
      show ethusdc.convertPrice (none : Option ℝ) "USDC".toList = .ok none from rfl, eth_price (v := 4) (w := 1 / 4) (by norm_num) rfl,
      eth_price (v := 9) (w := 1 / 9) (by norm_num) rfl, usdc_price, usdc_price]
    simp only [Py.ok_bind]
    rw [lesser_built, bid_built]
    rfl
  unfold addStrategy
  rw [hp]
  dsimp only
  rw [show (emptyBook m).nextId = 0 from rfl, show strategyOrders ethusdc "USDC".toList 0 (0 + 1) lesserStrat = _ from hso]
  dsimp only
  rw [h1, Py.ok_bind, h2]
  rfl

theorem lesser_adds : ∃ o1 o2, Adds (some ethusdc) lesserStrat o1 o2 ∧ numbered 2 3 o1 = numbered 2 3 lesserAsk ∧
    numbered 3 2 o2 = numbered 3 2 bidOrder := by
  obtain ⟨o1, o2, h⟩ := accepted_adds (s := emptyBook .fast) (a := lesserStrat) ⟨_, by rw [lesser_added]⟩
  have e := h (emptyBook .fast) (new_healthy (book_new .fast)).1.ids rfl
  rw [lesser_added] at e
  have e' := congrArg (fun x => x.2.orders) e
  simp only [emptyBook, List.nil_append, List.cons.injEq, Prod.mk.injEq, and_true, true_and] at e'
  refine ⟨o1, o2, h, ?_, ?_⟩
  · rw [e'.1]; rfl
  · rw [e'.2]; rfl

theorem both_run (m : Method) : run (emptyBook m) ([realStrat, lesserStrat].map Op.add) =
    ({ realBook m with nextId := 4, orders := [(0, askOrder), (1, bidOrder), (2, numbered 2 3 lesserAsk), (3, numbered 3 2 bidOrder)] } : Sim ℝ) := by
  obtain ⟨o1, o2, h, e1, e2⟩ := lesser_adds
  show (((emptyBook m).addStrategy realStrat).2.addStrategy lesserStrat).2 = _
  rw [book_added, h (realBook m) (real_healthy m).ids rfl, show (realBook m).nextId = 2 from rfl, e1, e2]
  rfl

theorem both_suppliers (m : Method) : suppliers (run (emptyBook m) ([realStrat, lesserStrat].map Op.add)) ethusdc usdceth "ETH".toList none =
    [askOrder, numbered 2 3 lesserAsk] := by
  have h : ("USDC".toList = "ETH".toList) = False := eq_false (by decide)
  rw [both_run]
  unfold suppliers
  simp only [askOrder, bidOrder, lesserAsk, numbered, List.map_cons, List.map_nil, List.filter_cons, List.filter_nil, h, true_or, true_and,
    false_and, decide_false, Bool.false_eq_true, if_false]
  rw [if_pos, if_pos]
  · rw [decide_eq_true_iff]
    exact ⟨by norm_num, fun l hl => by cases hl⟩
  · rw [decide_eq_true_iff]
    exact ⟨by norm_num, fun l hl => by cases hl⟩

theorem two_perm : [realStrat, lesserStrat].Perm [lesserStrat, realStrat] := List.Perm.swap _ _ []

theorem two_accepted (m : Method) : ∀ b ∈ [realStrat, lesserStrat], ∃ r, ((emptyBook m).addStrategy b).1 = .ok r := by
  intro b hb
  simp only [List.mem_cons, List.not_mem_nil, or_false] at hb
  rcases hb with rfl | rfl
  · exact ⟨_, by rw [book_added]⟩
  · exact ⟨_, by rw [lesser_added]⟩

theorem two_sensible : ∀ b ∈ [realStrat, lesserStrat], Sensible b := by
  intro b hb
  simp only [List.mem_cons, List.not_mem_nil, or_false] at hb
  rcases hb with rfl | rfl
  · exact real_sensible
  · unfold Sensible SensibleSide lesserStrat realStrat
    refine ⟨⟨?_, ?_, ?_, ?_⟩, ?_, ?_, ?_, ?_⟩ <;> rintro v ⟨⟩ <;> norm_num

theorem two_ties {α : Type} (m : Method) (f : Curve ℝ → α) (hf : f askOrder.curve ≠ f lesserAsk.curve) :
    ∀ o ∈ suppliers (run (emptyBook m) ([realStrat, lesserStrat].map Op.add)) ethusdc usdceth "ETH".toList none,
    ∀ o' ∈ suppliers (run (emptyBook m) ([realStrat, lesserStrat].map Op.add)) ethusdc usdceth "ETH".toList none,
      f o.curve = f o'.curve → o.curve = o'.curve := by
  intro o ho o' ho' e
  rw [both_suppliers] at ho ho'
  simp only [List.mem_cons, List.not_mem_nil, or_false] at ho ho'
  rcases ho with rfl | rfl <;> rcases ho' with rfl | rfl
  · rfl
  · exact absurd e hf
  · exact absurd e.symm hf
  · rfl

/-- `C178_fast_added_partial` (and with it `C178_fast_sale_partial` and `C178_fast_purchase_partial`): 8 ETH are sold, and ETH are sold for 40 USDC. -/
example : (∃ given paid, Succeeds (run (emptyBook .fast) ([realStrat, lesserStrat].map Op.add)) false { tkn := "ETH".toList, amt := 8 } "ETH".toList
      (some given) (some paid) ∧
    Succeeds (run (emptyBook .fast) ([lesserStrat, realStrat].map Op.add)) false { tkn := "ETH".toList, amt := 8 } "ETH".toList
      (some given) (some paid)) ∧
    ∃ given paid, Succeeds (run (emptyBook .fast) ([realStrat, lesserStrat].map Op.add)) true { tkn := "USDC".toList, amt := 40 } "ETH".toList
      (some given) (some paid) ∧
    Succeeds (run (emptyBook .fast) ([lesserStrat, realStrat].map Op.add)) true { tkn := "USDC".toList, amt := 40 } "ETH".toList
      (some given) (some paid) := by
  have hperm := two_perm
  have hacc := two_accepted .fast
  have hsen := two_sensible
  have sane : FastRouter.Sane askOrder.curve ∧ FastRouter.Sane lesserAsk.curve := by
    constructor <;> constructor <;> norm_num [askOrder, lesserAsk]
  have ne : suppliers (run (emptyBook .fast) ([realStrat, lesserStrat].map Op.add)) ethusdc usdceth "ETH".toList none ≠ [] := by
    rw [both_suppliers]
    exact List.cons_ne_nil _ _
  have links : Links (emptyBook .fast) := fun k o hk => by cases hk
  constructor
  · refine (C178_fast_added_partial (emptyBook .fast) (new_healthy (book_new .fast)).1 links rfl _ _ hperm hacc hsen
      { tkn := "ETH".toList, amt := 8 } (by norm_num) rfl rfl rfl rfl ethusdc usdceth rfl eth_rev).1 (by decide +kernel) ne (two_ties .fast (FastRouter.rateByTarget 8) ?_)
    rw [FastRouter.rateByTarget_ok sane.1, FastRouter.rateByTarget_ok sane.2]
    intro e
    have e := congrArg (fun r : FRate ℝ => r.input) (Except.ok.inj e)
    norm_num [askOrder, lesserAsk] at e
  · refine (C178_fast_added_partial (emptyBook .fast) (new_healthy (book_new .fast)).1 links rfl _ _ hperm hacc hsen
      { tkn := "USDC".toList, amt := 40 } (by norm_num) rfl rfl rfl rfl ethusdc usdceth rfl eth_rev).2 "ETH".toList (by decide +kernel) ne (two_ties .fast (FastRouter.rateBySource 40) ?_)
    rw [FastRouter.rateBySource_ok sane.1 (by norm_num), FastRouter.rateBySource_ok sane.2 (by norm_num)]
    intro e
    have e := congrArg (fun r : FRate ℝ => r.input) (Except.ok.inj e)
    norm_num [askOrder, lesserAsk, FastRouter.cost] at e

/-- `C178_alpha_added_partial` (and with it `C178_alpha_sale_partial`): 8 ETH are sold by one order. -/
example : ∃ paid, Succeeds (run (emptyBook .alpha) ([realStrat, lesserStrat].map Op.add)) false { tkn := "ETH".toList, amt := 8, threshold := some 1 }
      "ETH".toList (some 8) (some paid) ∧
    Succeeds (run (emptyBook .alpha) ([lesserStrat, realStrat].map Op.add)) false { tkn := "ETH".toList, amt := 8, threshold := some 1 }
      "ETH".toList (some 8) (some paid) := by
  refine C178_alpha_added_partial (emptyBook .alpha) (new_healthy (book_new .alpha)).1 (fun k o hk => by cases hk) rfl _ _ two_perm
    (two_accepted .alpha) two_sensible { tkn := "ETH".toList, amt := 8, threshold := some 1 } (by norm_num) rfl le_rfl rfl rfl rfl rfl ethusdc usdceth
    rfl eth_rev (by decide +kernel) (two_ties .alpha (fun c => c.alphaByTarget (-8)) ?_) [0] ?_ ?_
  · intro e
    unfold Curve.alphaByTarget at e
    rw [UICurve.pyDiv_ok (by norm_num [askOrder]), UICurve.pyDiv_ok (by norm_num [lesserAsk])] at e
    have e := Except.ok.inj e
    norm_num [askOrder, lesserAsk] at e
  · rw [both_suppliers]
    exact ⟨by simp, by simp, by simp⟩
  · rw [both_suppliers]
    norm_num [ExactRouter.total, ExactRouter.yAt, askOrder]

/-- `C178_alpha_added_purchase_partial` (and with it `C178_alpha_purchase_partial`): one order sells ETH for 8 USDC. -/
example : ∃ given, Succeeds (run (emptyBook .alpha) ([realStrat, lesserStrat].map Op.add)) true { tkn := "USDC".toList, amt := 8, threshold := some 1 }
      "ETH".toList (some given) (some 8) ∧
    Succeeds (run (emptyBook .alpha) ([lesserStrat, realStrat].map Op.add)) true { tkn := "USDC".toList, amt := 8, threshold := some 1 }
      "ETH".toList (some given) (some 8) := by
  refine C178_alpha_added_purchase_partial (emptyBook .alpha) (new_healthy (book_new .alpha)).1 (fun k o hk => by cases hk) rfl _ _ two_perm
    (two_accepted .alpha) two_sensible { tkn := "USDC".toList, amt := 8, threshold := some 1 } (by norm_num) rfl 1 rfl le_rfl rfl rfl rfl rfl ethusdc
    usdceth rfl eth_rev "ETH".toList (by decide +kernel) (two_ties .alpha (fun c => c.alphaBySrc 8) ?_) [0] ?_ ?_
  · intro e
    unfold Curve.alphaBySrc at e
    rw [UICurve.pyDiv_ok (by norm_num [askOrder]), UICurve.pyDiv_ok (by norm_num [lesserAsk])] at e
    have e := Except.ok.inj e
    norm_num [askOrder, lesserAsk] at e
  · rw [both_suppliers]
    exact ⟨by simp, by simp, by simp⟩
  · rw [both_suppliers]
    norm_num [ExactRouter.total, AlphaRouter.countedAt, AlphaRouter.counted, askOrder]

end Carbon.Witness
