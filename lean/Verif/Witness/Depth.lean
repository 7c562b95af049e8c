import Verif.Prop.SimDepth
import Verif.Witness.Sim

/-! Instances of `C157_ask` and `C157_bid` on the book of `Verif/Witness/Sim.lean`, which sells 10 ETH between 4 and 9 and buys up to 20 ETH with 10 USDC. -/

namespace Carbon.Witness

open Sim Analytics

theorem eth_slash : (realBook .exact).getPair (.str ethusdc.slashpair) = .ok ethusdc := by decide +kernel

theorem eth_base : ethusdc.tknb = "ETH".toList := by decide +kernel

/-- `C157_ask`: 3, 6, 9 and 12 ETH are asked for. -/
example : ∃ amts s' b, simulateAll none ask ethusdc (realBook .exact) ((List.range 4).map fun i : ℕ => (3 * (i + 1) : ℝ)) = (.ok amts, some s') ∧
    OrderBook.make (OrderBook.vec 4 fun i : ℕ => (3 * (i + 1) : ℝ)) (amts.map (Option.map Flt.num)) .ask = .ok b ∧
    ∃ m : ℕ → ℝ, b.margPrices = OrderBook.vec 2 m ∧ m 0 < m 1 := by
  obtain ⟨amts, s', t, b, h1, _, h2, _, m, e, l, q, h3, _, _, _, _, _, h4⟩ := C157_ask (realBook .exact) (real_reachable _) (real_healthy _) (real_links _) rfl none
    ethusdc ethusdc usdceth eth_slash eth_rev (by decide +kernel) 10 (by rw [eth_base, eth_suppliers]; norm_num [askOrder]) 1 1
    (fun i : ℕ => (3 * (i + 1) : ℝ)) (by norm_num) (fun i _ => by push_cast; linarith) (by norm_num) (fun i hi hi2 => by
      obtain rfl : i = 3 := by omega
      norm_num)
  exact ⟨amts, s', b, h1, h2, m, h3, (h4 0 (by norm_num)).1⟩

theorem usdc_suppliers (m : Method) : suppliers (realBook m) ethusdc usdceth "USDC".toList none = [bidOrder] := by
  have h : ("ETH".toList = "USDC".toList) = False := eq_false (by decide)
  unfold suppliers
  simp only [realBook, askOrder, bidOrder, List.map_cons, List.map_nil, List.filter_cons, List.filter_nil, h, true_or, true_and, false_and, and_false,
    decide_false, Bool.false_eq_true, if_false]
  rw [if_pos]
  rw [decide_eq_true_iff]
  exact ⟨by norm_num, fun l hl => by cases hl⟩

theorem bid_charge : bidOrder.curve.dxdy (-bidOrder.curve.y) = .ok 20 := by
  obtain ⟨s, -, h1, h2, -⟩ := Curve.C24_agree ((real_healthy .exact).shape 1 bidOrder rfl rfl |>.good (by norm_num [bidOrder]) (by norm_num [bidOrder]))
    (by norm_num [bidOrder]) (by norm_num [bidOrder])
    ⟨ethusdc, "USDC".toList, bidOrder.curve.B, bidOrder.curve.S, bidOrder.curve.yint, bidOrder.curve.y⟩ ⟨rfl, rfl, rfl, rfl⟩ bidOrder.curve.y
    (by norm_num [bidOrder]) le_rfl
  have h3 : bidOrder.curve.amtBySrc bidOrder.curve.y = .ok 20 := by
    unfold Curve.amtBySrc bidOrder
    norm_num [CarbonPair.pyDiv]
  rw [h3] at h2
  rw [h1, h2]

/-- `C157_bid`: 6, 12, 18 and 24 ETH are offered. -/
example : ∃ amts s' b, simulateAll none bid ethusdc (realBook .exact) ((List.range 4).map fun i : ℕ => (6 * (i + 1) : ℝ)) = (.ok amts, some s') ∧
    OrderBook.make (OrderBook.vec 4 fun i : ℕ => (6 * (i + 1) : ℝ)) (amts.map (Option.map Flt.num)) .bid = .ok b ∧
    ∃ m : ℕ → ℝ, b.margPrices = OrderBook.vec 2 m ∧ m 1 < m 0 := by
  obtain ⟨amts, s', t, b, h1, _, h2, _, m, e, l, q, h3, _, _, _, _, _, h4⟩ := C157_bid (realBook .exact) (real_reachable _) (real_healthy _) (real_links _) rfl none
    ethusdc ethusdc usdceth eth_slash eth_rev "USDC".toList (by decide +kernel) (fun _ => 20) (by
      rw [usdc_suppliers]
      intro o ho
      rw [List.mem_singleton.1 ho]
      exact bid_charge) 20 (by rw [usdc_suppliers]; norm_num) 1 1
    (fun i : ℕ => (6 * (i + 1) : ℝ)) (by norm_num) (fun i _ => by push_cast; linarith) (by norm_num) (fun i hi hi2 => by
      obtain rfl : i = 3 := by omega
      norm_num)
  exact ⟨amts, s', b, h1, h2, m, h3, (h4 0 (by norm_num)).1⟩

end Carbon.Witness
