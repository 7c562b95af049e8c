import Verif.Prop.AddingOrder
import Verif.Witness.Sim

/-! Instances of the theorems of `Verif/Prop/AddingOrder.lean` on the book of `Verif/Witness/Sim.lean`, to which two strategies are added. -/

namespace Carbon.Witness

open Sim

theorem real_accepted (m : Method) : ∃ r, ((realBook m).addStrategy realStrat).1 = .ok r := by
  obtain ⟨o1, o2, h⟩ := accepted_adds (s := emptyBook m) (a := realStrat) ⟨_, by rw [book_added]⟩
  exact ⟨_, by rw [h (realBook m) (real_healthy m).ids rfl]⟩

theorem sample_accepted (m : Method) : ∃ r, ((realBook m).addStrategy (RunSim.sample none).dct).1 = .ok r := by
  obtain ⟨s', r, _, _, _, h, _⟩ := RunSim.addStrategy_fit (RunSim.sample_fit none (by intro c hc; cases hc)) (realBook m) (real_healthy m).ids
  exact ⟨r, by rw [h]⟩

theorem sample_sensible : Sensible (RunSim.sample none).dct := by
  unfold Sensible SensibleSide RunSim.sample Strat.make Strat.dct
  refine ⟨⟨?_, ?_, ?_, ?_⟩, ?_, ?_, ?_, ?_⟩ <;> simp

theorem both_accepted (m : Method) : ∀ b ∈ [realStrat, (RunSim.sample none).dct], ∃ r, ((realBook m).addStrategy b).1 = .ok r := by
  intro b hb
  simp only [List.mem_cons, List.not_mem_nil, or_false] at hb
  rcases hb with rfl | rfl
  · exact real_accepted m
  · exact sample_accepted m

theorem both_sensible : ∀ b ∈ [realStrat, (RunSim.sample none).dct], Sensible b := by
  intro b hb
  simp only [List.mem_cons, List.not_mem_nil, or_false] at hb
  rcases hb with rfl | rfl
  · exact real_sensible
  · exact sample_sensible

/-- `C178_added_sale`: 8 ETH are sold. -/
example : ∃ paid, Succeeds (run (realBook .exact) ([realStrat, (RunSim.sample none).dct].map Op.add)) false { tkn := "ETH".toList, amt := 8 } "ETH".toList
      (some 8) (some paid) ∧
    Succeeds (run (realBook .exact) ([(RunSim.sample none).dct, realStrat].map Op.add)) false { tkn := "ETH".toList, amt := 8 } "ETH".toList
      (some 8) (some paid) := by
  have hperm : [realStrat, (RunSim.sample none).dct].Perm [(RunSim.sample none).dct, realStrat] := List.Perm.swap _ _ []
  refine C178_added_sale (realBook .exact) (real_healthy _) (real_links _) rfl _ _ hperm (both_accepted _) both_sensible
    { tkn := "ETH".toList, amt := 8 } (by norm_num) rfl rfl rfl rfl ethusdc usdceth rfl eth_rev (by decide +kernel) ?_
  obtain ⟨cs, h1, h2⟩ := ((added (real_healthy .exact) (real_links _) hperm (both_accepted _) both_sensible).2 ethusdc usdceth "ETH".toList).2
  have h3 := congrArg (fun l => (l.map Curve.y).sum) h1
  simp only [List.map_map, List.map_append, List.sum_append] at h3
  rw [eth_suppliers] at h3
  have h4 : 0 ≤ (cs.map Curve.y).sum := List.sum_nonneg fun y hy => by
    obtain ⟨c, hc, rfl⟩ := List.mem_map.mp hy
    exact (h2 c hc).le
  have h5 : ((suppliers (run (realBook .exact) ([realStrat, (RunSim.sample none).dct].map Op.add)) ethusdc usdceth "ETH".toList none).map
      fun o => o.curve.y).sum = 10 + (cs.map Curve.y).sum := by
    refine h3.trans ?_
    norm_num [askOrder]
  show (8 : ℝ) ≤ _
  rw [h5]
  linarith

/-- `C178_added_purchase`: some ETH are sold for USDC. -/
example : ∃ x > 0, ∃ given, Succeeds (run (realBook .exact) ([realStrat, (RunSim.sample none).dct].map Op.add)) true { tkn := "USDC".toList, amt := x }
      "ETH".toList (some given) (some x) ∧
    Succeeds (run (realBook .exact) ([(RunSim.sample none).dct, realStrat].map Op.add)) true { tkn := "USDC".toList, amt := x } "ETH".toList
      (some given) (some x) := by
  have hperm : [realStrat, (RunSim.sample none).dct].Perm [(RunSim.sample none).dct, realStrat] := List.Perm.swap _ _ []
  obtain ⟨a1, a2⟩ := added (real_healthy .exact) (real_links _) hperm (both_accepted _) both_sensible
  obtain ⟨_, _, hh, _⟩ := a1 _ (Or.inl rfl)
  have hg := suppliers_good hh ethusdc usdceth "ETH".toList none
  have hy : ∀ o ∈ suppliers (run (realBook .exact) ([realStrat, (RunSim.sample none).dct].map Op.add)) ethusdc usdceth "ETH".toList none,
      o.curve.Good ∧ 0 < ExactRouter.costOf o.curve (-o.curve.y) := by
    intro o ho
    have g := hg _ (List.mem_map_of_mem ho)
    refine ⟨g, ?_⟩
    rw [suppliers_eq hh.ids] at ho
    obtain ⟨e, he, rfl⟩ := List.mem_map.mp ho
    obtain ⟨_, hy, _⟩ := app_good hh he
    have := ExactRouter.cost_anti g le_rfl (show -e.2.curve.y < 0 by linarith)
    rwa [ExactRouter.cost_zero g] at this
  have hne : suppliers (run (realBook .exact) ([realStrat, (RunSim.sample none).dct].map Op.add)) ethusdc usdceth "ETH".toList none ≠ [] := by
    intro e
    obtain ⟨cs, h1, _⟩ := (a2 ethusdc usdceth "ETH".toList).2
    rw [e, eth_suppliers] at h1
    simp at h1
  have hpos : 0 < ((suppliers (run (realBook .exact) ([realStrat, (RunSim.sample none).dct].map Op.add)) ethusdc usdceth "ETH".toList none).map
      fun o => ExactRouter.costOf o.curve (-o.curve.y)).sum := by
    refine List.sum_pos _ ?_ (by simpa using hne)
    intro y hy'
    obtain ⟨o, ho, rfl⟩ := List.mem_map.mp hy'
    exact (hy o ho).2
  exact ⟨_, hpos, C178_added_purchase (realBook .exact) (real_healthy _) (real_links _) rfl _ _ hperm (both_accepted _) both_sensible
    { tkn := "USDC".toList, amt := _ } hpos rfl rfl rfl rfl ethusdc usdceth rfl eth_rev "ETH".toList (by decide +kernel)
    (fun c => ExactRouter.costOf c (-c.y)) (fun o ho => by
      obtain ⟨v, hv⟩ := ExactRouter.C70_capital_exists [o.curve] (by intro c hc; rw [List.mem_singleton.mp hc]; exact (hy o ho).1)
      have := hv 0 o.curve rfl
      rw [ExactRouter.costOf_eq this, this]) le_rfl⟩

end Carbon.Witness
