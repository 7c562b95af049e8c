import Verif.Prop.CpcTrade
import Verif.Prop.CpcValue
import Verif.Prop.CpcCarbon
import Verif.Prop.CpcContainer
import Verif.Prop.CpcFilters
import Verif.Prop.CpcAnalysis

/-! Instances of the theorems about constant product curves and containers of them: each example applies the theorem named in its comment
to concrete values. -/

namespace Carbon.Witness

/-! ## One curve -/

section
open CPC

theorem exCurve_sound : Sound exCurve := by
  refine ⟨?_, ?_, ?_, ?_, ?_, ?_, "TKNB".toList, "TKNQ".toList, ?_⟩ <;> decide +kernel
theorem exCurve_tokens : exCurve.tknb ≠ exCurve.tknq := by decide +kernel

/-- The curve after one of the first token was bought. -/
def soldCurve : CPC ℚ := { exCurve with x := 1, xAct := 0, yAct := 3, cid := some (.str "None-x".toList) }
theorem exCurve_sold : exCurve.execute (some (-1)) none = .ok soldCurve := by decide +kernel

/-- `C37_invariant`, `C37_reserves_partial`, `C37_other_side`, `C37_accepts`. -/
example := C37_invariant exCurve soldCurve (some (-1)) none false exCurve_sold
example := C37_reserves_partial exCurve soldCurve exCurve_sound (some (-1)) none exCurve_sold
example := C37_other_side exCurve soldCurve exCurve_sound (-1) exCurve_sold
example := (C37_accepts exCurve exCurve_sound (-1 / 2)).1 (by decide +kernel) (by decide +kernel)
/-- `C38_constructors`, `C38_univ2`. -/
example := C38_constructors 3 12 (by norm_num) (by norm_num) ⟨none, none, some "ETH/USDC".toList, none⟩ "ETH".toList "USDC".toList
  (by decide +kernel)
example := C38_univ2 3 12 (by norm_num) (by norm_num) "ETH/USDC".toList (.int 7) "ETH".toList "USDC".toList (by decide +kernel)
/-- `C39_bounds`, `C39_from_range`. -/
example := C39_bounds exCurve exCurve_sound
example := C39_from_range 4 4 1 16 (by norm_num) (by norm_num) (by norm_num) (by norm_num) none none none "TKNB".toList "TKNQ".toList
  (by decide +kernel)

/-- A pool of real numbers with half its reserves for sale. -/
def realPool : CPC ℝ := ⟨16, 4, 2, 2, "ETH/USDC".toList, none, []⟩
theorem realPool_sound : Sound realPool := by
  refine ⟨?_, ?_, ?_, ?_, ?_, ?_, "ETH".toList, "USDC".toList, by unfold realPool; decide +kernel⟩ <;> norm_num [realPool, CPC.y]

/-- `C40_optimal`, `C40_price`, `C40_unbounded`, `C41_to_price`. -/
example := C40_optimal realPool realPool_sound 2 (by norm_num)
example := C40_price realPool realPool_sound 2 (by norm_num)
example := C40_unbounded realPool realPool_sound 2 (by norm_num)
example := C41_to_price realPool realPool_sound 2 (by norm_num) false
/-- `C41_mirror`, `C41_view`, `C41_price_bounds_partial`, `C41_quotes`, `C41_execute`. -/
example := C41_mirror exCurve exCurve_sound
example := C41_view exCurve exCurve_sound
example := C41_price_bounds_partial exCurve exCurve_sound
example := C41_quotes exCurve exCurve_sound 3 false
example := C41_execute exCurve exCurve_sound (some 1) none false

/-- `C93_units`, `C93_loss`, `C93_mirror`, `C93_ends`, `C93_emptied`. -/
example := C93_units exCurve exCurve_sound exCurve_tokens 3
example := C93_loss exCurve soldCurve exCurve_sound (some (-1)) none exCurve_sold
example := C93_mirror exCurve exCurve_sound exCurve_tokens 3 "TKNQ".toList
example := C93_ends exCurve exCurve_sound
example := C93_emptied exCurve soldCurve exCurve_sound exCurve_sold
/-- `C93_full`. -/
example := C93_full (CC.pool 2 8 "ETH/USDC" none) (by refine ⟨?_, ?_, ?_, ?_, ?_, ?_, "ETH".toList, "USDC".toList, ?_⟩ <;> decide +kernel)
  (by decide +kernel) (by decide +kernel) (by decide +kernel)

private theorem named : Named UICurve.realCurve := ⟨UICurve.realCurve_proper, by
    simp only [UICurve.realCurve]; decide +kernel, by simp only [UICurve.realCurve]; decide +kernel⟩
private theorem steep : 0 < UICurve.realCurve.S := by norm_num [UICurve.realCurve]

/-- `C42_from_carbon_partial`, `C42_from_prices_partial`, `C42_as_cpc_partial`. -/
example := C42_from_carbon_partial UICurve.realCurve UICurve.realCurve_sound steep named (some (.int 3))
example := C42_from_prices_partial UICurve.realCurve UICurve.realCurve_sound steep named (some (.int 3))
example := C42_as_cpc_partial UICurve.realCurve UICurve.realCurve_sound steep named
/-- `C42_flat_violated`. -/
example := C42_flat_violated ⟨CarbonPair.ethUsdc, "USDC".toList, 1, 0, 100, 50⟩ (by constructor <;> norm_num) rfl

end

/-! ## Names of pairs -/

section
open TPair

/-- `C44_exactly_one`, `C44_price`, `C44_numeraire`. -/
example := C44_exactly_one prettify "USDC-eB48".toList "LINK-86CA".toList (by decide +kernel)
example := C44_price prettify "USDC-eB48".toList "LINK-86CA".toList (by decide +kernel) (4 : ℚ) (by norm_num)
example := C44_numeraire prettify "LINK-86CA".toList "USDC-eB48".toList (by decide +kernel) (by decide +kernel)

end

/-! ## Containers -/

section
open CC

theorem built (l : List (CPC ℚ)) : Built (ofCurves l) := Built.make _
theorem exCC_curves : exCC.curves = [pool 2 2 "ETH/USDC" (some (.int 0)), pool 4 1 "USDC/ETH" (some (.int 1)), pool 1 9 "LINK/USDC" (some (.int 2))] := by
  decide +kernel
theorem exCC_sound : ∀ c ∈ exCC.curves, CPC.Sound c := by
  intro c hc
  rw [exCC_curves] at hc
  simp only [List.mem_cons, List.not_mem_nil, or_false] at hc
  rcases hc with rfl | rfl | rfl
  · refine ⟨?_, ?_, ?_, ?_, ?_, ?_, "ETH".toList, "USDC".toList, ?_⟩ <;> decide +kernel
  · refine ⟨?_, ?_, ?_, ?_, ?_, ?_, "USDC".toList, "ETH".toList, ?_⟩ <;> decide +kernel
  · refine ⟨?_, ?_, ?_, ?_, ?_, ?_, "LINK".toList, "USDC".toList, ?_⟩ <;> decide +kernel
theorem exCC_built : Built exCC := built _

/-- `C43_lookup`, `C43_exclude`, `C43_include_partial`, `C43_bypair_partial`, `C43_bypairs`, `C43_bytokens`. -/
example := C43_lookup exCC exCC_built (.int 1)
example := C43_exclude exCC exCC_built [.int 1]
example := C43_include_partial exCC exCC_built [.int 2, .int 0] [.int 0]
example := (C43_bypair_partial exCC exCC_built "ETH".toList "USDC".toList (by decide +kernel) (by decide +kernel)).2 (by decide +kernel)
example := C43_bypairs exCC exCC_built [("ETH".toList, "USDC".toList)] (by decide +kernel) false
example := C43_bytokens exCC exCC_built ["ETH".toList]
/-- `C72_numbering`, `C72_unique_partial`. -/
example := C72_numbering (Wrapped.wrap [pool 2 2 "ETH/USDC" none]) (Wrapped.wrap [pool 4 1 "USDC/ETH" none]) (by decide +kernel)
example := C72_unique_partial (Wrapped.wrap [pool 2 2 "ETH/USDC" (some (.str "a".toList))]) (Wrapped.wrap [pool 4 1 "USDC/ETH" none])
  (by
    intro w hw n
    have all : ∀ w ∈ Wrapped.wrap [pool 2 2 "ETH/USDC" (some (.str "a".toList))] ++ Wrapped.wrap [pool 4 1 "USDC/ETH" none],
      (Wrapped.unwrap1 w).cid = none ∨ (Wrapped.unwrap1 w).cid = some (.str "a".toList) := by decide +kernel
    rcases all w hw with h | h <;> rw [h] <;> simp) (by decide +kernel)
/-- `C73_price`. -/
example := (C73_price exCC exCC_built exCC_sound "ETH".toList "USDC".toList (by decide +kernel)).2
  ⟨pool 2 2 "ETH/USDC" (some (.int 0)), by rw [exCC_curves]; exact List.mem_cons_self, Or.inl ⟨by decide +kernel, by decide +kernel⟩⟩

private theorem agreeing_curves :
    agreeing.curves = [⟨2, 1, 1, 2, "A/B".toList, some (.int 0), []⟩, ⟨3, 1, 1, 3, "B/C".toList, some (.int 1), []⟩] := by
  unfold agreeing
  rw [ofCurves_curves]
  simp
private theorem agreeing_sound : ∀ c ∈ agreeing.curves, CPC.Sound c := by
  intro c hc
  rw [agreeing_curves] at hc
  simp only [List.mem_cons, List.not_mem_nil, or_false] at hc
  rcases hc with rfl | rfl
  · exact ⟨by norm_num, by norm_num, by norm_num, by norm_num, by norm_num, by norm_num [CPC.y], "A".toList, "B".toList, by decide +kernel⟩
  · exact ⟨by norm_num, by norm_num, by norm_num, by norm_num, by norm_num, by norm_num [CPC.y], "B".toList, "C".toList, by decide +kernel⟩
private theorem agreeing_usable : ∃ c ∈ agreeing.curves, Usable c "A".toList "B".toList :=
  ⟨_, by rw [agreeing_curves]; exact List.mem_cons_self, by
    norm_num [CPC.atBoundary, CPC.atXmin, CPC.atXmax, CPC.xMin, CPC.xMax, CPC.yMin, CPC.y],
    Or.inl ⟨by unfold CPC.tknb; decide +kernel, by unfold CPC.tknq; decide +kernel⟩⟩

/-- `C74_estimate_partial`, `C74_agreement`. -/
example := (C74_estimate_partial agreeing agreeing_sound "A".toList "B".toList (by decide +kernel)).2 agreeing_usable true
example := C74_agreement agreeing agreeing_sound "A".toList "B".toList (by decide +kernel) 2
  (by
    intro c hc h
    rw [agreeing_curves] at hc
    simp only [List.mem_cons, List.not_mem_nil, or_false] at hc
    rcases hc with rfl | rfl
    · unfold dirPrice
      rw [if_pos ⟨by unfold CPC.tknb; decide +kernel, by unfold CPC.tknq; decide +kernel⟩]
      norm_num [CPC.p, CPC.y]
    · exfalso
      rcases h.2 with ⟨h1, _⟩ | ⟨_, h2⟩
      · exact absurd h1 (by unfold CPC.tknb; decide +kernel)
      · exact absurd h2 (by unfold CPC.tknq; decide +kernel)) agreeing_usable

/-- `C75_herfindahl`. -/
example := AF.C75_herfindahl [3, 1, (0 : ℚ)] (by decide +kernel)
/-- `C76_filter`, `C76_unknown`. -/
example := C76_filter [("ETH".toList, "USDC".toList), ("LINK".toList, "ETH".toList)] (by decide +kernel)
  [⟨"tknqin".toList, .tknqin, ["USDC".toList], Or.inl rfl⟩, ⟨"notin_1".toList, .notin, ["LINK".toList], Or.inr ⟨"1".toList, rfl⟩⟩]
example := C76_unknown [("ETH".toList, "USDC".toList)] (by decide +kernel) [("foo".toList, [])] "all".toList
  ⟨_, List.mem_cons_self, by intro cond; cases cond <;> decide +kernel⟩

/-- `C131_selection`, `C131_symmetric_empty`, `C131_prices`, `C131_pricelist`, `C131_priceaggr`, `C131_volumes`, `C131_volumeaggr`. -/
example := C131_selection exCC exCC_built exCC_sound
example := C131_symmetric_empty [pool 2 2 "ETH/USDC" none] (by
  rintro t ⟨⟨c, hc, h1⟩, d, hd, h2⟩
  rw [List.mem_singleton.mp hc] at h1
  rw [List.mem_singleton.mp hd, ← h1] at h2
  exact absurd h2 (by decide +kernel)) "ETH".toList "USDC".toList
example := C131_prices exCC.curves exCC_sound "LINK".toList "USDC".toList
  ⟨pool 1 9 "LINK/USDC" (some (.int 2)), by rw [exCC_curves]; simp, by decide +kernel⟩
  ⟨pool 1 9 "LINK/USDC" (some (.int 2)), by rw [exCC_curves]; simp, by decide +kernel⟩
example := C131_pricelist exCC.curves (by decide +kernel) (pool 4 1 "USDC/ETH" (some (.int 1))) (by rw [exCC_curves]; simp)
example := (C131_priceaggr exCC.curves exCC_sound "ETH".toList "USDC".toList).2
example := C131_volumes exCC.curves exCC_sound
example := C131_volumeaggr exCC exCC_built exCC_sound exCC.curves "USDC".toList
/-- `C131_sdpc`. -/
example := C131_sdpc agreeing.curves agreeing_sound "A".toList "B".toList
/-- `C131_deviation`. -/
example : ∃ a, priceAggr (agreeing.curves.map recOf) "A".toList "B".toList = some a ∧ 0 ≤ a.sdpc100 := by
  cases h : priceAggr (agreeing.curves.map recOf) "A".toList "B".toList with
  | none =>
    obtain ⟨c, hc, hu⟩ := agreeing_usable
    refine absurd ?_ ((C131_priceaggr agreeing.curves agreeing_sound "A".toList "B".toList).1.mp h)
    exact ⟨_, by rw [agreeing_curves]; exact List.mem_cons_self, by unfold CPC.tknb; decide +kernel, by unfold CPC.tknq; decide +kernel⟩
  | some a => exact ⟨a, rfl, (C131_deviation agreeing.curves agreeing_sound "A".toList "B".toList h).2.2.2⟩
/-- `C132_stats`, `C132_matrix`, `C132_options`. -/
example := C132_stats [1, 3, 8] (by simp)
example := C132_matrix agreeing agreeing_sound ["B".toList, "C".toList] ["A".toList, "B".toList]
example := C132_options agreeing agreeing_sound ["B".toList, "C".toList] ["A".toList, "B".toList] true false

end

end Carbon.Witness
