import Verif.Prop.ArbConn
import Verif.Prop.ArbCycle
import Verif.Prop.ArbDup
import Verif.Prop.ArbFormat
import Verif.Prop.ArbGraph
import Verif.Prop.ArbMatrix
import Verif.Prop.ArbNode
import Verif.Prop.ArbPrice
import Verif.Prop.ArbRun
import Verif.Prop.ArbStats
import Verif.Prop.ArbTable
import Verif.Prop.ArbTransport
import Verif.Prop.EdgeAlgebra
import Verif.Prop.Instructions

/-! Instances of the theorems about arbitrage graphs: each example applies the theorem named in its comment to concrete values. -/

namespace Carbon.Witness

open Arb

/-! ## Cycles -/

section
open Arb.Cycle

/-- `C48_items`, `C48_pairs`, `C48_pairs_all`, `C48_start`, `C48_names_partial`. -/
example := C48_items (data := [10, 20, 30]) (by simp) (-2)
example := C48_pairs (data := [10, 20, 30]) (by simp) 5
example := C48_pairs_all (data := [10, 20, 30]) (by simp) 5 2
example := C48_start (data := [10, 20, 30]) (v := 20) (by simp)
example := C48_names_partial (data := ["A".toList, "B".toList, "C".toList]) (by simp) id
/-- `C78_subcycle`, `C78_rotation`, `C78_trans`, `C78_filter`. -/
example := C78_subcycle (a := [3, 5, 1]) (b := [1, 2, 3, 4, 5]) (by simp) (by decide)
example := C78_rotation (a := [3, 5, 1]) (by simp) (by decide) 2 7
example := C78_trans (a := [5, 1]) (b := [3, 5, 1]) (c := [1, 2, 3, 4, 5]) (by simp) (by decide) (by decide) (by decide) (by decide)
example := C78_filter (self := [1, 2, 3, 4]) (by decide) (cs := [[2, 4], [3, 2, 1]]) (by decide)

end

/-! ## Graphs of amounts -/

theorem exGraph_reach : Reach false exGraph := .addEdge _ _ _ _ _ _ (.addEdge _ _ _ _ _ _ (.addEdge _ _ _ _ _ _ (.addEdge _ _ _ _ _ _ .empty)))
theorem exParallel_reach : Reach false exParallel := .setAmount _ _ (.addEdge _ _ _ _ _ _ (.addEdge _ _ _ _ _ _ .empty))
theorem exLine_reach : Reach false exLine := .addConnection _ (.addConnection _ .empty)
theorem exLine_wf : WF exLine := C45_consistent exLine_reach
theorem exParallel_wf : WF exParallel := C45_consistent exParallel_reach

/-- `C45_index`, `C45_lookup`, `C45_type`, `C45_ends`, `C45_found_partial`. -/
example := C45_index exGraph_reach
example := C45_lookup exGraph_reach "B".toList
example := C45_type exGraph_reach
example := C45_ends exGraph_reach
example := C45_found_partial exGraph_reach (n := 1) (by decide +kernel) (t := "B".toList) (by decide +kernel)
/-- `C45_type_rejected`. -/
example := C45_type_rejected exLine_reach (f := exLine.edgeObjs[0]'(by decide +kernel)) (by decide +kernel) (by decide +kernel) "A".toList 1 "B".toList 2
  false none

def carriedResult : AG.TransportResult ℚ := { amountIn := 6, amountOut := 14, amountsIn := [4, 2], amountsOut := [8, 6], edges := [0, 1] }
theorem exParallel_carried : exParallel.transport 6 "A".toList "B".toList true true =
    (.ok carriedResult, (exParallel.transport 6 "A".toList "B".toList true true).2) := Prod.ext (by decide +kernel) rfl

/-- `C46_transport`, `C46_reset`. -/
example := C46_transport exParallel_reach exParallel_carried
example := C46_reset exParallel_reach
/-- `C46_success`. -/
example := C46_success exParallel_reach (amt := 6) (x := 12) (s := "A".toList) (t := "B".toList) (raise := true) (nin := 0) (nout := 1)
  (by decide +kernel) (by decide +kernel) (by decide) (rem := fun i => if i = 0 then 10 else 5)
  (by
    intro i hi _
    have e : exParallel.edges = [0, 1] := by decide +kernel
    rw [e] at hi
    simp only [List.mem_cons, List.not_mem_nil, or_false] at hi
    rcases hi with rfl | rfl
    · exact ⟨exParallel.edgeObjs[0]'(by decide +kernel), by decide +kernel, by decide +kernel, by decide +kernel, by decide +kernel, by decide +kernel,
        by decide +kernel⟩
    · exact ⟨exParallel.edgeObjs[1]'(by decide +kernel), by decide +kernel, by decide +kernel, by decide +kernel, by decide +kernel, by decide +kernel,
        by decide +kernel⟩)
  (by decide +kernel) ⟨by decide +kernel, by decide +kernel⟩ (by decide +kernel) (by decide +kernel)

/-- With 15 of the first token both edges are used up. -/
def richParallel : AG ℚ := exParallel.setAmount 0 15
theorem richParallel_reach : Reach false richParallel := .setAmount _ _ exParallel_reach
/-- `C46_exhaust`. -/
example := C46_exhaust richParallel_reach (amt := 15) (s := "A".toList) (t := "B".toList) (raise := true)
  (res := { amountIn := 15, amountOut := 35, amountsIn := [10, 5], amountsOut := [20, 15], edges := [0, 1] })
  (g' := (richParallel.transport 15 "A".toList "B".toList true true).2) (Prod.ext (by decide +kernel) rfl) (caps := [10, 5]) (by decide +kernel)
  (by norm_num)

theorem exGraph_tradable : ∀ p ∈ closedWalk [0, 1, 2], Tradable (edgesFrom exGraph p.1 p.2) := by
  have h : ∀ p ∈ closedWalk [0, 1, 2], edgesFrom exGraph p.1 p.2 ≠ [] ∧ ∀ e ∈ edgesFrom exGraph p.1 p.2, 0 < e.amountIn ∧ 0 < e.amountOut := by
    decide +kernel
  exact h

/-- `C47_run`, `C47_token`, `C47_other_token`, `C47_broken`. -/
example := C47_run exGraph (cycle := [0, 1, 2]) (by simp) exGraph_tradable true
example := C47_token exGraph (cycle := [0, 1, 2]) (t := "C".toList) (n := 2) (by decide +kernel) (by simp) exGraph_tradable false
example := C47_other_token exGraph (cycle := [0, 1]) (t := "C".toList) (by
  intro n h
  have e : dictGet exGraph.byTkn "C".toList = some 2 := by decide +kernel
  rw [e] at h
  cases h
  decide)
example := C47_broken exGraph (cycle := [0, 2, 1]) (by decide +kernel) none true
/-- `C136_return`, `C136_nothing`, `C136_tuple_partial`, `C136_formats_violated`. -/
example := C136_return exGraph (cycle := [0, 1, 2]) (by simp) exGraph_tradable (some "C".toList)
example := C136_nothing (⟨some "A".toList, 0, 0, 0⟩ : AG.ArbResult ℚ) rfl 3
example := C136_tuple_partial exGraph [[0, 1, 2], [1, 2, 0]] none true (f := none) (Or.inl rfl)
  [⟨some "A".toList, 15 / 2, 15 / 2, 15⟩, ⟨some "B".toList, 10, 10, 20⟩]
example := C136_formats_violated exGraph (f := .df) (by decide) (c := [0, 1, 2]) (cs := []) (t := .one none) (any := true)
  (r := ⟨some "A".toList, 15 / 2, 15 / 2, 15⟩) (by decide +kernel) []

/-! ## Edges and instructions -/

/-- `C49_instruction`, `C49_symmetric`, `C49_same_sign`, `C49_prices`. -/
example := Opt.C49_instruction (cid := "c".toList) (s := "A".toList) (t := "B".toList) (by decide +kernel) (a := (-3 : ℚ)) (b := 6) (by norm_num)
example := Opt.C49_symmetric (cid := "c".toList) (s := "A".toList) (t := "B".toList) (by decide +kernel) (a := (-3 : ℚ)) (b := 6) (by norm_num)
example := (Opt.C49_same_sign (cid := "c".toList) (s := "A".toList) (t := "B".toList) (by decide +kernel) (a := (3 : ℚ)) (b := 6) (by norm_num)).1
  (Or.inl (by norm_num))
example := Opt.C49_prices (cid := "c".toList) (s := "A".toList) (t := "B".toList) (a := (-3 : ℚ)) (b := 6) (by norm_num)
  (ti := ⟨"c".toList, "B".toList, 6, "A".toList, -3⟩) (by decide +kernel)
/-- `C49_edge`, `C49_edge_same_sign_partial`. -/
example := C49_edge exGraph_reach (by decide +kernel) (s := "A".toList) (t := "B".toList) (a := -3) (b := 6) (by norm_num) false none
example := C49_edge_same_sign_partial exGraph (s := "A".toList) (t := "B".toList) (a := 3) (b := 6) (by norm_num) false none

def parallelEdges : List (Edge ℚ) := [Edge.make 0 (2 : ℚ) 1 4, Edge.make 0 3 1 9]
/-- `C88_sum`, `C88_price`, `C88_comm`. -/
example := C88_sum (es := parallelEdges) (by decide +kernel) (a := 0) (b := 1) (t := true) (by decide +kernel)
example := C88_price (es := parallelEdges) (by decide +kernel) (a := 0) (b := 1) (t := true) (by decide +kernel) (by decide +kernel) (lo := 2) (hi := 3)
  (by
    intro e he
    simp only [parallelEdges, List.mem_cons, List.not_mem_nil, or_false] at he
    rcases he with rfl | rfl
    · exact ⟨2, by decide +kernel, by norm_num, by norm_num⟩
    · exact ⟨3, by decide +kernel, by norm_num, by norm_num⟩) (s := Edge.make 0 5 1 13) (by decide +kernel)
example := C88_comm (Edge.make 0 (2 : ℚ) 1 4) (Edge.make 0 3 1 9) (s := Edge.make 0 5 1 13) (t := Edge.make 0 5 1 13) (by decide +kernel)
  (by decide +kernel)

/-! ## Copies, statistics and degrees -/

/-- `C89_plain_partial`, `C89_consolidated_partial`. -/
example := C89_plain_partial exParallel_wf
example := C89_consolidated_partial exParallel_wf (by
  have h : ∀ n ∈ exParallel.nodes, ∀ m ∈ exParallel.nodes, exParallel.tknOf n = exParallel.tknOf m → n = m := by decide +kernel
  exact h)
/-- `C91_positive`, `C91_stats`, `C91_bounds`, `C91_transport`, `C91_capacity`, `C91_pair`. -/
example := C91_positive exParallel_reach
example := C91_stats exParallel_reach (by decide +kernel) (s := "A".toList) (t := "B".toList) (a := 0) (b := 1) (by decide +kernel) (by decide +kernel)
example := C91_bounds (es := parallelEdges) (by decide +kernel) (by decide +kernel) (by decide +kernel) (lo := 2) (hi := 3) (by decide +kernel)
example := C91_transport exParallel_reach (by decide +kernel) exParallel_carried
example := C91_capacity (g := exParallel) (l := [0, 1]) (rem := fun i => if i = 0 then 10 else 5) (by decide +kernel)
example := C91_pair (g := exParallel) (pair := "A/B".toList) (s := "A".toList) (t := "B".toList) (by decide +kernel) (a := 0) (b := 1)
  (by decide +kernel) (by decide +kernel) true
/-- `C112_mixed`, `C112_undo`, `C112_scale`. -/
example := C112_mixed (⟨3, 0⟩ : Amt ℚ) (.amt ⟨4, 1⟩) (by intro b h; cases h; decide)
example := C112_undo (a := (⟨3, 0⟩ : Amt ℚ)) (b := ⟨4, 0⟩) (c := ⟨7, 0⟩) (by decide +kernel)
example := C112_scale (⟨3, 0⟩ : Amt ℚ) ⟨4, 0⟩ (x := 2) (by norm_num)
/-- `C114_stats`, `C114_total`, `C114_transport`, `C114_rejected`. -/
example := C114_stats exParallel_reach (by decide +kernel) (s := "A".toList) (n := 0) (by decide +kernel)
example := C114_total exParallel_reach (by decide +kernel)
example := C114_transport exParallel_reach (by decide +kernel) exParallel_carried (u := "A".toList) (n := 0) (by decide +kernel)
example := (C114_rejected exLine_reach "A".toList).2 0 (by decide +kernel) (by decide +kernel) (by decide +kernel)
/-- `C115_counts`, `C115_sum`, `C115_degree`, `C115_curves`. -/
example := C115_counts exLine_reach 1 2
example := C115_sum exLine_reach
example := C115_degree exLine_reach 1 2
example := C115_curves (cs := [(⟨2, 1, 1, 2, "A/B".toList, none, []⟩ : CPC ℚ)]) (g := ((AG.empty : AG ℚ).addCurves [⟨2, 1, 1, 2, "A/B".toList, none, []⟩]).2)
  (Prod.ext (by decide +kernel) rfl)

/-! ## Graphs of connections -/

theorem exLine_connections : OnlyConnections exLine := by
  have h : ∀ d ∈ datas exLine, d.amountIn < 0 := by decide +kernel
  exact h

/-- `C90_symmetric`, `C90_oneway`, `C90_curves`, `C90_multiplier`, `C90_broken`, `C90_roundtrip`. -/
example := C90_symmetric exLine_wf exLine_connections { tknIn := "C".toList, tknOut := "D".toList, price := some 4 } (p := 4) (by decide +kernel)
  (by decide +kernel) rfl
example := C90_oneway exLine_wf exLine_connections { tknIn := "C".toList, tknOut := "D".toList, price := some 4, symmetric := false } (p := 4)
  (by decide +kernel) (by decide +kernel) rfl
example := C90_curves exLine_wf exLine_connections [⟨2, 1, 1, 2, "A/B".toList, none, []⟩]
example := C90_multiplier exLine (ps := [(0, 1), (1, 2)]) (by decide +kernel)
example := C90_broken exLine (ps := [(0, 2)]) (by decide +kernel)

def twoPools : List (CPC ℚ) := [⟨2, 1, 1, 2, "A/B".toList, none, []⟩, ⟨8, 1, 1, 8, "A/B".toList, none, []⟩]
example := C90_roundtrip (cs := twoPools) (by decide +kernel) (s := "A".toList) (t := "B".toList) (by decide +kernel)
  (c₀ := ⟨2, 1, 1, 2, "A/B".toList, none, []⟩) (by simp [twoPools]) (by decide +kernel)

private theorem exValue_consistent : Consistent exLine exValue := by
  refine ⟨fun s => ?_, ?_⟩
  · unfold exValue; split
    · norm_num
    · split <;> norm_num
  · have : ∀ e ∈ exLine.edgeList, e.amountOut / e.amountIn =
        exValue ((exLine.tknOf e.nodeIn).getD []) / exValue ((exLine.tknOf e.nodeOut).getD []) := by decide +kernel
    intro e he s t hs ht
    have := this e he
    rwa [hs, ht] at this
private theorem no_amounts : exLine.edgeType ≠ some true := by decide +kernel
private theorem priced : exLine.price bfs "A".toList "C".toList = .ok 6 := by decide +kernel

/-- `C110_price`, `C110_direct`, `C110_same`, `C110_rejected`. -/
example := C110_price bfs_shortest exLine_reach no_amounts (s := "A".toList) (t := "C".toList) (by decide +kernel) (a := 0) (b := 2) (by decide +kernel)
  (by decide +kernel)
example := C110_direct bfs_shortest exLine_reach no_amounts (s := "A".toList) (t := "B".toList) (by decide +kernel) (a := 0) (b := 1) (by decide +kernel)
  (by decide +kernel) (by decide +kernel)
example := C110_same bfs no_amounts "A".toList
example := (C110_rejected bfs exLine_reach "A".toList "D".toList).2 no_amounts (by decide +kernel) (Or.inr (by decide +kernel))
/-- `C110_consistent`, `C110_connected`, `C110_curves`, `C110_roundtrip`, `C110_units_partial`, `C110_units_violated`. -/
example := C110_consistent bfs_shortest exLine_reach exValue_consistent priced
example := C110_connected bfs_shortest exLine_reach priced (t := "B".toList) (y := 1 / 3) (by decide +kernel)
example := C110_curves bfs_shortest (cs := [(⟨2, 1, 1, 2, "A/B".toList, none, []⟩ : CPC ℚ)]) (v := fun s => if s = "A".toList then 2 else 1)
  (by intro s; split <;> norm_num) (by decide +kernel)
  (g := ((AG.empty : AG ℚ).addCurves [⟨2, 1, 1, 2, "A/B".toList, none, []⟩]).2) (Prod.ext (by decide +kernel) rfl) (s := "A".toList) (t := "B".toList)
  (x := 2) (by decide +kernel)
example := C110_roundtrip bfs_shortest (cs := twoPools) (by decide +kernel) (s := "A".toList) (t := "B".toList) (by decide +kernel)
  (c₀ := ⟨2, 1, 1, 2, "A/B".toList, none, []⟩) (by simp [twoPools]) (by decide +kernel)
example := C110_units_partial bfs exLine (s := "A".toList) (t := "C".toList) (by decide +kernel) priced
example := C110_units_violated bfs no_amounts "A".toList

private theorem tabled : exLine.pricetable bfs none none =
    .ok ([[1, 2, 6], [1 / 2, 1, 3], [1 / 6, 1 / 3, 1]], ["A".toList, "B".toList, "C".toList]) := by decide +kernel
/-- `C111_table`, `C111_diagonal`, `C111_consistent`, `C111_exists`. -/
example := C111_table bfs exLine_reach (by simp) tabled
example := C111_diagonal bfs exLine_reach (by simp) tabled (i := 1) (row := [1 / 2, 1, 3]) (x := 1) (by decide +kernel) (by decide +kernel)
example := C111_consistent bfs_shortest exLine_reach exValue_consistent (by simp) tabled (i := 0) (j := 1) (k := 2) (ri := [1, 2, 6])
  (rj := [1 / 2, 1, 3]) (x := 2) (y := 3) (z := 6) (by decide +kernel) (by decide +kernel) (by decide +kernel) (by decide +kernel) (by decide +kernel)
example := (C111_exists bfs exLine_reach none).mp ⟨_, tabled⟩

/-! ## Tables and matrices -/

/-- `C135_amounts_of`, `C135_amounts`. -/
example := C135_amounts_of (g := tradeGraph) (by decide +kernel) (es := tradeGraph.edgeList) (Named.of_wf (C45_consistent tradeGraph_reach))
  (by decide +kernel)
example := C135_amounts tradeGraph_reach (by decide +kernel)

private theorem bothWays_reach : Reach false bothWays := .addConnection _ (.addConnection _ (.addConnection _ .empty))
private theorem bothWays_named : Named bothWays bothWays.edgeList := Named.of_wf (C45_consistent bothWays_reach)
private theorem bothWays_linked : bothWays.edgeList.map (fun e => (inName bothWays e, outName bothWays e)) =
    [("ETH".toList, "USDC".toList), ("USDC".toList, "ETH".toList), ("USDC".toList, "ETH".toList), ("ETH".toList, "USDC".toList),
      ("BNT".toList, "ETH".toList), ("ETH".toList, "BNT".toList)] := by decide +kernel
private theorem linked_iff (s t : Str) : linkOf bothWays bothWays.edgeList s t ≠ [] ↔
    (s, t) ∈ [("ETH".toList, "USDC".toList), ("USDC".toList, "ETH".toList), ("USDC".toList, "ETH".toList), ("ETH".toList, "USDC".toList),
      ("BNT".toList, "ETH".toList), ("ETH".toList, "BNT".toList)] := by
  rw [← bothWays_linked]
  unfold linkOf
  rw [Ne, List.filter_eq_nil_iff]
  simp only [List.mem_map, forall_exists_index, and_imp, forall_apply_eq_imp_iff₂, decide_eq_true_eq, dataOf, Prod.mk.injEq]
  constructor
  · intro h
    simp only [not_forall, not_not] at h
    obtain ⟨e, he, h1, h2⟩ := h
    exact ⟨e, he, by simp [inName, h1], by simp [outName, h2]⟩
  · rintro ⟨e, he, h1, h2⟩ h
    obtain ⟨⟨a, ha⟩, b, hb⟩ := bothWays_named e he
    refine h e he ⟨?_, ?_⟩
    · rw [← h1, inName, ha]; rfl
    · rw [← h2, outName, hb]; rfl

/-- `C135_connections_partial`. -/
example := C135_connections_partial (g := bothWays) (by decide +kernel) bothWays_named (by decide +kernel) (by decide +kernel) (by decide +kernel)
  (by
    intro s
    by_contra h
    have h := (linked_iff s s).mp h
    simp only [List.mem_cons, List.not_mem_nil, or_false, Prod.mk.injEq] at h
    rcases h with ⟨rfl, h⟩ | ⟨rfl, h⟩ | ⟨rfl, h⟩ | ⟨rfl, h⟩ | ⟨rfl, h⟩ | ⟨rfl, h⟩ <;> exact absurd h (by decide +kernel))
  (by
    intro s t h
    have h := (linked_iff s t).mp h
    refine (linked_iff t s).mpr ?_
    simp only [List.mem_cons, List.not_mem_nil, or_false, Prod.mk.injEq] at h
    rcases h with ⟨rfl, rfl⟩ | ⟨rfl, rfl⟩ | ⟨rfl, rfl⟩ | ⟨rfl, rfl⟩ | ⟨rfl, rfl⟩ | ⟨rfl, rfl⟩ <;> simp)
/-- `C135_totals`, `C135_edges`, `C135_curves`. -/
example := C135_totals (g := bothWays) (by decide +kernel) bothWays_named (by decide +kernel) (by decide +kernel)
example := (C135_edges bothWays_named).2 (by decide +kernel) (by decide +kernel)
example := C135_curves (cs := twoPools) (by simp [twoPools]) (by decide +kernel) (by decide +kernel)

private theorem twoCycles_reach : Reach false twoCycles :=
  .addEdge _ _ _ _ _ _ (.addEdge _ _ _ _ _ _ (.addEdge _ _ _ _ _ _ (.addEdge _ _ _ _ _ _ (.addEdge _ _ _ _ _ _ .empty))))
private theorem twoCycles_laplacian : twoCycles.laplacian = .ok [[1, -1, 0, 0], [-1, 2, -1, 0], [0, -1, 2, -1], [0, 0, -1, 1]] := by decide +kernel
private theorem twoCycles_length : twoCycles.nodes.length = 4 := by decide +kernel
/-- `C137_adjacency`, `C137_degrees`, `C137_laplacian`, `C137_rows`, `C137_spectrum`, `C137_connected`. -/
example := C137_adjacency twoCycles_reach false
example := C137_degrees twoCycles_reach (M := [[0, 1, 0, 0], [1, 0, 1, 0], [0, 0, 0, 1], [0, 0, 1, 0]]) (by decide +kernel)
  ⟨2, by rw [twoCycles_length]; decide⟩
example := C137_laplacian twoCycles_reach
example := C137_rows twoCycles_reach false twoCycles_laplacian ⟨2, by rw [twoCycles_length]; decide⟩
example := C137_spectrum twoCycles_reach twoCycles_laplacian
example := (C137_connected twoCycles_reach twoCycles_laplacian).2 (by decide +kernel)

end Carbon.Witness
