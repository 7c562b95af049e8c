import Verif.Prop.Margp
import Verif.Prop.MargpLoop
import Verif.Prop.OptimizerBase
import Verif.Prop.ConvexOpt
import Verif.Prop.SimpleOpt
import Verif.Prop.SimpleResult
import Verif.Prop.TITable
import Verif.Prop.FloorRouter
import Mathlib.Analysis.Calculus.Deriv.Pow

/-! Instances of the theorems about the optimizers: each example applies the theorem named in it to concrete values. -/

namespace Carbon.Witness

open Opt CPC

/-! The marginal price optimizer. -/

theorem pools_tkns : (Opt.twoPools ℝ).tkns = ["A".toList, "A".toList, "B".toList, "B".toList] := by
  unfold CC.tkns
  rw [twoPools_curves]
  rfl

theorem pools_tokens : tokensOf (Opt.twoPools ℝ) "B".toList = ["A".toList] := by
  unfold tokensOf
  rw [pools_tkns]
  decide +kernel

theorem pools_named (k x xa ya : ℝ) (cid : Option Cid) : CPC.tknb (⟨k, x, xa, ya, "A/B".toList, cid, []⟩ : CPC ℝ) = "A".toList ∧
    CPC.tknq (⟨k, x, xa, ya, "A/B".toList, cid, []⟩ : CPC ℝ) = "B".toList := by
  unfold CPC.tknb CPC.tknq
  dsimp only
  decide +kernel

/-- At the price 4/9 the second pool sells five `A` to the first. -/
theorem pools_trades : (Opt.twoPools ℝ).curves.map (tradeOf [("A".toList, 4 / 9)]) = [(5, -10 / 3), (-5, 5 / 3)] := by
  have s1 : Real.sqrt (4 / 9) = 2 / 3 := by
    rw [show (4 / 9 : ℝ) = (2 / 3) ^ 2 by norm_num]
    exact Real.sqrt_sq (by norm_num)
  have s2 : Real.sqrt 100 = 10 := by
    rw [show (100 : ℝ) = 10 ^ 2 by norm_num]
    exact Real.sqrt_sq (by norm_num)
  have p1 : priceOf [("A".toList, (4 / 9 : ℝ))] "A".toList = 4 / 9 := by simp [priceOf, dictGet]
  have p2 : priceOf [("A".toList, (4 / 9 : ℝ))] "B".toList = 1 := by simp [priceOf, dictGet]
  rw [twoPools_curves]
  simp only [List.map_cons, List.map_nil, tradeOf, pools_named, p1, p2]
  rw [best_inside (sp := 2 / 3) (sk := 10) (by rw [div_one, s1]) s2 (by norm_num) (by norm_num) rfl (by norm_num [CPC.y]) (by norm_num) (by norm_num),
    best_inside (sp := 2 / 3) (sk := 10) (by rw [div_one, s1]) s2 (by norm_num) (by norm_num) rfl (by norm_num [CPC.y]) (by norm_num) (by norm_num)]
  norm_num [CPC.y]

theorem pools_net (t : Str) : net t (Opt.twoPools ℝ).curves [(5, -10 / 3), (-5, 5 / 3)] = (if "A".toList = t then (5 : ℝ) else 0) +
    (if "B".toList = t then -10 / 3 else 0) + ((if "A".toList = t then -5 else 0) + (if "B".toList = t then 5 / 3 else 0) + 0) := by
  rw [twoPools_curves]
  simp only [net, pools_named]

theorem pools_balance : net "A".toList (Opt.twoPools ℝ).curves [(5, -10 / 3), (-5, 5 / 3)] = 0 ∧
    net "B".toList (Opt.twoPools ℝ).curves [(5, -10 / 3), (-5, 5 / 3)] = -5 / 3 := by
  have hBA : ("A".toList : Str) ≠ "B".toList := by decide
  rw [pools_net, pools_net, if_pos rfl, if_pos rfl, if_neg hBA.symm, if_neg hBA.symm, if_neg hBA, if_neg hBA, if_pos rfl, if_pos rfl]
  norm_num

/-- What the optimizer returns for the two pools. -/
theorem pools_margp : ∃ m, margp (Opt.twoPools ℝ) "B".toList [4 / 9] = .ok m ∧ m.dxdyvalues = .ok [(5, -10 / 3), (-5, 5 / 3)] ∧
    dictGet m.dtokens "A".toList = some 0 ∧ m.result = -5 / 3 := by
  obtain ⟨m, k1, -, -, k4, k5, k6, k7⟩ := margp_eq twoPools_input
  rw [k4, pools_tokens] at k5 k6 k7
  have e : (["A".toList].zip [(4 / 9 : ℝ)]) = [("A".toList, 4 / 9)] := rfl
  rw [e, pools_trades] at k5 k6 k7
  refine ⟨m, k1, k5, ?_, ?_⟩
  · rw [k6 _ (by rw [pools_tkns]; simp), pools_balance.1]
  · rw [k7, pools_balance.2]

example := C79_balance twoPools_input
example := C79_instructions twoPools_input (by
  intro c hc
  rw [twoPools_curves] at hc
  simp only [List.mem_cons, List.not_mem_nil, or_false] at hc
  rcases hc with rfl | rfl <;> rw [(pools_named ..).1, (pools_named ..).2] <;> decide)

/-- C80_optimal, C80_profit: no admissible trades that leave `A` balanced yield more than the five thirds of `B`. -/
example : ∃ m, margp (Opt.twoPools ℝ) "B".toList [4 / 9] = .ok m ∧ m.result ≤ 0 ∧ ∀ w : List (ℝ × ℝ), w.length = 2 →
    (∀ cv ∈ (Opt.twoPools ℝ).curves.zip w, Allowed cv.1 cv.2) → net "A".toList (Opt.twoPools ℝ).curves w ≤ 0 →
    -5 / 3 ≤ net "B".toList (Opt.twoPools ℝ).curves w := by
  obtain ⟨m, k1, k2, k3, k4⟩ := pools_margp
  refine ⟨m, k1, (C80_profit twoPools_input k1 ?_).1, fun w hw ha hn => ?_⟩
  · intro t ht hne
    rw [pools_tkns] at ht
    have : t = "A".toList := by
      simp only [List.mem_cons, List.not_mem_nil, or_false] at ht
      tauto
    subst this
    exact ⟨0, k3, le_refl _⟩
  · rw [← k4]
    refine (C80_optimal twoPools_input k1 k2 (by rw [twoPools_curves]; exact hw) ha ?_).1
    intro t ht hne
    rw [pools_tkns] at ht
    have : t = "A".toList := by
      simp only [List.mem_cons, List.not_mem_nil, or_false] at ht
      tauto
    subst this
    rw [pools_balance.1]
    exact hn

example := C81_rest twoPools_input

/-! The search of the marginal price optimizer. -/

example := C133_jacobian_quotients (n := 1) (func := fun x => .ok ![x 0 ^ 2]) (g := fun x => ![x 0 ^ 2]) (fun _ => rfl) ![(3 : ℚ)] (1 / 10)
example := C133_jacobian_raises (n := 1) (func := fun x => .ok ![x 0 ^ 2]) (x := ![(3 : ℚ)]) (eps := 1 / 10) (J := ![![63 / 10]]) (by
  obtain ⟨J, h1, h2⟩ := C133_jacobian_quotients (n := 1) (func := fun x => .ok ![x 0 ^ 2]) (g := fun x => ![x 0 ^ 2]) (fun _ => rfl) ![(3 : ℚ)] (1 / 10)
  rw [h1]
  congr 1
  ext i j
  rw [h2, Subsingleton.elim i 0, Subsingleton.elim j 0]
  norm_num)
example := C133_jacobian_limit (n := 1) (func := fun x => .ok ![x 0 ^ 2]) (g := fun x => ![x 0 ^ 2]) (fun _ => rfl) ![(3 : ℝ)] (D := ![![6]]) (by
  intro i j
  rw [Subsingleton.elim i 0, Subsingleton.elim j 0]
  have : HasDerivAt (fun s : ℝ => s ^ 2) (((2 : ℕ) : ℝ) * 3 ^ 1) 3 := hasDerivAt_pow 2 3
  norm_num at this
  simpa using this)

/-- The search for the two pools can begin at the price at which they balance. -/
theorem pools_ready (params : MargpParams) (hp : params.pstart = some [("A".toList, 4 / 9)]) :
    Ready (Opt.twoPools ℝ) "B".toList params (fun _ => 4 / 9) := by
  refine ⟨twoPools_input.sound, twoPools_input.known, ?_, fun _ => by norm_num⟩
  rw [hp]
  unfold startPrices
  simp only
  have hone : ∀ t ∈ tokensOf (Opt.twoPools ℝ) "B".toList, dictGet [("A".toList, (4 / 9 : ℝ))] t = some (4 / 9) := by
    intro t ht
    rw [pools_tokens] at ht
    rw [List.mem_singleton.1 ht]
    rfl
  rw [pstart_ok fun t ht => ⟨4 / 9, hone t ht⟩, Py.ok_bind]
  refine congrArg (fun l => Except.ok (some l)) (List.ext_getElem (by simp) fun i h1 h2 => ?_)
  rw [List.getElem_map, hone _ (List.getElem_mem _)]
  simp

theorem pools_excess (i) : excess (Opt.twoPools ℝ) "B".toList (fun _ => 4 / 9) i = 0 := by
  have hi : (tokensOf (Opt.twoPools ℝ) "B".toList)[i] = "A".toList := by
    have : ∀ t ∈ tokensOf (Opt.twoPools ℝ) "B".toList, t = "A".toList := by
      rw [pools_tokens]
      simp
    exact this _ (List.getElem_mem i.2)
  have hz : (tokensOf (Opt.twoPools ℝ) "B".toList).zip (List.ofFn fun _ : Fin (tokensOf (Opt.twoPools ℝ) "B".toList).length => (4 / 9 : ℝ)) =
      [("A".toList, 4 / 9)] := by
    rw [List.ofFn_const, pools_tokens]
    rfl
  unfold excess
  rw [hi, hz, pools_trades]
  exact pools_balance.1

/-- C133_cleared: the search that begins at the balancing price ends there. -/
theorem pools_run : ∃ m, margpRun (Opt.twoPools ℝ) "B".toList { pstart := some [("A".toList, 4 / 9)] } = .ok (.found 0 m) := by
  obtain ⟨m, h, -⟩ := C133_cleared (pools_ready { pstart := some [("A".toList, 4 / 9)] } rfl) (by decide) (by unfold MargpParams.epsValue; norm_num)
    pools_excess
  exact ⟨m, h⟩

example := C133_total (pools_ready { pstart := some [("A".toList, 4 / 9)] } rfl) (by decide)
example : True := by
  obtain ⟨m, h⟩ := pools_run
  have := C133_found (pools_ready { pstart := some [("A".toList, 4 / 9)] } rfl) h
  have := C133_residual_before (pools_ready { pstart := some [("A".toList, 4 / 9)] } rfl) h
  have := C133_budget (pools_ready { pstart := some [("A".toList, 4 / 9)] } rfl) h 1 (by norm_num)
  trivial
example := C133_single (pools_ready { pstart := some [("A".toList, 4 / 9)], maxiter := some 1 } rfl) rfl
example := C134_excess (cc := narrow) (target := "B".toList) (params := {}) (d := [("A".toList, 3)]) (e := [("A".toList, 3), ("B".toList, 7), ("C".toList, 9)]) (by
  intro t ht hne
  rw [narrow_tkns] at ht
  simp only [List.mem_cons, List.not_mem_nil, or_false] at ht
  rcases ht with rfl | rfl
  · rfl
  · exact absurd rfl hne)
example := C134_roundtrip narrow_ready
example := C134_estimates (params := {}) twoPools_input.sound twoPools_input.known rfl
example := (C134_negative (pools_ready { pstart := some [("A".toList, 4 / 9)], maxiter := some (-1) } rfl)).1 (by decide)
example := (C134_negative (pools_ready { pstart := some [("A".toList, 4 / 9)], eps := some (-1) } rfl)).2 (by decide) (by unfold MargpParams.epsValue; norm_num)

/-! The base of the optimizers. -/

example := C83_get (K := ℚ) (data := [("A".toList, .amount 3), ("B".toList, .optVar)]) (by decide +kernel) (ts := some ["A".toList, "B".toList, "C".toList])
  rfl "C".toList
example := C83_arbitrage (K := ℚ) (data := [("A".toList, .amount 3), ("B".toList, .optVar)]) (by decide +kernel) (ts := some ["A".toList, "B".toList, "C".toList])
  rfl
example := C84_descent (3 : ℚ) (-12) 1 10 (1 / 12) 2 (by norm_num) 3

/-! The convex optimizer. -/

/-- The constraints of the examples: `B` is optimized and three of `A` are put in. -/
noncomputable def threeIn : SFC ℝ := ⟨[("A".toList, .amount 3), ("B".toList, .optVar)], ["A".toList, "B".toList], "B".toList⟩

theorem threeIn_fits (s : SCC ℝ) (h : s.cc = Opt.twoPools ℝ) : Fits s threeIn := by
  have e : s.cc.tkns = ["A".toList, "A".toList, "B".toList, "B".toList] := by rw [h]; exact pools_tkns
  refine ⟨by rw [e]; simp [threeIn], fun t ht => ?_⟩
  rw [e]
  simp only [threeIn, List.mem_cons, List.not_mem_nil, or_false] at ht
  rcases ht with rfl | rfl <;> simp

theorem scaled_uniform : Uniform twoScaled tenA := uniform_make _ (by
  intro t
  unfold tenA
  split <;> norm_num)

noncomputable def twoUnscaled : SCC ℝ := SCC.make [.plain ⟨100, 10, 10, 10, "A/B".toList, some (.str "c1".toList), []⟩,
  .plain ⟨100, 20, 20, 5, "A/B".toList, some (.str "c2".toList), []⟩]

example := C130_program scaled_uniform (show ∀ c ∈ twoScaled.cc.curves, Sound c from twoPools_input.sound) (threeIn_fits twoScaled rfl)
example := C130_optimal scaled_uniform (show ∀ c ∈ twoScaled.cc.curves, Sound c from twoPools_input.sound) (threeIn_fits twoScaled rfl)
example := C130_scale scaled_uniform (s' := twoUnscaled) (uniform_default _) rfl (show ∀ c ∈ twoScaled.cc.curves, Sound c from twoPools_input.sound)
  (threeIn_fits twoScaled rfl)
example := C130_full_range scaled_uniform (show ∀ c ∈ twoScaled.cc.curves, Sound c from twoPools_input.sound) (threeIn_fits twoScaled rfl) (by
  intro c hc
  have hc : c ∈ (Opt.twoPools ℝ).curves := hc
  rw [twoPools_curves] at hc
  simp only [List.mem_cons, List.not_mem_nil, or_false] at hc
  rcases hc with rfl | rfl <;> norm_num [CPC.y])
example := C130_unconstrained scaled_uniform (show ∀ c ∈ twoScaled.cc.curves, Sound c from twoPools_input.sound) (target := "B".toList)
  (show "B".toList ∈ (Opt.twoPools ℝ).tkns from twoPools_input.known)

/-- C130_boundary: the pool that trades the optimized token is on its curve. -/
example : ∃ sfc, sfcOf apart [("A".toList, .optVar)] = .ok sfc ∧ Best apart sfc [(0, 0), (1, -1 / 2), (-1, 1 / 2)] ∧ (10 + 0) * (10 + 0) = (100 : ℝ) := by
  obtain ⟨sfc, h1, h2, -⟩ := C130_boundary_violated
  have hsfc : sfc = ⟨[("A".toList, .optVar)], apart.cc.tkns, "A".toList⟩ := by
    unfold sfcOf SFC.make at h1
    have htk : apart.cc.tkns = ["A".toList, "C".toList, "C".toList, "B".toList, "D".toList, "D".toList] := by
      unfold CC.tkns
      rfl
    rw [htk] at h1 ⊢
    exact (Except.ok.inj h1).symm
  refine ⟨sfc, h1, h2, ?_⟩
  have := C130_boundary h2 (c := ⟨100, 10, 10, 10, "A/B".toList, some (.str "c1".toList), []⟩) (v := (0, 0)) (by
    intro a ha
    rw [hsfc] at ha
    unfold SFC.get dictGet at ha
    simp only [if_true] at ha
    split at ha
    · cases ha
    · cases ha) (by
    show _ ∈ List.zip [_, _, _] _
    exact List.mem_cons_self) (Or.inl ⟨by rw [hsfc]; exact (pools_named ..).1, by norm_num⟩)
  norm_num [CPC.y] at this
  norm_num

/-! The simple optimizer. -/

/-- A pool with the price 9/16000000, for which the goal seek ends at once. -/
noncomputable def cheap : List (CPC ℝ) := [⟨144000000, 16000000, 16000000, 9, "A/B".toList, none, []⟩]

theorem cheap_pair : OnePair cheap "A".toList "B".toList := by
  have hp : CarbonPair.unpack "A/B".toList = .ok ("A".toList, "B".toList) := by decide
  refine ⟨by simp [cheap], ?_, by decide, ?_, by decide⟩
  · intro c hc
    rw [List.mem_singleton.1 hc]
    exact ⟨by norm_num, by norm_num, by norm_num, by norm_num, by norm_num, by norm_num [CPC.y], _, _, hp⟩
  · intro c hc
    rw [List.mem_singleton.1 hc]
    exact Or.inl ⟨rfl, rfl⟩

theorem cheap_available : ∃ c ∈ cheap, 0 < available "B".toList c := by
  refine ⟨_, List.mem_cons_self, ?_⟩
  unfold available
  rw [(pools_named ..).1, if_neg (by decide)]
  norm_num

theorem cheap_p : ∀ c ∈ cheap, (actual c).p = 9 / 16000000 := by
  intro c hc
  rw [cheap_pair.actual_p hc, List.mem_singleton.1 hc]
  unfold priceIn
  rw [if_pos (pools_named ..).1]
  norm_num [CPC.p, CPC.y]

/-- The optimizer has a result for the pool. -/
theorem cheap_runs : ∃ s, Runs cheap "A".toList (.ok s) := by
  have hl : lower cheap = 9 / 16000000 := by
    obtain ⟨⟨c, hc, e⟩, -⟩ := lower_spec cheap_pair.ne
    rw [e, cheap_p c hc]
  have hu : Opt.upper cheap = 9 / 16000000 := by
    obtain ⟨⟨c, hc, e⟩, -⟩ := upper_spec cheap_pair.ne
    rw [e, cheap_p c hc]
  have he := cheap_pair.ends "A".toList
  have hp : (0 : ℝ) < (lower cheap * (99 / 100) + Opt.upper cheap * (101 / 100)) / 2 := by rw [hl, hu]; norm_num
  have e : goalseek (total fun p => net (other "A".toList "B".toList "A".toList) cheap (tradesTo "A".toList p cheap)) (lower cheap * (99 / 100))
      (Opt.upper cheap * (101 / 100)) 0 = some (.ok (.simple ((lower cheap * (99 / 100) + Opt.upper cheap * (101 / 100)) / 2))) := by
    unfold goalseek
    simp only [total]
    rw [if_neg (not_lt.2 he)]
    unfold seekLoop seekEps
    rw [if_neg (by rw [hl, hu]; norm_num)]
  have := cheap_pair.simple_eq (target := "A".toList) (Or.inl rfl) 0
  rw [e] at this
  have hs := sumTrade_ok cheap_pair.sound hp
  simp only [Found.value, hs] at this
  exact ⟨_, 0, this⟩

/-- C82_price, C82_optimal, C82_balance_partial. -/
example : ∃ s, Runs cheap "A".toList (.ok s) ∧ (∃ p, 0 < p ∧ |s.price - p| ≤ 1 / 2 * (1 / 10 ^ 6) ∧
    net "B".toList cheap (tradesTo "A".toList p cheap) = 0) := by
  obtain ⟨s, hs⟩ := cheap_runs
  have h1 := C82_price cheap_pair (Or.inl rfl) hs
  have h2 := C82_optimal cheap_pair (Or.inl rfl) hs (w := tradesTo "A".toList s.price cheap) (by simp [tradesTo]) (by
    obtain ⟨c, hc, h⟩ := h1.1
    have hp : 0 < s.price := by
      refine lt_of_lt_of_le ?_ h
      rw [← cheap_pair.actual_p hc, cheap_p c hc]
      norm_num
    exact fun cv hcv => ((cheap_pair.trades_ok hp).2 cv hcv).1) (le_refl _)
  exact ⟨s, hs, C82_balance_partial cheap_pair cheap_available (Or.inl rfl) hs⟩

theorem cheap_valX {p : ℝ} (hp : 0 < p) : valX (Wrapped.wrap cheap) p = .ok (24000 / √p - 16000000 - 9 / p) := by
  have s1 := cheap_pair.sound _ List.mem_cons_self
  have hr : 0 < √p := Real.sqrt_pos.2 hp
  have hrr : √p * √p = p := Real.mul_self_sqrt hp.le
  have e1 : best (⟨144000000, 16000000, 16000000, 9, "A/B".toList, none, []⟩ : CPC ℝ) p = (12000 / √p - 16000000, 12000 * √p - 9) := by
    refine best_of s1 hp ?_ ?_ ?_ ?_ ?_ <;> norm_num [CPC.y]
    · exact hp
    · positivity
    · rw [div_mul_eq_mul_div, div_eq_iff hr.ne']; ring
    · rw [mul_div_assoc', div_eq_iff hr.ne', mul_assoc, hrr]; ring
  have hto : tradesTo "A".toList p cheap = [(12000 / √p - 16000000, 12000 * √p - 9)] := by
    rw [← e1]; rfl
  have hAB : ("A".toList : Str) ≠ "B".toList := by decide
  rw [cheap_pair.valX_eq hp, hto]
  unfold cheap
  simp only [net, pools_named, if_neg hAB, if_neg hAB.symm, if_true]
  congr 1
  have : √p / p = 1 / √p := by rw [div_eq_div_iff hp.ne' hr.ne', hrr, one_mul]
  rw [zero_add, add_zero, add_zero, add_zero, sub_div, mul_div_assoc, this]
  ring

/-- The search for the largest value rests where the finite difference vanishes, here at 1/800000. -/
theorem cheap_rests : findmaxE (valX (Wrapped.wrap cheap)) (1 / 800000) 1 = some (1 / 800000) := by
  have r1 : √(9 / 4000000 : ℝ) = 3 / 2000 := by
    rw [show (9 / 4000000 : ℝ) = (3 / 2000) ^ 2 by norm_num]
    exact Real.sqrt_sq (by norm_num)
  have r2 : √(1 / 4000000 : ℝ) = 1 / 2000 := by
    rw [show (1 / 4000000 : ℝ) = (1 / 2000) ^ 2 by norm_num]
    exact Real.sqrt_sq (by norm_num)
  have a1 : (1 / 800000 + 1 / 10 ^ 6 : ℝ) = 9 / 4000000 := by norm_num
  have a2 : (1 / 800000 - 1 / 10 ^ 6 : ℝ) = 1 / 4000000 := by norm_num
  have f1 : valX (Wrapped.wrap cheap) (9 / 4000000) = .ok (-4000000) := by
    rw [cheap_valX (by norm_num), r1]
    norm_num
  have f2 : valX (Wrapped.wrap cheap) (1 / 4000000) = .ok (-4000000) := by
    rw [cheap_valX (by norm_num), r2]
    norm_num
  have f3 := cheap_valX (p := 1 / 800000) (by norm_num)
  have hne : 24000 / √(1 / 800000 : ℝ) - 16000000 - 9 / (1 / 800000) ≠ -4000000 := by
    intro h
    have h0 : 0 < √(1 / 800000 : ℝ) := Real.sqrt_pos.2 (by norm_num)
    have h2 : √(1 / 800000 : ℝ) * √(1 / 800000 : ℝ) = 1 / 800000 := Real.mul_self_sqrt (by norm_num)
    have h3 : 24000 / √(1 / 800000 : ℝ) = 19200000 := by linarith
    rw [div_eq_iff h0.ne'] at h3
    nlinarith
  unfold findmaxE findmaxE newton derivE deriv2E derivEps
  dsimp only
  simp only [a1, a2, f1, f2, f3, Py.ok_bind]
  rw [UICurve.pyDiv_ok (div_ne_zero (fun h => hne (by linarith)) (by norm_num))]
  simp

example := C138_rest cheap_pair cheap_rests
example := C138_functions cheap_pair none 0
example := C138_global cheap_pair 0
example := C138_requests cheap_pair 0
example := C138_one_pair (cs := [⟨100, 10, 10, 10, "A/B".toList, none, []⟩, ⟨100, 10, 10, 10, "A/C".toList, none, []⟩]) (by
  intro c hc
  simp only [List.mem_cons, List.not_mem_nil, or_false] at hc
  rcases hc with rfl | rfl
  · exact ⟨by norm_num, by norm_num, by norm_num, by norm_num, by norm_num, by norm_num [CPC.y], "A".toList, "B".toList, by decide⟩
  · exact ⟨by norm_num, by norm_num, by norm_num, by norm_num, by norm_num, by norm_num [CPC.y], "A".toList, "C".toList, by decide⟩)
  (Or.inr ⟨_, List.mem_cons_self, _, List.mem_cons_of_mem _ List.mem_cons_self, by
    rw [(pools_named ..).1, (pools_named ..).2]
    have e1 : (⟨100, 10, 10, 10, "A/C".toList, none, []⟩ : CPC ℝ).tknb = "A".toList := rfl
    have e2 : (⟨100, 10, 10, 10, "A/C".toList, none, []⟩ : CPC ℝ).tknq = "C".toList := rfl
    rw [e1, e2]
    decide⟩) none none 5
example := C138_maximum cheap_pair (p := 1) (q := 2) (by norm_num) (by norm_num)
example : ∃ s n, simpleRun farPools none none n = some (.ok (.result s)) ∧ ∃ ts, s.tradeInstructions = .ok ts := by
  obtain ⟨s, n, h, -⟩ := C138_search_violated
  obtain ⟨ts, h1, -⟩ := C138_instructions farPools_pair h
  exact ⟨s, n, h, ts, h1⟩

/-! The tables of trade instructions. -/

theorem sample_clean : ∀ t ∈ sample, Clean t := by
  intro t ht
  unfold sample at ht
  simp only [List.mem_cons, List.not_mem_nil, or_false] at ht
  rcases ht with rfl | rfl
  · exact ⟨by decide +kernel, by decide +kernel, by decide +kernel⟩
  · exact ⟨by decide +kernel, by decide +kernel, by decide +kernel⟩

theorem sample_signs : ∀ t ∈ sample, Signs t := by
  intro t ht
  unfold sample at ht
  simp only [List.mem_cons, List.not_mem_nil, or_false] at ht
  unfold Signs
  rcases ht with rfl | rfl <;> norm_num

example := C139_raw (l := sample) (by simp [sample]) sample_clean
example := C139_aggregated (l := sample) (by simp [sample]) sample_clean sample_signs
example := C139_pretty (l := sample) (by simp [sample])
example := C139_dxdy (rows := twoTrades) (by simp [twoTrades]) (by decide +kernel)
example := C139_margp twoPools_input (by
  intro c hc
  rw [twoPools_curves] at hc
  simp only [List.mem_cons, List.not_mem_nil, or_false] at hc
  rcases hc with rfl | rfl <;> rw [(pools_named ..).1, (pools_named ..).2] <;> decide)

/-! The router with whole numbers. -/

example := Prop.FloorRouter.C127_scaled_partial (e := { B := some 2, S := some 1, y := some 5, yint := some 7 }) (c := ⟨2, 1, 7, 4, 9, 5, false⟩) (by
  unfold Floor.entryOrder Curve.init Curve.shape Curve.capacity
  norm_num) (l := 2) (s := 1) (by norm_num) (by norm_num)

end Carbon.Witness
