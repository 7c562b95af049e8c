import Verif.Helpers.StartCond
import Verif.Prop.RunSim
import Mathlib.Tactic.FieldSimp
import Mathlib.Tactic.Ring

/-!
# C140: start conditions
-/

namespace Carbon

open CarbonPair (pyDiv)

namespace StartCond

section
variable {K : Type} [Field K] [LinearOrder K] [IsStrictOrderedRing K]

/-- C140: from four boundaries, two prices, two weights, a valuation and a chart a strategy results that has these ranges and prices; its
amounts are worth the valuation at the first price of the chart, in the ratio of the weights. -/
theorem C140_strategy (d : StartCond K) (sb sa ba bb ms mb w0 w1 v p0 : K) (vs ps : List K) (hb : d.boundaries = some [sb, sa, ba, bb])
    (hm : d.prices = some [ms, mb]) (hw : d.weights = some [w0, w1]) (hv : d.valuation = some (v :: vs)) (hc : d.chart = some (p0 :: ps))
    (h1 : w0 + w1 ≠ 0) (h2 : p0 ≠ 0) (h3 : v * w1 ≠ 0) :
    ∃ s x y, d.strategyCarbon = .ok s ∧ s.pSellA = sa ∧ s.pSellB = sb ∧ s.pBuyA = ba ∧ s.pBuyB = bb ∧ s.psellMarginal = some ms ∧
      s.pbuyMarginal = some mb ∧ s.yIntSell = none ∧ s.yIntBuy = none ∧ s.rsk = "RSK".toList ∧ s.csh = "CSH".toList ∧
      s.amtRsk = some x ∧ s.amtCsh = some y ∧ x * p0 + y = v ∧ x * p0 * w1 = y * w0 := by
  have hy : v / (w0 + w1) * w1 ≠ 0 := by
    rw [div_mul_eq_mul_div]
    exact div_ne_zero h3 h1
  refine ⟨Strat.make sa sb ba bb (some (v / (w0 + w1) * w0 / p0)) (some (v / (w0 + w1) * w1)) (some ms) (some mb),
    v / (w0 + w1) * w0 / p0, v / (w0 + w1) * w1, ?_, rfl, rfl, rfl, rfl, rfl, rfl, rfl, rfl, rfl, rfl, rfl, ?_, ?_, ?_⟩
  · unfold strategyCarbon startingValuation
    rw [hb, hm, hw, hv, hc]
    simp only [raw, four, two, at0, Py.ok_bind, UICurve.pyDiv_ok h1, UICurve.pyDiv_ok h2]
  · simp only [Strat.make]
    rw [if_neg (by simpa using hy)]
  · field_simp
  · field_simp

/-- Half of 2000 in cash, half in the risk asset at a price of 200. -/
example : (⟨some [120, 110, 90, 80], some [110, 90], some [1, 1], some [2000], some [200, 210], none, 0, 1⟩ : StartCond ℚ).strategyCarbon =
    .ok (Strat.make 110 120 90 80 (some 5) (some 1000) (some 110) (some 90)) := by decide +kernel

/-- C140: whatever the data, if there is a strategy then there are just four boundaries, two prices and two weights, a valuation, and a chart
with a first price other than zero. -/
theorem C140_complete (d : StartCond K) (s : Strat K) (h : d.strategyCarbon = .ok s) :
    ∃ sb sa ba bb ms mb w0 w1 v p0 vs ps, d.boundaries = some [sb, sa, ba, bb] ∧ d.prices = some [ms, mb] ∧ d.weights = some [w0, w1] ∧
      d.valuation = some (v :: vs) ∧ d.chart = some (p0 :: ps) ∧ w0 + w1 ≠ 0 ∧ p0 ≠ 0 := by
  unfold strategyCarbon at h
  obtain ⟨r, e1, h⟩ := Py.bind_eq_ok.1 h
  obtain ⟨r', e2, h⟩ := Py.bind_eq_ok.1 h
  obtain ⟨m, e3, h⟩ := Py.bind_eq_ok.1 h
  obtain ⟨m', e4, h⟩ := Py.bind_eq_ok.1 h
  obtain ⟨w, e5, h⟩ := Py.bind_eq_ok.1 h
  obtain ⟨w', e6, h⟩ := Py.bind_eq_ok.1 h
  obtain ⟨v, e7, h⟩ := Py.bind_eq_ok.1 h
  obtain ⟨f, e8, h⟩ := Py.bind_eq_ok.1 h
  obtain ⟨c, e9, h⟩ := Py.bind_eq_ok.1 h
  obtain ⟨p0, e10, h⟩ := Py.bind_eq_ok.1 h
  obtain ⟨x, e11, h⟩ := Py.bind_eq_ok.1 h
  have some_of : ∀ {x : Option (List K)} {l : List K}, raw x = .ok l → x = some l := by
    intro x l hx
    unfold raw at hx
    split at hx <;> cases hx
    rfl
  have nz : ∀ {a b q : K}, pyDiv a b = .ok q → b ≠ 0 := by
    intro a b q hq hb
    unfold CarbonPair.pyDiv at hq
    rw [if_pos hb] at hq
    cases hq
  unfold startingValuation at e7
  obtain ⟨vl, e7, e7'⟩ := Py.bind_eq_ok.1 e7
  unfold four at e2
  unfold two at e4 e6
  unfold at0 at e7' e10
  split at e2 <;> cases e2
  split at e4 <;> cases e4
  split at e6 <;> cases e6
  split at e7' <;> cases e7'
  split at e10 <;> cases e10
  exact ⟨_, _, _, _, _, _, _, _, _, _, _, _, some_of e1, some_of e3, some_of e5, some_of e7, some_of e9, nz e8, nz e11⟩

/-- C140 fails for conditions without cash: the valuation is all in the risk asset, and `MIN_SEED_AMT` of cash comes on top. -/
theorem C140_seed_violated (d : StartCond K) (sb sa ba bb ms mb w0 w1 v p0 : K) (vs ps : List K) (hb : d.boundaries = some [sb, sa, ba, bb])
    (hm : d.prices = some [ms, mb]) (hw : d.weights = some [w0, w1]) (hv : d.valuation = some (v :: vs)) (hc : d.chart = some (p0 :: ps))
    (h1 : w0 + w1 ≠ 0) (h2 : p0 ≠ 0) (h3 : v * w1 = 0) :
    ∃ s x y, d.strategyCarbon = .ok s ∧ s.amtRsk = some x ∧ s.amtCsh = some y ∧ x * p0 + y = v + 1 / 10 ^ 10 := by
  have hy : v / (w0 + w1) * w1 = 0 := by
    rw [div_mul_eq_mul_div, h3, zero_div]
  refine ⟨Strat.make sa sb ba bb (some (v / (w0 + w1) * w0 / p0)) (some (v / (w0 + w1) * w1)) (some ms) (some mb),
    v / (w0 + w1) * w0 / p0, Strat.minSeed, ?_, rfl, ?_, ?_⟩
  · unfold strategyCarbon startingValuation
    rw [hb, hm, hw, hv, hc]
    simp only [raw, four, two, at0, Py.ok_bind, UICurve.pyDiv_ok h1, UICurve.pyDiv_ok h2]
  · simp only [Strat.make]
    rw [if_pos (by rw [hy])]
  · have : v / (w0 + w1) * w0 = v := by
      have e : v / (w0 + w1) * w0 + v / (w0 + w1) * w1 = v := by field_simp
      rw [hy, add_zero] at e
      exact e
    rw [div_mul_cancel₀ _ h2, this]
    rfl

end

section
variable {K : Type} [Field K] [LinearOrder K] [IsStrictOrderedRing K]

/-- C140: the path of a chart with at least two prices has one date per price; it begins with the start date, ends with the end date, and
the dates are equally far apart, so that they increase if the end comes after the start. -/
theorem C140_path (d : StartCond K) (c : List K) (hc : d.chart = some c) (n : Nat) (hn : c.length = n + 2) :
    ∃ l, d.path = .ok l ∧ l.map Prod.snd = c ∧ (∃ q, l[0]? = some (d.startDt, q)) ∧ (∃ q, l[n + 1]? = some (d.endDt, q)) ∧
      (∀ (i : Nat) (a b : K × K), l[i]? = some a → l[i + 1]? = some b → b.1 - a.1 = (d.endDt - d.startDt) / (n + 1)) ∧
      (d.startDt < d.endDt → l.Pairwise fun a b => a.1 < b.1) := by
  have hpos : (0 : K) < (n : K) + 1 := by positivity
  obtain ⟨dt, hdt⟩ : ∃ dt : K, dt = (d.endDt - d.startDt) / (n + 1) := ⟨_, rfl⟩
  have hstep : d.timeStep = .ok dt := by
    unfold timeStep numPoints
    rw [hc]
    simp only [raw, Py.ok_bind, hn]
    rw [show (((n + 2 : Nat) : K) - 1) = (n : K) + 1 by push_cast; ring, UICurve.pyDiv_ok hpos.ne', hdt]
  obtain ⟨t, ht⟩ : ∃ t : List K, t = (List.range (n + 2 + 1)).map fun i : Nat => d.startDt + (i : K) * dt := ⟨_, rfl⟩
  have hdates : d.datetime = .ok t := by
    unfold datetime numPoints
    rw [hstep, hc]
    simp only [raw, Py.ok_bind, hn, ht]
  have hlen : t.length = n + 3 := by rw [ht]; simp
  have hpath : d.path = .ok (t.zip c) := by
    unfold path
    rw [hdates, hc]
    simp only [raw, Py.ok_bind]
  have get : ∀ (i : Nat) (a : K × K), (t.zip c)[i]? = some a → a.1 = d.startDt + (i : K) * dt := by
    intro i a ha
    have h1 := (List.getElem?_zip_eq_some.mp ha).1
    rw [ht, List.getElem?_map] at h1
    obtain ⟨j, hj, e⟩ := Option.map_eq_some_iff.mp h1
    have := List.getElem?_range (n := n + 2 + 1) (i := i) (by
      by_contra hh
      rw [List.getElem?_eq_none (by simpa using hh)] at hj
      cases hj)
    rw [this] at hj
    cases hj
    exact e.symm
  have zlen : (t.zip c).length = n + 2 := by rw [List.length_zip, hlen, hn]; omega
  have ex : ∀ i : Nat, i < n + 2 → ∃ q, (t.zip c)[i]? = some (d.startDt + (i : K) * dt, q) := by
    intro i hi
    have h := List.getElem?_eq_getElem (l := t.zip c) (i := i) (by omega)
    refine ⟨((t.zip c)[i]'(by omega)).2, ?_⟩
    rw [h]
    congr 1
    exact Prod.ext (get i _ h) rfl
  refine ⟨t.zip c, hpath, ?_, ?_, ?_, ?_, ?_⟩
  · rw [List.map_snd_zip]
    omega
  · obtain ⟨q, hq⟩ := ex 0 (by omega)
    refine ⟨q, ?_⟩
    rw [hq]
    simp
  · obtain ⟨q, hq⟩ := ex (n + 1) (by omega)
    refine ⟨q, ?_⟩
    rw [hq, hdt]
    congr 2
    push_cast
    field_simp
    ring
  · intro i a b ha hb
    rw [get _ _ ha, get _ _ hb, hdt]
    push_cast
    ring
  · intro hlt
    have hdpos : 0 < dt := by rw [hdt]; exact div_pos (by linarith) hpos
    rw [List.pairwise_iff_getElem]
    intro i j hi hj hij
    rw [get i _ (List.getElem?_eq_getElem hi), get j _ (List.getElem?_eq_getElem hj)]
    have : (i : K) < (j : K) := by exact_mod_cast hij
    nlinarith

/-- Three prices in a year of 366 days. -/
example : (⟨none, none, none, none, some [7, 8, 9], none, 1000, 1366⟩ : StartCond ℚ).path = .ok [(1000, 7), (1183, 8), (1366, 9)] := by
  decide +kernel

end

section
variable {K : Type} [Field K] [LinearOrder K] [IsStrictOrderedRing K]

/-- C140 fails for a chart with a single price: the length of a step is the time divided by zero, so there is no path. (A chart without any
price has one, the empty path.) -/
theorem C140_single_violated (d : StartCond K) (q : K) (hc : d.chart = some [q]) :
    d.path = .error .zeroDiv ∧ ({ d with chart := some [] }.path) = .ok [] := by
  constructor
  · unfold path datetime timeStep numPoints
    rw [hc]
    simp [raw, pyDiv, Py.ok_bind, Py.error_bind]
  · unfold path datetime timeStep numPoints
    simp only [raw, Py.ok_bind, List.length_nil, Nat.cast_zero, zero_sub]
    rw [UICurve.pyDiv_ok (neg_ne_zero.mpr one_ne_zero)]
    simp only [Py.ok_bind, List.zip_nil_right]

end

open RunSim

/-- C140: the portfolio of a simulation that starts from these conditions is worth the valuation at the start, whatever the first price and
the shift. -/
theorem C140_simulated (d : StartCond ℝ) (s : Strat ℝ) (v : ℝ) (vs : List ℝ) (c : List ℝ) (hs : d.strategyCarbon = .ok s)
    (hv : d.valuation = some (v :: vs)) (hc : d.chart = some c) (p : CarbonPair) (shift : Option ℝ) (h : Setup p [s] c shift)
    (w0 w1 : ℝ) (hw : d.weights = some [w0, w1]) (h3 : v * w1 ≠ 0) :
    ∃ r, runSim [s] c shift = .ok r ∧ r.spot = c ∧ r.value[0]? = some v ∧ r.hodl[0]? = some v := by
  obtain ⟨sb, sa, ba, bb, ms, mb, w0', w1', v', p0, vs', ps, e1, e2, e3, e4, e5, n1, n2⟩ := C140_complete d s hs
  rw [hw] at e3
  rw [hv] at e4
  rw [hc] at e5
  cases e3
  cases e4
  cases e5
  obtain ⟨s', x, y, hs', _, _, _, _, _, _, _, _, _, _, hx, hy, hval, _⟩ := C140_strategy d sb sa ba bb ms mb w0 w1 v p0 vs ps e1 e2 hw hv hc n1 n2 h3
  rw [hs] at hs'
  cases hs'
  obtain ⟨r, hr, hsp, _, hr0, hc0, _⟩ := C96_runs p [s] (p0 :: ps) shift h
  obtain ⟨_, _, _, _, _, _, _, hv0, hh0⟩ := C96_series _ _ _ r hr
  have q0 : r.spot[0]? = some p0 := by rw [hsp]; rfl
  have a := hv0 0 p0 _ _ q0 hr0 hc0
  have b := hh0 0 p0 _ _ q0 hr0 hc0
  rw [List.map_singleton, List.sum_singleton, List.map_singleton, List.sum_singleton, hx, hy, Option.getD_some, Option.getD_some, hval] at a b
  exact ⟨r, hr, hsp, a, b⟩

/-- C140 fails for the ranges: the boundaries of the start conditions are prices, but the strategy is marked for rescaling, so a simulation
from a first price other than 100 uses other boundaries, all of them off by the factor of this price to 100. -/
theorem C140_ranges_violated (d : StartCond ℝ) (s : Strat ℝ) (sb sa ba bb p0 : ℝ) (ps : List ℝ) (hs : d.strategyCarbon = .ok s)
    (hb : d.boundaries = some [sb, sa, ba, bb]) (hc : d.chart = some (p0 :: ps)) (p : CarbonPair) (h : Setup p [s] (p0 :: ps) none)
    (hp : p0 ≠ 100) :
    ∃ r t, runSim [s] (p0 :: ps) none = .ok r ∧ r.strat = [t] ∧ t.pSellA = sa * (p0 / 100) ∧ t.pSellB = sb * (p0 / 100) ∧
      t.pBuyA = ba * (p0 / 100) ∧ t.pBuyB = bb * (p0 / 100) ∧ t.pSellA ≠ sa ∧ t.pSellB ≠ sb ∧ t.pBuyA ≠ ba ∧ t.pBuyB ≠ bb := by
  obtain ⟨r, hr, _, hst, _⟩ := C96_runs p [s] (p0 :: ps) none h
  obtain ⟨sb', sa', ba', bb', ms, mb, w0, w1, v, p0', vs, ps', e1, e2, e3, e4, e5, n1, n2⟩ := C140_complete d s hs
  rw [hb] at e1
  rw [hc] at e5
  cases e1
  cases e5
  have shape : s.pSellA = sa ∧ s.pSellB = sb ∧ s.pBuyA = ba ∧ s.pBuyB = bb ∧ s.rescale = true := by
    unfold strategyCarbon startingValuation at hs
    rw [hb, e2, e3, e4, hc] at hs
    simp only [raw, four, two, at0, Py.ok_bind, UICurve.pyDiv_ok n1, UICurve.pyDiv_ok n2] at hs
    cases hs
    exact ⟨rfl, rfl, rfl, rfl, rfl⟩
  obtain ⟨q1, q2, q3, q4, q5⟩ := shape
  have hf := h.fit s (List.mem_singleton.mpr rfl)
  have hp0 : 0 < p0 := h.pos p0 List.mem_cons_self
  rw [List.map_singleton, if_pos q5] at hst
  have ne : ∀ a : ℝ, a * (p0 / 100) ≠ 0 → a * (p0 / 100) ≠ a := by
    intro a ha e
    have ha0 : a ≠ 0 := fun hh => ha (by rw [hh, zero_mul])
    have : p0 / 100 = 1 := mul_left_cancel₀ ha0 (by rw [e, mul_one])
    exact hp (by linarith [(div_eq_iff (by norm_num : (100 : ℝ) ≠ 0)).mp this])
  have hfac : factor (p0 :: ps) none = p0 / 100 := by
    unfold factor
    rw [List.headD_cons, Option.getD_none, add_zero, mul_one]
  rw [hfac] at hf
  unfold start at hf
  rw [if_pos q5] at hf
  have k1 := hf.sell.ha.ne'
  have k2 := hf.sell.hb.ne'
  have k3 := hf.buy.ha.ne'
  have k4 := hf.buy.hb.ne'
  simp only [Strat.scaled, q1, q2, q3, q4] at k1 k2 k3 k4
  refine ⟨r, _, hr, hst, ?_⟩
  simp only [Strat.scaled, List.headD_cons, Option.getD_none, add_zero, mul_one, q1, q2, q3, q4]
  exact ⟨trivial, trivial, trivial, trivial, ne _ k1, ne _ k2, ne _ k3, ne _ k4⟩

/-- Start conditions with the given chart. -/
noncomputable def sampleCond (chart : List ℝ) : StartCond ℝ :=
  ⟨some [120, 110, 90, 80], some [110, 90], some [1, 1], some [2000], some chart, none, 0, 1⟩

/-- The strategy of the sample at a first price of 200. -/
noncomputable def sampleStrat : Strat ℝ := Strat.make 110 120 90 80 (some 5) (some 1000) (some 110) (some 90)

/-- The pair of names that are used by default. -/
def rskcsh : CarbonPair := CarbonPair.finish "RSK".toList "CSH".toList false none none

theorem sampleCond_strategy : (sampleCond [200, 230, 180]).strategyCarbon = .ok sampleStrat := by
  unfold strategyCarbon startingValuation sampleCond sampleStrat
  simp only [raw, four, two, at0, Py.ok_bind]
  rw [UICurve.pyDiv_ok (by norm_num), Py.ok_bind, UICurve.pyDiv_ok (by norm_num), Py.ok_bind]
  norm_num

theorem sampleStrat_setup : Setup rskcsh [sampleStrat] [200, 230, 180] none := by
  have e : sampleStrat.amtCsh = some 1000 := by
    unfold sampleStrat Strat.make
    dsimp only
    rw [if_neg (by norm_num)]
  have e1 : sampleStrat.rsk = "RSK".toList := rfl
  have e2 : sampleStrat.csh = "CSH".toList := rfl
  have e3 : sampleStrat.slashpair = "RSK/CSH".toList := by
    unfold Strat.slashpair; rw [e1, e2]; decide +kernel
  have fit : Fit rskcsh sampleStrat := by
    refine ⟨by rw [e3]; decide +kernel, by rw [e1]; decide +kernel, by rw [e2]; decide +kernel, by decide +kernel, ?_, ?_⟩
    · refine ⟨?_, ?_, ?_, ?_, ?_, (by intro m hm; cases hm)⟩
      · simp only [sampleStrat, Strat.make]; norm_num
      · simp only [sampleStrat, Strat.make]; norm_num
      · simp only [sampleStrat, Strat.make]; norm_num
      · simp only [sampleStrat, Strat.make]; norm_num
      · intro m hm
        cases hm
        simp only [sampleStrat, Strat.make]
        norm_num
    · refine ⟨?_, ?_, ?_, ?_, ?_, (by intro m hm; cases hm)⟩
      · simp only [sampleStrat, Strat.make]; norm_num
      · simp only [sampleStrat, Strat.make]; norm_num
      · simp only [sampleStrat, Strat.make]; norm_num
      · rw [e]; norm_num
      · intro m hm
        cases hm
        simp only [sampleStrat, Strat.make]
        norm_num
  have hf : factor [200, 230, 180] none = 2 := by
    unfold factor
    rw [List.headD_cons]
    norm_num
  refine ⟨by simp, by simp, ?_, ?_, ?_⟩
  · intro q hq
    simp only [List.mem_cons, List.not_mem_nil, or_false] at hq
    rcases hq with rfl | rfl | rfl <;> norm_num
  · intro s hs
    rw [List.mem_singleton.mp hs, hf]
    exact C96_rescaled _ _ fit 2 two_pos (Or.inl rfl)
  · intro s hs
    rw [List.mem_singleton.mp hs, e]
    norm_num

/-- The sample starts with a value of 2000, and it sells from 220 on although the conditions say 110. -/
example : ∃ r t, runSim [sampleStrat] [200, 230, 180] none = .ok r ∧ r.value[0]? = some 2000 ∧ r.strat = [t] ∧ t.pSellA = 220 := by
  obtain ⟨r, hr, _, hv, _⟩ := C140_simulated (sampleCond [200, 230, 180]) sampleStrat 2000 [] [200, 230, 180] sampleCond_strategy rfl rfl
    rskcsh none sampleStrat_setup 1 1 rfl (by norm_num)
  obtain ⟨r', t, hr', ht, hp, _⟩ := C140_ranges_violated (sampleCond [200, 230, 180]) sampleStrat 120 110 90 80 200 [230, 180]
    sampleCond_strategy rfl rfl rskcsh sampleStrat_setup (by norm_num)
  rw [hr] at hr'
  cases hr'
  exact ⟨r, t, hr, hv, ht, by rw [hp]; norm_num⟩

end StartCond

end Carbon
