import Verif.Prop.ExactSplit
import Verif.Prop.TradeOutcome
import Verif.Prop.Effective
import Verif.Prop.OrderBook

/-!
# C157: the order book of a simulator

What the order book of `sim_analytics` shows for the simulated trades of a simulator with the exact router, for any sizes.
-/

namespace Carbon.Analytics

open Sim

/-- The list of simulated trades of which an order book is made, `[simulate_trades(size, side) for size in sizes]`
(carbon/tests/ui_tests/analytics/test_analytics_features.py:34): one after another, on the simulator as the one before left it. -/
noncomputable def simulateAll (own : Option (Sim ℝ)) (side : Str) (p : CarbonPair) : Sim ℝ → List ℝ → Py (List (Option ℝ)) × Option (Sim ℝ)
  | s, [] => (.ok [], some s)
  | s, x :: l =>
    match simulateTrades own x side (some s) (some p) with
    | (.error e, s') => (.error e, s')
    | (.ok _, none) => (.error .attr, none)
    | (.ok v, some s') =>
      match simulateAll own side p s' l with
      | (.error e, s'') => (.error e, s'')
      | (.ok vs, s'') => (.ok (v :: vs), s'')

/-! ## Simulated trades leave the book -/

/-- Nothing that matters for trades differs from a given simulator. -/
structure Calm (s0 s : Sim ℝ) : Prop where
  reach : Reachable s
  healthy : Healthy s
  links : Links s
  orders : s.orders = s0.orders
  method : s.method = s0.method
  pair : s.pair = s0.pair

theorem Calm.preview {s0 s : Sim ℝ} (h : Calm s0 s) (buys : Bool) (a : TradeArgs ℝ) (ha : a.execute = false) : Calm s0 (s.call buys a).2 := by
  have ho := C34_dry_run s buys a ha
  have hf : Frame s (s.call buys a).2 := by
    unfold call
    cases buys with
    | true => exact ammBuys_frame s a
    | false => exact ammSells_frame s a
  refine ⟨?_, ⟨?_, ?_, ?_⟩, ?_, ho.trans h.orders, hf.method.trans h.method, hf.pair.trans h.pair⟩
  · obtain ⟨pair, roe, m, ef, s1, ops, e1, e2⟩ := h.reach
    refine ⟨pair, roe, m, ef, s1, ops ++ [if buys then .buys a else .sells a], e1, ?_⟩
    unfold run
    rw [List.foldl_append, List.foldl_cons, List.foldl_nil, show ops.foldl step s1 = s from e2.symm]
    cases buys <;> rfl
  · exact h.healthy.ids.of_frame hf
  · intro k o hk
    rw [ho] at hk
    exact h.healthy.bal k o hk
  · intro k o hk
    rw [ho] at hk
    exact h.healthy.shape k o hk
  · exact h.links.of_frame hf

theorem simulateTrades_eq (own : Option (Sim ℝ)) (s : Sim ℝ) (buys : Bool) (x : ℝ) (p : CarbonPair) :
    simulateTrades own x (if buys then bid else ask) (some s) (some p) =
      (.ok ((lastRec s buys p.tknb x (.str p.slashpair)).1.map fun r => if buys then r.amt1 else r.amt2),
        some (lastRec s buys p.tknb x (.str p.slashpair)).2) := by
  obtain ⟨_, _, _, _, _, hne⟩ := names
  cases buys with
  | true =>
    unfold simulateTrades
    dsimp only
    rw [if_neg (show (if true = true then bid else ask) ≠ ask from hne), if_pos (show (if true = true then bid else ask) = bid from rfl)]
    rfl
  | false =>
    unfold simulateTrades
    dsimp only
    rw [if_pos (show (if false = true then bid else ask) = ask from rfl)]
    rfl

/-- The value of a simulated trade from the trade that succeeds. -/
theorem simulate_succeeds {s0 s : Sim ℝ} (h : Calm s0 s) (own : Option (Sim ℝ)) (buys : Bool) (x : ℝ) (p : CarbonPair) {recs : List (TradeRec ℝ)}
    {rec : TradeRec ℝ} {s1 : Sim ℝ} (hc : s.call buys { tkn := p.tknb, amt := x, pair := .str p.slashpair } = (.ok recs, s1)) (hm : rec ∈ recs)
    (hu : rec.uid = (s.numtrades, none)) :
    ∃ s', simulateTrades own x (if buys then bid else ask) (some s) (some p) = (.ok (some (if buys then rec.amt1 else rec.amt2)), some s') ∧ Calm s0 s' := by
  obtain ⟨_, routes, agg, _, r2, _, r4, _, _, _, r8, _⟩ := C104_records s s1 h.reach buys _ recs hc
  have hag : rec = agg := by
    rw [r2] at hm
    rcases List.mem_append.mp hm with hm | hm
    · obtain ⟨i, hi⟩ := List.getElem?_of_mem hm
      have := (r8 i rec hi).1
      rw [hu] at this
      cases this
    · exact List.mem_singleton.mp hm
  rw [simulateTrades_eq]
  rcases (last_spec s h.reach h.healthy h.links buys p.tknb x (.str p.slashpair)).2 with ⟨_, e, he⟩ | ⟨_, recs', agg', last, _, c2, c3, c4, c5, c6, _⟩
  · rw [hc] at he
    cases he
  · rw [hc] at c2
    cases c2
    rw [r2, List.getLast?_concat] at c3
    cases c3
    refine ⟨(lastRec s buys p.tknb x (.str p.slashpair)).2, by rw [c4]; cases buys <;> simp [hag, c5, c6], ?_⟩
    rw [lastRec_eq]
    exact h.preview buys _ rfl

theorem simulate_refused {s0 s : Sim ℝ} (h : Calm s0 s) (own : Option (Sim ℝ)) (buys : Bool) (x : ℝ) (p : CarbonPair)
    (hc : Refused s buys { tkn := p.tknb, amt := x, pair := .str p.slashpair }) :
    ∃ s', simulateTrades own x (if buys then bid else ask) (some s) (some p) = (.ok none, some s') ∧ Calm s0 s' := by
  obtain ⟨e, he⟩ := hc
  rw [simulateTrades_eq]
  rcases (last_spec s h.reach h.healthy h.links buys p.tknb x (.str p.slashpair)).2 with ⟨c1, _⟩ | ⟨_, recs', agg', last, _, c2, _⟩
  · refine ⟨_, by rw [c1]; rfl, ?_⟩
    rw [lastRec_eq]
    exact h.preview buys _ rfl
  · rw [he] at c2
    cases c2

/-- A list of sizes, the first within what can be traded, the others beyond it. -/
theorem simulateAll_spec {own : Option (Sim ℝ)} {buys : Bool} {p : CarbonPair} {s0 : Sim ℝ} {cap : ℝ} {V : ℝ → ℝ}
    (hV : ∀ s, Calm s0 s → ∀ x, 0 < x → ∃ s', simulateTrades own x (if buys then bid else ask) (some s) (some p) =
      (.ok (if x ≤ cap then some (V x) else none), some s') ∧ Calm s0 s') :
    ∀ (l : List ℝ) (s : Sim ℝ), Calm s0 s → (∀ x ∈ l, 0 < x) → ∃ s', simulateAll own (if buys then bid else ask) p s l =
      (.ok (l.map fun x => if x ≤ cap then some (V x) else none), some s') ∧ Calm s0 s'
  | [], s, hs, _ => ⟨s, rfl, hs⟩
  | x :: l, s, hs, hp => by
    obtain ⟨s', e1, h1⟩ := hV s hs x (hp x List.mem_cons_self)
    obtain ⟨s'', e2, h2⟩ := simulateAll_spec hV l s' h1 fun y hy => hp y (List.mem_cons_of_mem _ hy)
    refine ⟨s'', ?_, h2⟩
    unfold simulateAll
    rw [e1]
    dsimp only
    rw [e2]
    rfl

/-! ## What a size is traded for -/

/-- The curves that can serve a trade. -/
noncomputable def curves (s : Sim ℝ) (p r : CarbonPair) (tkn : Str) : List (Curve ℝ) := (suppliers s p r tkn none).map (·.curve)

theorem curves_eq {s0 s : Sim ℝ} (h : Calm s0 s) (p r : CarbonPair) (tkn : Str) :
    (s.applicable p r tkn none).map (fun e => e.2.curve) = curves s0 p r tkn := by
  have : suppliers s0 p r tkn none = suppliers s p r tkn none := by
    unfold suppliers
    rw [h.orders]
  unfold curves
  rw [this, suppliers_eq h.healthy.ids, List.map_map]
  rfl

theorem curves_good {s0 : Sim ℝ} (h : Healthy s0) (p r : CarbonPair) (tkn : Str) : ∀ c ∈ curves s0 p r tkn, c.Good := by
  intro c hc
  unfold curves at hc
  rw [suppliers_eq h.ids, List.map_map] at hc
  obtain ⟨e, he, rfl⟩ := List.mem_map.mp hc
  exact (app_good h he).1

theorem getPair_calm {s0 s : Sim ℝ} (h : Calm s0 s) (a : CarbonPair.Arg) : s.getPair a = s0.getPair a := by
  unfold getPair
  rw [h.pair]

/-- What the exact router is asked for all amounts of a token, and what the simulated sales then report. -/
theorem ask_value {s0 : Sim ℝ} (h0 : Healthy s0) (hm : s0.method = .exact) (own : Option (Sim ℝ)) (p p' r : CarbonPair)
    (hp : s0.getPair (.str p.slashpair) = .ok p') (hr : p'.reverse = .ok r) (ht : p'.hasToken p.tknb = true) (held : ℝ)
    (hh : held = ((suppliers s0 p' r p.tknb none).map fun o => o.curve.y).sum) :
    ∃ F : ℝ → ℝ, (∀ a b c, 0 ≤ a → a < b → b < c → c ≤ held → (F b - F a) / (b - a) < (F c - F b) / (c - b)) ∧ F 0 = 0 ∧
      (∀ a b, 0 ≤ a → a < b → b ≤ held → F a < F b) ∧
      ∀ s, Calm s0 s → ∀ x, 0 < x → ∃ s', simulateTrades own x (if false then bid else ask) (some s) (some p) =
        (.ok (if x ≤ held then some (F x) else none), some s') ∧ Calm s0 s' := by
  have hg := curves_good h0 p' r p.tknb
  have hps : ExactRouter.Positions (curves s0 p' r p.tknb) [] (List.range (curves s0 p' r p.tknb).length) := ⟨List.nodup_nil, by simp, rfl⟩
  have htot : ExactRouter.total (List.range (curves s0 p' r p.tknb).length) (ExactRouter.yAt (curves s0 p' r p.tknb)) = held := by
    rw [hh, show ExactRouter.yAt (curves s0 p' r p.tknb) = fun i => (((curves s0 p' r p.tknb)[i]?).map Curve.y).getD 0 from rfl, total_range]
    unfold curves
    rw [List.map_map]
    rfl
  obtain ⟨F, hF0, hF⟩ := ExactRouter.payments hg hps false
  rw [htot] at hF
  have hmarg := ExactRouter.C156_marginal _ hg [] _ hps false F hF0 held htot.symm fun x h1 h2 => by
    obtain ⟨acts, e, _, _, h3⟩ := hF x h1 h2
    exact ⟨acts, e, h3⟩
  have hpos : ∀ (acts : List (Action ℝ)), ExactRouter.Executable (curves s0 p' r p.tknb) acts → ∀ b ∈ acts, b.output < 0 ∧ 0 < b.input := by
    intro acts h2 b hb
    obtain ⟨c, hc, hlo, hneg, hd⟩ := h2.2.2 b hb
    have hgc := hg c (List.mem_of_getElem? hc)
    have := ExactRouter.cost_anti hgc hlo hneg
    rw [ExactRouter.cost_zero hgc, ExactRouter.costOf_eq hd] at this
    exact ⟨hneg, this⟩
  have hFpos : ∀ x, 0 < x → x ≤ held → 0 < F x := by
    intro x h1 h2
    obtain ⟨acts, _, h3, h4, h5⟩ := hF x h1 h2
    rw [← h5]
    refine List.sum_pos _ ?_ ?_
    · intro y hy
      obtain ⟨b, hb, rfl⟩ := List.mem_map.mp hy
      exact (hpos acts h3 b hb).2
    · intro e
      rw [List.map_eq_nil_iff] at e
      rw [e] at h4
      simp at h4
      linarith
  refine ⟨F, hmarg, hF0, ?_, ?_⟩
  · intro a b ha hab hb
    rcases ha.eq_or_lt with rfl | ha
    · rw [hF0]
      exact hFpos b hab hb
    · have h1 := hmarg 0 a b le_rfl ha hab hb
      rw [hF0, sub_zero, sub_zero] at h1
      have h2 := (div_pos (hFpos a ha (by linarith)) ha).trans h1
      have := (div_pos_iff_of_pos_right (by linarith)).mp h2
      linarith
  · intro s hs x hx
    have hp1 : s.getPair (.str p.slashpair) = .ok p' := (getPair_calm hs _).trans hp
    have hm1 : s.method = .exact := hs.method.trans hm
    by_cases hle : x ≤ held
    · rw [if_pos hle]
      obtain ⟨acts, e, h2, h3, h4⟩ := hF x hx hle
      have hne : acts ≠ [] := by
        rintro rfl
        simp at h3
        linarith
      obtain ⟨recs, rec, s1, i1, i2, i3, i4, i5, i6, i7⟩ := trade_of_route hs.healthy hs.links
        (a := { tkn := p.tknb, amt := x, pair := .str p.slashpair }) (amt := -x) (byTarget := true) rfl rfl rfl hr
        (by simp [hx.le]) (fun e => by rw [hm1] at e) ht hne (by rw [hm1, curves_eq hs]; exact e)
      have hcall := sells_of_app hs.healthy (a := { tkn := p.tknb, amt := x, pair := .str p.slashpair }) hx.le hp1 hr (by
        intro e
        have h5 := curves_eq hs p' r p.tknb
        rw [e] at h5
        rw [hh] at hle
        have h6 : suppliers s0 p' r p.tknb none = [] := List.map_eq_nil_iff.mp h5.symm
        rw [h6] at hle
        simp at hle
        linarith)
      obtain ⟨s', j1, j2⟩ := simulate_succeeds hs own false x p (hcall.trans i1) i2 i3
      refine ⟨s', ?_, j2⟩
      rw [j1, i7, hm1]
      show (Except.ok (some (acts.map fun b => |b.input|).sum), _) = _
      rw [abs_sum fun b hb => (hpos acts h2 b hb).2.le, h4]
    · rw [if_neg hle]
      refine simulate_refused hs own false x p (sells_refused hx.le rfl rfl hp1 hr (e := .assertion) ?_)
      rw [hm1, curves_eq hs]
      exact (ExactRouter.C69_insufficient _ hg [] _ hps (-x) (by linarith) (by rw [htot]; linarith)).1

/-- What the exact router gives for all payments, and what the simulated purchases then report. -/
theorem bid_value {s0 : Sim ℝ} (h0 : Healthy s0) (hm : s0.method = .exact) (own : Option (Sim ℝ)) (p p' r : CarbonPair)
    (hp : s0.getPair (.str p.slashpair) = .ok p') (hr : p'.reverse = .ok r) (t : Str) (ht : p'.other p.tknb = some t) (cost : Curve ℝ → ℝ)
    (hcost : ∀ o ∈ suppliers s0 p' r t none, o.curve.dxdy (-o.curve.y) = .ok (cost o.curve)) (asked : ℝ)
    (hh : asked = ((suppliers s0 p' r t none).map fun o => cost o.curve).sum) (hne : suppliers s0 p' r t none ≠ []) :
    ∃ G : ℝ → ℝ, (∀ a b c, 0 ≤ a → a < b → b < c → c ≤ asked → (G c - G b) / (c - b) < (G b - G a) / (b - a)) ∧ G 0 = 0 ∧
      (∀ a b, 0 ≤ a → a < b → b ≤ asked → G a ≤ G b) ∧
      ∀ s, Calm s0 s → ∀ x, 0 < x → ∃ s', simulateTrades own x (if true then bid else ask) (some s) (some p) =
        (.ok (if x ≤ asked then some (G x) else none), some s') ∧ Calm s0 s' := by
  have hg := curves_good h0 p' r t
  have htk : p'.hasToken t = true := hasToken_of_other (other_other ht)
  have hps : ExactRouter.Positions (curves s0 p' r t) [] (List.range (curves s0 p' r t).length) := ⟨List.nodup_nil, by simp, rfl⟩
  have hq : ∀ (i : Nat) (c : Curve ℝ), (curves s0 p' r t)[i]? = some c →
      c.dxdy (-c.y) = .ok ((fun i : Nat => (((curves s0 p' r t)[i]?).map cost).getD 0) i) := by
    intro i c hc
    dsimp only
    rw [hc]
    obtain ⟨o, ho, rfl⟩ := List.mem_map.mp (List.mem_of_getElem? hc)
    exact hcost o ho
  have htot : ExactRouter.total (List.range (curves s0 p' r t).length) (fun i : Nat => (((curves s0 p' r t)[i]?).map cost).getD 0) = asked := by
    rw [hh, total_range]
    unfold curves
    rw [List.map_map]
    rfl
  have hpos : ∀ (acts : List (Action ℝ)), ExactRouter.Executable (curves s0 p' r t) acts → ∀ b ∈ acts, b.output < 0 := by
    intro acts h2 b hb
    obtain ⟨c, hc, hlo, hneg, hd⟩ := h2.2.2 b hb
    exact hneg
  have hasked : 0 < asked := by
    rw [hh]
    refine List.sum_pos _ ?_ (by simpa using hne)
    intro y hy
    obtain ⟨o, ho, rfl⟩ := List.mem_map.mp hy
    rw [suppliers_eq h0.ids] at ho
    obtain ⟨e, he, rfl⟩ := List.mem_map.mp ho
    obtain ⟨gd, hy, _⟩ := app_good h0 he
    have := ExactRouter.cost_anti gd le_rfl (show -e.2.curve.y < 0 by linarith)
    rwa [ExactRouter.cost_zero gd, ExactRouter.costOf_eq (hcost e.2 (by rw [suppliers_eq h0.ids]; exact ho))] at this
  obtain ⟨G, hG0, hG⟩ := ExactRouter.receipts hg hps false hq
  rw [htot] at hG
  have hG' : ∀ x, 0 < x → x ≤ asked → ∃ acts, ExactRouter.matchExact (curves s0 p' r t) x false [] false = .ok acts ∧
      (acts.map (·.output)).sum = -G x := fun x h1 h2 => by
    obtain ⟨acts, e, _, _, h3⟩ := hG x h1 h2
    exact ⟨acts, e, h3⟩
  have hmarg := ExactRouter.C156_marginal_source _ hg [] _ hps false _ hq asked htot.symm G hG0 hG'
  refine ⟨G, hmarg, hG0, ?_, ?_⟩
  · intro a b ha hab hb
    rcases ha.eq_or_lt with rfl | ha
    · obtain ⟨acts, e, h1, _, h2⟩ := hG b hab hb
      have h3 := neg_sum (l := acts) (hpos acts h1)
      have h4 : 0 ≤ (acts.map fun b => sold false b.input b.output).sum := List.sum_nonneg fun y hy => by
        obtain ⟨c, _, rfl⟩ := List.mem_map.mp hy
        exact abs_nonneg _
      linarith
    · obtain ⟨acts, acts', e1, e2, h1, _⟩ := ExactRouter.C156_larger_source _ hg [] _ hps a b ha hab.le _ hq (by rw [htot]; exact hb) false
      obtain ⟨acts1, e3, h3⟩ := hG' a ha (by linarith)
      obtain ⟨acts2, e4, h4⟩ := hG' b (by linarith) hb
      rw [e1] at e3
      rw [e2] at e4
      cases e3
      cases e4
      linarith
  · intro s hs x hx
    have hp1 : s.getPair (.str p.slashpair) = .ok p' := (getPair_calm hs _).trans hp
    have hm1 : s.method = .exact := hs.method.trans hm
    by_cases hle : x ≤ asked
    · rw [if_pos hle]
      obtain ⟨acts, e, h2, h3, h4⟩ := hG x hx hle
      have hne1 : acts ≠ [] := by
        rintro rfl
        simp at h3
        linarith
      obtain ⟨recs, rec, s1, i1, i2, i3, i4, i5, i6, i7⟩ := trade_of_route hs.healthy hs.links
        (a := { tkn := p.tknb, amt := x, pair := .str p.slashpair }) (amt := x) (byTarget := false) rfl rfl rfl hr
        (by simp [hx.le]) (fun e => by rw [hm1] at e) htk hne1 (by rw [hm1, curves_eq hs]; exact e)
      have hcall := buys_of_app hs.healthy (a := { tkn := p.tknb, amt := x, pair := .str p.slashpair }) hx.le hp1 ht hr (by
        intro e
        have h5 := curves_eq hs p' r t
        rw [e] at h5
        exact hne (List.map_eq_nil_iff.mp h5.symm))
      obtain ⟨s', j1, j2⟩ := simulate_succeeds hs own true x p (hcall.trans i1) i2 i3
      refine ⟨s', ?_, j2⟩
      rw [j1, i6, hm1]
      show (Except.ok (some (acts.map fun b => sold false b.input b.output).sum), _) = _
      rw [neg_sum fun b hb => hpos acts h2 b hb, h4, neg_neg]
    · rw [if_neg hle]
      refine simulate_refused hs own true x p (buys_refused hx.le rfl rfl hp1 ht hr (e := .assertion) ?_)
      rw [hm1, curves_eq hs]
      have c70 := ExactRouter.C70_by_source _ hg [] _ hps x hx _ hq
      rw [htot] at c70
      exact (c70.2 (not_le.mp hle) hasked).1

/-! ## The order book -/

open OrderBook (vec book)

theorem made (n k : ℕ) (x t : ℕ → ℝ) (side : BookSide) (hside : side ≠ .other) (f : ℝ → Option ℝ) (h1 : ∀ i < n, f (x i) = some (t i))
    (h2 : ∀ i, n ≤ i → i < n + k → f (x i) = none) :
    OrderBook.make (vec (n + k) x) ((((List.range (n + k)).map x).map f).map (Option.map Flt.num)) side = .ok (book n x t (side == .bid)) := by
  have e : ((((List.range (n + k)).map x).map f).map (Option.map Flt.num)) = ((List.range n).map fun i => Flt.num (t i)).map some ++
      List.replicate k none := by
    rw [List.range_add, List.map_append, List.map_append, List.map_append, List.map_map, List.map_map, List.map_map, List.map_map, List.map_map,
      List.map_map]
    congr 1
    · refine List.map_congr_left fun i hi => ?_
      simp [h1 i (List.mem_range.mp hi)]
    · refine List.eq_replicate_iff.mpr ⟨by simp, fun b hb => ?_⟩
      obtain ⟨i, hi, rfl⟩ := List.mem_map.mp hb
      simp [h2 (n + i) (by omega) (by have := List.mem_range.mp hi; omega)]
  have ht := OrderBook.truncate_ok (vec (n + k) x) ((List.range n).map fun i => Flt.num (t i)) (by
    intro y hy
    obtain ⟨i, _, rfl⟩ := List.mem_map.mp hy
    simp) (List.replicate k none) (by
    intro g hg
    rw [(List.mem_replicate.mp hg).2]
    rfl)
  have hv : (vec (n + k) x).take n = vec n x := by
    unfold vec
    rw [← List.map_take, List.take_range]
    simp
  rw [List.length_map, List.length_range, hv] at ht
  rw [e]
  unfold OrderBook.make book
  cases side with
  | other => exact absurd rfl hside
  | ask => rw [ht]; rfl
  | bid => rw [ht]; rfl

/-- Whatever is asked for rising amounts at rising prices: the book made of it. -/
theorem rising_book {L : ℝ} {F : ℝ → ℝ} (hF : ∀ a b c, 0 ≤ a → a < b → b < c → c ≤ L → (F b - F a) / (b - a) < (F c - F b) / (c - b)) (h0 : F 0 = 0)
    (hinc : ∀ a b, 0 ≤ a → a < b → b ≤ L → F a < F b) (n : ℕ) (x : ℕ → ℝ) (hx0 : 0 < x 0) (hx : ∀ i < n + 1, x i < x (i + 1)) (hL : x (n + 1) ≤ L) :
    ∃ m e l q : ℕ → ℝ, (book (n + 2) x (fun i => F (x i)) false).margPrices = vec (n + 1) m ∧
      (book (n + 2) x (fun i => F (x i)) false).prices = vec (n + 2) e ∧ (book (n + 2) x (fun i => F (x i)) false).obLiquidity = vec n l ∧
      (book (n + 2) x (fun i => F (x i)) false).obPrices = vec n q ∧ 0 < e 0 ∧ (∀ i < n + 1, e i < e (i + 1) ∧ e (i + 1) < m i) ∧
      ∀ i < n, m i < m (i + 1) ∧ 0 ≤ l i ∧ m i < q i ∧ q i < m (i + 1) := by
  have hmono : ∀ j, j ≤ n + 1 → 0 < x j ∧ x j ≤ L := by
    have up : ∀ j, j ≤ n + 1 → 0 < x j := by
      intro j
      induction j with
      | zero => exact fun _ => hx0
      | succ j ih => exact fun hj => (ih (by omega)).trans (hx j (by omega))
    have down : ∀ d, d ≤ n + 1 → x (n + 1 - d) ≤ L := by
      intro d
      induction d with
      | zero => exact fun _ => hL
      | succ d ih =>
        intro hd
        have h1 := ih (by omega)
        have h2 := hx (n + 1 - (d + 1)) (by omega)
        rw [show n + 1 - (d + 1) + 1 = n + 1 - d by omega] at h2
        linarith
    intro j hj
    have := down (n + 1 - j) (by omega)
    rw [show n + 1 - (n + 1 - j) = j by omega] at this
    exact ⟨up j hj, this⟩
  have hm := OrderBook.marg_eq (n + 1) x (fun i => F (x i)) false fun i hi => (hx i hi).ne'
  have he := (OrderBook.C102_effective (n + 2) x (fun i => F (x i)) false fun i hi => (hmono i (by omega)).1.ne').1
  have hmm : ∀ i < n, (fun i => (F (x (i + 1)) - F (x i)) / (x (i + 1) - x i)) i < (fun i => (F (x (i + 1)) - F (x i)) / (x (i + 1) - x i)) (i + 1) :=
    fun i hi => hF _ _ _ (hmono i (by omega)).1.le (hx i (by omega)) (hx (i + 1) (by omega)) (hmono (i + 2) (by omega)).2
  obtain ⟨l, q, h1, h2, h3⟩ := OrderBook.C102_liquidity n x (fun i => F (x i)) _ false (fun i hi => (hx i hi).ne')
    (fun i hi => (hinc _ _ (hmono i (by omega)).1.le (hx i hi) (hmono (i + 1) (by omega)).2).le) hm (fun i hi => by
      rw [if_neg (by simp)]
      exact hmm i hi)
  refine ⟨_, _, l, q, hm, he, h1, h2, ?_, ?_, ?_⟩
  · have := hinc 0 (x 0) le_rfl hx0 (hmono 0 (by omega)).2
    rw [h0] at this
    exact div_pos this hx0
  · intro i hi
    have p1 := (hmono i (by omega)).1
    have p2 := (hmono (i + 1) (by omega)).1
    have d := sub_pos.mpr (hx i hi)
    have := hF 0 (x i) (x (i + 1)) le_rfl p1 (hx i hi) (hmono (i + 1) (by omega)).2
    rw [h0, sub_zero, sub_zero, div_lt_div_iff₀ p1 d] at this
    constructor
    · rw [div_lt_div_iff₀ p1 p2]
      nlinarith
    · rw [div_lt_div_iff₀ p2 d]
      nlinarith
  · intro i hi
    obtain ⟨i1, i2, _⟩ := h3 i hi
    rw [if_neg (by simp)] at i2
    exact ⟨hmm i hi, i1, i2⟩

/-- Whatever is given for rising payments at falling prices: the book made of it. -/
theorem falling_book {L : ℝ} {G : ℝ → ℝ} (hG : ∀ a b c, 0 ≤ a → a < b → b < c → c ≤ L → (G c - G b) / (c - b) < (G b - G a) / (b - a)) (h0 : G 0 = 0)
    (hinc : ∀ a b, 0 ≤ a → a < b → b ≤ L → G a ≤ G b) (n : ℕ) (x : ℕ → ℝ) (hx0 : 0 < x 0) (hx : ∀ i < n + 1, x i < x (i + 1)) (hL : x (n + 1) ≤ L) :
    ∃ m e l q : ℕ → ℝ, (book (n + 2) x (fun i => G (x i)) true).margPrices = vec (n + 1) m ∧
      (book (n + 2) x (fun i => G (x i)) true).prices = vec (n + 2) e ∧ (book (n + 2) x (fun i => G (x i)) true).obLiquidity = vec n l ∧
      (book (n + 2) x (fun i => G (x i)) true).obPrices = vec n q ∧ 0 < e (n + 1) ∧ (∀ i < n + 1, e (i + 1) < e i ∧ m i < e (i + 1)) ∧
      ∀ i < n, m (i + 1) < m i ∧ 0 ≤ l i ∧ m (i + 1) < q i ∧ q i < m i := by
  have hmono : ∀ j, j ≤ n + 1 → 0 < x j ∧ x j ≤ L := by
    have up : ∀ j, j ≤ n + 1 → 0 < x j := by
      intro j
      induction j with
      | zero => exact fun _ => hx0
      | succ j ih => exact fun hj => (ih (by omega)).trans (hx j (by omega))
    have down : ∀ d, d ≤ n + 1 → x (n + 1 - d) ≤ L := by
      intro d
      induction d with
      | zero => exact fun _ => hL
      | succ d ih =>
        intro hd
        have h1 := ih (by omega)
        have h2 := hx (n + 1 - (d + 1)) (by omega)
        rw [show n + 1 - (d + 1) + 1 = n + 1 - d by omega] at h2
        linarith
    intro j hj
    have := down (n + 1 - j) (by omega)
    rw [show n + 1 - (n + 1 - j) = j by omega] at this
    exact ⟨up j hj, this⟩
  have hm := OrderBook.marg_eq (n + 1) x (fun i => G (x i)) true fun i hi => (hx i hi).ne'
  have he := (OrderBook.C102_effective (n + 2) x (fun i => G (x i)) true fun i hi => (hmono i (by omega)).1.ne').1
  have hmm : ∀ i < n, (fun i => (G (x (i + 1)) - G (x i)) / (x (i + 1) - x i)) (i + 1) < (fun i => (G (x (i + 1)) - G (x i)) / (x (i + 1) - x i)) i :=
    fun i hi => hG _ _ _ (hmono i (by omega)).1.le (hx i (by omega)) (hx (i + 1) (by omega)) (hmono (i + 2) (by omega)).2
  obtain ⟨l, q, h1, h2, h3⟩ := OrderBook.C102_liquidity n x (fun i => G (x i)) _ true (fun i hi => (hx i hi).ne')
    (fun i hi => hinc _ _ (hmono i (by omega)).1.le (hx i hi) (hmono (i + 1) (by omega)).2) hm (fun i hi => by
      rw [if_pos rfl]
      exact hmm i hi)
  have hsteps : ∀ i < n + 1, G (x (i + 1)) / x (i + 1) < G (x i) / x i ∧ (G (x (i + 1)) - G (x i)) / (x (i + 1) - x i) < G (x (i + 1)) / x (i + 1) := by
    intro i hi
    have p1 := (hmono i (by omega)).1
    have p2 := (hmono (i + 1) (by omega)).1
    have d := sub_pos.mpr (hx i hi)
    have := hG 0 (x i) (x (i + 1)) le_rfl p1 (hx i hi) (hmono (i + 1) (by omega)).2
    rw [h0, sub_zero, sub_zero, div_lt_div_iff₀ d p1] at this
    constructor
    · rw [div_lt_div_iff₀ p2 p1]
      nlinarith
    · rw [div_lt_div_iff₀ d p2]
      nlinarith
  refine ⟨_, _, l, q, hm, he, h1, h2, ?_, hsteps, ?_⟩
  · have h4 := (hsteps n (by omega)).2
    refine lt_of_le_of_lt (div_nonneg ?_ (sub_pos.mpr (hx n (by omega))).le) h4
    exact sub_nonneg.mpr (hinc _ _ (hmono n (by omega)).1.le (hx n (by omega)) hL)
  · intro i hi
    obtain ⟨i1, i2, _⟩ := h3 i hi
    rw [if_pos rfl] at i2
    exact ⟨hmm i hi, i1, i2⟩

theorem sizes_pos {n : ℕ} {x : ℕ → ℝ} (hx0 : 0 < x 0) (hx : ∀ i, i + 1 < n → x i < x (i + 1)) : ∀ y ∈ (List.range n).map x, 0 < y := by
  have up : ∀ j, j < n → 0 < x j := by
    intro j
    induction j with
    | zero => exact fun _ => hx0
    | succ j ih => exact fun hj => (ih (by omega)).trans (hx j (by omega))
  intro y hy
  obtain ⟨j, hj, rfl⟩ := List.mem_map.mp hy
  exact up j (List.mem_range.mp hj)

/-- **C157** The ask side of the order book of a simulator with the exact router. Sizes of the base token that rise from above zero are simulated one
after another; the first `n + 2` can be served from what the orders that sell the base token hold together, the others cannot. None of the simulated
trades fails or changes an order. The amounts make a book of exactly the sizes that can be served, in which the marginal prices rise, the effective
prices rise too and stay below the marginal price of their last part, and the liquidity is never negative and is shown at prices between neighbouring
marginal prices. -/
theorem C157_ask (s : Sim ℝ) (hr : Reachable s) (hh : Healthy s) (hl : Links s) (hm : s.method = .exact) (own : Option (Sim ℝ)) (p p' r : CarbonPair)
    (hp : s.getPair (.str p.slashpair) = .ok p') (hrev : p'.reverse = .ok r) (ht : p'.hasToken p.tknb = true) (held : ℝ)
    (hheld : held = ((suppliers s p' r p.tknb none).map fun o => o.curve.y).sum)
    (n k : ℕ) (x : ℕ → ℝ) (hx0 : 0 < x 0) (hx : ∀ i, i + 1 < n + 2 + k → x i < x (i + 1)) (hin : x (n + 1) ≤ held)
    (hout : ∀ i, n + 2 ≤ i → i < n + 2 + k → held < x i) :
    ∃ amts s' t b, simulateAll own ask p s ((List.range (n + 2 + k)).map x) = (.ok amts, some s') ∧ s'.orders = s.orders ∧
      OrderBook.make (vec (n + 2 + k) x) (amts.map (Option.map Flt.num)) .ask = .ok b ∧ b = book (n + 2) x t false ∧
      ∃ m e l q : ℕ → ℝ, b.margPrices = vec (n + 1) m ∧ b.prices = vec (n + 2) e ∧ b.obLiquidity = vec n l ∧ b.obPrices = vec n q ∧
        0 < e 0 ∧ (∀ i < n + 1, e i < e (i + 1) ∧ e (i + 1) < m i) ∧ ∀ i < n, m i < m (i + 1) ∧ 0 ≤ l i ∧ m i < q i ∧ q i < m (i + 1) := by
  obtain ⟨F, h1, h2, h3, h4⟩ := ask_value hh hm own p p' r hp hrev ht held hheld
  obtain ⟨s', e1, hc⟩ := simulateAll_spec h4 _ s ⟨hr, hh, hl, rfl, rfl, rfl⟩ (sizes_pos hx0 hx)
  have hle : ∀ d, d ≤ n + 1 → x (n + 1 - d) ≤ held := by
    intro d
    induction d with
    | zero => exact fun _ => hin
    | succ d ih =>
      intro hd
      have g1 := ih (by omega)
      have g2 := hx (n + 1 - (d + 1)) (by omega)
      rw [show n + 1 - (d + 1) + 1 = n + 1 - d by omega] at g2
      linarith
  have hmade := made (n + 2) k x (fun i => F (x i)) .ask (by simp) (fun y => if y ≤ held then some (F y) else none) (fun i hi => by
      have := hle (n + 1 - i) (by omega)
      rw [show n + 1 - (n + 1 - i) = i by omega] at this
      exact if_pos this) (fun i hi hi2 => if_neg (not_le.mpr (hout i hi hi2)))
  obtain ⟨m, e, l, q, rest⟩ := rising_book h1 h2 h3 n x hx0 (fun i hi => hx i (by omega)) hin
  exact ⟨_, s', _, _, e1, hc.orders, hmade, rfl, m, e, l, q, rest⟩

/-- **C157** The bid side. The sizes of the base token are bought by the orders that sell the other token; the first `n + 2` can be taken by what they
charge for all they hold together, the others cannot. Again no simulated trade fails or changes an order, and the amounts make a book of exactly the
sizes that can be taken: the marginal prices fall, the effective prices fall and stay above the marginal price of their last part, and the liquidity is
never negative. -/
theorem C157_bid (s : Sim ℝ) (hr : Reachable s) (hh : Healthy s) (hl : Links s) (hm : s.method = .exact) (own : Option (Sim ℝ)) (p p' r : CarbonPair)
    (hp : s.getPair (.str p.slashpair) = .ok p') (hrev : p'.reverse = .ok r) (tkn : Str) (ht : p'.other p.tknb = some tkn) (cost : Curve ℝ → ℝ)
    (hcost : ∀ o ∈ suppliers s p' r tkn none, o.curve.dxdy (-o.curve.y) = .ok (cost o.curve)) (asked : ℝ)
    (hasked : asked = ((suppliers s p' r tkn none).map fun o => cost o.curve).sum)
    (n k : ℕ) (x : ℕ → ℝ) (hx0 : 0 < x 0) (hx : ∀ i, i + 1 < n + 2 + k → x i < x (i + 1)) (hin : x (n + 1) ≤ asked)
    (hout : ∀ i, n + 2 ≤ i → i < n + 2 + k → asked < x i) :
    ∃ amts s' t b, simulateAll own bid p s ((List.range (n + 2 + k)).map x) = (.ok amts, some s') ∧ s'.orders = s.orders ∧
      OrderBook.make (vec (n + 2 + k) x) (amts.map (Option.map Flt.num)) .bid = .ok b ∧ b = book (n + 2) x t true ∧
      ∃ m e l q : ℕ → ℝ, b.margPrices = vec (n + 1) m ∧ b.prices = vec (n + 2) e ∧ b.obLiquidity = vec n l ∧ b.obPrices = vec n q ∧
        0 < e (n + 1) ∧ (∀ i < n + 1, e (i + 1) < e i ∧ m i < e (i + 1)) ∧ ∀ i < n, m (i + 1) < m i ∧ 0 ≤ l i ∧ m (i + 1) < q i ∧ q i < m i := by
  have hle : ∀ d, d ≤ n + 1 → x (n + 1 - d) ≤ asked := by
    intro d
    induction d with
    | zero => exact fun _ => hin
    | succ d ih =>
      intro hd
      have g1 := ih (by omega)
      have g2 := hx (n + 1 - (d + 1)) (by omega)
      rw [show n + 1 - (d + 1) + 1 = n + 1 - d by omega] at g2
      linarith
  have hne : suppliers s p' r tkn none ≠ [] := by
    intro e
    have := hle (n + 1) le_rfl
    rw [hasked, e, Nat.sub_self] at this
    simp at this
    linarith
  obtain ⟨G, h1, h2, h3, h4⟩ := bid_value hh hm own p p' r hp hrev tkn ht cost hcost asked hasked hne
  obtain ⟨s', e1, hc⟩ := simulateAll_spec h4 _ s ⟨hr, hh, hl, rfl, rfl, rfl⟩ (sizes_pos hx0 hx)
  have hmade := made (n + 2) k x (fun i => G (x i)) .bid (by simp) (fun y => if y ≤ asked then some (G y) else none) (fun i hi => by
      have := hle (n + 1 - i) (by omega)
      rw [show n + 1 - (n + 1 - i) = i by omega] at this
      exact if_pos this) (fun i hi hi2 => if_neg (not_le.mpr (hout i hi hi2)))
  obtain ⟨m, e, l, q, rest⟩ := falling_book h1 h2 h3 n x hx0 (fun i hi => hx i (by omega)) hin
  exact ⟨_, s', _, _, e1, hc.orders, hmade, rfl, m, e, l, q, rest⟩

end Carbon.Analytics
