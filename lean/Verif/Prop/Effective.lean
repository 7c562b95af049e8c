import Verif.Carbon.Analytics
import Verif.Prop.TradeLog

/-!
# C106: effective prices and simulated trades
-/

set_option linter.unusedSectionVars false

namespace Carbon.Analytics

open Sim

theorem names : bid ≠ bidBook ∧ ask ≠ bidBook ∧ bid ≠ askBook ∧ ask ≠ askBook ∧ askBook ≠ bidBook ∧ bid ≠ ask := by
  decide +kernel

section Generic
variable {K : Type} [Field K] [LinearOrder K] [IsStrictOrderedRing K] [PySqrt K]

theorem lastRec_eq (s : Sim K) (buys : Bool) (tkn : Str) (size : K) (pair : CarbonPair.Arg) :
    lastRec s buys tkn size pair =
      ((s.call buys { tkn := tkn, amt := size, pair := pair, execute := false }).1.toOption.bind List.getLast?,
        (s.call buys { tkn := tkn, amt := size, pair := pair, execute := false }).2) := by
  unfold lastRec
  show (match s.call buys { tkn := tkn, amt := size, pair := pair, execute := false } with
    | (.error _, s') => ((none : Option (TradeRec K)), s')
    | (.ok recs, s') => (recs.getLast?, s')) = _
  generalize s.call buys { tkn := tkn, amt := size, pair := pair, execute := false } = q
  obtain ⟨q, s'⟩ := q
  cases q <;> rfl

/-- **C106 violated** The documented constants are refused: `BID` and `ASK` of the class have been given other values. -/
theorem C106_constants_violated (own sim : Option (Sim K)) (size : K) (buys : Bool) (tkn : Option Str) (pair : Option CarbonPair.Arg) :
    ∃ e, (effectivePrice own size (if buys then bid else ask) tkn sim pair).1 = .error e := by
  obtain ⟨n1, n2, n3, n4, _, _⟩ := names
  have h1 : (if buys then bid else ask) ≠ bidBook := by cases buys; exacts [n2, n1]
  have h2 : (if buys then bid else ask) ≠ askBook := by cases buys; exacts [n4, n3]
  unfold effectivePrice
  dsimp only
  split
  · exact ⟨_, rfl⟩
  · cases pair with
    | none => exact ⟨_, rfl⟩
    | some pr =>
      dsimp only
      rw [if_neg h1, if_neg h2]
      exact ⟨_, rfl⟩

/-- **C106 violated** The pair cannot be left out. -/
theorem C106_default_pair_violated (own sim : Option (Sim K)) (size : K) (side : Str) (tkn : Option Str) :
    ∃ e, (effectivePrice own size side tkn sim none).1 = .error e := by
  unfold effectivePrice
  dsimp only
  split <;> exact ⟨_, rfl⟩

/-- **C106 violated** Without a pair the simulator passed to `simulate_trades` is ignored. -/
theorem C106_simulator_violated (own : Sim K) (sim : Option (Sim K)) (size : K) (side : Str) (p : CarbonPair) (hp : own.pair = some p) :
    simulateTrades (some own) size side sim none = simulateTrades (some own) size side (some own) (some p) := by
  unfold simulateTrades
  simp only [hp]

/-- **C106** The token left out is the base token of the simulator's pair, the simulator left out is the object's own. -/
theorem C106_defaults (own : Sim K) (size : K) (side : Str) (p : CarbonPair) (hp : own.pair = some p) (pair : Option CarbonPair.Arg) :
    effectivePrice (some own) size side none none pair = effectivePrice none size side (some p.tknb) (some own) pair := by
  unfold effectivePrice
  simp only [hp]

end Generic

/-- What a trade would give: the price of the trade if it can be executed, and whether it can. -/
theorem last_spec (s : Sim ℝ) (hr : Reachable s) (h : Healthy s) (hL : Links s) (buys : Bool) (tkn : Str) (size : ℝ) (pair : CarbonPair.Arg) :
    (lastRec s buys tkn size pair).2.orders = s.orders ∧
    (((lastRec s buys tkn size pair).1 = none ∧ ∃ e, (s.call buys { tkn := tkn, amt := size, pair := pair }).1 = .error e) ∨
    ∃ (p : CarbonPair) (recs : List (TradeRec ℝ)) (agg last : TradeRec ℝ), s.getPair pair = .ok p ∧
      (s.call buys { tkn := tkn, amt := size, pair := pair }).1 = .ok recs ∧ recs.getLast? = some agg ∧
      (lastRec s buys tkn size pair).1 = some last ∧ last.amt1 = agg.amt1 ∧ last.amt2 = agg.amt2 ∧ last.price = agg.price ∧
      agg.uid = (s.numtrades, none) ∧ agg.tkn2 = p.other agg.tkn1 ∧
      (if buys = decide (0 ≤ size) then p.other tkn = some agg.tkn1 else agg.tkn1 = tkn) ∧ 0 < agg.amt1 ∧ 0 < agg.amt2 ∧
      agg.price = if p.hasQuote agg.tkn1 then agg.amt1 / agg.amt2 else agg.amt2 / agg.amt1) := by
  rw [lastRec_eq]
  refine ⟨C34_dry_run s buys _ rfl, ?_⟩
  rcases C105_preview s hr h hL buys { tkn := tkn, amt := size, pair := pair } (fun _ => rfl) with ⟨e, h1, h2⟩ | ⟨dry, done, h1, h2, h3, _⟩
  · left
    rw [h1]
    exact ⟨rfl, e, h2⟩
  · right
    cases hc : s.call buys { tkn := tkn, amt := size, pair := pair, execute := true } with
    | mk r s' =>
      rw [hc] at h2
      dsimp only at h2
      subst h2
      obtain ⟨p, routes, agg, t1, t2, t3, _, _, t6, t7, t8⟩ := C104_totals s s' hr h buys _ (fun _ => rfl) done hc
      obtain ⟨p', routes', agg', r1, r2, _, _, _, r6, r7, _⟩ := C104_records s s' hr buys _ done hc
      have hp : p' = p := by
        have := r1.symm.trans t1
        exact Except.ok.inj this
      subst hp
      have ha : agg' = agg := by
        have := congrArg List.getLast? (r2.symm.trans t2)
        rw [List.getLast?_concat, List.getLast?_concat] at this
        exact Option.some.inj this
      subst ha
      have hl := congrArg List.getLast? h3
      rw [List.getLast?_map, List.getLast?_map, t2, List.getLast?_concat, Option.map_some, Option.map_eq_some_iff] at hl
      obtain ⟨last, l1, l2⟩ := hl
      have hpos := t6 agg' (by rw [t2]; exact List.mem_append_right _ (List.mem_singleton_self _))
      refine ⟨p', done, agg', last, t1, rfl, by rw [t2]; exact List.getLast?_concat, by rw [h1]; exact l1, ?_, ?_, ?_, t3, r6, r7,
        hpos.1, hpos.2, t8⟩
      · have : (unmarked last).amt1 = (unmarked agg').amt1 := by rw [l2]
        exact this
      · have : (unmarked last).amt2 = (unmarked agg').amt2 := by rw [l2]
        exact this
      · have : (unmarked last).price = (unmarked agg').price := by rw [l2]
        exact this

/-- **C106** The effective price of a size is the price at which the trade would be executed, quote token per base token; if it would
fail, the price is 1e100 for the bid book and 0 for the ask book. The orders stay as they are. Missing: the documented constants
(`C106_constants_violated`) and the default of the pair (`C106_default_pair_violated`). -/
theorem C106_price_partial (own : Option (Sim ℝ)) (s : Sim ℝ) (hr : Reachable s) (h : Healthy s) (hL : Links s) (buys : Bool) (tkn : Str)
    (size : ℝ) (pair : CarbonPair.Arg) :
    ∃ v s', effectivePrice own size (if buys then "amm_buys".toList else "amm_sells".toList) (some tkn) (some s) (some pair) =
        (.ok v, some s') ∧ s'.orders = s.orders ∧
      (((∃ e, (s.call buys { tkn := tkn, amt := size, pair := pair }).1 = .error e) ∧ v = if buys then 10 ^ 100 else 0) ∨
      ∃ (p : CarbonPair) (recs : List (TradeRec ℝ)) (agg : TradeRec ℝ), s.getPair pair = .ok p ∧
        (s.call buys { tkn := tkn, amt := size, pair := pair }).1 = .ok recs ∧ recs.getLast? = some agg ∧ v = agg.price ∧
        v = (if p.hasQuote agg.tkn1 then agg.amt1 / agg.amt2 else agg.amt2 / agg.amt1) ∧
        (if buys = decide (0 ≤ size) then p.other tkn = some agg.tkn1 else agg.tkn1 = tkn)) := by
  obtain ⟨ho, hc⟩ := last_spec s hr h hL buys tkn size pair
  obtain ⟨_, _, _, _, hne, _⟩ := names
  cases buys with
  | true =>
    refine ⟨_, (lastRec s true tkn size pair).2, by
      unfold effectivePrice
      dsimp only
      rw [if_pos (show (if true = true then "amm_buys".toList else "amm_sells".toList) = bidBook from rfl)], ho, ?_⟩
    rcases hc with ⟨c1, c2⟩ | ⟨p, recs, agg, last, c1, c2, c3, c4, _, _, c7, _, _, c10, _, _, c13⟩
    · left
      rw [c1]
      exact ⟨c2, rfl⟩
    · right
      rw [c4]
      exact ⟨p, recs, agg, c1, c2, c3, c7, c7.trans c13, c10⟩
  | false =>
    refine ⟨_, (lastRec s false tkn size pair).2, by
      unfold effectivePrice
      dsimp only
      rw [if_neg (show (if false = true then "amm_buys".toList else "amm_sells".toList) ≠ bidBook from hne),
        if_pos (show (if false = true then "amm_buys".toList else "amm_sells".toList) = askBook from rfl)], ho, ?_⟩
    rcases hc with ⟨c1, c2⟩ | ⟨p, recs, agg, last, c1, c2, c3, c4, _, _, c7, _, _, c10, _, _, c13⟩
    · left
      rw [c1]
      exact ⟨c2, rfl⟩
    · right
      rw [c4]
      exact ⟨p, recs, agg, c1, c2, c3, c7, c7.trans c13, c10⟩

/-- **C106** A simulated trade of the base token returns the amount of the other token of the executed trade, paid to the AMM if it
sells, paid by it if it buys, or nothing if it would fail. The orders stay as they are. -/
theorem C106_simulated (own : Option (Sim ℝ)) (s : Sim ℝ) (hr : Reachable s) (h : Healthy s) (hL : Links s) (buys : Bool)
    (size : ℝ) (p : CarbonPair) :
    ∃ v s', simulateTrades own size (if buys then bid else ask) (some s) (some p) = (.ok v, some s') ∧ s'.orders = s.orders ∧
      ((v = none ∧ ∃ e, (s.call buys { tkn := p.tknb, amt := size, pair := .str p.slashpair }).1 = .error e) ∨
      ∃ (recs : List (TradeRec ℝ)) (agg : TradeRec ℝ), (s.call buys { tkn := p.tknb, amt := size, pair := .str p.slashpair }).1 = .ok recs ∧
        recs.getLast? = some agg ∧ agg.uid = (s.numtrades, none) ∧ v = some (if buys then agg.amt1 else agg.amt2)) := by
  obtain ⟨ho, hc⟩ := last_spec s hr h hL buys p.tknb size (.str p.slashpair)
  obtain ⟨_, _, _, _, _, hne⟩ := names
  cases buys with
  | true =>
    refine ⟨_, (lastRec s true p.tknb size (.str p.slashpair)).2, by
      unfold simulateTrades
      dsimp only
      rw [if_neg (show (if true = true then bid else ask) ≠ ask from hne), if_pos (show (if true = true then bid else ask) = bid from rfl)], ho, ?_⟩
    rcases hc with ⟨c1, c2⟩ | ⟨_, recs, agg, last, c1, c2, c3, c4, c5, _, _, c8, _⟩
    · left
      rw [c1]
      exact ⟨rfl, c2⟩
    · right
      rw [c4]
      exact ⟨recs, agg, c2, c3, c8, congrArg some c5⟩
  | false =>
    refine ⟨_, (lastRec s false p.tknb size (.str p.slashpair)).2, by
      unfold simulateTrades
      dsimp only
      rw [if_pos (show (if false = true then bid else ask) = ask from rfl)], ho, ?_⟩
    rcases hc with ⟨c1, c2⟩ | ⟨_, recs, agg, last, c1, c2, c3, c4, _, c6, _, c8, _⟩
    · left
      rw [c1]
      exact ⟨rfl, c2⟩
    · right
      rw [c4]
      exact ⟨recs, agg, c2, c3, c8, congrArg some c6⟩

/-- Instances; a size the book cannot fill is priced by what it can fill. -/
example : (effectivePrice none 2 "amm_sells".toList (some "ETH".toList) (some traded) (some (.str "ETH/USDC".toList))).1 = .ok (450 / 91) ∧
    (effectivePrice none 1000 "amm_sells".toList (some "ETH".toList) (some traded) (some (.str "ETH/USDC".toList))).1 = .ok (20 / 3) ∧
    (effectivePrice none 2 ask (some "ETH".toList) (some traded) (some (.str "ETH/USDC".toList))).1 = .error .value ∧
    (simulateTrades none 2 ask (some traded) (some ethusdc)).1 = .ok (some (900 / 91)) := by
  decide +kernel

end Carbon.Analytics
