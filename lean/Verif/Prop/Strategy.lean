import Mathlib.Tactic.Linarith
import Mathlib.Tactic.FieldSimp
import Mathlib.Tactic.Ring
import Mathlib.Tactic.Positivity
import Mathlib.Tactic.NormNum
import Mathlib.Analysis.SpecialFunctions.Pow.Real
import Verif.Helpers.Strategy
import Verif.Carbon.OrderUILemmas

/-!
# Strategies: rescaling (C54), range constructors (C55), seeding by value (C86), Uniswap v3 positions (C87)
-/

set_option linter.unusedSectionVars false

namespace Carbon

namespace Strat

open CarbonPair (pyDiv)
open UICurve (pyDiv_ok)

section
variable {K : Type} [Field K] [LinearOrder K] [IsStrictOrderedRing K]

/-- `s` with everything that is a price or an amount of cash behind a price multiplied by `f`. -/
def scaled (s : Strat K) (f : K) : Strat K :=
  { s with
    pSellA := s.pSellA * f, pSellB := s.pSellB * f, pBuyA := s.pBuyA * f, pBuyB := s.pBuyB * f
    psellMarginal := s.psellMarginal.map (· * f), pbuyMarginal := s.pbuyMarginal.map (· * f), yIntBuy := s.yIntBuy.map (· * f)
    rescale := false, rescaledFctr := some f }

theorem rescale_eq {s : Strat K} (hc : s.amtCsh ≠ some 0) {a b : K} (hb : b ≠ 0) {force : Bool} (h : s.rescale = true ∨ force = true) :
    s.rescaleStrat a b force = .ok (s.scaled (a / b)) := by
  unfold rescaleStrat
  rw [if_neg (by rintro ⟨h1, h2⟩; rcases h with h | h <;> simp_all), pyDiv_ok hb, Py.ok_bind]
  unfold make scaled orName
  rw [if_neg hc]
  rfl

/-- C54: rescaling multiplies the range prices and the marginal prices by the ratio of the spot prices and keeps the amounts and names. An
amount of cash of exactly zero is excluded. -/
theorem C54_prices_partial (s : Strat K) (hc : s.amtCsh ≠ some 0) (a b : K) (hb : b ≠ 0) (force : Bool)
    (h : s.rescale = true ∨ force = true) :
    ∃ r, s.rescaleStrat a b force = .ok r ∧ r.pSellA = s.pSellA * (a / b) ∧ r.pSellB = s.pSellB * (a / b) ∧ r.pBuyA = s.pBuyA * (a / b) ∧
      r.pBuyB = s.pBuyB * (a / b) ∧ r.psellMarginal = s.psellMarginal.map (· * (a / b)) ∧
      r.pbuyMarginal = s.pbuyMarginal.map (· * (a / b)) ∧ r.amtRsk = s.amtRsk ∧ r.amtCsh = s.amtCsh ∧ r.rsk = s.rsk ∧ r.csh = s.csh ∧
      r.rescaledFctr = some (a / b) :=
  ⟨_, rescale_eq hc hb h, rfl, rfl, rfl, rfl, rfl, rfl, rfl, rfl, rfl, rfl, rfl⟩

/-- C54: a strategy is rescaled at most once unless forced: whatever is done to a rescaled strategy without force leaves it as it is, also
for a spot price of zero. -/
theorem C54_once (s r : Strat K) (a b : K) (force : Bool) (h : s.rescaleStrat a b force = .ok r) (ops : List (K × K)) :
    ops.foldlM (fun r p => r.rescaleStrat p.1 p.2) r = .ok r := by
  have hr : r.rescale = false := by
    unfold rescaleStrat at h
    split at h
    · rename_i h'
      rw [← Except.ok.inj h]
      exact h'.1
    · obtain ⟨f, _, h⟩ := Py.bind_eq_ok.1 h
      rw [← Except.ok.inj h]
      rfl
  have step : ∀ x y : K, r.rescaleStrat x y = .ok r := by
    intro x y
    unfold rescaleStrat
    rw [if_pos ⟨hr, rfl⟩]
  induction ops with
  | nil => rfl
  | cons p ops ih => rw [List.foldlM_cons, step, Py.ok_bind, ih]

/-- C54: forced rescaling from one spot price to a second one and from there to a third one is the same as from the first to the third;
only the factor on record is that of the last step. -/
theorem C54_composes (s : Strat K) (hc : s.amtCsh ≠ some 0) (p q r : K) (hp : p ≠ 0) (hq : q ≠ 0) :
    ∃ s1 s2 s3, s.rescaleStrat q p true = .ok s1 ∧ s1.rescaleStrat r q true = .ok s2 ∧ s.rescaleStrat r p true = .ok s3 ∧
      s2 = { s3 with rescaledFctr := some (r / q) } := by
  refine ⟨_, _, _, rescale_eq hc hp (Or.inr rfl), rescale_eq (s := s.scaled (q / p)) hc hq (Or.inr rfl), rescale_eq hc hp (Or.inr rfl), ?_⟩
  have e : ∀ x : K, x * (q / p) * (r / q) = x * (r / p) := by intro x; field_simp
  unfold scaled
  simp only [Option.map_map, Function.comp_def, e]

/-- C54: forced rescaling to another spot price and back restores the prices. -/
theorem C54_back (s : Strat K) (hc : s.amtCsh ≠ some 0) (p q : K) (hp : p ≠ 0) (hq : q ≠ 0) :
    ∃ s1 s2, s.rescaleStrat q p true = .ok s1 ∧ s1.rescaleStrat p q true = .ok s2 ∧
      s2 = { s with rescale := false, rescaledFctr := some (p / q) } := by
  refine ⟨_, _, rescale_eq hc hp (Or.inr rfl), rescale_eq (s := s.scaled (q / p)) hc hq (Or.inr rfl), ?_⟩
  have e : ∀ x : K, x * (q / p) * (p / q) = x := by intro x; field_simp
  unfold scaled
  simp only [Option.map_map, Function.comp_def, e, Option.map_id_fun', id]

/-- C54: an old spot price of zero is an error if the strategy has to be rescaled. -/
theorem C54_zero (s : Strat K) (a : K) (force : Bool) (h : s.rescale = true ∨ force = true) : s.rescaleStrat a 0 force = .error .zeroDiv := by
  unfold rescaleStrat
  rw [if_neg (by rintro ⟨h1, h2⟩; rcases h with h | h <;> simp_all)]
  unfold pyDiv
  rw [if_pos rfl]
  rfl

/-- C54 fails: the cash amount is not kept if it is zero, as it is after seeding by value with no cash. -/
theorem C54_cash_violated : ∃ s t r : Strat ℚ, s.setTvl 100 0 1000 = .ok t ∧ t.amtCsh = some 0 ∧ t.rescaleStrat 100 100 = .ok r ∧
    r.amtCsh = some (1 / 10 ^ 10) := by
  refine ⟨make 110 120 90 80, { (make 110 120 90 80 : Strat ℚ) with amtRsk := some 10, amtCsh := some 0 }, _, by decide +kernel, rfl, rfl,
    by decide +kernel⟩

/-- C86: seeding by value gives the requested share of cash, and at the spot price the two amounts together are worth the value. -/
theorem C86_value (s : Strat K) (h : s.amtRsk = none ∧ s.amtCsh = none) (spot cashpc tvl : K) (hs : spot ≠ 0) :
    ∃ r x y, s.setTvl spot cashpc tvl = .ok r ∧ r.amtRsk = some x ∧ r.amtCsh = some y ∧ x * spot + y = tvl ∧ y = tvl * cashpc ∧
      r = { s with amtRsk := some x, amtCsh := some y } := by
  refine ⟨_, tvl / spot * (1 - cashpc), tvl * cashpc, ?_, rfl, rfl, by field_simp; ring, rfl, rfl⟩
  unfold setTvl
  rw [if_pos h, pyDiv_ok hs, Py.ok_bind]

/-- C86: amounts that exist, even one of them, are not touched. -/
theorem C86_keeps (s : Strat K) (h : s.amtRsk ≠ none ∨ s.amtCsh ≠ none) (spot cashpc tvl : K) : s.setTvl spot cashpc tvl = .ok s := by
  unfold setTvl
  rw [if_neg]
  rintro ⟨h1, h2⟩
  rcases h with h | h
  · exact h h1
  · exact h h2

/-- C86: seeding by value and rescaling can be done in either order, if the value is converted as well and there is some cash. -/
theorem C86_rescale (s : Strat K) (h : s.amtRsk = none ∧ s.amtCsh = none) (hr : s.rescale = true) (spot cashpc tvl f : K)
    (hs : spot ≠ 0) (hf : f ≠ 0) (hc : tvl * cashpc ≠ 0) :
    ∃ a b c d, s.setTvl spot cashpc tvl = .ok a ∧ a.rescaleStrat (spot * f) spot = .ok b ∧ s.rescaleStrat (spot * f) spot = .ok c ∧
      c.setTvl (spot * f) cashpc (tvl * f) = .ok d ∧ d.amtRsk = b.amtRsk ∧ d.amtCsh = b.amtCsh.map (· * f) ∧
      { d with amtCsh := b.amtCsh } = b := by
  have e : s.setTvl spot cashpc tvl = .ok { s with amtRsk := some (tvl / spot * (1 - cashpc)), amtCsh := some (tvl * cashpc) } := by
    unfold setTvl
    rw [if_pos h, pyDiv_ok hs, Py.ok_bind]
  have hn : s.amtCsh ≠ some 0 := by rw [h.2]; simp
  refine ⟨_, _, _, { s.scaled (spot * f / spot) with amtRsk := some (tvl / spot * (1 - cashpc)), amtCsh := some (tvl * cashpc * f) }, e,
    rescale_eq (by simpa using hc) hs (Or.inl hr), rescale_eq hn hs (Or.inl hr), ?_, ?_, ?_, ?_⟩
  · unfold setTvl
    rw [if_pos (by exact h), pyDiv_ok (mul_ne_zero hs hf), Py.ok_bind]
    have : tvl * f / (spot * f) = tvl / spot := by field_simp
    rw [this, mul_right_comm]
  · rfl
  · rfl
  · rfl

/-! ### Ranges -/

theorem sorted_eq (x y : K) : sorted x y = (min x y, max x y) ∧ sorted x y true = (max x y, min x y) := by
  unfold sorted
  dsimp only
  by_cases h : x < y
  · simp [h, min_eq_left h.le, max_eq_right h.le]
  · push Not at h
    simp [not_lt.2 h, min_eq_right h, max_eq_left h]

/-- The lower end of a range argument. -/
def Arg.lo : Arg K → K
  | .one x => x
  | .two x y => min x y

/-- The upper end of a range argument. -/
def Arg.hi : Arg K → K
  | .one x => x
  | .two x y => max x y

theorem Arg.lo_le_hi (a : Arg K) : a.lo ≤ a.hi := by
  cases a with
  | one x => exact le_rfl
  | two x y => exact min_le_max

/-- C55: a strategy is built from two ranges exactly if the buy range does not reach above the start of the sell range, or overlapping is
allowed; the ends come in any order, the sell range goes up and the buy range goes down. -/
theorem C55_ranges (sell buy : Arg K) (fixed overlapping : Bool) :
    ((buy.hi ≤ sell.lo ∨ overlapping = true) → ∃ s, fromSb sell buy fixed overlapping = .ok s ∧ s.pSellA = sell.lo ∧ s.pSellB = sell.hi ∧
      s.pBuyA = buy.hi ∧ s.pBuyB = buy.lo ∧ s.pSellA ≤ s.pSellB ∧ s.pBuyB ≤ s.pBuyA ∧ s.rescale = !fixed ∧ s.amtRsk = none ∧ s.amtCsh = none) ∧
    (¬ (buy.hi ≤ sell.lo ∨ overlapping = true) → fromSb sell buy fixed overlapping = .error .value) := by
  have hs : sell.range false = (sell.lo, sell.hi) := by
    cases sell with
    | one x => rfl
    | two x y => exact (sorted_eq x y).1
  have hb : buy.range true = (buy.hi, buy.lo) := by
    cases buy with
    | one x => rfl
    | two x y => exact (sorted_eq x y).2
  unfold fromSb
  dsimp only
  rw [hs, hb]
  constructor
  · intro h
    rw [if_neg]
    · exact ⟨_, rfl, rfl, rfl, rfl, rfl, sell.lo_le_hi, buy.lo_le_hi, rfl, rfl, rfl⟩
    · rintro ⟨h1, h2⟩
      rcases h with h | h
      · exact absurd h1 (not_lt.2 h)
      · rw [h] at h2; cases h2
  · intro h
    push Not at h
    rw [if_pos ⟨h.1, by simpa using h.2⟩]

/-- The utilizations that `from_mgw` works with: none for 0, cut at `MAX_UTIL`. -/
def used (u : K) : Option K := if u = 0 then none else some (min u (999 / 1000))

theorem validate_ok {u : K} (h0 : 0 ≤ u) (h1 : u ≤ 1) : validate u = .ok (used u) := by
  unfold validate used maxUtil
  by_cases h : u = 0
  · rw [if_pos h, if_pos h]
  · rw [if_neg h, if_neg h, if_neg (not_lt.2 h0), if_neg (not_lt.2 h1)]
    by_cases h2 : u > 999 / 1000
    · rw [if_pos h2, min_eq_right h2.le]
    · rw [if_neg h2, min_eq_left (not_lt.1 h2)]

/-- Both entries of an argument. -/
def Arg.sell : Arg K → K
  | .one x => x
  | .two x _ => x

/-- Both entries of an argument. -/
def Arg.buy : Arg K → K
  | .one x => x
  | .two _ y => y

theorem both_ok {a : Arg K} (hs : 0 ≤ a.sell) (hs1 : a.sell ≤ 1) (hb : 0 ≤ a.buy) (hb1 : a.buy ≤ 1) : a.both = .ok (used a.sell, used a.buy) := by
  cases a with
  | one x =>
    unfold Arg.both
    dsimp only
    rw [validate_ok (u := x) hs hs1]
    rfl
  | two x y =>
    unfold Arg.both
    dsimp only
    rw [validate_ok (u := x) hs hs1, validate_ok (u := y) hb hb1]
    rfl

/-- The gap in use: a gap of zero is replaced by a small one. -/
def gap (g : K) : K := if g = 0 then 1 / 10000 else g

/-- The width in use. -/
def width (w : K) : K := if w = 0 then 1 / 10000 else min w (999 / 1000)

/-- Whether the widths are accepted: from 0 to 1, and not 0 if two of them are given. -/
def Arg.widthOk : Arg K → Prop
  | .one w => 0 ≤ w ∧ w ≤ 1
  | .two a b => 0 < a ∧ a ≤ 1 ∧ 0 < b ∧ b ≤ 1

theorem width_ok {w : Arg K} (h : w.widthOk) : w.orSmall.both = .ok (some (width w.sell), some (width w.buy)) := by
  cases w with
  | one x =>
    obtain ⟨h0, h1⟩ := h
    unfold Arg.orSmall
    dsimp only
    by_cases hx : x = 0
    · rw [if_pos hx, both_ok (by show (0:K) ≤ 1 / 10000; norm_num) (by show (1 / 10000 : K) ≤ 1; norm_num) (by show (0:K) ≤ 1 / 10000; norm_num)
        (by show (1 / 10000 : K) ≤ 1; norm_num)]
      unfold used width Arg.sell Arg.buy
      rw [if_pos hx, if_neg (by norm_num), min_eq_left (by norm_num)]
    · rw [if_neg hx, both_ok h0 h1 h0 h1]
      unfold used width Arg.sell Arg.buy
      rw [if_neg hx, if_neg hx]
  | two x y =>
    obtain ⟨h0, h1, h2, h3⟩ := h
    unfold Arg.orSmall
    dsimp only
    rw [both_ok h0.le h1 h2.le h3]
    unfold used width Arg.sell Arg.buy
    rw [if_neg h0.ne', if_neg h2.ne', if_neg h0.ne', if_neg h2.ne']

theorem width_pos {w : K} (h : 0 ≤ w) : 0 < width w := by
  unfold width
  split
  · norm_num
  · rename_i hw
    exact lt_min (lt_of_le_of_ne h (Ne.symm hw)) (by norm_num)

theorem gap_pos {g : K} (h : 0 ≤ g) : 0 < gap g := by
  unfold gap
  split
  · norm_num
  · rename_i hw
    exact lt_of_le_of_ne h (Ne.symm hw)

theorem mgw_eq {m g : K} {w u : Arg K} (hg : 0 ≤ g) (hw : w.widthOk) (hu : 0 ≤ u.sell ∧ u.sell ≤ 1 ∧ 0 ≤ u.buy ∧ u.buy ≤ 1)
    (x y : Option K) (rsk csh : Option Str) :
    let G := 1 + 1 / 2 * gap g
    fromMgw m g w u x y rsk csh = .ok (make (m * G) (m * G * (1 + width w.sell)) (m / G) (m / G / (1 + width w.buy)) x y
      (marginal (used u.sell) (m * G) (m * G * (1 + width w.sell))) (marginal (used u.buy) (m / G) (m / G / (1 + width w.buy)))
      (rsk := rsk) (csh := csh)) := by
  have hgp := gap_pos hg
  have hws : 0 ≤ w.sell ∧ 0 ≤ w.buy := by
    cases w with
    | one x => exact ⟨hw.1, hw.1⟩
    | two x y => exact ⟨hw.1.le, hw.2.2.1.le⟩
  have h1 : (1 : K) + 1 / 2 * gap g ≠ 0 := by positivity
  have h2 := width_pos hws.2
  unfold fromMgw
  dsimp only
  rw [both_ok hu.1 hu.2.1 hu.2.2.1 hu.2.2.2, Py.ok_bind, width_ok hw, Py.ok_bind]
  have e : (if g = 0 then (1 : K) / 10000 else g) = gap g := rfl
  rw [e, pyDiv_ok h1, Py.ok_bind]
  unfold onePlus
  dsimp only
  rw [Py.ok_bind, pyDiv_ok (by positivity), Py.ok_bind, Py.ok_bind]

/-- C55: from a middle price, a gap and a width: buy end < buy start < middle < sell start < sell end. The middle is the geometric mean of
the two starts, and the ranges have the requested relative widths. The marginal prices are inside the ranges, strictly before their ends.
Gap and width zero are replaced by one basis point, a width above 0.999 by 0.999; a width above 1 is excluded. -/
theorem C55_order_partial (m g : K) (w u : Arg K) (hm : 0 < m) (hg : 0 ≤ g) (hw : w.widthOk)
    (hu : 0 ≤ u.sell ∧ u.sell ≤ 1 ∧ 0 ≤ u.buy ∧ u.buy ≤ 1) (x y : Option K) (rsk csh : Option Str) :
    ∃ s, fromMgw m g w u x y rsk csh = .ok s ∧ 0 < s.pBuyB ∧ s.pBuyB < s.pBuyA ∧ s.pBuyA < m ∧ m < s.pSellA ∧ s.pSellA < s.pSellB ∧
      s.pBuyA * s.pSellA = m ^ 2 ∧ s.pSellA = m * (1 + gap g / 2) ∧ s.pSellB = s.pSellA * (1 + width w.sell) ∧
      s.pBuyA = s.pBuyB * (1 + width w.buy) ∧
      (∀ p, s.psellMarginal = some p → s.pSellA < p ∧ p < s.pSellB) ∧ (∀ p, s.pbuyMarginal = some p → s.pBuyB < p ∧ p < s.pBuyA) ∧
      (s.psellMarginal = none ↔ u.sell = 0) ∧ (s.pbuyMarginal = none ↔ u.buy = 0) := by
  have hgp := gap_pos hg
  have hws : 0 ≤ w.sell ∧ 0 ≤ w.buy := by
    cases w with
    | one x => exact ⟨hw.1, hw.1⟩
    | two x y => exact ⟨hw.1.le, hw.2.2.1.le⟩
  have hw1 := width_pos hws.1
  have hw2 := width_pos hws.2
  have hG : (1 : K) < 1 + 1 / 2 * gap g := by
    have : 0 < 1 / 2 * gap g := by positivity
    linarith
  refine ⟨_, mgw_eq hg hw hu x y rsk csh, ?_⟩
  generalize hGe : 1 + 1 / 2 * gap g = G at hG
  have hG0 : 0 < G := by linarith
  generalize width w.sell = a at hw1
  generalize width w.buy = b at hw2
  have hmG : 0 < m * G := by positivity
  have hdG : 0 < m / G := by positivity
  have o1 : m / G / (1 + b) < m / G := div_lt_self hdG (by linarith)
  have o2 : m * G < m * G * (1 + a) := lt_mul_of_one_lt_right hmG (by linarith)
  unfold make
  dsimp only
  refine ⟨by positivity, o1, div_lt_self hm hG, lt_mul_of_one_lt_right hm hG, o2, by field_simp, by rw [← hGe]; ring, rfl, by field_simp, ?_, ?_,
    ?_, ?_⟩
  · intro p hp
    unfold marginal used at hp
    split at hp
    · cases hp
    · rename_i hu0
      have hp := Option.some.inj hp
      have ht0 : 0 < min u.sell (999 / 1000 : K) := lt_min (lt_of_le_of_ne hu.1 (Ne.symm hu0)) (by norm_num)
      have ht1 : min u.sell (999 / 1000 : K) < 1 := lt_of_le_of_lt (min_le_right _ _) (by norm_num)
      generalize min u.sell (999 / 1000 : K) = t at *
      rw [← hp]
      constructor <;> nlinarith
  · intro p hp
    unfold marginal used at hp
    split at hp
    · cases hp
    · rename_i hu0
      have hp := Option.some.inj hp
      have ht0 : 0 < min u.buy (999 / 1000 : K) := lt_min (lt_of_le_of_ne hu.2.2.1 (Ne.symm hu0)) (by norm_num)
      have ht1 : min u.buy (999 / 1000 : K) < 1 := lt_of_le_of_lt (min_le_right _ _) (by norm_num)
      generalize min u.buy (999 / 1000 : K) = t at *
      rw [← hp]
      constructor <;> nlinarith
  · unfold marginal used
    by_cases h : u.sell = 0 <;> simp [h]
  · unfold marginal used
    by_cases h : u.buy = 0 <;> simp [h]

/-- C55: a utilization says how far the marginal price has moved from the start to the end of its range, cut at 0.999; without one there is
no marginal price. -/
theorem C55_utilization (m g : K) (w u : Arg K) (hg : 0 ≤ g) (hw : w.widthOk) (hu : 0 ≤ u.sell ∧ u.sell ≤ 1 ∧ 0 ≤ u.buy ∧ u.buy ≤ 1)
    (x y : Option K) (rsk csh : Option Str) (s : Strat K) (h : fromMgw m g w u x y rsk csh = .ok s) :
    s.psellMarginal = (if u.sell = 0 then none else some (s.pSellA + min u.sell (999 / 1000) * (s.pSellB - s.pSellA))) ∧
    s.pbuyMarginal = (if u.buy = 0 then none else some (s.pBuyA - min u.buy (999 / 1000) * (s.pBuyA - s.pBuyB))) := by
  have := mgw_eq (m := m) hg hw hu x y rsk csh
  dsimp only at this
  rw [this] at h
  cases h
  unfold make marginal used
  dsimp only
  constructor
  · split
    · rfl
    · simp only [Option.map_some, Option.some.injEq]; ring
  · split
    · rfl
    · simp only [Option.map_some, Option.some.injEq]; ring

/-- C55 fails: a width above 1 is rejected by the check meant for utilizations, for every middle price and gap. -/
theorem C55_wide_violated (m g x : K) (h : 1 < x) : fromMgw m g (.one x) (.one 0) = .error .value := by
  have h0 : x ≠ 0 := by linarith
  unfold fromMgw
  dsimp only
  rw [both_ok le_rfl zero_le_one le_rfl zero_le_one, Py.ok_bind]
  unfold Arg.orSmall Arg.both
  dsimp only
  rw [if_neg h0]
  have e : validate x = .error .value := by
    unfold validate
    rw [if_neg h0, if_neg (not_lt.2 (by linarith)), if_pos h]
  rw [e]
  rfl

/-- C55 fails: with two widths a width of zero raises `TypeError`, although a single width of zero is accepted. -/
theorem C55_zero_width_violated (m g x : K) (hg : 0 ≤ g) (h0 : 0 < x) (h1 : x ≤ 1) :
    fromMgw m g (.two 0 x) (.one 0) = .error .type ∧ fromMgw m g (.two x 0) (.one 0) = .error .type := by
  have hgp := gap_pos hg
  have hG : (1 : K) + 1 / 2 * gap g ≠ 0 := by positivity
  have eg : (if g = 0 then (1 : K) / 10000 else g) = gap g := rfl
  have ex : used x = some (min x (999 / 1000)) := by unfold used; rw [if_neg h0.ne']
  have ez : used (0 : K) = none := by unfold used; rw [if_pos rfl]
  have hx : (0 : K) < 1 + min x (999 / 1000) := by
    have : 0 < min x (999 / 1000 : K) := lt_min h0 (by norm_num)
    linarith
  constructor
  · unfold fromMgw
    dsimp only
    rw [both_ok le_rfl zero_le_one le_rfl zero_le_one, Py.ok_bind]
    unfold Arg.orSmall
    dsimp only
    rw [both_ok (a := .two 0 x) le_rfl zero_le_one h0.le h1, Py.ok_bind, eg, pyDiv_ok hG, Py.ok_bind]
    unfold Arg.sell Arg.buy
    rw [ex, ez]
    unfold onePlus
    dsimp only
    rw [Py.ok_bind, pyDiv_ok hx.ne']
    rfl
  · unfold fromMgw
    dsimp only
    rw [both_ok le_rfl zero_le_one le_rfl zero_le_one, Py.ok_bind]
    unfold Arg.orSmall
    dsimp only
    rw [both_ok (a := .two x 0) h0.le h1 le_rfl zero_le_one, Py.ok_bind, eg, pyDiv_ok hG, Py.ok_bind]
    unfold Arg.sell Arg.buy
    rw [ex, ez]
    rfl

end

/-! ### Uniswap v3 positions -/

/-- What a fee moves the prices by. -/
noncomputable def shiftOf (lo hi : ℝ) (fee : Option ℝ) : ℝ := Real.sqrt (lo * hi) * fee.getD 0 / 2

/-- C87: the sell range is the position's range moved up and the buy range is the same range moved down; both have the width of the
position. The start of the one and the end of the other differ by the fee times the geometric mean. The strategy is not rescaled unless
forced. The position is worth the same on both sides: the amounts at which the two curves start are in the ratio of the geometric mean. -/
theorem C87_ranges (lo hi : ℝ) (hlo : 0 < lo) (hle : lo ≤ hi) (below : Bool) (tvl fee : Option ℝ) (rsk csh : Option Str) :
    ∃ s ys yb, fromU3 lo hi below tvl fee rsk csh = .ok s ∧ s.pSellA = lo + shiftOf lo hi fee ∧ s.pSellB = hi + shiftOf lo hi fee ∧
      s.pBuyB = lo - shiftOf lo hi fee ∧ s.pBuyA = hi - shiftOf lo hi fee ∧ s.yIntSell = some ys ∧ s.yIntBuy = some yb ∧
      yb = tvl.getD 1000 ∧ ys * Real.sqrt (lo * hi) = yb ∧ (below = true → s.amtRsk = some ys) ∧
      (below = false → tvl.getD 1000 ≠ 0 → s.amtCsh = some yb) ∧ ∀ a b, s.rescaleStrat a b = .ok s := by
  have hp : 0 < lo * hi := mul_pos hlo (hlo.trans_le hle)
  have hr : 0 < Real.sqrt (lo * hi) := Real.sqrt_pos.2 hp
  unfold fromU3
  rw [if_neg (by simpa using hle)]
  dsimp only
  unfold pySqrt
  rw [if_neg (not_lt.2 hp.le), Py.ok_bind]
  have e : PySqrt.sqrt (lo * hi) = Real.sqrt (lo * hi) := rfl
  rw [e, pyDiv_ok hr.ne', Py.ok_bind]
  have hs : feeShift (Real.sqrt (lo * hi)) fee = shiftOf lo hi fee := by
    unfold shiftOf feeShift
    cases fee with
    | none => simp
    | some f => simp only [Option.getD_some]; ring
  rw [hs]
  refine ⟨_, tvl.getD 1000 / Real.sqrt (lo * hi), tvl.getD 1000, rfl, rfl, rfl, rfl, rfl, rfl, rfl, rfl, by field_simp, ?_, ?_, ?_⟩
  · intro h; rw [h]; rfl
  · intro h h0
    rw [h]
    unfold make
    simp [h0]
  · intro a b
    unfold rescaleStrat
    rw [if_pos ⟨rfl, rfl⟩]

/-- C87: wrong order of the prices is rejected. -/
theorem C87_order (lo hi : ℝ) (h : hi < lo) (below : Bool) (tvl fee : Option ℝ) (rsk csh : Option Str) :
    fromU3 lo hi below tvl fee rsk csh = .error .value := by
  unfold fromU3
  rw [if_pos (by simpa using h)]

/-- C87 fails: the documentation says that a strategy never starts with an amount of zero. A position that starts above its range has a
risk amount of zero; one that starts below has the minimum of cash. -/
theorem C87_seed_violated : ∃ s t : Strat ℚ, fromU3 (1 : ℚ) 4 false = .ok s ∧ s.amtRsk = some 0 ∧ fromU3 (1 : ℚ) 4 true = .ok t ∧
    t.amtCsh = some (1 / 10 ^ 10) :=
  ⟨make 1 4 4 1 (some 0) (some 1000) none none (some 500) (some 1000) none none false,
    make 1 4 4 1 (some 500) (some 0) none none (some 500) (some 1000) none none false, by decide +kernel, rfl, by decide +kernel,
    by decide +kernel⟩

/-- C87 fails: a fee moves the buy range below zero if the range is wide. -/
theorem C87_negative_violated : ∃ s : Strat ℚ, fromU3 (1 : ℚ) 16 true none (some (3 / 4)) = .ok s ∧ s.pBuyB = -1 / 2 :=
  ⟨make (5 / 2) (35 / 2) (29 / 2) (-1 / 2) (some 250) (some 0) none none (some 250) (some 1000) none none false, by decide +kernel, rfl⟩

example : (fromU3 (4 : ℚ) 9 true (some 600) (some (1 / 30))).map (fun s => (s.pBuyB, s.pSellA, s.amtRsk, s.yIntBuy)) =
    .ok (39 / 10, 41 / 10, some 100, some 600) := by decide +kernel

example : (fromMgw (100 : ℚ) (1 / 5) (.one (1 / 4)) (.two (1 / 2) 0)).map (fun s => (s.pBuyA, s.pSellA, s.pSellB, s.psellMarginal, s.pbuyMarginal)) =
    .ok (1000 / 11, 110, 275 / 2, some (495 / 4), none) := by decide +kernel

example : (fromSb (.two 120 110) (.two 80 90) : Py (Strat ℚ)).map (fun s => (s.pSellA, s.pSellB, s.pBuyA, s.pBuyB)) = .ok (110, 120, 90, 80) := by
  decide +kernel

example : fromSb (.two 120 110) (.two 80 (111 : ℚ)) = .error .value := by decide +kernel

example : ((make 110 120 90 80 (some 1) (some 100) : Strat ℚ).rescaleStrat 200 100).map (fun s => (s.pSellA, s.pBuyB, s.amtCsh)) =
    .ok (220, 160, some 100) := by decide +kernel

end Strat

end Carbon
