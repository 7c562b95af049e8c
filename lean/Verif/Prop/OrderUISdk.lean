import Verif.Carbon.OrderUISdk
import Verif.Carbon.PairLemmas
import Verif.Carbon.OrderUILemmas
import Verif.Prop.RunSim

/-! Properties of curves imported from the SDK, and of the strategies the simulator makes of them. -/

namespace Carbon.UICurve

open CarbonPair (pyDiv)
open Sdk

/-! ## Construction -/

/-- The pair `b/q` as a curve keeps it. -/
def plainPair (b q : Str) : CarbonPair := ⟨b, q, b, q, false, none, none⟩

/-- A curve of the pair `b/q`. -/
structure Plain (b q : Str) (c : UICurve ℝ) : Prop where
  pair : c.pair = plainPair b q
  tkn : c.tkn = b ∨ c.tkn = q
  B : 0 < c.B
  S : 0 ≤ c.S
  y0 : 0 ≤ c.y
  y1 : c.y ≤ c.yint

/-- Two names of tokens that make a pair. -/
structure Names (b q : Str) : Prop where
  ub : upper b = b
  uq : upper q = q
  sb : '/' ∉ b
  sq : '/' ∉ q
  ne : b ≠ q

theorem Names.copy {b q : Str} (h : Names b q) {p : CarbonPair} (h1 : p.tknb = b) (h2 : p.tknq = q) (h3 : p.decB = none) (h4 : p.decQ = none) :
    CarbonPair.make (.pair p) none none = .ok (plainPair b q) := by
  simp only [CarbonPair.make, CarbonPair.truthy, Bool.or_self, Bool.false_eq_true, if_false, Py.bind_eq_ok,
    CarbonPair.unpack_eq_ok, Except.ok.injEq]
  refine ⟨(b, q), ⟨?_, h.sb, h.sq⟩, ?_⟩
  · unfold CarbonPair.slashpair; rw [h1, h2]
  · unfold CarbonPair.finish plainPair; rw [h.ub, h.uq, h3, h4]

theorem Plain.hasToken {b q : Str} {c : UICurve ℝ} (h : Plain b q c) : (plainPair b q).hasToken c.tkn = true := by
  unfold CarbonPair.hasToken CarbonPair.hasBase CarbonPair.hasQuote plainPair
  rcases h.tkn with e | e <;> simp [e]

theorem Plain.raw {b q : Str} {c : UICurve ℝ} (h : Plain b q c) : 0 < c.pbRaw ∧ c.pbRaw ≤ c.paRaw := by
  have hB := h.B
  have hS := h.S
  unfold pbRaw paRaw
  exact ⟨mul_pos hB hB, by nlinarith⟩

theorem Plain.enabled {b q : Str} {c : UICurve ℝ} (h : Plain b q c) : c.disabled = false := by
  unfold disabled
  simp [h.raw.1.ne']

/-- The constructor gives back the curve of these parameters. -/
theorem Plain.make {b q : Str} (hn : Names b q) {c : UICurve ℝ} (h : Plain b q c) {p : CarbonPair} (h1 : p.tknb = b) (h2 : p.tknq = q)
    (h3 : p.decB = none) (h4 : p.decQ = none) : UICurve.make (.pair p) c.tkn c.B c.S c.yint c.y = .ok c := by
  have ut : upper c.tkn = c.tkn := by rcases h.tkn with e | e <;> rw [e]; exacts [hn.ub, hn.uq]
  have hc : (⟨plainPair b q, c.tkn, c.B, c.S, c.yint, c.y⟩ : UICurve ℝ) = c := by rw [← h.pair]
  obtain ⟨r1, r2⟩ := h.raw
  unfold UICurve.make
  rw [hn.copy h1 h2 h3 h4, Py.ok_bind, ut]
  dsimp only
  rw [h.hasToken, hc, h.enabled]
  simp only [Bool.not_true, Bool.false_eq_true, if_false]
  unfold conv
  split
  · rw [pyDiv_ok (r1.trans_le r2).ne', pyDiv_ok r1.ne']; rfl
  · rfl

/-- A curve from two positive prices. -/
theorem fromPrices_plain {b q : Str} (hn : Names b q) {p : CarbonPair} (h1 : p.tknb = b) (h2 : p.tknq = q)
    (h3 : p.decB = none) (h4 : p.decQ = none) {tkn : Str} (ht : tkn = b ∨ tkn = q) {pa pb yint y : ℝ} (ha : 0 < pa) (hb : 0 < pb)
    (h0 : 0 ≤ y) (hy : y ≤ yint) :
    ∃ c, fromPrices (.pair p) tkn pa pb yint y = .ok c ∧ Plain b q c ∧ c.tkn = tkn ∧ c.yint = yint ∧ c.y = y ∧
      (tkn = b → c.pa = min pa pb ∧ c.pb = max pa pb) ∧ (tkn = q → c.pa = max pa pb ∧ c.pb = min pa pb) := by
  obtain ⟨i, hi⟩ : ∃ i : Bool, i = (plainPair b q).hasBase tkn := ⟨_, rfl⟩
  obtain ⟨ra, hra⟩ : ∃ ra : ℝ, ra = if i then 1 / pa else pa := ⟨_, rfl⟩
  obtain ⟨rb, hrb⟩ : ∃ rb : ℝ, rb = if i then 1 / pb else pb := ⟨_, rfl⟩
  have ra0 : 0 < ra := by rw [hra]; split <;> positivity
  have rb0 : 0 < rb := by rw [hrb]; split <;> positivity
  have e1 : invertIf i pa = .ok ra := by
    unfold invertIf; rw [hra]; split
    · exact pyDiv_ok ha.ne'
    · rfl
  have e2 : invertIf i pb = .ok rb := by
    unfold invertIf; rw [hrb]; split
    · exact pyDiv_ok hb.ne'
    · rfl
  have e3 : orderPrices ra rb = (max ra rb, min ra rb) := by
    unfold orderPrices; split
    · rename_i h; rw [max_eq_right h.le, min_eq_left h.le]
    · rename_i h; rw [max_eq_left (not_lt.mp h), min_eq_right (not_lt.mp h)]
  have m0 : 0 < min ra rb := lt_min ra0 rb0
  have M0 : 0 < max ra rb := lt_of_lt_of_le ra0 (le_max_left _ _)
  obtain ⟨c, hc⟩ : ∃ c : UICurve ℝ,
      c = ⟨plainPair b q, tkn, Real.sqrt (min ra rb), Real.sqrt (max ra rb) - Real.sqrt (min ra rb), yint, y⟩ := ⟨_, rfl⟩
  have hp : Plain b q c := by
    rw [hc]
    exact ⟨rfl, ht, Real.sqrt_pos.mpr m0, sub_nonneg.mpr (Real.sqrt_le_sqrt min_le_max), h0, hy⟩
  have hmk := hp.make hn (p := plainPair b q) rfl rfl rfl rfl
  have epb : c.pbRaw = min ra rb := by rw [hc]; unfold pbRaw; exact Real.mul_self_sqrt m0.le
  have epa : c.paRaw = max ra rb := by
    rw [hc]; unfold paRaw; dsimp only; rw [sub_add_cancel]; exact Real.sq_sqrt M0.le
  have inv1 : 1 / max (1 / pa) (1 / pb) = min pa pb := by
    rcases le_total pa pb with h | h
    · rw [max_eq_left (one_div_le_one_div_of_le ha h), min_eq_left h, one_div_one_div]
    · rw [max_eq_right (one_div_le_one_div_of_le hb h), min_eq_right h, one_div_one_div]
  have inv2 : 1 / min (1 / pa) (1 / pb) = max pa pb := by
    rcases le_total pa pb with h | h
    · rw [min_eq_right (one_div_le_one_div_of_le ha h), max_eq_right h, one_div_one_div]
    · rw [min_eq_left (one_div_le_one_div_of_le hb h), max_eq_left h, one_div_one_div]
  have hrev : c.reverseq = i := by rw [hi, hc]; rfl
  refine ⟨c, ?_, hp, by rw [hc], by rw [hc], by rw [hc], ?_, ?_⟩
  · unfold fromPrices
    rw [hn.copy h1 h2 h3 h4, Py.ok_bind, if_neg (not_lt.mpr (h0.trans hy)), if_neg (not_lt.mpr hy), if_neg (not_lt.mpr h0), ← hi, e1, Py.ok_bind,
      e2, Py.ok_bind, e3]
    dsimp only
    unfold pySqrt
    rw [if_neg (not_lt.mpr m0.le), Py.ok_bind, if_neg (not_lt.mpr M0.le), Py.ok_bind]
    rw [hc] at hmk ⊢
    exact hmk
  · intro hb'
    have hit : i = true := by rw [hi]; unfold CarbonPair.hasBase plainPair; simp [hb']
    unfold UICurve.pa UICurve.pb
    rw [hrev, hit, epa, epb, hra, hrb, hit]
    exact ⟨inv1, inv2⟩
  · intro hq'
    have hif : i = false := by rw [hi]; unfold CarbonPair.hasBase plainPair; simpa [hq'] using hn.ne.symm
    unfold UICurve.pa UICurve.pb
    rw [hrev, hif, epa, epb, hra, hrb, hif]
    exact ⟨rfl, rfl⟩

/-! ## The import -/

/-- The name under which a token is imported: its ticker if the text is the ticker of a registered token, a fixed name otherwise. -/
def knownAs (T : Registry) (token dflt : Str) : Str := (dictGet T.byTicker (upper token)).elim dflt SdkTkn.token

theorem tokenName_ok (T : Registry) (token dflt : Str) : tokenName T token dflt = .ok (knownAs T token dflt) := by
  unfold tokenName knownAs TokenC.ticker TokenC.missing
  cases dictGet T.byTicker (upper token) <;> rfl

/-- The order that sells the base token is `ob`, the other one `oq`. -/
def Encoded (s : RawStrategy ℝ) (ob oq : RawOrder ℝ) : Prop :=
  (s.token0 = s.baseToken ∧ s.token1 = s.quoteToken ∧ s.order0 = ob ∧ s.order1 = oq) ∨
  (s.token1 = s.baseToken ∧ s.token0 = s.quoteToken ∧ s.order1 = ob ∧ s.order0 = oq)

theorem sides_ok {s : RawStrategy ℝ} {ob oq : RawOrder ℝ} (hd : s.baseToken ≠ s.quoteToken) (h : Encoded s ob oq) : sides s = .ok (ob, oq) := by
  unfold sides
  rcases h with ⟨h1, h2, h3, h4⟩ | ⟨h1, h2, h3, h4⟩
  · rw [h1, h2, h3, h4]; simp
  · rw [h1, h2, h3, h4]; simp [hd]

/-- The order is filled to `y` out of `z`. -/
def Filled (o : RawOrder ℝ) (y z : ℤ) : Prop := bn2int o.y = .ok (.int y) ∧ bn2int o.z = .ok (.int z)

theorem share_eq {o : RawOrder ℝ} {y z : ℤ} (h : Filled o y z) : share o = pyDiv (y : ℝ) z := by
  unfold share
  rw [h.1, Py.ok_bind, h.2, Py.ok_bind]

theorem share_ok {o : RawOrder ℝ} {y z : ℤ} (h : Filled o y z) (hz : 0 < z) : share o = .ok ((y : ℝ) / z) := by
  rw [share_eq h]
  exact pyDiv_ok (by exact_mod_cast hz.ne')

/-- A strategy that can be imported: numeric identifier, two tokens with the two orders in either order, positive prices, budgets that are not
negative, orders that are not filled beyond their capacity. -/
structure Importable (s : RawStrategy ℝ) (ob oq : RawOrder ℝ) (yb zb yq zq : ℤ) : Prop where
  id : ∃ v, bn2int s.id = .ok v
  ne : s.baseToken ≠ s.quoteToken
  enc : Encoded s ob oq
  fb : Filled ob yb zb
  fq : Filled oq yq zq
  hyb : 0 ≤ yb
  hzb : 0 < zb
  lb : yb ≤ zb
  hyq : 0 ≤ yq
  hzq : 0 < zq
  lq : yq ≤ zq
  sl : 0 < s.sellPriceLow
  sh : 0 < s.sellPriceHigh
  bl : 0 < s.buyPriceLow
  bh : 0 < s.buyPriceHigh
  sb : 0 ≤ s.sellBudget
  bb : 0 ≤ s.buyBudget

theorem fromSdk_plain {T : Registry} {s : RawStrategy ℝ} {ob oq : RawOrder ℝ} {yb zb yq zq : ℤ} (h : Importable s ob oq yb zb yq zq)
    {b q : Str} (hb : knownAs T s.baseToken "TKNB".toList = b) (hq : knownAs T s.quoteToken "TKNQ".toList = q) (hn : Names b q) :
    ∃ buy sell, fromSdk T s none = .ok (buy, sell) ∧ Plain b q buy ∧ Plain b q sell ∧ sell.tkn = b ∧ buy.tkn = q ∧
      sell.yint = s.sellBudget ∧ sell.y = s.sellBudget * (yb / zb) ∧ buy.yint = s.buyBudget ∧ buy.y = s.buyBudget * (yq / zq) ∧
      sell.pa = min s.sellPriceLow s.sellPriceHigh ∧ sell.pb = max s.sellPriceLow s.sellPriceHigh ∧
      buy.pa = max s.buyPriceHigh s.buyPriceLow ∧ buy.pb = min s.buyPriceHigh s.buyPriceLow := by
  have frac : ∀ {y z : ℤ} {w : ℝ}, 0 ≤ y → 0 < z → y ≤ z → 0 ≤ w → 0 ≤ w * ((y : ℝ) / z) ∧ w * ((y : ℝ) / z) ≤ w := by
    intro y z w h0 hz h1 hw
    have a0 : (0 : ℝ) ≤ y := by exact_mod_cast h0
    have az : (0 : ℝ) < z := by exact_mod_cast hz
    have a1 : (y : ℝ) ≤ z := by exact_mod_cast h1
    have : (y : ℝ) / z ≤ 1 := (div_le_one az).mpr a1
    exact ⟨by positivity, by nlinarith⟩
  obtain ⟨f1, f2⟩ := frac h.hyb h.hzb h.lb h.sb
  obtain ⟨g1, g2⟩ := frac h.hyq h.hzq h.lq h.bb
  obtain ⟨p, hp⟩ : ∃ p, p = CarbonPair.finish b q false none none := ⟨_, rfl⟩
  have hmk : CarbonPair.make .none (some b) (some q) = .ok p := by rw [hp]; rfl
  have p1 : p.tknb = b := by rw [hp]; exact hn.ub
  have p2 : p.tknq = q := by rw [hp]; exact hn.uq
  have p3 : p.decB = none := by rw [hp]; rfl
  have p4 : p.decQ = none := by rw [hp]; rfl
  obtain ⟨sell, s1, s2, s3, s4, s5, s6, -⟩ := fromPrices_plain hn p1 p2 p3 p4 (Or.inl rfl) h.sl h.sh f1 f2
  obtain ⟨buy, b1, b2, b3, b4, b5, -, b6⟩ := fromPrices_plain hn p1 p2 p3 p4 (Or.inr rfl) h.bh h.bl g1 g2
  obtain ⟨v, hv⟩ := h.id
  refine ⟨buy, sell, ?_, b2, s2, s3, b3, s4, s5, b4, b5, (s6 rfl).1, (s6 rfl).2, (b6 rfl).1, (b6 rfl).2⟩
  unfold fromSdk
  simp only [hv, Py.ok_bind, sides_ok h.ne h.enc, tokenName_ok, hb, hq, share_ok h.fq h.hzq, share_ok h.fb h.hzb, hmk, roundNsd, s1, b1]

/-- A strategy is imported as two curves of its pair. The one that sells the base token covers the sell prices and holds the part of the sell
budget to which the order of the base token is filled. The other one sells the quote token, covers the buy prices and holds the part of the buy
budget to which the order of the quote token is filled. It does not matter which order comes first. -/
theorem C107_import (T : Registry) (s : RawStrategy ℝ) (ob oq : RawOrder ℝ) (yb zb yq zq : ℤ) (h : Importable s ob oq yb zb yq zq)
    (b q : Str) (hb : knownAs T s.baseToken "TKNB".toList = b) (hq : knownAs T s.quoteToken "TKNQ".toList = q) (hn : Names b q) :
    ∃ buy sell, fromSdk T s none = .ok (buy, sell) ∧ sell.pair.slashpair = b ++ '/' :: q ∧ buy.pair.slashpair = b ++ '/' :: q ∧
      sell.tkn = b ∧ buy.tkn = q ∧ sell.yint = s.sellBudget ∧ sell.y * zb = s.sellBudget * yb ∧ buy.yint = s.buyBudget ∧
      buy.y * zq = s.buyBudget * yq ∧
      sell.pmin = min s.sellPriceLow s.sellPriceHigh ∧ sell.pmax = max s.sellPriceLow s.sellPriceHigh ∧
      buy.pmin = min s.buyPriceLow s.buyPriceHigh ∧ buy.pmax = max s.buyPriceLow s.buyPriceHigh ∧
      sell.pa = sell.pmin ∧ buy.pa = buy.pmax := by
  obtain ⟨buy, sell, e, pb, ps, h1, h2, h3, h4, h5, h6, h7, h8, h9, h10⟩ := fromSdk_plain (T := T) h hb hq hn
  have zb0 : (zb : ℝ) ≠ 0 := by exact_mod_cast h.hzb.ne'
  have zq0 : (zq : ℝ) ≠ 0 := by exact_mod_cast h.hzq.ne'
  have mm : ∀ c : UICurve ℝ, c.pmin = min c.pa c.pb ∧ c.pmax = max c.pa c.pb := by
    intro c
    unfold pmin pmax
    split
    · rename_i hl; exact ⟨(min_eq_left hl.le).symm, (max_eq_right hl.le).symm⟩
    · rename_i hl; exact ⟨(min_eq_right (not_lt.mp hl)).symm, (max_eq_left (not_lt.mp hl)).symm⟩
  have k1 : sell.pmin = min s.sellPriceLow s.sellPriceHigh := by rw [(mm sell).1, h7, h8, min_eq_left min_le_max]
  have k2 : sell.pmax = max s.sellPriceLow s.sellPriceHigh := by rw [(mm sell).2, h7, h8, max_eq_right min_le_max]
  have k3 : buy.pmin = min s.buyPriceLow s.buyPriceHigh := by rw [(mm buy).1, h9, h10, min_eq_right min_le_max, min_comm]
  have k4 : buy.pmax = max s.buyPriceLow s.buyPriceHigh := by rw [(mm buy).2, h9, h10, max_eq_left min_le_max, max_comm]
  refine ⟨buy, sell, e, by rw [ps.pair]; rfl, by rw [pb.pair]; rfl, h1, h2, h3, ?_, h5, ?_, k1, k2, k3, k4, by rw [h7, k1],
    by rw [h9, k4, max_comm]⟩
  · rw [h4]; field_simp
  · rw [h6]; field_simp

/-- Where in its range a side of an imported strategy stands depends on the prices and on how far the order is filled, not on the budget. -/
theorem C107_marginal (T : Registry) (s : RawStrategy ℝ) (ob oq : RawOrder ℝ) (yb zb yq zq : ℤ) (h : Importable s ob oq yb zb yq zq)
    (b q : Str) (hb : knownAs T s.baseToken "TKNB".toList = b) (hq : knownAs T s.quoteToken "TKNQ".toList = q) (hn : Names b q)
    (h1 : 0 < s.sellBudget) (h2 : 0 < s.buyBudget) :
    ∃ buy sell ask bid, fromSdk T s none = .ok (buy, sell) ∧ sell.pMarg = .ok (some ask) ∧ buy.pMarg = .ok (some bid) ∧
      0 < ask ∧ 0 < bid ∧
      1 / Real.sqrt ask = (1 - (yb : ℝ) / zb) * (1 / Real.sqrt (max s.sellPriceLow s.sellPriceHigh)) +
        (yb : ℝ) / zb * (1 / Real.sqrt (min s.sellPriceLow s.sellPriceHigh)) ∧
      Real.sqrt bid = (1 - (yq : ℝ) / zq) * Real.sqrt (min s.buyPriceLow s.buyPriceHigh) +
        (yq : ℝ) / zq * Real.sqrt (max s.buyPriceLow s.buyPriceHigh) := by
  obtain ⟨buy, sell, e, pb, ps, t1, t2, h3, h4, h5, h6, h7, h8, h9, h10⟩ := fromSdk_plain (T := T) h hb hq hn
  have ss : Sound sell := ⟨ps.B, ps.S, by rw [h3]; exact h1, ps.y0, ps.y1⟩
  have sb : Sound buy := ⟨pb.B, pb.S, by rw [h5]; exact h2, pb.y0, pb.y1⟩
  have es := pMargF_ok ss (dy := 0) ps.y0 true false (fun _ => le_rfl)
  have eb := pMargF_ok sb (dy := 0) pb.y0 true false (fun _ => le_rfl)
  have qs : sell.pair.hasQuote sell.tkn = false := by
    rw [ps.pair, t1]; unfold CarbonPair.hasQuote plainPair; simpa using hn.ne
  have qb : buy.pair.hasQuote buy.tkn = true := by
    rw [pb.pair, t2]; unfold CarbonPair.hasQuote plainPair; simp
  have rs : sell.reverseq = true := by
    unfold reverseq; rw [ps.pair, t1]; unfold CarbonPair.hasBase plainPair; simp
  have rb : buy.reverseq = false := by
    unfold reverseq; rw [pb.pair, t2]; unfold CarbonPair.hasBase plainPair; simpa using hn.ne.symm
  have pos : ∀ c : UICurve ℝ, Sound c → 0 < c.B + c.S * (c.y - 0) / c.yint := by
    intro c hc
    have := hc.hB; have := hc.hS; have := hc.hyint; have := hc.hy0
    rw [sub_zero]; positivity
  have fs : sell.y / sell.yint = (yb : ℝ) / zb := by rw [h4, h3]; field_simp
  have fb : buy.y / buy.yint = (yq : ℝ) / zq := by rw [h6, h5]; field_simp
  have lin : ∀ c : UICurve ℝ, c.B + c.S * (c.y - 0) / c.yint = (1 - c.y / c.yint) * c.B + c.y / c.yint * (c.S + c.B) := by
    intro c; ring
  unfold inConv at es eb
  rw [qs] at es
  rw [qb] at eb
  simp only [Bool.false_eq_true, if_false, if_true] at es eb
  refine ⟨buy, sell, _, _, e, es, eb, by have := pos sell ss; positivity, by have := pos buy sb; positivity, ?_, ?_⟩
  · have a1 : Real.sqrt (max s.sellPriceLow s.sellPriceHigh) = 1 / sell.B := by
      rw [← h8]; unfold UICurve.pb pbRaw; rw [rs]
      simp only [if_true]
      rw [Real.sqrt_div zero_le_one, Real.sqrt_one, Real.sqrt_mul_self ps.B.le]
    have a2 : Real.sqrt (min s.sellPriceLow s.sellPriceHigh) = 1 / (sell.S + sell.B) := by
      rw [← h7]; unfold UICurve.pa paRaw; rw [rs]
      simp only [if_true]
      rw [Real.sqrt_div zero_le_one, Real.sqrt_one, Real.sqrt_sq (add_nonneg ps.S ps.B.le)]
    rw [a1, a2, one_div_one_div, one_div_one_div, Real.sqrt_div zero_le_one, Real.sqrt_one, Real.sqrt_sq (pos sell ss).le, one_div_one_div, lin,
      fs]
  · have a1 : Real.sqrt (min s.buyPriceLow s.buyPriceHigh) = buy.B := by
      rw [min_comm, ← h10]; unfold UICurve.pb pbRaw; rw [rb]
      simp only [Bool.false_eq_true, if_false]
      exact Real.sqrt_mul_self pb.B.le
    have a2 : Real.sqrt (max s.buyPriceLow s.buyPriceHigh) = buy.S + buy.B := by
      rw [max_comm, ← h9]; unfold UICurve.pa paRaw; rw [rb]
      simp only [Bool.false_eq_true, if_false]
      exact Real.sqrt_sq (add_nonneg pb.S pb.B.le)
    rw [a1, a2, Real.sqrt_sq (pos buy sb).le, lin, fb]

/-- It does not matter which of the two encoded orders comes first, whatever the strategy is. -/
theorem C107_order (T : Registry) (s : RawStrategy ℝ) (nsd : Option ℤ) (hd : s.token0 ≠ s.token1) :
    fromSdk T { s with token0 := s.token1, token1 := s.token0, order0 := s.order1, order1 := s.order0 } nsd = fromSdk T s nsd := by
  have hs : sides { s with token0 := s.token1, token1 := s.token0, order0 := s.order1, order1 := s.order0 } = sides s := by
    unfold sides
    dsimp only
    by_cases hb0 : s.baseToken = s.token0
    · have hb1 : s.baseToken ≠ s.token1 := hb0 ▸ hd
      by_cases hq : s.quoteToken = s.token1
      · rw [hb0, hq]; simp [hd]
      · have hq' : ¬ s.token1 = s.quoteToken := fun e => hq e.symm
        have hb' : ¬ s.token1 = s.baseToken := fun e => hb1 e.symm
        simp [hq', hb']
    · by_cases hb1 : s.baseToken = s.token1
      · by_cases hq : s.quoteToken = s.token0
        · rw [hb1, hq]; simp [hd.symm]
        · have hq' : ¬ s.token0 = s.quoteToken := fun e => hq e.symm
          have hb' : ¬ s.token0 = s.baseToken := fun e => hb0 e.symm
          simp [hq', hb']
      · simp [hb0, hb1]
  unfold fromSdk
  rw [hs]

/-- Tokens that do not match those of the encoded orders are refused. -/
theorem C107_mismatch (T : Registry) (s : RawStrategy ℝ) (nsd : Option ℤ) (v : Val ℝ) (hid : bn2int s.id = .ok v)
    (h : ¬ (∀ t, (t = s.baseToken ∨ t = s.quoteToken) ↔ (t = s.token0 ∨ t = s.token1))) : fromSdk T s nsd = .error .value := by
  have hs : sides s = .error .value := by
    unfold sides
    rw [if_neg]
    rintro ⟨h1, h2, h3, h4⟩
    apply h
    intro t
    constructor
    · rintro (rfl | rfl) <;> assumption
    · rintro (rfl | rfl) <;> assumption
  unfold fromSdk
  rw [hid, Py.ok_bind, hs]
  rfl

/-- Rounding to significant digits is rounding of the six numbers, before anything is computed. -/
theorem C107_rounded (T : Registry) (s : RawStrategy ℝ) (n : ℤ) :
    fromSdk T s (some n) = fromSdk T { s with
      buyPriceLow := roundsd s.buyPriceLow n, buyPriceHigh := roundsd s.buyPriceHigh n, buyBudget := roundsd s.buyBudget n,
      sellPriceLow := roundsd s.sellPriceLow n, sellPriceHigh := roundsd s.sellPriceHigh n, sellBudget := roundsd s.sellBudget n } none := rfl

/-- A strategy one of whose orders has no capacity cannot be imported. -/
theorem C107_unfunded_violated (T : Registry) (s : RawStrategy ℝ) (nsd : Option ℤ) (v : Val ℝ) (hid : bn2int s.id = .ok v)
    (hd : s.baseToken ≠ s.quoteToken) (ob oq : RawOrder ℝ) (he : Encoded s ob oq) (yb zb yq zq : ℤ) (fb : Filled ob yb zb) (fq : Filled oq yq zq)
    (h0 : zb = 0 ∨ zq = 0) : fromSdk T s nsd = .error .zeroDiv := by
  unfold fromSdk
  rw [hid, Py.ok_bind, sides_ok hd he, Py.ok_bind, tokenName_ok, Py.ok_bind, share_eq fq]
  by_cases hq : zq = 0
  · subst hq; unfold pyDiv; rw [if_pos (by simp)]; rfl
  · have hb : zb = 0 := h0.resolve_right hq
    subst hb
    rw [pyDiv_ok (by exact_mod_cast hq), Py.ok_bind, tokenName_ok, Py.ok_bind, share_eq fb]
    unfold pyDiv; rw [if_pos (by simp)]; rfl

/-- A strategy without sell prices, which are zero then, cannot be imported, even if nothing is for sale. -/
theorem C107_no_prices_violated (T : Registry) (s : RawStrategy ℝ) (v : Val ℝ) (hid : bn2int s.id = .ok v)
    (hd : s.baseToken ≠ s.quoteToken) (ob oq : RawOrder ℝ) (he : Encoded s ob oq) (yb zb yq zq : ℤ) (fb : Filled ob yb zb) (fq : Filled oq yq zq)
    (zb0 : 0 < zb) (zq0 : 0 < zq) (b q : Str) (hb : knownAs T s.baseToken "TKNB".toList = b)
    (hq : knownAs T s.quoteToken "TKNQ".toList = q) (hn : Names b q) (hs : s.sellBudget = 0) (hp : s.sellPriceLow = 0) :
    fromSdk T s none = .error .zeroDiv := by
  have hmk : CarbonPair.make .none (some b) (some q) = .ok (CarbonPair.finish b q false none none) := rfl
  have hc := hn.copy (p := CarbonPair.finish b q false none none) hn.ub hn.uq rfl rfl
  have hbt : (plainPair b q).hasBase b = true := by unfold CarbonPair.hasBase plainPair; simp
  have hf : fromPrices (.pair (CarbonPair.finish b q false none none)) b s.sellPriceLow s.sellPriceHigh s.sellBudget
      (s.sellBudget * ((yb : ℝ) / zb)) = .error .zeroDiv := by
    unfold fromPrices
    rw [hc, Py.ok_bind, hs, zero_mul, if_neg (lt_irrefl _), if_neg (lt_irrefl _), if_neg (lt_irrefl _), hbt, hp]
    unfold invertIf pyDiv
    simp
  unfold fromSdk
  simp only [hid, Py.ok_bind, sides_ok hd he, tokenName_ok, hb, hq, share_ok fq zq0, share_ok fb zb0, hmk, roundNsd, hf]
  rfl

/-! ## Storing the imported curves -/

/-- The curve of an order for which prices and capacity of a curve are given. -/
theorem buildCurve_plain {b q : Str} {c : UICurve ℝ} (h : Plain b q c) :
    ∃ k, Sim.buildCurve c.y c.pbRaw c.paRaw none (some c.yint) = .ok k ∧ k.B = c.B ∧ k.S = c.S ∧ k.yint = c.yint ∧ k.y = c.y ∧
      k.plow = c.pbRaw ∧ k.phigh = c.paRaw := by
  obtain ⟨r1, r2⟩ := h.raw
  have e1 : Real.sqrt c.pbRaw = c.B := Real.sqrt_mul_self h.B.le
  have e2 : Real.sqrt c.paRaw = c.S + c.B := Real.sqrt_sq (add_nonneg h.S h.B.le)
  suffices ∃ k, Sim.buildCurve c.y c.pbRaw c.paRaw none (some c.yint) = .ok k ∧
      k = ⟨c.B, c.S, c.yint, c.pbRaw, c.paRaw, c.y, decide (c.paRaw = c.pbRaw)⟩ by
    obtain ⟨k, hk, rfl⟩ := this
    exact ⟨_, hk, rfl, rfl, rfl, rfl, rfl, rfl⟩
  refine ⟨_, ?_, rfl⟩
  unfold Sim.buildCurve
  dsimp only
  rw [if_neg (not_lt.mpr h.y1)]
  unfold Curve.init
  rw [Sim.shape_of r2 r1.le rfl rfl rfl, Py.ok_bind, e1, e2, add_sub_cancel_right]
  rfl

/-- An order with these prices gives the curve back, and can be reported. -/
theorem sellOrder_plain {b q : Str} (hn : Names b q) {c : UICurve ℝ} (h : Plain b q c) (id lk : Nat) :
    ∃ o, Sim.sellOrder (plainPair b q) c.tkn (some c.y) (some c.pbRaw) (some c.paRaw) id lk none (some c.yint) = .ok o ∧
      RunSim.fromOrder o = .ok c ∧ o.id = id ∧ o.linked = lk ∧ ∃ r, Sim.report o = .ok r := by
  obtain ⟨r1, r2⟩ := h.raw
  obtain ⟨k, hk, k1, k2, k3, k4, k5, k6⟩ := buildCurve_plain h
  obtain ⟨o, ho⟩ : ∃ o : SOrder ℝ, o = ⟨k, c.tkn, plainPair b q, (plainPair b q).pairIso, false, id, lk⟩ := ⟨_, rfl⟩
  have hmk := h.make hn (p := plainPair b q) rfl rfl rfl rfl
  have hm : UICurve.make (.pair o.pair) o.tkn o.curve.B o.curve.S o.curve.yint o.curve.y = .ok c := by
    rw [ho]; dsimp only; rw [k1, k2, k3, k4]; exact hmk
  refine ⟨o, ?_, hm, by rw [ho], by rw [ho], ?_⟩
  · unfold Sim.sellOrder
    rw [if_neg (by simp)]
    dsimp only
    rw [if_pos r2]
    unfold Sim.buildOrder
    rw [Option.getD_some, hk, Py.ok_bind, ho]
  · have hq : ∃ m, c.pMarg = .ok m := by
      unfold pMarg pMargF
      rw [h.enabled]
      simp only [Bool.false_eq_true, if_false, lt_irrefl, decide_false, Bool.and_false, sub_zero, not_lt.mpr h.y0]
      have hB := h.B
      have hS := h.S
      have hy0 := h.y0
      have hy1 : 0 ≤ c.yint := h.y0.trans h.y1
      split
      · rename_i hz
        rw [if_neg (by rintro ⟨hy, -⟩; exact hy (le_antisymm (hz ▸ h.y1) h.y0)), quotePrice_ok (by positivity)]
        exact ⟨_, rfl⟩
      · rw [quotePrice_ok (by positivity)]
        exact ⟨_, rfl⟩
    obtain ⟨m, hm'⟩ := hq
    have hconv : ∀ v : ℝ, 0 < v → ∃ w, o.pair.convertPrice (some v) o.tkn = .ok (some w) := by
      intro v hv
      have ht : o.pair.hasToken o.tkn = true := by rw [ho]; exact h.hasToken
      rcases Sim.convert_cases ht with h | h
      · exact ⟨v, h _⟩
      · exact ⟨_, h _ v rfl hv⟩
    have e5 : o.curve.plow = c.pbRaw := by rw [ho]; exact k5
    have e6 : o.curve.phigh = c.paRaw := by rw [ho]; exact k6
    obtain ⟨w1, hw1⟩ := hconv o.curve.phigh (e6 ▸ r1.trans_le r2)
    obtain ⟨w2, hw2⟩ := hconv o.curve.plow (e5 ▸ r1)
    have hdis : o.disabled = false := by rw [ho]
    unfold Sim.report
    rw [hm, Py.ok_bind, hdis]
    simp only [Bool.false_eq_true, if_false, hw1, hw2, Py.ok_bind, hm']
    exact ⟨_, rfl⟩

/-- The simulator adds an imported strategy as two new orders that are linked to each other. Read back as curves they are the imported curves.
Nothing else changes. -/
theorem C107_add (T : Registry) (s : RawStrategy ℝ) (ob oq : RawOrder ℝ) (yb zb yq zq : ℤ) (h : Importable s ob oq yb zb yq zq)
    (b q : Str) (hb : knownAs T s.baseToken "TKNB".toList = b) (hq : knownAs T s.quoteToken "TKNQ".toList = q) (hn : Names b q)
    (sim : Sim ℝ) (hi : Sim.Ids sim) :
    ∃ buy sell o1 o2, fromSdk T s none = .ok (buy, sell) ∧ RunSim.fromOrder o1 = .ok sell ∧ RunSim.fromOrder o2 = .ok buy ∧
      o1.linked = o2.id ∧ o2.linked = o1.id ∧ o1.id ≠ o2.id ∧ o1.id ∉ sim.orders.map Prod.fst ∧ o2.id ∉ sim.orders.map Prod.fst ∧
      ∃ n, sim.addFromSdk T s none = (.ok (o1.id, o2.id), { sim with nextId := n, orders := sim.orders ++ [(o1.id, o1), (o2.id, o2)] }) := by
  obtain ⟨buy, sell, e, pb, ps, t1, t2, -⟩ := fromSdk_plain (T := T) h hb hq hn
  obtain ⟨o1, e1, f1, i1, l1, r1, hr1⟩ := sellOrder_plain hn ps sim.nextId (sim.nextId + 1)
  obtain ⟨o2, e2, f2, i2, l2, r2, hr2⟩ := sellOrder_plain hn pb (sim.nextId + 1) sim.nextId
  obtain ⟨sp1, sp2⟩ := ps.raw
  have m1 : sim.nextId ∉ sim.orders.map Prod.fst := fun hm => absurd (hi.lt _ hm) (lt_irrefl _)
  have m1' : sim.nextId + 1 ∉ sim.orders.map Prod.fst := fun hm => by have := hi.lt _ hm; omega
  have m2 : sim.nextId + 1 ∉ (sim.orders ++ [(sim.nextId, o1)]).map Prod.fst := by
    rw [List.map_append, List.mem_append]
    rintro (hm | hm)
    · exact m1' hm
    · simp at hm
  have hbb : (plainPair b q).hasBase b = true := by unfold CarbonPair.hasBase plainPair; simp
  have hqq : (plainPair b q).hasQuote q = true := by unfold CarbonPair.hasQuote plainPair; simp
  have hqb : (plainPair b q).hasQuote b = false := by unfold CarbonPair.hasQuote plainPair; simpa using hn.ne
  have htb : (plainPair b q).hasToken b = true := by unfold CarbonPair.hasToken; simp [hbb]
  have htq : (plainPair b q).hasToken q = true := by unfold CarbonPair.hasToken; simp [hqq]
  have rs : sell.reverseq = true := by unfold reverseq; rw [ps.pair, t1]; exact hbb
  have rb : buy.reverseq = false := by
    unfold reverseq; rw [pb.pair, t2]; unfold CarbonPair.hasBase plainPair; simpa using hn.ne.symm
  have cs : ∀ v : ℝ, 0 < v → (plainPair b q).convertPrice (some (1 / v)) b = .ok (some v) := by
    intro v hv
    unfold CarbonPair.convertPrice
    simp only [htb, hqb]
    rw [if_neg (by simp), if_neg (by simp), pyDiv_ok (by positivity), one_div_one_div]; rfl
  have cb : ∀ v : ℝ, (plainPair b q).convertPrice (some v) q = .ok (some v) := by
    intro v; unfold CarbonPair.convertPrice; simp [htq, hqq]
  have a1 : sell.paOpt = some (1 / sell.paRaw) := by unfold paOpt UICurve.pa; rw [ps.enabled, rs]; rfl
  have a2 : sell.pbOpt = some (1 / sell.pbRaw) := by unfold pbOpt UICurve.pb; rw [ps.enabled, rs]; rfl
  have a3 : buy.paOpt = some buy.paRaw := by unfold paOpt UICurve.pa; rw [pb.enabled, rb]; rfl
  have a4 : buy.pbOpt = some buy.pbRaw := by unfold pbOpt UICurve.pb; rw [pb.enabled, rb]; rfl
  rw [t1] at e1
  rw [t2] at e2
  have hpt : sim.pairTokens (Sim.sdkArgs buy sell).pair (Sim.sdkArgs buy sell).tkn = .ok (plainPair b q, q) := by
    unfold Sim.pairTokens Sim.sdkArgs Sim.getPair CarbonPair.create
    dsimp only
    rw [ps.pair, t1]
    simp only [Py.ok_bind]
    unfold CarbonPair.other
    rw [if_pos hbb]
    rfl
  have hso : Sim.strategyOrders (plainPair b q) q sim.nextId (sim.nextId + 1) (Sim.sdkArgs buy sell) = .ok (o1, .ok o2) := by
    unfold Sim.strategyOrders Sim.sdkArgs
    dsimp only
    rw [a1, a2, a3, a4, t1, cs _ (sp1.trans_le sp2), cs _ sp1, cb, cb]
    simp only [CarbonPair.convertPrice, Py.ok_bind, e1, e2]
  refine ⟨buy, sell, o1, o2, e, f1, f2, by rw [l1, i2], by rw [l2, i1], by rw [i1, i2]; omega, by rw [i1]; exact m1, by rw [i2]; exact m1',
    sim.nextId + 2, ?_⟩
  unfold Sim.addFromSdk
  rw [e]
  dsimp only
  unfold Sim.addStrategy
  rw [hpt]
  dsimp only
  rw [hso]
  dsimp only
  rw [hr1, Py.ok_bind, hr2]
  dsimp only
  rw [Dict.set_of_not_mem _ m1, Dict.set_of_not_mem _ m2, List.append_assoc, i1, i2]
  rfl

/-- A strategy that cannot be imported changes nothing in the simulator. -/
theorem C107_add_failure (T : Registry) (s : RawStrategy ℝ) (nsd : Option ℤ) (sim : Sim ℝ) (e : Err) (h : fromSdk T s nsd = .error e) :
    sim.addFromSdk T s nsd = (.error e, sim) := by
  unfold Sim.addFromSdk
  rw [h]

/-! ## Names of tokens -/

/-- Registered tokens, and strategies that name them by their addresses as the interface does. -/
def twoTokens : Registry :=
  ⟨true, [("ETH".toList, ⟨"ETH".toList, "0xee".toList, some 18, "ETH".toList⟩), ("BNT".toList, ⟨"BNT".toList, "0xbb".toList, some 18, "BNT".toList⟩),
      ("USDC".toList, ⟨"USDC".toList, "0xaa".toList, some 6, "USDC".toList⟩)],
    [("0xee".toList, ⟨"ETH".toList, "0xee".toList, some 18, "ETH".toList⟩), ("0xbb".toList, ⟨"BNT".toList, "0xbb".toList, some 18, "BNT".toList⟩),
      ("0xaa".toList, ⟨"USDC".toList, "0xaa".toList, some 6, "USDC".toList⟩)]⟩

/-- A strategy for a base token against `0xaa` or `USDC`: 10 tokens of which 4 are there, and 1000 of which 250 are there. -/
noncomputable def sampleStrategy (base quote : Str) : RawStrategy ℝ where
  id := .int 7
  baseToken := base
  quoteToken := quote
  buyPriceLow := 1000
  buyPriceHigh := 1500
  buyBudget := 1000
  sellPriceLow := 2000
  sellPriceHigh := 3000
  sellBudget := 10
  token0 := quote
  token1 := base
  order0 := ⟨.int 1, .int 4, .int 0, .int 0⟩
  order1 := ⟨.int 2, .int 5, .int 0, .int 0⟩

theorem sample_importable {b q : Str} (h : b ≠ q) :
    Importable (sampleStrategy b q) (sampleStrategy b q).order1 (sampleStrategy b q).order0 2 5 1 4 where
  id := ⟨.int 7, rfl⟩
  ne := h
  enc := Or.inr ⟨rfl, rfl, rfl, rfl⟩
  fb := ⟨rfl, rfl⟩
  fq := ⟨rfl, rfl⟩
  hyb := by norm_num
  hzb := by norm_num
  lb := by norm_num
  hyq := by norm_num
  hzq := by norm_num
  lq := by norm_num
  sl := by norm_num [sampleStrategy]
  sh := by norm_num [sampleStrategy]
  bl := by norm_num [sampleStrategy]
  bh := by norm_num [sampleStrategy]
  sb := by norm_num [sampleStrategy]
  bb := by norm_num [sampleStrategy]

theorem names_eth : Names "ETH".toList "USDC".toList := ⟨by decide +kernel, by decide +kernel, by decide, by decide, by decide⟩
theorem names_unknown : Names "TKNB".toList "TKNQ".toList := ⟨by decide +kernel, by decide +kernel, by decide, by decide, by decide⟩

/-- With tickers the names are right: 4 ETH out of 10 for sale, 250 USDC out of 1000. -/
example : ∃ buy sell, fromSdk twoTokens (sampleStrategy "ETH".toList "USDC".toList) none = .ok (buy, sell) ∧
    sell.pair.slashpair = "ETH/USDC".toList ∧ sell.tkn = "ETH".toList ∧ sell.yint = 10 ∧ sell.y = 4 ∧ buy.yint = 1000 ∧ buy.y = 250 ∧
    sell.pmin = 2000 ∧ sell.pmax = 3000 ∧ buy.pmin = 1000 ∧ buy.pmax = 1500 := by
  obtain ⟨buy, sell, e, h1, -, h2, -, h3, h4, h5, h6, h7, h8, h9, h10, -⟩ := C107_import twoTokens _ _ _ _ _ _ _
    (sample_importable (b := "ETH".toList) (q := "USDC".toList) (by decide)) "ETH".toList "USDC".toList (by decide +kernel) (by decide +kernel)
    names_eth
  refine ⟨buy, sell, e, h1, h2, h3, ?_, h5, ?_, by rw [h7]; norm_num [sampleStrategy], by rw [h8]; norm_num [sampleStrategy],
    by rw [h9]; norm_num [sampleStrategy], by rw [h10]; norm_num [sampleStrategy]⟩
  · have : sell.y * 5 = 10 * 2 := by simpa [sampleStrategy] using h4
    linarith
  · have : buy.y * 4 = 1000 := by simpa [sampleStrategy] using h6
    linarith

/-- Tokens given by address are not recognized although they are registered, since the address is looked up as a ticker: strategies for
different tokens end up in one and the same pair. -/
theorem C107_address_violated : ∃ (T : Registry) (s1 s2 : RawStrategy ℝ) (t1 t2 : SdkTkn),
    T.addr s1.baseToken = .ok (some t1) ∧ T.addr s2.baseToken = .ok (some t2) ∧ t1.token = "ETH".toList ∧ t2.token = "BNT".toList ∧
    ∃ buy1 sell1 buy2 sell2, fromSdk T s1 none = .ok (buy1, sell1) ∧ fromSdk T s2 none = .ok (buy2, sell2) ∧
      sell1.tkn = "TKNB".toList ∧ sell2.tkn = "TKNB".toList ∧ sell1.pair.slashpair = "TKNB/TKNQ".toList ∧
      sell2.pair.slashpair = sell1.pair.slashpair := by
  obtain ⟨buy1, sell1, e1, h1, -, h2, -⟩ := C107_import twoTokens _ _ _ _ _ _ _
    (sample_importable (b := "0xee".toList) (q := "0xaa".toList) (by decide)) "TKNB".toList "TKNQ".toList (by decide +kernel) (by decide +kernel)
    names_unknown
  obtain ⟨buy2, sell2, e2, k1, -, k2, -⟩ := C107_import twoTokens _ _ _ _ _ _ _
    (sample_importable (b := "0xbb".toList) (q := "0xaa".toList) (by decide)) "TKNB".toList "TKNQ".toList (by decide +kernel) (by decide +kernel)
    names_unknown
  exact ⟨twoTokens, _, _, ⟨"ETH".toList, "0xee".toList, some 18, "ETH".toList⟩, ⟨"BNT".toList, "0xbb".toList, some 18, "BNT".toList⟩,
    by decide +kernel, by decide +kernel, rfl, rfl, buy1, sell1, buy2, sell2, e1, e2, h2, k2, h1, by rw [h1, k1]⟩

/-- An order without capacity. -/
example : fromSdk twoTokens { sampleStrategy "ETH".toList "USDC".toList with order0 := ⟨.int 0, .int 0, .int 0, .int 0⟩ } none = .error .zeroDiv :=
  C107_unfunded_violated _ _ _ (.int 7) rfl (by show "ETH".toList ≠ "USDC".toList; decide) _ _ (Or.inr ⟨rfl, rfl, rfl, rfl⟩) 2 5 0 0 ⟨rfl, rfl⟩ ⟨rfl, rfl⟩ (Or.inr rfl)

/-- Tokens that do not match. -/
example : fromSdk twoTokens { sampleStrategy "ETH".toList "USDC".toList with token0 := "BNT".toList } none = .error .value :=
  C107_mismatch _ _ _ (.int 7) rfl fun h => by
    have := (h "BNT".toList).mpr (Or.inl rfl)
    revert this
    show ¬ ("BNT".toList = "ETH".toList ∨ "BNT".toList = "USDC".toList)
    decide

/-- No sell prices and nothing for sale. -/
example : fromSdk twoTokens { sampleStrategy "ETH".toList "USDC".toList with sellBudget := 0, sellPriceLow := 0, sellPriceHigh := 0 } none =
    .error .zeroDiv :=
  C107_no_prices_violated _ _ (.int 7) rfl (by show "ETH".toList ≠ "USDC".toList; decide) _ _ (Or.inr ⟨rfl, rfl, rfl, rfl⟩) 2 5 1 4 ⟨rfl, rfl⟩
    ⟨rfl, rfl⟩ (by norm_num) (by norm_num) "ETH".toList "USDC".toList (by decide +kernel) (by decide +kernel) names_eth rfl rfl

/-- The sample strategy in a simulator without orders. -/
example (sim : Sim ℝ) (m : Method) (h : Sim.new .none true m = .ok sim) :
    (sim.addFromSdk twoTokens (sampleStrategy "ETH".toList "USDC".toList) none).2.orders.length = 2 := by
  obtain ⟨i, -, ho, -⟩ := Sim.new_ids h
  obtain ⟨_, _, o1, o2, -, -, -, -, -, -, -, -, n, e⟩ := C107_add twoTokens _ _ _ _ _ _ _
    (sample_importable (b := "ETH".toList) (q := "USDC".toList) (by decide)) "ETH".toList "USDC".toList (by decide +kernel) (by decide +kernel)
    names_eth sim i
  rw [e, ho]
  rfl

end Carbon.UICurve
