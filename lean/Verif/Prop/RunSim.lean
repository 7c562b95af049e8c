import Verif.Helpers.RunSim
import Verif.Prop.OrderUIPrice
import Verif.Prop.SimTrade
import Verif.Prop.Strategy

/-!
# C96: simulations along a path of prices
-/

set_option linter.unusedSectionVars false

namespace Carbon.RunSim

open CarbonPair (pyDiv)
open UICurve (Sound Proper EPS eps_pos pyDiv_ok)

/-! ## One curve -/

/-- A curve with a range of positive prices that holds between nothing and its capacity, which may be zero. -/
structure Fine (c : UICurve ℝ) : Prop where
  hB : 0 < c.B
  hS : 0 < c.S
  hy0 : 0 ≤ c.y
  hy : c.y ≤ c.yint

/-- The same order with other amounts. -/
structure Same (c d : UICurve ℝ) : Prop where
  hB : d.B = c.B
  hS : d.S = c.S
  hpair : d.pair = c.pair
  htkn : d.tkn = c.tkn

theorem Same.refl (c : UICurve ℝ) : Same c c := ⟨rfl, rfl, rfl, rfl⟩

theorem Same.trans {c d e : UICurve ℝ} (h : Same c d) (h' : Same d e) : Same c e :=
  ⟨h'.1.trans h.1, h'.2.trans h.2, h'.3.trans h.3, h'.4.trans h.4⟩

theorem Fine.sound {c : UICurve ℝ} (h : Fine c) (hz : c.yint ≠ 0) : Sound c :=
  ⟨h.hB, h.hS.le, lt_of_le_of_ne (h.hy0.trans h.hy) (Ne.symm hz), h.hy0, h.hy⟩

theorem Fine.not_disabled {c : UICurve ℝ} (h : Fine c) : c.disabled = false := by
  have := mul_pos h.hB h.hB
  simp [UICurve.disabled, UICurve.pbRaw, this.ne']

theorem Fine.pMarg {c : UICurve ℝ} (h : Fine c) : ∃ q, c.pMarg = .ok (some q) := by
  by_cases hz : c.yint = 0
  · unfold UICurve.pMarg UICurve.pMargF
    have hy : c.y = 0 := le_antisymm (hz ▸ h.hy) h.hy0
    rw [h.not_disabled, if_neg (by simp)]
    simp only [Bool.false_eq_true, if_false, Bool.true_and, decide_eq_true_eq, hy, hz, sub_zero, lt_irrefl, not_true_eq_false, false_and,
      if_true]
    exact ⟨_, UICurve.quotePrice_ok (by have := h.hB; have := h.hS; positivity)⟩
  · exact ⟨_, UICurve.pMarg_ok (h.sound hz)⟩

theorem Fine.addliqy {c : UICurve ℝ} (h : Fine c) {d : ℝ} (hd : 0 ≤ d) :
    ∃ c', c.addliqy d = (.ok (), c') ∧ Fine c' ∧ Same c c' ∧ c'.y = c.y + d := by
  obtain ⟨q, hq⟩ := h.pMarg
  have hy := h.hy0
  unfold UICurve.addliqy
  rw [if_neg (not_lt.mpr hd), hq]
  dsimp only
  split
  · have hs : Fine { c with yint := c.y + d, y := c.y + d } := ⟨h.hB, h.hS, by simp only; linarith, le_rfl⟩
    obtain ⟨r, hr⟩ := hs.pMarg
    refine ⟨_, ?_, hs, ⟨rfl, rfl, rfl, rfl⟩, rfl⟩
    simp only [Bool.not_true, Bool.false_eq_true, if_false, hr]; rfl
  · rename_i hn
    have hs : Fine { c with y := c.y + d } := ⟨h.hB, h.hS, by simp only; linarith, not_lt.mp hn⟩
    obtain ⟨r, hr⟩ := hs.pMarg
    refine ⟨_, ?_, hs, ⟨rfl, rfl, rfl, rfl⟩, rfl⟩
    simp only [hr]; rfl

/-- What a sale within the holdings does to the two curves. -/
theorem sellyCore_pair {a b : UICurve ℝ} (ha : Sound a) (hb : Fine b) {dy : ℝ} (h0 : 0 ≤ dy) (hd : dy ≤ a.y) (ex expand r : Bool) :
    ∃ s b', UICurve.sellyCore ⟨a, some b⟩ dy ex expand r =
        (.ok (some s), ⟨if ex then { a with y := a.y - dy } else a, some b'⟩) ∧ s.executed = ex ∧ Fine b' ∧ Same b b' ∧
      b'.y = b.y + dy * (a.yint ^ 2 / ((a.S * a.y + a.B * a.yint) * (a.S * a.y + a.B * a.yint - a.S * dy))) := by
  have hy := ha.hy
  have hn : 0 ≤ a.y - dy := sub_nonneg.mpr hd
  have he := eps_pos (K := ℝ)
  have hdx0 : 0 ≤ dy * (a.yint ^ 2 / ((a.S * a.y + a.B * a.yint) * (a.S * a.y + a.B * a.yint - a.S * dy))) := by
    have := ha.m_pos; have := ha.n_pos hd
    positivity
  have hdx := UICurve.dxfromdyF_ok ha hd false true (by simp)
  obtain ⟨b', e', f', s', y'⟩ := hb.addliqy hdx0
  set a' : UICurve ℝ := if ex then { a with y := a.y - dy } else a with ha'
  have hxo := UICurve.xfromyF_ok ha hn (by linarith) true false
  have hx : a'.xfromyF (a.y - dy) = a.xfromyF (a.y - dy) := by
    rw [ha']; split <;> rfl
  suffices hm : ∃ s, UICurve.sellyCore ⟨a, some b⟩ dy ex expand r = (.ok (some s), ⟨a', some b'⟩) ∧ s.executed = ex by
    obtain ⟨s, h1, h2⟩ := hm
    exact ⟨s, b', h1, h2, f', s', y'⟩
  unfold UICurve.sellyCore
  dsimp only
  rw [UICurve.pMarg_ok ha, UICurve.pMargF_ok ha hd false false (by simp)]
  dsimp only
  rw [if_neg (by linarith), if_neg (by linarith), if_neg (by linarith)]
  unfold UICurve.sellyFinish
  dsimp only
  rw [hdx]
  dsimp only
  have hw : (if ex = true then ({ self := { a with y := a.y - dy }, linked := some b } : UICurve.World ℝ) else ⟨a, some b⟩) = ⟨a', some b⟩ := by
    rw [ha']; cases ex <;> rfl
  rw [hw]
  unfold UICurve.creditLinked
  dsimp only
  rw [e']
  dsimp only
  rw [hx, hxo]
  exact ⟨_, rfl, rfl⟩

/-- The amount that is traded to reach a price. -/
theorem tradeto_amount {c : UICurve ℝ} (h : Sound c) (hS : 0 < c.S) (hp : Proper c) {p : ℝ} (hp0 : 0 < p) :
    ∃ dy, c.tradetoAmount p = .ok dy ∧ 0 ≤ dy ∧ dy ≤ c.y ∧
      (dy ≠ 0 → c.inConv p ≤ (c.B + c.S * (c.y - dy) / c.yint) ^ 2 ∧ c.inConv p ≤ c.paRaw) := by
  have hz := h.hyint
  have hB := h.hB
  have hy0 := h.hy0
  have hd0 : 0 < c.inConv p := UICurve.inConv_pos hp0
  have hpb : 0 < c.pbRaw := by unfold UICurve.pbRaw; positivity
  have hpa : c.pbRaw ≤ c.paRaw := by
    have := UICurve.raw_bounds h h.hy0 h.hy; linarith
  have hpbp : 0 < c.pb := by rw [(UICurve.pa_eq hp).2]; exact UICurve.inConv_pos hpb
  set d := c.inConv p with hd
  by_cases h1 : d > c.paRaw
  · refine ⟨0, ?_, le_rfl, h.hy0, fun hh => absurd rfl hh⟩
    have e : c.dyfrompF p true true = .error (.custom "BeyondStart") := by
      unfold UICurve.dyfrompF UICurve.yfrompF
      rw [if_neg h.not_empty, UICurve.rawPrice_ok hp0, ← hd]
      simp only [Py.ok_bind, Bool.true_and, decide_eq_true_eq]
      rw [if_pos h1]
      rfl
    unfold UICurve.tradetoAmount
    rw [e]
    rfl
  · by_cases h2 : d < c.pbRaw
    · refine ⟨c.y, ?_, h.hy0, le_rfl, fun _ => ⟨?_, not_lt.mp h1⟩⟩
      · have e1 : c.dyfrompF p true true = .error (.custom "BeyondEnd") := by
          unfold UICurve.dyfrompF UICurve.yfrompF
          rw [if_neg h.not_empty, UICurve.rawPrice_ok hp0, ← hd]
          simp only [Py.ok_bind, Bool.true_and, decide_eq_true_eq]
          rw [if_neg h1, if_pos h2]
          rfl
        have e2 : c.dyfrompF c.pb false false = .ok c.y := by
          unfold UICurve.dyfrompF UICurve.yfrompF
          rw [if_neg h.not_empty, UICurve.rawPrice_ok hpbp, (UICurve.pa_eq hp).2, UICurve.inConv_inConv]
          simp only [Py.ok_bind, Bool.false_and, Bool.false_eq_true, if_false]
          rw [UICurve.pySqrt, if_neg (by linarith)]
          simp only [Py.ok_bind]
          have : Real.sqrt c.pbRaw = c.B := by
            unfold UICurve.pbRaw; exact Real.sqrt_mul_self hB.le
          rw [this, sub_self, mul_zero, pyDiv_ok hS.ne', zero_div]
          simp
        unfold UICurve.tradetoAmount
        rw [e1]
        exact e2
      · rw [sub_self, mul_zero, zero_div, add_zero, sq]
        exact h2.le
    · have hsq := UICurve.sqrt_ge_B (not_lt.mp h2)
      set yt := c.yint * (Real.sqrt d - c.B) / c.S with hyt
      have hyt0 : 0 ≤ yt := by
        rw [hyt]; have := sub_nonneg.mpr hsq; positivity
      have hstep : c.dyfrompF p true true = if yt > c.y then .error (.custom "BeyondMarg") else .ok (c.y - yt) := by
        unfold UICurve.dyfrompF UICurve.yfrompF
        rw [if_neg h.not_empty, UICurve.rawPrice_ok hp0, ← hd]
        simp only [Py.ok_bind, Bool.true_and, decide_eq_true_eq]
        rw [if_neg h1, if_neg h2, UICurve.pySqrt, if_neg (by linarith)]
        simp only [Py.ok_bind]
        rw [pyDiv_ok hS.ne', ← hyt]
        simp only [Py.ok_bind]
        split_ifs <;> rfl
      by_cases h3 : yt > c.y
      · refine ⟨0, ?_, le_rfl, h.hy0, fun hh => absurd rfl hh⟩
        unfold UICurve.tradetoAmount
        rw [hstep, if_pos h3]
        rfl
      · refine ⟨c.y - yt, ?_, by linarith, by linarith, fun _ => ⟨?_, not_lt.mp h1⟩⟩
        · unfold UICurve.tradetoAmount
          rw [hstep, if_neg h3]
        · rw [sub_sub_cancel, UICurve.price_at h hS hd0.le]

/-- What a visit of a curve does: an amount leaves it and another one arrives at the linked curve, at an average rate between the start of
the range and the price visited. -/
structure Moved (a b a' b' : UICurve ℝ) (p : ℝ) (dy dx : ℝ) : Prop where
  fa : Fine a'
  fb : Fine b'
  sa : Same a a'
  sb : Same b b'
  hy : a'.y = a.y - dy
  hx : b'.y = b.y + dx
  dy0 : 0 ≤ dy
  dx0 : 0 ≤ dx
  worse : dx * a.inConv p ≤ dy
  better : dy ≤ dx * a.paRaw
  still : a.paRaw ≤ a.inConv p → dy = 0 ∧ dx = 0

theorem visit_ok {a b : UICurve ℝ} (ha : Fine a) (hb : Fine b) (hp : Proper a) {p : ℝ} (hp0 : 0 < p) :
    ∃ a' b' dy dx, visit a b p = .ok (a', b') ∧ Moved a b a' b' p dy dx := by
  -- the capacity of an empty order
  have key : ∀ c : UICurve ℝ, Sound c → 0 < c.S → Proper c → ∃ a' b' dy dx, visit c b p = .ok (a', b') ∧ Moved c b a' b' p dy dx := by
    intro c hc hS hpc
    obtain ⟨dy, e, d0, d1, d2⟩ := tradeto_amount hc hS hpc hp0
    have hz := hc.hyint
    have hM := hc.m_pos
    have hfc : Fine c := ⟨hc.hB, hS, hc.hy0, hc.hy⟩
    have tr : ∀ (s : UICurve.Sale ℝ) (a' b' : UICurve ℝ), UICurve.selly ⟨c, some b⟩ dy true false false true = (.ok (some s), ⟨a', some b'⟩) →
        visit c b p = .ok (a', b') := by
      intro s a' b' hh
      unfold visit UICurve.tradeto
      dsimp only
      rw [if_neg hz.ne']
      dsimp only
      rw [e]
      dsimp only
      rw [hh]
    by_cases hdy : EPS ≤ dy
    · have hN := hc.n_pos d1
      obtain ⟨s, b', e1, _, f1, s1, y1⟩ := sellyCore_pair hc hb d0 d1 true false true
      have hd0 : dy ≠ 0 := by have := eps_pos (K := ℝ); intro h; rw [h] at hdy; linarith
      obtain ⟨g1, g2⟩ := d2 hd0
      have hd1 : 0 < dy := lt_of_le_of_ne d0 (Ne.symm hd0)
      set M := c.S * c.y + c.B * c.yint with hMd
      set N := M - c.S * dy with hNd
      have hNM : N ≤ M := by have := mul_nonneg hS.le d0; rw [hNd]; linarith
      have hfin : (c.B + c.S * (c.y - dy) / c.yint) ^ 2 = (N / c.yint) ^ 2 := by
        rw [hNd, hMd]; congr 1; field_simp; ring
      refine ⟨{ c with y := c.y - dy }, b', dy, _, tr s _ b' ?_, ⟨⟨hc.hB, hS, sub_nonneg.mpr d1, ?_⟩, f1, ⟨rfl, rfl, rfl, rfl⟩, s1, rfl, y1, d0, ?_, ?_, ?_, ?_⟩⟩
      · rw [UICurve.selly_eq_core hdy, e1, if_pos rfl]
      · simp only; linarith [hc.hy]
      · positivity
      · rw [hfin] at g1
        calc dy * (c.yint ^ 2 / (M * N)) * c.inConv p ≤ dy * (c.yint ^ 2 / (M * N)) * (N / c.yint) ^ 2 := by gcongr
          _ = dy * (N / M) := by field_simp
          _ ≤ dy * 1 := by gcongr; rw [div_le_one hM]; exact hNM
          _ = dy := mul_one dy
      · have hma : (M / c.yint) ^ 2 ≤ c.paRaw := by
          unfold UICurve.paRaw
          have : M / c.yint ≤ c.S + c.B := by
            rw [div_le_iff₀ hz, hMd]; nlinarith [hc.hy]
          gcongr
        calc dy = dy * 1 := (mul_one dy).symm
          _ ≤ dy * (M / N) := by gcongr; rw [le_div_iff₀ hN, one_mul]; exact hNM
          _ = dy * (c.yint ^ 2 / (M * N)) * (M / c.yint) ^ 2 := by field_simp
          _ ≤ dy * (c.yint ^ 2 / (M * N)) * c.paRaw := by gcongr
      · intro hlt
        have hlast : (c.B + c.S * (c.y - dy) / c.yint) ^ 2 < c.paRaw := by
          unfold UICurve.paRaw
          have h1 : c.S * (c.y - dy) / c.yint < c.S := by
            rw [div_lt_iff₀ hz]; exact mul_lt_mul_of_pos_left (by linarith [hc.hy]) hS
          have h2 : 0 ≤ c.S * (c.y - dy) / c.yint := div_nonneg (mul_nonneg hS.le (sub_nonneg.mpr d1)) hz.le
          have := hc.hB
          apply pow_lt_pow_left₀ _ (by linarith) two_ne_zero
          linarith
        linarith
    · obtain ⟨s, b', e1, _, f1, s1, y1⟩ := sellyCore_pair hc hb le_rfl hc.hy0 false false true
      refine ⟨c, b', 0, 0, tr s c b' ?_, ⟨hfc, f1, Same.refl c, s1, (sub_zero _).symm, ?_, le_rfl, le_rfl, ?_, ?_, fun _ => ⟨rfl, rfl⟩⟩⟩
      · rw [UICurve.selly_eq_dust d0 (not_le.mp hdy), e1]
        rfl
      · rw [y1, zero_mul]
      · rw [zero_mul]
      · rw [zero_mul]
  by_cases hz : a.yint = 0
  · have hy : a.y = 0 := le_antisymm (hz ▸ ha.hy) ha.hy0
    have hs : Sound { a with yint := 1 / 10 ^ 50 } := ⟨ha.hB, ha.hS.le, by norm_num, ha.hy0, by simp only [hy]; norm_num⟩
    obtain ⟨a', b', dy, dx, e, m⟩ := key _ hs ha.hS hp
    refine ⟨a', b', dy, dx, ?_, ⟨m.fa, m.fb, ⟨m.sa.1, m.sa.2, m.sa.3, m.sa.4⟩, m.sb, m.hy, m.hx, m.dy0, m.dx0, m.worse, m.better, m.still⟩⟩
    rw [← e]
    unfold visit UICurve.tradeto
    dsimp only
    rw [if_pos hz, if_neg (by norm_num)]
  · exact key a (ha.sound hz) ha.hS hp

/-! ## Strategies -/

/-- The two orders of a strategy: the first sells the base token, the second the quote token. -/
structure Tidy (t : Twins) : Prop where
  f1 : Fine t.1
  f2 : Fine t.2
  b1 : t.1.tkn = t.1.pair.tknb
  q1 : t.1.tkn ≠ t.1.pair.tknq
  q2 : t.2.tkn = t.2.pair.tknq
  b2 : t.2.tkn ≠ t.2.pair.tknb

theorem Tidy.conv1 {t : Twins} (h : Tidy t) (p : ℝ) : t.1.inConv p = 1 / p := by
  unfold UICurve.inConv CarbonPair.hasQuote
  rw [if_neg (by simpa using h.q1)]

theorem Tidy.conv2 {t : Twins} (h : Tidy t) (p : ℝ) : t.2.inConv p = p := by
  unfold UICurve.inConv CarbonPair.hasQuote
  rw [if_pos (by simpa using h.q2)]

/-- The lowest price at which the first order sells the base token. -/
noncomputable def ask (t : Twins) : ℝ := 1 / t.1.paRaw

/-- The highest price at which the second order buys the base token. -/
noncomputable def bid (t : Twins) : ℝ := t.2.paRaw

theorem Fine.paRaw_pos {c : UICurve ℝ} (h : Fine c) : 0 < c.paRaw := by
  unfold UICurve.paRaw; have := h.hB; have := h.hS; positivity

/-- What a price does to the orders of a strategy. -/
structure Passed (t t' : Twins) (p : ℝ) : Prop where
  tidy : Tidy t'
  s1 : Same t.1 t'.1
  s2 : Same t.2 t'.2
  /-- Valued at the price the orders lose. -/
  loss : p * t'.1.y + t'.2.y ≤ p * t.1.y + t.2.y
  /-- Valued at a price between the ranges they gain. -/
  gain : ∀ m, bid t ≤ m → m ≤ ask t → m * t.1.y + t.2.y ≤ m * t'.1.y + t'.2.y
  /-- A price not below the buy range sells. -/
  up : bid t ≤ p → t'.1.y ≤ t.1.y ∧ t.2.y ≤ t'.2.y
  /-- A price not above the sell range buys. -/
  down : p ≤ ask t → t.1.y ≤ t'.1.y ∧ t'.2.y ≤ t.2.y

theorem visitTwins_ok {t : Twins} (h : Tidy t) {p : ℝ} (hp : 0 < p) : ∃ t', visitTwins t p = .ok t' ∧ Passed t t' p := by
  obtain ⟨a1, b1, dy, dx, e1, m1⟩ := visit_ok h.f1 h.f2 (Or.inl ⟨h.b1, h.q1⟩) hp
  have hq2 : b1.tkn = b1.pair.tknq := by rw [m1.sb.htkn, m1.sb.hpair]; exact h.q2
  have hb2 : b1.tkn ≠ b1.pair.tknb := by rw [m1.sb.htkn, m1.sb.hpair]; exact h.b2
  have hb1 : a1.tkn = a1.pair.tknb := by rw [m1.sa.htkn, m1.sa.hpair]; exact h.b1
  have hq1 : a1.tkn ≠ a1.pair.tknq := by rw [m1.sa.htkn, m1.sa.hpair]; exact h.q1
  obtain ⟨b2, a2, dy', dx', e2, m2⟩ := visit_ok m1.fb m1.fa (Or.inr ⟨hq2, hb2⟩) hp
  have c1 := h.conv1 p
  have c2 : b1.inConv p = p := by
    unfold UICurve.inConv CarbonPair.hasQuote
    rw [if_pos (by simpa using hq2)]
  have hpa2 : b1.paRaw = t.2.paRaw := by unfold UICurve.paRaw; rw [m1.sb.hB, m1.sb.hS]
  have w1 := m1.worse
  have w2 := m2.worse
  have g1 := m1.better
  have g2 := m2.better
  have st1 := m1.still
  have st2 := m2.still
  rw [c1] at w1 st1
  rw [c2] at w2 st2
  rw [hpa2] at g2 st2
  have w1' : dx ≤ p * dy := by
    rw [mul_one_div, div_le_iff₀ hp] at w1
    linarith
  have hA := h.f1.paRaw_pos
  have y1 : a2.y = t.1.y - dy + dx' := by rw [m2.hx, m1.hy]
  have y2 : b2.y = t.2.y + dx - dy' := by rw [m2.hy, m1.hx]
  refine ⟨(a2, b2), ?_, ⟨⟨m2.fb, m2.fa, ?_, ?_, ?_, ?_⟩, m1.sa.trans m2.sb, m1.sb.trans m2.sa, ?_, ?_, ?_, ?_⟩⟩
  · unfold visitTwins
    rw [e1, Py.ok_bind]
    dsimp only
    rw [e2, Py.ok_bind]
  · show a2.tkn = a2.pair.tknb
    rw [m2.sb.htkn, m2.sb.hpair]; exact hb1
  · show a2.tkn ≠ a2.pair.tknq
    rw [m2.sb.htkn, m2.sb.hpair]; exact hq1
  · show b2.tkn = b2.pair.tknq
    rw [m2.sa.htkn, m2.sa.hpair]; exact hq2
  · show b2.tkn ≠ b2.pair.tknb
    rw [m2.sa.htkn, m2.sa.hpair]; exact hb2
  · show p * a2.y + b2.y ≤ _
    rw [y1, y2]
    nlinarith
  · intro m hb ha
    show _ ≤ m * a2.y + b2.y
    rw [y1, y2]
    unfold bid at hb
    unfold ask at ha
    have k1 : m * dy ≤ dx := by
      have hm : 0 ≤ m := le_trans (h.f2.paRaw_pos).le hb
      rw [le_div_iff₀ hA] at ha
      have := mul_le_mul_of_nonneg_left g1 hm
      have := mul_le_mul_of_nonneg_right ha m1.dx0
      nlinarith
    have k2 : dy' ≤ m * dx' := by
      have := mul_le_mul_of_nonneg_left hb m2.dx0
      linarith
    nlinarith
  · intro hb
    obtain ⟨z1, z2⟩ := st2 hb
    show a2.y ≤ _ ∧ _ ≤ b2.y
    rw [y1, y2, z1, z2]
    have := m1.dy0
    have := m1.dx0
    constructor <;> linarith
  · intro ha
    unfold ask at ha
    have : t.1.paRaw ≤ 1 / p := by
      rw [le_div_iff₀ hp]
      rw [le_div_iff₀ hA] at ha
      linarith
    obtain ⟨z1, z2⟩ := st1 this
    show _ ≤ a2.y ∧ b2.y ≤ _
    rw [y1, y2, z1, z2]
    have := m2.dy0
    have := m2.dx0
    constructor <;> linarith

/-- The amounts of the two tokens held by the strategies. -/
noncomputable def held1 (l : List Twins) : ℝ := (l.map fun t => t.1.y).sum
noncomputable def held2 (l : List Twins) : ℝ := (l.map fun t => t.2.y).sum

theorem side_eq {l : List Twins} (h : ∀ t ∈ l, Tidy t) : side true l = l.map Prod.fst ∧ side false l = l.map Prod.snd := by
  unfold side curves
  induction l with
  | nil => exact ⟨rfl, rfl⟩
  | cons t l ih =>
    obtain ⟨i1, i2⟩ := ih fun u hu => h u (List.mem_cons_of_mem _ hu)
    have ht := h t List.mem_cons_self
    have e1 : isBid t.1 = true := by unfold isBid; simpa using ht.b1
    have e2 : isBid t.2 = false := by unfold isBid; simpa using ht.b2
    rw [List.flatMap_cons, List.filter_append, List.filter_append, i1, i2]
    simp [e1, e2]

theorem mapM_marg {l : List (UICurve ℝ)} (h : ∀ c ∈ l, Fine c) : ∃ r, l.mapM UICurve.pMarg = .ok r ∧ r.length = l.length := by
  induction l with
  | nil => exact ⟨[], rfl, rfl⟩
  | cons c l ih =>
    obtain ⟨r, hr, hl⟩ := ih fun u hu => h u (List.mem_cons_of_mem _ hu)
    obtain ⟨q, hq⟩ := (h c List.mem_cons_self).pMarg
    refine ⟨some q :: r, ?_, by simp [hl]⟩
    rw [List.mapM_cons, hq]
    show (Except.ok (some q) : Py _).bind _ = _
    rw [show (Except.ok (some q) : Py (Option ℝ)).bind = fun f => f (some q) from rfl]
    dsimp only
    rw [hr]
    rfl

theorem snap_ok {l : List Twins} (h : ∀ t ∈ l, Tidy t) : ∃ s, snap l = .ok s ∧ s.rsk = held1 l ∧ s.csh = held2 l ∧
    s.margBuy.length = l.length ∧ s.margSell.length = l.length := by
  obtain ⟨e1, e2⟩ := side_eq h
  obtain ⟨r1, h1, l1⟩ := mapM_marg (l := l.map Prod.fst) (by
    intro c hc; obtain ⟨t, ht, rfl⟩ := List.mem_map.mp hc; exact (h t ht).f1)
  obtain ⟨r2, h2, l2⟩ := mapM_marg (l := l.map Prod.snd) (by
    intro c hc; obtain ⟨t, ht, rfl⟩ := List.mem_map.mp hc; exact (h t ht).f2)
  refine ⟨⟨held1 l, held2 l, r1, r2⟩, ?_, rfl, rfl, by simpa using l1, by simpa using l2⟩
  unfold snap
  rw [e1, e2, h1, Py.ok_bind, h2, Py.ok_bind, List.map_map, List.map_map]
  rfl

/-- All strategies at once. -/
structure PassedAll (l l' : List Twins) (p : ℝ) : Prop where
  tidy : ∀ t ∈ l', Tidy t
  bids : l'.map bid = l.map bid
  asks : l'.map ask = l.map ask
  loss : p * held1 l' + held2 l' ≤ p * held1 l + held2 l
  gain : ∀ m, (∀ t ∈ l, bid t ≤ m ∧ m ≤ ask t) → m * held1 l + held2 l ≤ m * held1 l' + held2 l'
  up : (∀ t ∈ l, bid t ≤ p) → held1 l' ≤ held1 l ∧ held2 l ≤ held2 l'
  down : (∀ t ∈ l, p ≤ ask t) → held1 l ≤ held1 l' ∧ held2 l' ≤ held2 l

theorem visitAll_ok {l : List Twins} (h : ∀ t ∈ l, Tidy t) {p : ℝ} (hp : 0 < p) : ∃ l', visitAll p l = .ok l' ∧ PassedAll l l' p := by
  induction l with
  | nil => exact ⟨[], rfl, ⟨h, rfl, rfl, le_rfl, fun _ _ => le_rfl, fun _ => ⟨le_rfl, le_rfl⟩, fun _ => ⟨le_rfl, le_rfl⟩⟩⟩
  | cons t l ih =>
    obtain ⟨t', e, pt⟩ := visitTwins_ok (h t List.mem_cons_self) hp
    obtain ⟨l', el, pl⟩ := ih fun u hu => h u (List.mem_cons_of_mem _ hu)
    have c1 : ∀ (u : Twins) (k : List Twins), held1 (u :: k) = u.1.y + held1 k := fun _ _ => by simp [held1]
    have c2 : ∀ (u : Twins) (k : List Twins), held2 (u :: k) = u.2.y + held2 k := fun _ _ => by simp [held2]
    refine ⟨t' :: l', ?_, ?_, ?_, ?_, ?_, ?_, ?_, ?_⟩
    · unfold visitAll; rw [e, Py.ok_bind, el, Py.ok_bind]
    · intro u hu
      rcases List.mem_cons.mp hu with rfl | hu
      · exact pt.tidy
      · exact pl.tidy u hu
    · rw [List.map_cons, List.map_cons, pl.bids]
      unfold bid UICurve.paRaw
      rw [pt.s2.hB, pt.s2.hS]
    · rw [List.map_cons, List.map_cons, pl.asks]
      unfold ask UICurve.paRaw
      rw [pt.s1.hB, pt.s1.hS]
    · have := pt.loss; have := pl.loss
      rw [c1, c1, c2, c2]; nlinarith
    · intro m hm
      have := pt.gain m (hm t List.mem_cons_self).1 (hm t List.mem_cons_self).2
      have := pl.gain m fun u hu => hm u (List.mem_cons_of_mem _ hu)
      rw [c1, c1, c2, c2]; nlinarith
    · intro hm
      have := pt.up (hm t List.mem_cons_self)
      have := pl.up fun u hu => hm u (List.mem_cons_of_mem _ hu)
      rw [c1, c1, c2, c2]; constructor <;> linarith
    · intro hm
      have := pt.down (hm t List.mem_cons_self)
      have := pl.down fun u hu => hm u (List.mem_cons_of_mem _ hu)
      rw [c1, c1, c2, c2]; constructor <;> linarith

/-- What holds between consecutive records; `bs` and `as` are the highest prices of the buy ranges and the lowest of the sell ranges. -/
structure Step (bs as : List ℝ) (s s' : Snap) (p : ℝ) : Prop where
  loss : p * s'.rsk + s'.csh ≤ p * s.rsk + s.csh
  gain : ∀ m, (∀ b ∈ bs, b ≤ m) → (∀ a ∈ as, m ≤ a) → m * s.rsk + s.csh ≤ m * s'.rsk + s'.csh
  up : (∀ b ∈ bs, b ≤ p) → s'.rsk ≤ s.rsk ∧ s.csh ≤ s'.csh
  down : (∀ a ∈ as, p ≤ a) → s.rsk ≤ s'.rsk ∧ s'.csh ≤ s.csh

theorem held_nonneg {l : List Twins} (h : ∀ t ∈ l, Tidy t) : 0 ≤ held1 l ∧ 0 ≤ held2 l := by
  constructor
  · apply List.sum_nonneg
    intro y hy
    obtain ⟨t, ht, rfl⟩ := List.mem_map.mp hy
    exact (h t ht).f1.hy0
  · apply List.sum_nonneg
    intro y hy
    obtain ⟨t, ht, rfl⟩ := List.mem_map.mp hy
    exact (h t ht).f2.hy0

theorem walk_ok {l : List Twins} (h : ∀ t ∈ l, Tidy t) {ps : List ℝ} (hp : ∀ p ∈ ps, 0 < p) :
    ∃ s r, snap l = .ok s ∧ walk l ps = .ok r ∧ r.length = ps.length ∧ s.rsk = held1 l ∧ s.csh = held2 l ∧
      (∀ x ∈ s :: r, 0 ≤ x.rsk ∧ 0 ≤ x.csh ∧ x.margBuy.length = l.length ∧ x.margSell.length = l.length) ∧
      ∀ (i : Nat) (x x' : Snap) (p : ℝ), (s :: r)[i]? = some x → (s :: r)[i + 1]? = some x' → ps[i]? = some p →
        Step (l.map bid) (l.map ask) x x' p := by
  induction ps generalizing l with
  | nil =>
    obtain ⟨s, hs, h1, h2, h3, h4⟩ := snap_ok h
    obtain ⟨n1, n2⟩ := held_nonneg h
    refine ⟨s, [], hs, rfl, rfl, h1, h2, ?_, ?_⟩
    · intro x hx
      rw [List.mem_singleton.mp hx]
      exact ⟨h1 ▸ n1, h2 ▸ n2, h3, h4⟩
    · intro i x x' p _ _ hi
      simp at hi
  | cons q ps ih =>
    obtain ⟨s, hs, h1, h2, h3, h4⟩ := snap_ok h
    obtain ⟨n1, n2⟩ := held_nonneg h
    obtain ⟨l', hl, pl⟩ := visitAll_ok h (hp q List.mem_cons_self)
    obtain ⟨s', r, hs', hr, hlen, g1, g2, hall, hst⟩ := ih pl.tidy fun p hp' => hp p (List.mem_cons_of_mem _ hp')
    have hll : l'.length = l.length := by simpa using congrArg List.length pl.bids
    refine ⟨s, s' :: r, hs, ?_, by simp [hlen], h1, h2, ?_, ?_⟩
    · unfold walk; rw [hl, Py.ok_bind, hs', Py.ok_bind, hr, Py.ok_bind]
    · intro x hx
      rcases List.mem_cons.mp hx with rfl | hx
      · exact ⟨h1 ▸ n1, h2 ▸ n2, h3, h4⟩
      · have := hall x hx
        rwa [hll] at this
    · intro i x x' p e1 e2 e3
      cases i with
      | succ i =>
        have := hst i x x' p (by simpa using e1) (by simpa using e2) (by simpa using e3)
        rwa [pl.bids, pl.asks] at this
      | zero =>
        simp only [List.getElem?_cons_zero, Option.some.injEq] at e1 e3
        simp only [zero_add, List.getElem?_cons_succ, List.getElem?_cons_zero, Option.some.injEq] at e2
        subst e1 e2 e3
        refine ⟨?_, ?_, ?_, ?_⟩
        · rw [h1, h2, g1, g2]; exact pl.loss
        · intro m hb ha
          rw [h1, h2, g1, g2]
          exact pl.gain m fun t ht => ⟨hb _ (List.mem_map_of_mem ht), ha _ (List.mem_map_of_mem ht)⟩
        · intro hb
          rw [h1, h2, g1, g2]
          exact pl.up fun t ht => hb _ (List.mem_map_of_mem ht)
        · intro ha
          rw [h1, h2, g1, g2]
          exact pl.down fun t ht => ha _ (List.mem_map_of_mem ht)

/-! ## The orders of a strategy -/

/-- One side of a strategy: two different positive prices, no negative amount, a capacity that is not exceeded, and a marginal price
inside the range, which must not be the price `last` at which the order is empty. -/
structure FitSide (amt : Option ℝ) (a b : ℝ) (pm z : Option ℝ) (last : ℝ) : Prop where
  ha : 0 < a
  hb : 0 < b
  hab : a ≠ b
  hamt : 0 ≤ amt.getD 0
  hm : ∀ m, pm = some m → min a b ≤ m ∧ m ≤ max a b ∧ m ≠ last
  hz : ∀ c, z = some c → pm = none ∧ amt.getD 0 ≤ c

theorem buildCurve_fit {amt lo hi : ℝ} {pm z : Option ℝ} (h0 : 0 ≤ amt) (hlo : 0 < lo) (hle : lo ≤ hi)
    (hm : ∀ m, pm = some m → lo < m ∧ m ≤ hi) (hz : ∀ c, z = some c → pm = none ∧ amt ≤ c) :
    ∃ c, Sim.buildCurve amt lo hi pm z = .ok c ∧ c.B = Real.sqrt lo ∧ c.S = Real.sqrt hi - Real.sqrt lo ∧ c.y = amt ∧ amt ≤ c.yint ∧
      c.plow = lo ∧ c.phigh = hi := by
  have key : ∀ {a : CurveArgs ℝ} {z : ℝ}, a.B = none → a.plow = some lo → a.phigh = some hi → a.y = some amt →
      Curve.capacity a amt lo hi = .ok z → amt ≤ z → ∃ c, Curve.init a = .ok c ∧ c.B = Real.sqrt lo ∧ c.S = Real.sqrt hi - Real.sqrt lo ∧
        c.y = amt ∧ amt ≤ c.yint ∧ c.plow = lo ∧ c.phigh = hi := by
    intro a z hB hl hh hy hcap hz
    suffices ∃ c, Curve.init a = .ok c ∧ c = ⟨Real.sqrt lo, Real.sqrt hi - Real.sqrt lo, z, lo, hi, amt, decide (hi = lo)⟩ by
      obtain ⟨c, hc, rfl⟩ := this
      exact ⟨_, hc, rfl, rfl, rfl, hz, rfl, rfl⟩
    unfold Curve.init
    rw [Sim.shape_of hle hlo.le hB hl hh, Py.ok_bind, hy]
    dsimp only
    rw [hcap, Py.ok_bind]
    exact ⟨_, rfl, rfl⟩
  unfold Sim.buildCurve
  split
  · rename_i m
    obtain ⟨m1, m2⟩ := hm m rfl
    have hl : 0 < Real.sqrt m - Real.sqrt lo := sub_pos.mpr (Real.sqrt_lt_sqrt hlo.le m1)
    have hh := Real.sqrt_le_sqrt m2
    refine key rfl rfl rfl rfl (z := amt * (Real.sqrt hi - Real.sqrt lo) / (Real.sqrt m - Real.sqrt lo)) ?_ ?_
    · unfold Curve.capacity
      dsimp only
      rw [Curve.sqrtE_ok (hlo.le.trans hle), Curve.sqrtE_ok hlo.le, Curve.sqrtE_ok (hlo.le.trans m1.le)]
      simp only [Py.ok_bind]
      exact pyDiv_ok hl.ne'
    · rw [le_div_iff₀ hl]
      exact mul_le_mul_of_nonneg_left (by linarith) h0
  · rename_i c
    obtain ⟨_, hc⟩ := hz c rfl
    rw [if_neg (not_lt.mpr hc)]
    exact key rfl rfl rfl rfl (z := c) rfl hc
  · exact key rfl rfl rfl rfl (z := amt) rfl le_rfl

theorem sellOrder_fit {p : CarbonPair} {tkn : Str} {amt : Option ℝ} {x y : ℝ} {pm z : Option ℝ} {id lk : Nat}
    (h : FitSide amt x y pm z (min x y)) :
    ∃ o, Sim.sellOrder p tkn amt (some x) (some y) id lk pm z = .ok o ∧ o.curve.B = Real.sqrt (min x y) ∧
      o.curve.S = Real.sqrt (max x y) - Real.sqrt (min x y) ∧ o.curve.y = amt.getD 0 ∧ amt.getD 0 ≤ o.curve.yint ∧
      o.curve.plow = min x y ∧ o.curve.phigh = max x y ∧ o.tkn = tkn ∧ o.pair = p ∧ o.disabled = false ∧ o.id = id ∧ o.linked = lk := by
  have hn : (z.isSome && pm.isSome) = false := by
    cases z with
    | none => rfl
    | some c => rw [(h.hz c rfl).1]; rfl
  have hmm : ∀ m, pm = some m → min x y < m ∧ m ≤ max x y := fun m hm =>
    ⟨lt_of_le_of_ne (h.hm m hm).1 (Ne.symm (h.hm m hm).2.2), (h.hm m hm).2.1⟩
  obtain ⟨c, hc, c1, c2, c3, c4, c5, c6⟩ := buildCurve_fit h.hamt (lt_min h.ha h.hb) min_le_max hmm h.hz
  have hb : Sim.sellOrder p tkn amt (some x) (some y) id lk pm z =
      Sim.buildOrder p tkn (amt.getD 0) (min x y) (max x y) false id lk pm z := by
    unfold Sim.sellOrder
    rw [hn]
    simp only [Bool.false_eq_true, if_false]
    split
    · rename_i hle; rw [min_eq_left hle, max_eq_right hle]
    · rename_i hle; rw [min_eq_right (not_le.mp hle).le, max_eq_left (not_le.mp hle).le]
  suffices ∃ o, Sim.sellOrder p tkn amt (some x) (some y) id lk pm z = .ok o ∧ o = ⟨c, tkn, p, p.pairIso, false, id, lk⟩ by
    obtain ⟨o, ho, rfl⟩ := this
    exact ⟨_, ho, c1, c2, c3, c4, c5, c6, rfl, rfl, rfl, rfl, rfl⟩
  rw [hb]
  unfold Sim.buildOrder
  rw [hc, Py.ok_bind]
  exact ⟨_, rfl, rfl⟩

/-- A curve over an order with a range of positive prices. -/
theorem fromOrder_fit {s : Str} {p : CarbonPair} (hmk : CarbonPair.make (.str s) none none = .ok p) {o : SOrder ℝ} (hp : o.pair = p)
    (ht : o.tkn = p.tknb ∨ o.tkn = p.tknq) {x y : ℝ} (hx : 0 < x) (hxy : x < y)
    (hB : o.curve.B = Real.sqrt x) (hS : o.curve.S = Real.sqrt y - Real.sqrt x) (h0 : 0 ≤ o.curve.y) (h1 : o.curve.y ≤ o.curve.yint)
    (hlo : o.curve.plow = x) (hhi : o.curve.phigh = y) :
    ∃ c, fromOrder o = .ok c ∧ Fine c ∧ c.tkn = o.tkn ∧ c.pair.tknb = p.tknb ∧ c.pair.tknq = p.tknq ∧ c.y = o.curve.y ∧ c.paRaw = y ∧
      ∃ rep, Sim.report o = .ok rep := by
  obtain ⟨u1, u2⟩ := CarbonPair.make_upper hmk
  obtain ⟨_, _, n1, n2, _⟩ := CarbonPair.C15_names s false p hmk
  have hB0 : 0 < o.curve.B := by rw [hB]; exact Real.sqrt_pos.mpr hx
  have hS0 : 0 < o.curve.S := by rw [hS]; exact sub_pos.mpr (Real.sqrt_lt_sqrt hx.le hxy)
  obtain ⟨p2, hp2⟩ : ∃ p2, p2 = CarbonPair.finish p.tknb p.tknq false p.decB p.decQ := ⟨_, rfl⟩
  have hmk2 : CarbonPair.make (.pair p) none none = .ok p2 := by
    rw [hp2]
    simp only [CarbonPair.make, CarbonPair.truthy, Bool.or_self, Bool.false_eq_true, if_false, Py.bind_eq_ok,
      CarbonPair.unpack_eq_ok, Except.ok.injEq]
    exact ⟨(p.tknb, p.tknq), ⟨rfl, n1, n2⟩, rfl⟩
  have t1 : p2.tknb = p.tknb := by rw [hp2]; exact u1
  have t2 : p2.tknq = p.tknq := by rw [hp2]; exact u2
  have ut : upper o.tkn = o.tkn := by rcases ht with h | h <;> rw [h] <;> assumption
  obtain ⟨c, hc⟩ : ∃ c : UICurve ℝ, c = ⟨p2, o.tkn, o.curve.B, o.curve.S, o.curve.yint, o.curve.y⟩ := ⟨_, rfl⟩
  have hf : Fine c := by rw [hc]; exact ⟨hB0, hS0, h0, h1⟩
  have hht : p2.hasToken o.tkn = true := by
    unfold CarbonPair.hasToken CarbonPair.hasBase CarbonPair.hasQuote
    rw [t1, t2]
    rcases ht with h | h <;> simp [h]
  have hht' : o.pair.hasToken o.tkn = true := by
    rw [hp]
    unfold CarbonPair.hasToken CarbonPair.hasBase CarbonPair.hasQuote
    rcases ht with h | h <;> simp [h]
  have hmake : UICurve.make (.pair o.pair) o.tkn o.curve.B o.curve.S o.curve.yint o.curve.y = .ok c := by
    unfold UICurve.make
    have hpos : 0 < c.paRaw := hf.paRaw_pos
    have hpb : 0 < c.pbRaw := by unfold UICurve.pbRaw; exact mul_pos hf.hB hf.hB
    have hnd := hf.not_disabled
    rw [hp, hmk2, Py.ok_bind, ut]
    dsimp only
    rw [hht, ← hc, hnd]
    simp only [Bool.not_true, Bool.false_eq_true, if_false]
    unfold UICurve.conv
    split
    · rw [pyDiv_ok hpos.ne', pyDiv_ok hpb.ne']; rfl
    · rfl
  refine ⟨c, hmake, hf, by rw [hc], by rw [hc, ← t1], by rw [hc, ← t2], by rw [hc], ?_, ?_⟩
  · rw [hc]
    unfold UICurve.paRaw
    dsimp only
    rw [hB, hS, sub_add_cancel, Real.sq_sqrt (hx.trans hxy).le]
  · obtain ⟨q, hq⟩ := hf.pMarg
    have hconv : ∀ v : ℝ, 0 < v → ∃ w, o.pair.convertPrice (some v) o.tkn = .ok (some w) := by
      intro v hv
      rcases Sim.convert_cases hht' with h | h
      · exact ⟨v, h _⟩
      · exact ⟨_, h _ v rfl hv⟩
    obtain ⟨w1, hw1⟩ := hconv o.curve.phigh (hhi ▸ hx.trans hxy)
    obtain ⟨w2, hw2⟩ := hconv o.curve.plow (hlo ▸ hx)
    unfold Sim.report
    rw [hmake, Py.ok_bind]
    cases hdis : o.disabled with
    | true =>
      simp only [if_true, Py.ok_bind, hq]
      exact ⟨_, rfl⟩
    | false =>
      simp only [Bool.false_eq_true, if_false, hw1, hw2, Py.ok_bind, hq]
      exact ⟨_, rfl⟩

/-- A strategy for the pair `p` that can be simulated. -/
structure Fit (p : CarbonPair) (s : Strat ℝ) : Prop where
  pair : CarbonPair.make (.str s.slashpair) none none = .ok p
  base : p.tknb = s.rsk
  quote : p.tknq = s.csh
  diff : p.tknb ≠ p.tknq
  sell : FitSide s.amtRsk s.pSellA s.pSellB s.psellMarginal s.yIntSell (max s.pSellA s.pSellB)
  buy : FitSide s.amtCsh s.pBuyA s.pBuyB s.pbuyMarginal s.yIntBuy (min s.pBuyA s.pBuyB)

/-- The side as seen from the other token. -/
theorem FitSide.inv {amt : Option ℝ} {a b : ℝ} {pm z : Option ℝ} (h : FitSide amt a b pm z (max a b)) :
    FitSide amt (1 / b) (1 / a) (pm.map (1 / ·)) z (min (1 / b) (1 / a)) ∧ max (1 / b) (1 / a) = 1 / min a b := by
  have ha := h.ha
  have hb := h.hb
  have e1 : min (1 / b) (1 / a) = 1 / max a b := by
    rcases le_total a b with hab | hab
    · rw [max_eq_right hab, min_eq_left (one_div_le_one_div_of_le ha hab)]
    · rw [max_eq_left hab, min_eq_right (one_div_le_one_div_of_le hb hab)]
  have e2 : max (1 / b) (1 / a) = 1 / min a b := by
    rcases le_total a b with hab | hab
    · rw [min_eq_left hab, max_eq_right (one_div_le_one_div_of_le ha hab)]
    · rw [min_eq_right hab, max_eq_left (one_div_le_one_div_of_le hb hab)]
  refine ⟨⟨by positivity, by positivity, ?_, h.hamt, ?_, ?_⟩, e2⟩
  · intro he
    have : b = a := by
      have := congrArg (1 / ·) he
      simpa using this
    exact h.hab this.symm
  · intro m hm
    obtain ⟨v, hv, rfl⟩ := Option.map_eq_some_iff.mp hm
    obtain ⟨m1, m2, m3⟩ := h.hm v hv
    have hmin : 0 < min a b := lt_min ha hb
    have hv0 : 0 < v := lt_of_lt_of_le hmin m1
    rw [e1, e2]
    refine ⟨one_div_le_one_div_of_le hv0 m2, one_div_le_one_div_of_le hmin m1, ?_⟩
    intro he
    have := congrArg (1 / ·) he
    apply m3
    simpa using this
  · intro c hc
    obtain ⟨h1, h2⟩ := h.hz c hc
    exact ⟨by rw [h1]; rfl, h2⟩

/-- What is known about the orders that are stored for a strategy. -/
structure Stored (s : Strat ℝ) (o1 o2 : SOrder ℝ) (t : Twins) : Prop where
  h1 : fromOrder o1 = .ok t.1
  h2 : fromOrder o2 = .ok t.2
  r1 : ∃ rep, Sim.report o1 = .ok rep
  r2 : ∃ rep, Sim.report o2 = .ok rep
  l1 : o1.linked = o2.id
  l2 : o2.linked = o1.id
  tidy : Tidy t
  y1 : t.1.y = s.amtRsk.getD 0
  y2 : t.2.y = s.amtCsh.getD 0
  ask : ask t = min s.pSellA s.pSellB
  bid : bid t = max s.pBuyA s.pBuyB

theorem addStrategy_fit {p : CarbonPair} {st : Strat ℝ} (h : Fit p st) (s : Sim ℝ) (hi : Sim.Ids s) :
    ∃ s' r o1 o2 t, s.addStrategy st.dct = (.ok r, s') ∧ Sim.Ids s' ∧
      s'.orders = s.orders ++ [(s.nextId, o1), (s.nextId + 1, o2)] ∧ o1.id = s.nextId ∧ o2.id = s.nextId + 1 ∧ Stored st o1 o2 t := by
  have hcr : CarbonPair.create (.str st.slashpair) none = .ok (some p) := by
    show (do let p ← CarbonPair.make (.str st.slashpair) none none; .ok (some p) : Py (Option CarbonPair)) = _
    rw [h.pair]; rfl
  have hgp : s.getPair (.str st.slashpair) = .ok p := by
    obtain ⟨c, k, hk⟩ : ∃ c k, st.slashpair = c :: k := by
      unfold Strat.slashpair
      cases st.rsk with
      | nil => exact ⟨_, _, rfl⟩
      | cons a b => exact ⟨_, _, rfl⟩
    rw [hk] at hcr ⊢
    unfold Sim.getPair
    dsimp only
    rw [hcr]
    rfl
  have hq : ¬ p.hasQuote st.rsk = true := by
    unfold CarbonPair.hasQuote; rw [← h.base]; simpa using h.diff
  have hb : p.hasBase st.rsk = true := by unfold CarbonPair.hasBase; simp [h.base]
  have hq2 : p.hasQuote st.csh = true := by unfold CarbonPair.hasQuote; simp [h.quote]
  have ht1 : p.hasToken st.rsk = true := by unfold CarbonPair.hasToken; simp [hb]
  have ht2 : p.hasToken st.csh = true := by unfold CarbonPair.hasToken; simp [hq2]
  have hpt : s.pairTokens (.str st.slashpair) st.rsk = .ok (p, st.csh) := by
    unfold Sim.pairTokens
    rw [hgp, Py.ok_bind]
    unfold CarbonPair.other
    rw [if_pos hb, ← h.quote]
  have cv1 : ∀ v : ℝ, 0 < v → p.convertPrice (some v) st.rsk = .ok (some (1 / v)) := by
    intro v hv
    unfold CarbonPair.convertPrice
    simp only [ht1, hq]
    rw [if_neg (by simp), if_neg (by simp), pyDiv_ok hv.ne']; rfl
  have cv2 : ∀ v : Option ℝ, p.convertPrice v st.csh = .ok v := by
    intro v
    unfold CarbonPair.convertPrice
    cases v with
    | none => rfl
    | some v => simp [ht2, hq2]
  have cvm : p.convertPrice st.psellMarginal st.rsk = .ok (st.psellMarginal.map (1 / ·)) := by
    cases hm : st.psellMarginal with
    | none => rfl
    | some m => rw [cv1 m (lt_of_lt_of_le (lt_min h.sell.ha h.sell.hb) (h.sell.hm m hm).1)]; rfl
  obtain ⟨fs, emax⟩ := h.sell.inv
  have fb : FitSide st.amtCsh st.pBuyB st.pBuyA st.pbuyMarginal st.yIntBuy (min st.pBuyB st.pBuyA) :=
    ⟨h.buy.hb, h.buy.ha, h.buy.hab.symm, h.buy.hamt, fun m hm => by rw [min_comm, max_comm]; exact h.buy.hm m hm, h.buy.hz⟩
  obtain ⟨o1, e1, a1, a2, a3, a4, a5, a6, a7, a8, a9, a10, a11⟩ :=
    sellOrder_fit (p := p) (tkn := st.rsk) (id := s.nextId) (lk := s.nextId + 1) fs
  obtain ⟨o2, e2, b1, b2, b3, b4, b5, b6, b7, b8, b9, b10, b11⟩ :=
    sellOrder_fit (p := p) (tkn := st.csh) (id := s.nextId + 1) (lk := s.nextId) fb
  have lt1 : min (1 / st.pSellB) (1 / st.pSellA) < max (1 / st.pSellB) (1 / st.pSellA) := min_lt_max.mpr fs.hab
  have lt2 : min st.pBuyB st.pBuyA < max st.pBuyB st.pBuyA := min_lt_max.mpr fb.hab
  obtain ⟨c1, f1, g1, g2, g3, g4, g5, g6, rep1, hrep1⟩ := fromOrder_fit h.pair a8 (Or.inl (a7.trans h.base.symm))
    (lt_min fs.ha fs.hb) lt1 a1 a2 (a3 ▸ fs.hamt) (a3 ▸ a4) a5 a6
  obtain ⟨c2, f2, k1, k2, k3, k4, k5, k6, rep2, hrep2⟩ := fromOrder_fit h.pair b8 (Or.inr (b7.trans h.quote.symm))
    (lt_min fb.ha fb.hb) lt2 b1 b2 (b3 ▸ fb.hamt) (b3 ▸ b4) b5 b6
  have hso : Sim.strategyOrders p st.csh s.nextId (s.nextId + 1) st.dct = .ok (o1, .ok o2) := by
    unfold Sim.strategyOrders Strat.dct
    dsimp only
    rw [cvm, Py.ok_bind, cv1 _ h.sell.ha, Py.ok_bind, cv1 _ h.sell.hb, Py.ok_bind, cv2, Py.ok_bind, cv2, Py.ok_bind, cv2, Py.ok_bind, e1,
      Py.ok_bind, e2]
  obtain ⟨s', hs'⟩ : ∃ s' : Sim ℝ,
      s' = { s with nextId := s.nextId + 2, orders := Dict.set (Dict.set s.orders s.nextId o1) (s.nextId + 1) o2 } := ⟨_, rfl⟩
  have hadd : s.addStrategy st.dct = (.ok (s.nextId, s.nextId + 1), s') := by
    unfold Sim.addStrategy
    rw [show st.dct.pair = .str st.slashpair from rfl, show st.dct.tkn = st.rsk from rfl, hpt]
    dsimp only
    rw [hso]
    dsimp only
    rw [hrep1, Py.ok_bind, hrep2, hs']
  have hids := (Sim.addStrategy_ids hi st.dct).1
  have m1 : s.nextId ∉ s.orders.map Prod.fst := fun hm => absurd (hi.lt _ hm) (lt_irrefl _)
  have m2 : s.nextId + 1 ∉ (s.orders ++ [(s.nextId, o1)]).map Prod.fst := by
    rw [List.map_append, List.mem_append]
    rintro (hm | hm)
    · have := hi.lt _ hm; omega
    · simp at hm
  refine ⟨s', _, o1, o2, (c1, c2), hadd, by rw [hadd] at hids; exact hids, ?_, a10, b10, ⟨f1, f2, ⟨rep1, hrep1⟩, ⟨rep2, hrep2⟩,
    by rw [a11, b10], by rw [b11, a10], ⟨g1, k1, ?_, ?_, ?_, ?_⟩, ?_, ?_, ?_, ?_⟩⟩
  · rw [hs']
    dsimp only
    rw [Dict.set_of_not_mem _ m1, Dict.set_of_not_mem _ m2, List.append_assoc]; rfl
  · show c1.tkn = c1.pair.tknb
    rw [g2, g3, a7, h.base]
  · show c1.tkn ≠ c1.pair.tknq
    rw [g2, g4, a7, ← h.base]; exact h.diff
  · show c2.tkn = c2.pair.tknq
    rw [k2, k4, b7, h.quote]
  · show c2.tkn ≠ c2.pair.tknb
    rw [k2, k3, b7, ← h.quote]; exact h.diff.symm
  · exact g5.trans a3
  · exact k5.trans b3
  · show 1 / c1.paRaw = _
    rw [g6, emax, one_div_one_div]
  · show c2.paRaw = _
    rw [k6, max_comm]

/-- The orders that are stored for strategies, and the curves over them. -/
inductive Books : List (Strat ℝ) → List (SOrder ℝ) → List Twins → Prop
  | nil : Books [] [] []
  | cons {st ss o1 o2 os t ts} : Stored st o1 o2 t → Books ss os ts → Books (st :: ss) (o1 :: o2 :: os) (t :: ts)

theorem addAll_fit {p : CarbonPair} {ss : List (Strat ℝ)} (h : ∀ s ∈ ss, Fit p s) (s : Sim ℝ) (hi : Sim.Ids s) :
    ∃ s' os ts, addAll s ss = .ok s' ∧ s'.orders.map Prod.snd = s.orders.map Prod.snd ++ os ∧ Books ss os ts := by
  induction ss generalizing s with
  | nil => exact ⟨s, [], [], rfl, by simp, .nil⟩
  | cons st ss ih =>
    obtain ⟨s1, r, o1, o2, t, e, i1, ho, _, _, hst⟩ := addStrategy_fit (h st List.mem_cons_self) s hi
    obtain ⟨s', os, ts, ea, hos, hb⟩ := ih (fun u hu => h u (List.mem_cons_of_mem _ hu)) s1 i1
    refine ⟨s', o1 :: o2 :: os, t :: ts, ?_, ?_, .cons hst hb⟩
    · unfold addAll; rw [e]; exact ea
    · rw [hos, ho]; simp

theorem Books.curves {ss : List (Strat ℝ)} {os : List (SOrder ℝ)} {ts : List Twins} (h : Books ss os ts) :
    os.mapM fromOrder = .ok (curves ts) ∧ pairUp (RunSim.curves ts) = ts ∧ (∃ r, os.mapM Sim.report = .ok r) ∧
      (∀ o ∈ os, ∃ o' ∈ os, o'.id = o.linked) ∧ (∀ t ∈ ts, Tidy t) ∧
      ts.map (fun t => t.1.y) = ss.map (fun s => s.amtRsk.getD 0) ∧ ts.map (fun t => t.2.y) = ss.map (fun s => s.amtCsh.getD 0) ∧
      ts.map bid = ss.map (fun s => max s.pBuyA s.pBuyB) ∧ ts.map ask = ss.map (fun s => min s.pSellA s.pSellB) := by
  induction h with
  | nil => exact ⟨rfl, rfl, ⟨_, rfl⟩, by simp, by simp, rfl, rfl, rfl, rfl⟩
  | @cons st ss o1 o2 os t ts hs hb ih =>
    obtain ⟨i1, i2, ⟨r, i3⟩, i4, i5, i6, i7, i8, i9⟩ := ih
    obtain ⟨q1, hq1⟩ := hs.r1
    obtain ⟨q2, hq2⟩ := hs.r2
    refine ⟨?_, ?_, ⟨q1 :: q2 :: r, ?_⟩, ?_, ?_, ?_, ?_, ?_, ?_⟩
    · rw [List.mapM_cons, hs.h1, List.mapM_cons, hs.h2, i1]; rfl
    · show pairUp (t.1 :: t.2 :: RunSim.curves ts) = _
      unfold pairUp
      rw [i2]
    · rw [List.mapM_cons, hq1, List.mapM_cons, hq2, i3]; rfl
    · intro o ho
      rcases List.mem_cons.mp ho with rfl | ho
      · exact ⟨o2, by simp, hs.l1.symm⟩
      rcases List.mem_cons.mp ho with rfl | ho
      · exact ⟨o1, by simp, hs.l2.symm⟩
      · obtain ⟨o', h1, h2⟩ := i4 o ho
        exact ⟨o', List.mem_cons_of_mem _ (List.mem_cons_of_mem _ h1), h2⟩
    · intro u hu
      rcases List.mem_cons.mp hu with rfl | hu
      · exact hs.tidy
      · exact i5 u hu
    · rw [List.map_cons, List.map_cons, i6, hs.y1]
    · rw [List.map_cons, List.map_cons, i7, hs.y2]
    · rw [List.map_cons, List.map_cons, i8, hs.bid]
    · rw [List.map_cons, List.map_cons, i9, hs.ask]

theorem positions_fit {s : Sim ℝ} {ss : List (Strat ℝ)} {os : List (SOrder ℝ)} {ts : List Twins} (h : Books ss os ts)
    (ho : s.orders.map Prod.snd = os) : positions s = .ok ts := by
  obtain ⟨i1, i2, ⟨r, i3⟩, i4, _⟩ := h.curves
  have hf : ((s.orders.map Prod.snd).filter fun o => match (none : Option (List Str)) with
    | none => true
    | some l => decide (o.pairName ∈ l)) = os := by rw [ho]; simp
  have hst : s.state none = .ok os := by
    unfold Sim.state
    rw [hf]
    dsimp only
    split
    · rename_i he
      rw [he] at ho
      rw [← ho]; rfl
    · rename_i he
      split
      · rename_i hn
        rw [hn] at ho
        exact absurd (List.map_eq_nil_iff.mp ho) he
      · rw [i3, Py.ok_bind, if_pos]
        rw [List.all_eq_true]
        intro o hmem
        obtain ⟨o', h1, h2⟩ := i4 o hmem
        rw [List.any_eq_true]
        exact ⟨o', h1, by simpa using h2⟩
  unfold positions
  rw [hst]
  dsimp only
  rw [i1, Py.ok_bind, i2]

/-! ## Runs -/

/-- The strategy that is put into the simulator when the first price and the shift lead to the factor `f`. -/
noncomputable def start (f : ℝ) (s : Strat ℝ) : Strat ℝ := if s.rescale then s.scaled f else s

/-- The factor from the convention that strategies are written for a price of 100. -/
noncomputable def factor (path : List ℝ) (shift : Option ℝ) : ℝ := path.headD 0 * (1 + shift.getD 0) / 100

/-- A simulation with at least one strategy, all for one pair, along positive prices. The conditions on a strategy are those on what is put
into the simulator. -/
structure Setup (p : CarbonPair) (strat : List (Strat ℝ)) (path : List ℝ) (shift : Option ℝ) : Prop where
  some : strat ≠ []
  prices : path ≠ []
  pos : ∀ q ∈ path, 0 < q
  fit : ∀ s ∈ strat, Fit p (start (factor path shift) s)
  cash : ∀ s ∈ strat, s.amtCsh ≠ Option.some 0

theorem start_names (f : ℝ) (s : Strat ℝ) : (start f s).rsk = s.rsk ∧ (start f s).csh = s.csh := by
  unfold start
  split <;> exact ⟨rfl, rfl⟩

theorem mapM_rescale {strat : List (Strat ℝ)} {n : ℝ} (hc : ∀ s ∈ strat, s.amtCsh ≠ some 0) :
    strat.mapM (fun s => s.rescaleStrat n 100) = .ok (strat.map (start (n / 100))) := by
  induction strat with
  | nil => rfl
  | cons s l ih =>
    have e : s.rescaleStrat n 100 = .ok (start (n / 100) s) := by
      unfold start
      cases hr : s.rescale with
      | true => rw [Strat.rescale_eq (hc s List.mem_cons_self) (by norm_num) (Or.inl hr)]; rfl
      | false =>
        unfold Strat.rescaleStrat
        rw [if_pos ⟨hr, rfl⟩]; rfl
    rw [List.mapM_cons, e, ih fun u hu => hc u (List.mem_cons_of_mem _ hu)]
    rfl

/-- The result for the records `s :: more`. -/
noncomputable def result (ss : List (Strat ℝ)) (path : List ℝ) (s : Snap) (more : List Snap) : Result :=
  ⟨ss, path, (s :: more).map (·.rsk), (s :: more).map (·.csh), values ((s :: more).map (·.rsk)) ((s :: more).map (·.csh)) path,
    path.map (fun p => s.rsk * p + s.csh), (s :: more).map (·.margBuy), (s :: more).map (·.margSell)⟩

theorem runSim_eq {p : CarbonPair} {strat : List (Strat ℝ)} {q0 : ℝ} {shift : Option ℝ} (h : Setup p strat [q0] shift) :
    ∃ os ts s, Books (strat.map (start (factor [q0] shift))) os ts ∧ snap ts = .ok s ∧ ∀ qs, runSim strat (q0 :: qs) shift = (do
      let more ← walk ts qs
      .ok (result (strat.map (start (factor [q0] shift))) (q0 :: qs) s more)) := by
  obtain ⟨h1, h2, h3, h4, h5⟩ := h
  cases strat with
  | nil => exact absurd rfl h1
  | cons s0 l =>
  have hq0 : 0 < q0 := h3 q0 List.mem_cons_self
  obtain ⟨f, hf⟩ : ∃ f, f = factor [q0] shift := ⟨_, rfl⟩
  rw [← hf] at h4 ⊢
  have hslash : ∀ s ∈ s0 :: l, s.slashpair = s0.slashpair := by
    intro s hs
    have a1 := h4 s hs
    have a2 := h4 s0 List.mem_cons_self
    unfold Strat.slashpair
    have b1 := (start_names f s).1 ▸ a1.base
    have b2 := (start_names f s).2 ▸ a1.quote
    have b3 := (start_names f s0).1 ▸ a2.base
    have b4 := (start_names f s0).2 ▸ a2.quote
    rw [← b1, ← b2, ← b3, ← b4]
  have hfit : ∀ s ∈ (s0 :: l).map (start f), Fit p s := by
    intro s hs
    obtain ⟨u, hu, rfl⟩ := List.mem_map.mp hs
    exact h4 u hu
  have hnew : (Sim.new (.str s0.slashpair) false .exact : Py (Sim ℝ)) = .ok ⟨0, [], [], 0, some p, false, .exact, true⟩ := by
    have hp : CarbonPair.make (.str s0.slashpair) none none = .ok p := by
      have := (h4 s0 List.mem_cons_self).pair
      unfold Strat.slashpair at this ⊢
      rwa [(start_names f s0).1, (start_names f s0).2] at this
    unfold Sim.new
    have : CarbonPair.create (.str s0.slashpair) none = .ok (some p) := by
      show (do let p ← CarbonPair.make (.str s0.slashpair) none none; .ok (some p) : Py (Option CarbonPair)) = _
      rw [hp]; rfl
    rw [this, Py.ok_bind]
  obtain ⟨s', os, ts, ea, hos, hb⟩ := addAll_fit hfit _ (Sim.new_ids hnew).1
  have hpos := positions_fit hb (by simpa using hos)
  obtain ⟨s, hs, _⟩ := snap_ok hb.curves.2.2.2.2.1
  refine ⟨os, ts, s, hb, hs, fun qs => ?_⟩
  unfold runSim
  dsimp only
  rw [if_neg]
  · have hcl : clean (q0 :: qs) = q0 :: qs := by unfold clean; dsimp only; rw [if_pos hq0]
    rw [hcl]
    dsimp only
    have hff : f = q0 * (1 + shift.getD 0) / 100 := hf
    rw [mapM_rescale h5, Py.ok_bind, hnew, Py.ok_bind, ← hff, ea, Py.ok_bind, hpos, Py.ok_bind, hs, Py.ok_bind]
    rfl
  · intro hany
    rw [List.any_eq_true] at hany
    obtain ⟨u, hu, hne⟩ := hany
    have hne' : u.slashpair ≠ s0.slashpair := by simpa using hne
    exact hne' (hslash u hu)

theorem runSim_ok {p : CarbonPair} {strat : List (Strat ℝ)} {path : List ℝ} {shift : Option ℝ} (h : Setup p strat path shift) :
    ∃ r, runSim strat path shift = .ok r ∧ ∃ recs : List Snap, r.strat = strat.map (start (factor path shift)) ∧ r.spot = path ∧
      r.rsk = recs.map (·.rsk) ∧ r.csh = recs.map (·.csh) ∧ r.margBuy = recs.map (·.margBuy) ∧ r.margSell = recs.map (·.margSell) ∧
      recs.length = path.length ∧
      (∀ x ∈ recs, 0 ≤ x.rsk ∧ 0 ≤ x.csh ∧ x.margBuy.length = strat.length ∧ x.margSell.length = strat.length) ∧
      (∀ x, recs[0]? = some x → x.rsk = (r.strat.map fun s => s.amtRsk.getD 0).sum ∧ x.csh = (r.strat.map fun s => s.amtCsh.getD 0).sum) ∧
      ∀ (i : Nat) (x x' : Snap) (q : ℝ), recs[i]? = some x → recs[i + 1]? = some x' → path[i + 1]? = some q →
        Step (r.strat.map fun s => max s.pBuyA s.pBuyB) (r.strat.map fun s => min s.pSellA s.pSellB) x x' q := by
  cases path with
  | nil => exact absurd rfl h.prices
  | cons q0 qs =>
  have h' : Setup p strat [q0] shift :=
    ⟨h.some, by simp, fun q hq => h.pos q (by rw [List.mem_singleton.mp hq]; exact List.mem_cons_self), h.fit, h.cash⟩
  obtain ⟨os, ts, s, hb, hs, hrun⟩ := runSim_eq h'
  obtain ⟨_, _, _, _, htidy, hy1, hy2, hbid, hask⟩ := hb.curves
  obtain ⟨s1, more, hs1, hw, hlen, g1, g2, hall, hstep⟩ := walk_ok htidy (ps := qs) fun q hq => h.pos q (List.mem_cons_of_mem _ hq)
  rw [hs] at hs1
  cases hs1
  have htl : ts.length = strat.length := by
    have := congrArg List.length hbid
    simpa using this
  refine ⟨_, by rw [hrun, hw, Py.ok_bind], s :: more, rfl, rfl, rfl, rfl, rfl, rfl, by simp [hlen], ?_, ?_, ?_⟩
  · intro x hx
    rw [← htl]
    exact hall x hx
  · intro x hx
    rw [List.getElem?_cons_zero, Option.some.injEq] at hx
    rw [← hx, g1, g2]
    unfold held1 held2
    rw [hy1, hy2]
    exact ⟨rfl, rfl⟩
  · intro i x x' q e1 e2 e3
    have := hstep i x x' q e1 e2 (by simpa using e3)
    rw [hbid, hask] at this
    exact this

/-! ## C96 -/

theorem walk_length {l : List Twins} {ps : List ℝ} {r : List Snap} (h : walk l ps = .ok r) : r.length = ps.length := by
  induction ps generalizing l r with
  | nil => cases h; rfl
  | cons q ps ih =>
    unfold walk at h
    obtain ⟨l', _, h⟩ := Py.bind_eq_ok.1 h
    obtain ⟨s, _, h⟩ := Py.bind_eq_ok.1 h
    obtain ⟨k, hk, h⟩ := Py.bind_eq_ok.1 h
    cases h
    simp [ih hk]

/-- C96: the orders of proper strategies follow one another in the book, the sell order of a strategy directly before its buy order, and these
two are linked to each other. -/
theorem C96_links (p : CarbonPair) (ss : List (Strat ℝ)) (h : ∀ s ∈ ss, Fit p s) (s : Sim ℝ) (hn : Sim.Ids s) (he : s.orders = []) :
    ∃ (s' : Sim ℝ) (prs : List (SOrder ℝ × SOrder ℝ)), addAll s ss = .ok s' ∧ s'.orders.map Prod.snd = prs.flatMap (fun x : SOrder ℝ × SOrder ℝ => [x.1, x.2]) ∧
      prs.length = ss.length ∧ ∀ x ∈ prs, x.1.linked = x.2.id ∧ x.2.linked = x.1.id := by
  obtain ⟨s', os, ts, ea, hos, hb⟩ := addAll_fit h s hn
  have key : ∃ prs : List (SOrder ℝ × SOrder ℝ), os = prs.flatMap (fun x => [x.1, x.2]) ∧ prs.length = ss.length ∧
      ∀ x ∈ prs, x.1.linked = x.2.id ∧ x.2.linked = x.1.id := by
    clear ea hos h
    induction hb with
    | nil => exact ⟨[], rfl, rfl, by simp⟩
    | @cons st ss o1 o2 os t ts hs hb ih =>
      obtain ⟨prs, h1, h2, h3⟩ := ih
      refine ⟨(o1, o2) :: prs, by rw [List.flatMap_cons, ← h1]; rfl, by simp [h2], ?_⟩
      intro x hx
      rcases List.mem_cons.mp hx with rfl | hx
      · exact ⟨hs.l1, hs.l2⟩
      · exact h3 x hx
  obtain ⟨prs, h1, h2, h3⟩ := key
  exact ⟨s', prs, ea, by rw [hos, he, h1]; rfl, h2, h3⟩

/-- C96: whatever the strategies and prices, if a simulation returns, then all its series have one entry per price; the value is that of the
amounts at the price; and the comparison is with holding the first amounts. -/
theorem C96_series (strat : List (Strat ℝ)) (path : List ℝ) (shift : Option ℝ) (r : Result) (h : runSim strat path shift = .ok r) :
    r.spot ≠ [] ∧ r.rsk.length = r.spot.length ∧ r.csh.length = r.spot.length ∧ r.value.length = r.spot.length ∧
      r.hodl.length = r.spot.length ∧ r.margBuy.length = r.spot.length ∧ r.margSell.length = r.spot.length ∧
      (∀ (i : Nat) (q x y : ℝ), r.spot[i]? = some q → r.rsk[i]? = some x → r.csh[i]? = some y → r.value[i]? = some (x * q + y)) ∧
      ∀ (i : Nat) (q x y : ℝ), r.spot[i]? = some q → r.rsk[0]? = some x → r.csh[0]? = some y → r.hodl[i]? = some (x * q + y) := by
  unfold runSim at h
  cases strat with
  | nil => cases h
  | cons s0 l =>
    dsimp only at h
    split at h
    · cases h
    · split at h
      · cases h
      · rename_i spot rest _
        obtain ⟨ss, _, h⟩ := Py.bind_eq_ok.1 h
        obtain ⟨sim, _, h⟩ := Py.bind_eq_ok.1 h
        obtain ⟨sim', _, h⟩ := Py.bind_eq_ok.1 h
        obtain ⟨ps, _, h⟩ := Py.bind_eq_ok.1 h
        obtain ⟨first, _, h⟩ := Py.bind_eq_ok.1 h
        obtain ⟨more, hw, h⟩ := Py.bind_eq_ok.1 h
        have hl := walk_length hw
        cases h
        refine ⟨by simp, by simp [hl], by simp [hl], by simp [values, hl], by simp, by simp [hl], by simp [hl], ?_, ?_⟩
        · intro i q x y h1 h2 h3
          unfold values
          rw [List.getElem?_zipWith, List.getElem?_zipWith]
          dsimp only at h1 h2 h3
          rw [h2, h1, h3]
        · intro i q x y h1 h2 h3
          dsimp only at h1 h2 h3 ⊢
          rw [List.map_cons, List.getElem?_cons_zero, Option.some.injEq] at h2 h3
          rw [List.getElem?_map, h1, h2, h3]
          rfl

/-- C96: a simulation of strategies for one pair with proper ranges along positive prices returns. The strategies are reported as they were
used, the prices as given, there is one marginal price per strategy, side and price, and the first amounts are those of the strategies. -/
theorem C96_runs (p : CarbonPair) (strat : List (Strat ℝ)) (path : List ℝ) (shift : Option ℝ) (h : Setup p strat path shift) :
    ∃ r, runSim strat path shift = .ok r ∧ r.spot = path ∧
      r.strat = strat.map (fun s => if s.rescale then s.scaled (path.headD 0 * (1 + shift.getD 0) / 100) else s) ∧
      r.rsk[0]? = some (strat.map fun s => s.amtRsk.getD 0).sum ∧ r.csh[0]? = some (strat.map fun s => s.amtCsh.getD 0).sum ∧
      (∀ l ∈ r.margBuy, l.length = strat.length) ∧ (∀ l ∈ r.margSell, l.length = strat.length) ∧
      (∀ x ∈ r.rsk, 0 ≤ x) ∧ ∀ y ∈ r.csh, 0 ≤ y := by
  obtain ⟨r, hr, recs, e1, e2, e3, e4, e5, e6, hl, hall, h0, _⟩ := runSim_ok h
  have am : ∀ f : ℝ, (strat.map (start f)).map (fun s => s.amtRsk.getD 0) = strat.map (fun s => s.amtRsk.getD 0) ∧
      (strat.map (start f)).map (fun s => s.amtCsh.getD 0) = strat.map (fun s => s.amtCsh.getD 0) := by
    intro f
    rw [List.map_map, List.map_map]
    constructor <;> (apply List.map_congr_left; intro s _; unfold start Function.comp; dsimp only; split <;> rfl)
  refine ⟨r, hr, e2, e1, ?_, ?_, ?_, ?_, ?_, ?_⟩
  · cases recs with
    | nil => simp at hl; exact absurd (List.length_eq_zero_iff.mp hl.symm) h.prices
    | cons x l =>
      rw [e3, List.map_cons, List.getElem?_cons_zero, (h0 x rfl).1, e1, (am _).1]
  · cases recs with
    | nil => simp at hl; exact absurd (List.length_eq_zero_iff.mp hl.symm) h.prices
    | cons x l =>
      rw [e4, List.map_cons, List.getElem?_cons_zero, (h0 x rfl).2, e1, (am _).2]
  · rw [e5]; intro l hl'; obtain ⟨x, hx, rfl⟩ := List.mem_map.mp hl'; exact (hall x hx).2.2.1
  · rw [e6]; intro l hl'; obtain ⟨x, hx, rfl⟩ := List.mem_map.mp hl'; exact (hall x hx).2.2.2
  · rw [e3]; intro l hl'; obtain ⟨x, hx, rfl⟩ := List.mem_map.mp hl'; exact (hall x hx).1
  · rw [e4]; intro l hl'; obtain ⟨x, hx, rfl⟩ := List.mem_map.mp hl'; exact (hall x hx).2.1

/-- The records behind consecutive amounts. -/
theorem recs_of {recs : List Snap} {i : Nat} {x y : ℝ} (h1 : (recs.map (·.rsk))[i]? = some x) (h2 : (recs.map (·.csh))[i]? = some y) :
    ∃ s, recs[i]? = some s ∧ s.rsk = x ∧ s.csh = y := by
  rw [List.getElem?_map] at h1 h2
  cases h : recs[i]? with
  | none => rw [h] at h1; cases h1
  | some s =>
    rw [h] at h1 h2
    exact ⟨s, rfl, Option.some.inj h1, Option.some.inj h2⟩

/-- C96: at every price the orders lose against keeping what was held before: the new amounts are worth at most as much, at that price, as
the previous ones. A price that is not below any of the buy ranges only sells, one that is not above any of the sell ranges only buys, and
between the ranges nothing happens. -/
theorem C96_step (p : CarbonPair) (strat : List (Strat ℝ)) (path : List ℝ) (shift : Option ℝ) (h : Setup p strat path shift) (r : Result)
    (hr : runSim strat path shift = .ok r) (i : Nat) (q x y x' y' : ℝ) (hq : r.spot[i + 1]? = some q) (hx : r.rsk[i]? = some x)
    (hy : r.csh[i]? = some y) (hx' : r.rsk[i + 1]? = some x') (hy' : r.csh[i + 1]? = some y') :
    x' * q + y' ≤ x * q + y ∧
    ((∀ s ∈ r.strat, s.pBuyA ≤ q ∧ s.pBuyB ≤ q) → x' ≤ x ∧ y ≤ y') ∧
    ((∀ s ∈ r.strat, q ≤ s.pSellA ∧ q ≤ s.pSellB) → x ≤ x' ∧ y' ≤ y) ∧
    ((∀ s ∈ r.strat, s.pBuyA ≤ q ∧ s.pBuyB ≤ q ∧ q ≤ s.pSellA ∧ q ≤ s.pSellB) → x' = x ∧ y' = y) := by
  obtain ⟨r', hr', recs, _, e2, e3, e4, _, _, _, _, _, hstep⟩ := runSim_ok h
  rw [hr] at hr'
  cases hr'
  rw [e3] at hx hx'
  rw [e4] at hy hy'
  rw [e2] at hq
  obtain ⟨s, g1, g2, g3⟩ := recs_of hx hy
  obtain ⟨s', k1, k2, k3⟩ := recs_of hx' hy'
  have st := hstep i s s' q g1 k1 hq
  rw [← g2, ← g3, ← k2, ← k3]
  have up : (∀ s ∈ r.strat, s.pBuyA ≤ q ∧ s.pBuyB ≤ q) → s'.rsk ≤ s.rsk ∧ s.csh ≤ s'.csh := fun hu => st.up (by
    intro b hb
    obtain ⟨u, hu', rfl⟩ := List.mem_map.mp hb
    exact max_le (hu u hu').1 (hu u hu').2)
  have down : (∀ s ∈ r.strat, q ≤ s.pSellA ∧ q ≤ s.pSellB) → s.rsk ≤ s'.rsk ∧ s'.csh ≤ s.csh := fun hu => st.down (by
    intro b hb
    obtain ⟨u, hu', rfl⟩ := List.mem_map.mp hb
    exact le_min (hu u hu').1 (hu u hu').2)
  refine ⟨by have := st.loss; nlinarith, up, down, fun hg => ?_⟩
  have a := up fun u hu => ⟨(hg u hu).1, (hg u hu).2.1⟩
  have b := down fun u hu => ⟨(hg u hu).2.2.1, (hg u hu).2.2.2⟩
  exact ⟨le_antisymm a.1 b.1, le_antisymm b.2 a.2⟩

/-- C96: valued at a fixed price between all buy ranges and all sell ranges the holdings never fall, so that whenever the price is there the
strategies are worth at least as much as holding the first amounts. -/
theorem C96_middle (p : CarbonPair) (strat : List (Strat ℝ)) (path : List ℝ) (shift : Option ℝ) (h : Setup p strat path shift) (r : Result)
    (hr : runSim strat path shift = .ok r) (m : ℝ)
    (hm : ∀ s ∈ r.strat, s.pBuyA ≤ m ∧ s.pBuyB ≤ m ∧ m ≤ s.pSellA ∧ m ≤ s.pSellB) :
    (∀ (i j : Nat) (x y x' y' : ℝ), i ≤ j → r.rsk[i]? = some x → r.csh[i]? = some y → r.rsk[j]? = some x' → r.csh[j]? = some y' →
      x * m + y ≤ x' * m + y') ∧
    ∀ (i : Nat) (v w : ℝ), r.spot[i]? = some m → r.value[i]? = some v → r.hodl[i]? = some w → w ≤ v := by
  have series := C96_series strat path shift r hr
  obtain ⟨r', hr', recs, _, e2, e3, e4, _, _, hlen, _, _, hstep⟩ := runSim_ok h
  rw [hr] at hr'
  cases hr'
  have one : ∀ (i : Nat) (s s' : Snap), recs[i]? = some s → recs[i + 1]? = some s' → s.rsk * m + s.csh ≤ s'.rsk * m + s'.csh := by
    intro i s s' h1 h2
    have hi : i + 1 < path.length := by
      rw [← hlen]
      exact (List.getElem?_eq_some_iff.mp h2).1
    have st := hstep i s s' _ h1 h2 (List.getElem?_eq_getElem hi)
    have := st.gain m (by
      intro b hb
      obtain ⟨u, hu', rfl⟩ := List.mem_map.mp hb
      exact max_le (hm u hu').1 (hm u hu').2.1) (by
      intro b hb
      obtain ⟨u, hu', rfl⟩ := List.mem_map.mp hb
      exact le_min (hm u hu').2.2.1 (hm u hu').2.2.2)
    nlinarith
  have mono : ∀ (k i : Nat) (s s' : Snap), recs[i]? = some s → recs[i + k]? = some s' → s.rsk * m + s.csh ≤ s'.rsk * m + s'.csh := by
    intro k
    induction k with
    | zero =>
      intro i s s' h1 h2
      rw [Nat.add_zero, h1] at h2
      cases h2
      exact le_rfl
    | succ k ih =>
      intro i s s' h1 h2
      have hi : i + k < recs.length := by
        have := (List.getElem?_eq_some_iff.mp h2).1
        omega
      exact (ih i s _ h1 (List.getElem?_eq_getElem hi)).trans (one (i + k) _ s' (List.getElem?_eq_getElem hi) h2)
  have main : ∀ (i j : Nat) (x y x' y' : ℝ), i ≤ j → r.rsk[i]? = some x → r.csh[i]? = some y → r.rsk[j]? = some x' →
      r.csh[j]? = some y' → x * m + y ≤ x' * m + y' := by
    intro i j x y x' y' hij hx hy hx' hy'
    rw [e3] at hx hx'
    rw [e4] at hy hy'
    obtain ⟨s, g1, g2, g3⟩ := recs_of hx hy
    obtain ⟨s', k1, k2, k3⟩ := recs_of hx' hy'
    obtain ⟨k, rfl⟩ := Nat.exists_eq_add_of_le hij
    rw [← g2, ← g3, ← k2, ← k3]
    exact mono k i s s' g1 k1
  refine ⟨main, ?_⟩
  intro i v w hi hv hw
  obtain ⟨_, l1, l2, _, _, _, _, hval, hhodl⟩ := series
  have hlt : i < r.spot.length := (List.getElem?_eq_some_iff.mp hi).1
  have a1 := List.getElem?_eq_getElem (l := r.rsk) (i := i) (by omega)
  have a2 := List.getElem?_eq_getElem (l := r.csh) (i := i) (by omega)
  have a3 := List.getElem?_eq_getElem (l := r.rsk) (i := 0) (by omega)
  have a4 := List.getElem?_eq_getElem (l := r.csh) (i := 0) (by omega)
  have b1 := hval i m _ _ hi a1 a2
  have b2 := hhodl i m _ _ hi a3 a4
  rw [hv] at b1
  rw [hw] at b2
  rw [Option.some.inj b1, Option.some.inj b2]
  exact main 0 i _ _ _ _ (Nat.zero_le _) a3 a4 a1 a2

/-- C96: proper strategies stay proper when they are rescaled by a positive factor, unless it is below one and the strategy sets the capacity
of its buy range. -/
theorem C96_rescaled (p : CarbonPair) (s : Strat ℝ) (h : Fit p s) (f : ℝ) (hf : 0 < f) (hz : s.yIntBuy = none ∨ 1 ≤ f) :
    Fit p (if s.rescale then s.scaled f else s) := by
  split
  · have mm : ∀ a b : ℝ, min (a * f) (b * f) = min a b * f ∧ max (a * f) (b * f) = max a b * f := fun a b =>
      ⟨(min_mul_of_nonneg a b hf.le).symm, (max_mul_of_nonneg a b hf.le).symm⟩
    have side : ∀ {amt : Option ℝ} {a b : ℝ} {pm z z' : Option ℝ} {last : ℝ}, FitSide amt a b pm z last →
        (∀ c, z' = some c → pm = none ∧ amt.getD 0 ≤ c) → FitSide amt (a * f) (b * f) (pm.map (· * f)) z' (last * f) := by
      intro amt a b pm z z' last hs hz'
      refine ⟨mul_pos hs.ha hf, mul_pos hs.hb hf, fun he => hs.hab (mul_right_cancel₀ hf.ne' he), hs.hamt, ?_, ?_⟩
      · intro m hm
        obtain ⟨v, hv, rfl⟩ := Option.map_eq_some_iff.mp hm
        obtain ⟨m1, m2, m3⟩ := hs.hm v hv
        rw [(mm a b).1, (mm a b).2]
        exact ⟨mul_le_mul_of_nonneg_right m1 hf.le, mul_le_mul_of_nonneg_right m2 hf.le, fun he => m3 (mul_right_cancel₀ hf.ne' he)⟩
      · intro c hc
        obtain ⟨h1, h2⟩ := hz' c hc
        exact ⟨by rw [h1]; rfl, h2⟩
    refine ⟨h.pair, h.base, h.quote, h.diff, ?_, ?_⟩
    · have := side h.sell h.sell.hz
      rw [← (mm _ _).2] at this
      exact this
    · have := side (z' := s.yIntBuy.map (· * f)) h.buy (by
        intro c hc
        obtain ⟨v, hv, rfl⟩ := Option.map_eq_some_iff.mp hc
        obtain ⟨h1, h2⟩ := h.buy.hz v hv
        refine ⟨h1, ?_⟩
        rcases hz with hz | hz
        · rw [hz] at hv; cases hv
        · have := h.buy.hamt
          nlinarith)
      rw [← (mm _ _).1] at this
      exact this
  · exact h

theorem visit_zero {t : Twins} (h : Tidy t) : visit t.1 t.2 0 = .error .zeroDiv := by
  have hne : ∀ c : UICurve ℝ, c.B = t.1.B → c.pair = t.1.pair → c.tkn = t.1.tkn → c.tradetoAmount 0 = .error .zeroDiv := by
    intro c hB hp ht
    have hB0 : c.B ≠ 0 := by rw [hB]; exact h.f1.hB.ne'
    have hq : c.pair.hasQuote c.tkn = false := by
      rw [hp, ht]; unfold CarbonPair.hasQuote; simpa using h.q1
    have : c.dyfrompF 0 true true = .error .zeroDiv := by
      unfold UICurve.dyfrompF UICurve.yfrompF UICurve.rawPrice
      rw [if_neg (fun hh => hB0 hh.1), hq]
      simp [pyDiv]
    unfold UICurve.tradetoAmount
    rw [this]
  unfold visit UICurve.tradeto
  dsimp only
  split_ifs with hz
  · rw [hne { t.1 with yint := 1 / 10 ^ 50 } rfl rfl rfl]
  · rw [hne t.1 rfl rfl rfl]

/-- C96 fails for prices that are zero after the first: a simulation that would succeed raises `ZeroDivisionError`, whereas zeros are skipped
everywhere, with a warning, if the path begins with one. -/
theorem C96_zero_violated (p : CarbonPair) (strat : List (Strat ℝ)) (q0 : ℝ) (shift : Option ℝ) (h : Setup p strat [q0] shift)
    (qs : List ℝ) :
    runSim strat (q0 :: 0 :: qs) shift = .error .zeroDiv ∧
      runSim strat (0 :: q0 :: 0 :: qs) shift = runSim strat (q0 :: qs.filter fun q => 0 < q) shift := by
  have hq0 : 0 < q0 := h.pos q0 List.mem_cons_self
  constructor
  · obtain ⟨os, ts, s, hb, hs, hrun⟩ := runSim_eq h
    obtain ⟨_, _, _, _, htidy, _, _, hbid, _⟩ := hb.curves
    rw [hrun]
    cases ts with
    | nil =>
      have := congrArg List.length hbid
      simp at this
      exact absurd (List.length_eq_zero_iff.mp this.symm) h.some
    | cons t ts =>
      unfold walk visitAll visitTwins
      rw [visit_zero (htidy t List.mem_cons_self)]
      rfl
  · have c1 : clean (0 :: q0 :: 0 :: qs) = q0 :: qs.filter (fun q => 0 < q) := by
      unfold clean
      dsimp only
      rw [if_neg (lt_irrefl _), List.filter_cons_of_pos (by simpa using hq0), List.filter_cons_of_neg (by simp)]
    have c2 : clean (q0 :: qs.filter (fun q => 0 < q)) = q0 :: qs.filter (fun q => 0 < q) := by
      unfold clean
      dsimp only
      rw [if_pos hq0]
    unfold runSim
    rw [c1, c2]

/-- A strategy that sells between 110 and 120 and buys between 90 and 80, with capacity `z` for the cash. -/
noncomputable def sample (z : Option ℝ) : Strat ℝ :=
  Strat.make 110 120 90 80 (some 10) (some 1000) (yIntBuy := z) (rsk := some "ETH".toList) (csh := some "USDC".toList)

/-- The pair of the sample. -/
def ethusdc : CarbonPair := CarbonPair.finish "ETH".toList "USDC".toList false none none

theorem sample_fit (z : Option ℝ) (hz : ∀ c, z = some c → 1000 ≤ c) : Fit ethusdc (sample z) := by
  have e : (sample z).amtCsh = some 1000 := by
    unfold sample Strat.make
    dsimp only
    rw [if_neg (by norm_num)]
  have e1 : (sample z).rsk = "ETH".toList := rfl
  have e2 : (sample z).csh = "USDC".toList := rfl
  have e3 : (sample z).slashpair = "ETH/USDC".toList := by
    unfold Strat.slashpair; rw [e1, e2]; decide +kernel
  refine ⟨by rw [e3]; decide +kernel, by rw [e1]; decide +kernel, by rw [e2]; decide +kernel, by decide +kernel, ?_, ?_⟩
  · refine ⟨?_, ?_, ?_, ?_, (by intro m hm; cases hm), (by intro m hm; cases hm)⟩ <;> simp only [sample, Strat.make] <;> norm_num
  · refine ⟨?_, ?_, ?_, ?_, ?_, ?_⟩
    · simp only [sample, Strat.make]; norm_num
    · simp only [sample, Strat.make]; norm_num
    · simp only [sample, Strat.make]; norm_num
    · rw [e]; norm_num
    · intro m hm; cases hm
    · rw [e]
      intro c hc
      exact ⟨rfl, hz c hc⟩

theorem sample_setup (z : Option ℝ) (hz : ∀ c, z = some c → 1000 ≤ c) (path : List ℝ) (hp : path.head? = some 100) (hq : ∀ q ∈ path, 0 < q) :
    Setup ethusdc [sample z] path none := by
  have hf : factor path none = 1 := by
    cases path with
    | nil => cases hp
    | cons q l =>
      have : q = 100 := by simpa using hp
      unfold factor
      rw [List.headD_cons, this]
      norm_num
  refine ⟨by simp, (by rintro rfl; cases hp), hq, ?_, ?_⟩
  · intro s hs
    rw [List.mem_singleton.mp hs, hf]
    exact C96_rescaled _ _ (sample_fit z hz) 1 one_pos (Or.inr le_rfl)
  · intro s hs
    rw [List.mem_singleton.mp hs]
    unfold sample Strat.make
    dsimp only
    rw [if_neg (by norm_num)]
    norm_num

/-- The sample can be simulated along prices through both ranges and back, where it is worth at least as much as holding. -/
example : ∃ r v w, runSim [sample none] [100, 115, 85, 100] = .ok r ∧ r.value[3]? = some v ∧ r.hodl[3]? = some w ∧ w ≤ v := by
  have hs := sample_setup none (by simp) [100, 115, 85, 100] rfl (by
    intro q hq; simp only [List.mem_cons, List.not_mem_nil, or_false] at hq; rcases hq with rfl | rfl | rfl | rfl <;> norm_num)
  obtain ⟨r, hr, e1, e2, _⟩ := C96_runs _ _ _ _ hs
  obtain ⟨_, _, _, l3, l4, _⟩ := C96_series _ _ _ _ hr
  rw [e1] at l3 l4
  have a1 := List.getElem?_eq_getElem (l := r.value) (i := 3) (by rw [l3]; simp)
  have a2 := List.getElem?_eq_getElem (l := r.hodl) (i := 3) (by rw [l4]; simp)
  refine ⟨r, _, _, hr, a1, a2, ?_⟩
  refine (C96_middle _ _ _ _ hs r hr 100 ?_).2 3 _ _ (by rw [e1]; rfl) a1 a2
  intro s hs
  rw [e2, List.map_singleton, List.mem_singleton] at hs
  rw [hs]
  simp only [sample, Strat.make, if_true, Strat.scaled, List.headD_cons, Option.getD_none]
  norm_num

theorem sellOrder_capacity {p : CarbonPair} {tkn : Str} {amt a b pm : Option ℝ} {z : ℝ} {i j : Nat} (h : z < amt.getD 0) :
    ∀ o, Sim.sellOrder p tkn amt a b i j pm (some z) ≠ .ok o := by
  have build : ∀ lo hi d o, Sim.buildOrder p tkn (amt.getD 0) lo hi d i j none (some z) ≠ .ok o := by
    intro lo hi d o ho
    unfold Sim.buildOrder Sim.buildCurve at ho
    dsimp only at ho
    rw [if_pos h] at ho
    cases ho
  intro o ho
  unfold Sim.sellOrder at ho
  cases pm with
  | some m => cases ho
  | none =>
    simp only [Option.isSome_some, Option.isSome_none, Bool.and_false, Bool.false_eq_true, if_false] at ho
    split at ho
    · exact build _ _ _ _ ho
    · split at ho
      · exact build _ _ _ _ ho
      · exact build _ _ _ _ ho
    · cases ho

/-- C96 fails for strategies that set the capacity of their buy range: rescaling changes the capacity but not the amount of cash, so a
strategy that can be simulated from a price of 100 cannot be from a price of 50. -/
theorem C96_capacity_violated : ∃ (p : CarbonPair) (s : Strat ℝ), Setup p [s] [100] none ∧ (∃ r, runSim [s] [100] = .ok r) ∧
    runSim [s] [50] = .error .assertion := by
  have hs := sample_setup (some 1000) (by simp) [100] rfl (by simp)
  obtain ⟨r, hr, _⟩ := C96_runs _ _ _ _ hs
  refine ⟨ethusdc, sample (some 1000), hs, ⟨r, hr⟩, ?_⟩
  have hcash : (sample (some 1000)).amtCsh = some 1000 := by
    unfold sample Strat.make
    dsimp only
    rw [if_neg (by norm_num)]
  have hm : [sample (some 1000)].mapM (fun s => s.rescaleStrat (50 * (1 + (none : Option ℝ).getD 0)) 100) =
      .ok [(sample (some 1000)).scaled (1 / 2)] := by
    rw [mapM_rescale (by intro s hs; rw [List.mem_singleton.mp hs, hcash]; norm_num)]
    unfold start
    rw [List.map_singleton, if_pos (show (sample (some 1000)).rescale = true from rfl)]
    norm_num
  have hnew : (Sim.new (.str (sample (some 1000)).slashpair) false .exact : Py (Sim ℝ)) =
      .ok ⟨0, [], [], 0, some ethusdc, false, .exact, true⟩ := by
    unfold Sim.new
    rw [show CarbonPair.create (.str (sample (some 1000)).slashpair) none = .ok (some ethusdc) by decide +kernel, Py.ok_bind]
  have hadd : ∀ s : Sim ℝ, ∃ e s', s.addStrategy ((sample (some 1000)).scaled (1 / 2)).dct = (.error e, s') := by
    intro s
    rcases Sim.addStrategy_cases s ((sample (some 1000)).scaled (1 / 2)).dct with
      ⟨e, he⟩ | ⟨p, tkn2, hp, ht, ⟨e, he⟩ | ⟨o1, r2, hso, ⟨e, he⟩ | ⟨o2, hr2, r, he, hc⟩⟩⟩
    · exact ⟨_, _, he⟩
    · exact ⟨_, _, he⟩
    · exact ⟨_, _, he⟩
    · obtain ⟨sm, ss, se, bs, be, bm, _, _, _, _, _, _, _, h8⟩ := Sim.strategyOrders_ok hso
      rw [hr2] at h8
      refine absurd h8.symm (sellOrder_capacity ?_ _)
      show (1000 : ℝ) * (1 / 2) < ((sample (some 1000)).amtCsh).getD 0
      rw [hcash]
      norm_num
  unfold runSim
  dsimp only
  rw [if_neg (by simp)]
  have hcl : clean [50] = [50] := by unfold clean; dsimp only; rw [if_pos (by norm_num)]
  rw [hcl]
  dsimp only
  rw [hm, Py.ok_bind, hnew, Py.ok_bind]
  obtain ⟨e, s', he⟩ := hadd ⟨0, [], [], 0, some ethusdc, false, .exact, true⟩
  unfold addAll
  rw [he]
  rfl

end Carbon.RunSim
