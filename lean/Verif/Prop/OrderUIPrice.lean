import Mathlib.Analysis.SpecialFunctions.Pow.NNReal
import Mathlib.Tactic.NormNum.RealSqrt
import Verif.Prop.OrderUI

/-!
# Properties of the order curve that involve prices: C23, C62, C63, C65, C66
-/

set_option linter.unusedSectionVars false

namespace Carbon.UICurve

open CarbonPair (pyDiv)

/-! ## C23 trading to a price -/

/-- The real curve corresponding to `sampleCurve`. -/
noncomputable def realCurve : UICurve ℝ := ⟨CarbonPair.ethUsdc, "USDC".toList, 1, 1, 100, 50⟩

theorem realCurve_sound : Sound realCurve := by constructor <;> norm_num [realCurve]

theorem realCurve_proper : Proper realCurve := by
  right; exact ⟨rfl, by simp only [realCurve]; decide +kernel⟩

theorem pyDiv_zero (a : ℝ) : pyDiv a 0 = .error .zeroDiv := if_pos rfl

theorem rawPrice_ok {c : UICurve ℝ} {p : ℝ} (hp : 0 < p) : c.rawPrice p = .ok (c.inConv p) := by
  unfold rawPrice inConv
  split
  · rfl
  · exact pyDiv_ok hp.ne'

theorem inConv_inConv (c : UICurve ℝ) (p : ℝ) : c.inConv (c.inConv p) = p := by
  unfold inConv; split
  · rfl
  · simp

theorem inConv_pos {c : UICurve ℝ} {p : ℝ} (hp : 0 < p) : 0 < c.inConv p := by
  unfold inConv; split
  · exact hp
  · positivity

/-- `y` at which the raw price is `d`. -/
theorem price_at {c : UICurve ℝ} (h : Sound c) (hS : 0 < c.S) {d : ℝ} (hd : 0 ≤ d) :
    (c.B + c.S * (c.yint * (Real.sqrt d - c.B) / c.S) / c.yint) ^ 2 = d := by
  have hz := h.hyint
  have : c.B + c.S * (c.yint * (Real.sqrt d - c.B) / c.S) / c.yint = Real.sqrt d := by field_simp; ring
  rw [this, Real.sq_sqrt hd]

theorem sqrt_ge_B {c : UICurve ℝ} {d : ℝ} (hd : c.pbRaw ≤ d) : c.B ≤ Real.sqrt d := by
  apply Real.le_sqrt_of_sq_le
  rw [pow_two]; exact hd

theorem yint_ne {c : UICurve ℝ} (h : Sound c) : ¬ c.yint = 0 := h.hyint.ne'

theorem not_empty' {c : UICurve ℝ} (h : Sound c) : ¬ (c.B = 0 ∧ c.S = 0) := h.not_empty

/-- raw order of prices from the pair-convention order -/
theorem raw_between {c : UICurve ℝ} {a b p : ℝ} (ha : 0 < a) (hb : 0 < b) (hp : 0 < p)
    (hab : a ≤ b) (h1 : min (c.inConv a) (c.inConv b) ≤ p) (h2 : p ≤ max (c.inConv a) (c.inConv b)) :
    a ≤ c.inConv p ∧ c.inConv p ≤ b := by
  unfold inConv at *
  split at h1
  · rename_i h
    simp only [h, if_true] at h2 ⊢
    rw [min_eq_left hab] at h1; rw [max_eq_right hab] at h2
    exact ⟨h1, h2⟩
  · rename_i h
    simp only [h] at h2 ⊢
    have hi := one_div_le_one_div_of_le ha hab
    rw [min_eq_right hi] at h1
    simp only [Bool.false_eq_true, if_false] at h2 ⊢
    rw [max_eq_left hi] at h2
    constructor
    · rw [le_div_iff₀ hp]; rw [le_div_iff₀ ha] at h2; linarith
    · rw [div_le_iff₀ hp]; rw [div_le_iff₀ hb] at h1; linarith

theorem tradeto_of_amount {w : World ℝ} (h : Sound w.self) (hl : ∀ l, w.linked = some l → Sound l) {p dy : ℝ}
    (ha : w.self.tradetoAmount p = .ok dy) (h0 : 0 ≤ dy) (h1 : dy ≤ w.self.y) :
    ∃ s w', tradeto w p = (.ok s, w') ∧
      ((EPS ≤ dy ∧ s.executed = true ∧ s.dy = dy ∧ w'.self = { w.self with y := w.self.y - dy }) ∨
       (dy < EPS ∧ s.executed = false ∧ s.dy = 0 ∧ w'.self = w.self)) := by
  unfold tradeto
  rw [if_neg (yint_ne h)]
  dsimp only
  rw [ha]
  dsimp only
  by_cases hd : EPS ≤ dy
  · rw [selly_eq_core hd]
    obtain ⟨s, w', e, e1, _, _, _, e3, _, _, _, _, _, e4, _⟩ := sellyCore_ok h hl h0 h1 true false true
    rw [e]
    exact ⟨s, w', rfl, .inl ⟨hd, e3, e1, by simpa using e4⟩⟩
  · rw [selly_eq_dust h0 (not_le.mp hd)]
    obtain ⟨s, w', e, e1, _, _, _, e3, _, _, _, _, _, e4, _⟩ := sellyCore_ok h hl le_rfl h.hy0 false false true
    rw [e]
    exact ⟨s, w', rfl, .inr ⟨not_le.mp hd, e3, e1, by simpa using e4⟩⟩

/-- Trading to a price between the current marginal price and the end of the range leaves the curve at exactly that
marginal price, unless the curve already is within the dust threshold of it, in which case nothing happens. -/
theorem C23_reaches_price (w : World ℝ) (h : Sound w.self) (hp : Proper w.self) (hS : 0 < w.self.S)
    (hl : ∀ l, w.linked = some l → Sound l) (p pm : ℝ) (hp0 : 0 < p) (hm : w.self.pMarg = .ok (some pm))
    (h1 : min w.self.pb pm ≤ p) (h2 : p ≤ max w.self.pb pm) :
    ∃ s w', tradeto w p = (.ok s, w') ∧
      (w'.self.pMarg = .ok (some p) ∨
       (w'.self = w.self ∧ ∃ dy, 0 ≤ dy ∧ dy < EPS ∧ w.self.pMargF dy = .ok (some p))) := by
  have hz := h.hyint
  have hB := h.hB
  have hy0 := h.hy0
  rw [pMarg_ok h] at hm
  simp only [Except.ok.injEq, Option.some.injEq] at hm
  subst hm
  rw [(pa_eq hp).2] at h1 h2
  obtain ⟨r1, r2⟩ := raw_bounds h h.hy0 h.hy
  have hpb : 0 < w.self.pbRaw := by unfold pbRaw; positivity
  obtain ⟨d1, d2⟩ := raw_between hpb (by linarith) hp0 r1 h1 h2
  set d := w.self.inConv p with hd
  have hd0 : 0 < d := inConv_pos hp0
  have hsq := sqrt_ge_B d1
  set yt := w.self.yint * (Real.sqrt d - w.self.B) / w.self.S with hyt
  have hyt0 : 0 ≤ yt := by
    rw [hyt]; have := sub_nonneg.mpr hsq; positivity
  have hyty : yt ≤ w.self.y := by
    have : Real.sqrt d ≤ w.self.B + w.self.S * w.self.y / w.self.yint := by
      rw [Real.sqrt_le_left (by positivity)]; exact d2
    rw [hyt, div_le_iff₀ hS]
    have h3 : Real.sqrt d - w.self.B ≤ w.self.S * w.self.y / w.self.yint := by linarith
    rw [le_div_iff₀ hz] at h3
    linarith
  have ha : w.self.tradetoAmount p = .ok (w.self.y - yt) := by
    have : w.self.dyfrompF p true true = .ok (w.self.y - yt) := by
      unfold dyfrompF yfrompF
      rw [if_neg (not_empty' h), rawPrice_ok hp0, ← hd]
      simp only [Py.ok_bind, Bool.true_and, decide_eq_true_eq]
      rw [if_neg (by linarith), if_neg (by linarith), pySqrt, if_neg (by linarith)]
      simp only [Py.ok_bind]
      rw [pyDiv_ok hS.ne', ← hyt]
      simp only [Py.ok_bind]
      rw [if_neg (by linarith)]
      rfl
    unfold tradetoAmount
    rw [this]
  have hpa := price_at h hS hd0.le
  rw [← hyt] at hpa
  obtain ⟨s, w', e, q⟩ := tradeto_of_amount h hl ha (by linarith) (by linarith)
  refine ⟨s, w', e, ?_⟩
  rcases q with ⟨_, _, _, q⟩ | ⟨hdust, _, _, q⟩
  · left
    have hs' : Sound w'.self := by
      rw [q]; exact sound_sub h (by linarith) (by linarith)
    rw [pMarg_ok hs', q]
    simp only [sub_sub_cancel]
    rw [hpa]
    show _ = _
    have : ({ w.self with y := yt } : UICurve ℝ).inConv d = w.self.inConv d := rfl
    rw [this, hd, inConv_inConv]
  · right
    refine ⟨q, w.self.y - yt, by linarith, hdust, ?_⟩
    rw [pMargF_ok h (by linarith) true false (fun _ => by linarith), sub_sub_cancel, hpa, hd, inConv_inConv]

/-- A target price beyond the end of the range sells everything (holdings below the dust threshold stay). -/
theorem C23_beyond_end (w : World ℝ) (h : Sound w.self) (hp : Proper w.self) (hS : 0 < w.self.S)
    (hl : ∀ l, w.linked = some l → Sound l) (p : ℝ) (hp0 : 0 < p)
    (hb : (w.self.pb < p ∧ w.self.tkn = w.self.pair.tknb) ∨ (p < w.self.pb ∧ w.self.tkn = w.self.pair.tknq)) :
    ∃ s w', tradeto w p = (.ok s, w') ∧
      (w'.self = { w.self with y := 0 } ∨ (w'.self = w.self ∧ w.self.y < EPS)) := by
  have hB := h.hB
  have hpb : 0 < w.self.pbRaw := by unfold pbRaw; positivity
  have hpa : w.self.pbRaw ≤ w.self.paRaw := by
    have := raw_bounds h h.hy0 h.hy; linarith
  have hpbp : 0 < w.self.pb := by rw [(pa_eq hp).2]; exact inConv_pos hpb
  have hlt : w.self.inConv p < w.self.pbRaw := by
    rw [(pa_eq hp).2] at hb
    unfold inConv at hb ⊢
    unfold CarbonPair.hasQuote at *
    rcases hb with ⟨hb, ht⟩ | ⟨hb, ht⟩
    · have hne : w.self.tkn ≠ w.self.pair.tknq := by
        rcases hp with ⟨_, h2⟩ | ⟨_, h2⟩
        · exact h2
        · exact absurd ht h2
      simp only [hne, decide_false, Bool.false_eq_true, if_false] at hb ⊢
      rw [div_lt_iff₀ hpb] at hb
      rw [div_lt_iff₀ hp0]; linarith
    · simp only [ht, decide_true, if_true] at hb ⊢
      exact hb
  have ha : w.self.tradetoAmount p = .ok w.self.y := by
    have h1 : w.self.dyfrompF p true true = .error (.custom "BeyondEnd") := by
      unfold dyfrompF yfrompF
      rw [if_neg (not_empty' h), rawPrice_ok hp0]
      simp only [Py.ok_bind, Bool.true_and, decide_eq_true_eq]
      rw [if_neg (by linarith), if_pos hlt]
      rfl
    have h2 : w.self.dyfrompF w.self.pb false false = .ok w.self.y := by
      unfold dyfrompF yfrompF
      rw [if_neg (not_empty' h), rawPrice_ok hpbp, (pa_eq hp).2, inConv_inConv]
      simp only [Py.ok_bind, Bool.false_and, Bool.false_eq_true, if_false]
      rw [pySqrt, if_neg (by linarith)]
      simp only [Py.ok_bind]
      have : Real.sqrt w.self.pbRaw = w.self.B := by
        unfold pbRaw; exact Real.sqrt_mul_self hB.le
      rw [this, sub_self, mul_zero, pyDiv_ok hS.ne', zero_div]
      simp
    unfold tradetoAmount
    rw [h1]
    exact h2
  obtain ⟨s, w', e, q⟩ := tradeto_of_amount h hl ha h.hy0 le_rfl
  refine ⟨s, w', e, ?_⟩
  rcases q with ⟨_, _, _, q⟩ | ⟨hd, _, _, q⟩
  · left; rw [q, sub_self]
  · right; exact ⟨q, hd⟩

/-- A target price on the other side of the current marginal price leaves the curve unchanged. -/
theorem C23_wrong_side (w : World ℝ) (h : Sound w.self) (hp : Proper w.self) (hS : 0 < w.self.S)
    (hl : ∀ l, w.linked = some l → Sound l) (p pm : ℝ) (hp0 : 0 < p) (hm : w.self.pMarg = .ok (some pm))
    (hb : (p < pm ∧ w.self.tkn = w.self.pair.tknb) ∨ (pm < p ∧ w.self.tkn = w.self.pair.tknq)) :
    ∃ s w', tradeto w p = (.ok s, w') ∧ s.executed = false ∧ w'.self = w.self := by
  have hz := h.hyint
  have hB := h.hB
  have hy0 := h.hy0
  rw [pMarg_ok h] at hm
  simp only [Except.ok.injEq, Option.some.injEq] at hm
  subst hm
  set m := (w.self.B + w.self.S * w.self.y / w.self.yint) ^ 2 with hmdef
  have hm0 : 0 < m := by rw [hmdef]; positivity
  have hlt : m < w.self.inConv p := by
    unfold inConv at hb ⊢
    unfold CarbonPair.hasQuote at *
    rcases hb with ⟨hb, ht⟩ | ⟨hb, ht⟩
    · have hne : w.self.tkn ≠ w.self.pair.tknq := by
        rcases hp with ⟨_, h2⟩ | ⟨_, h2⟩
        · exact h2
        · exact absurd ht h2
      simp only [hne, decide_false, Bool.false_eq_true, if_false] at hb ⊢
      rw [lt_div_iff₀ hm0] at hb
      rw [lt_div_iff₀ hp0]; linarith
    · simp only [ht, decide_true, if_true] at hb ⊢
      exact hb
  have hbm : w.self.pbRaw ≤ m := (raw_bounds h h.hy0 h.hy).1
  have ha : w.self.tradetoAmount p = .ok 0 := by
    have h1 : w.self.dyfrompF p true true = .error (.custom "BeyondStart") ∨
        w.self.dyfrompF p true true = .error (.custom "BeyondMarg") := by
      unfold dyfrompF yfrompF
      rw [if_neg (not_empty' h), rawPrice_ok hp0]
      simp only [Py.ok_bind, Bool.true_and, decide_eq_true_eq]
      by_cases hs : w.self.inConv p > w.self.paRaw
      · left; rw [if_pos hs]; rfl
      · right
        rw [if_neg hs, if_neg (by linarith), pySqrt, if_neg (by linarith)]
        simp only [Py.ok_bind]
        rw [pyDiv_ok hS.ne']
        simp only [Py.ok_bind]
        rw [if_pos]
        · rfl
        · have : w.self.B + w.self.S * w.self.y / w.self.yint < Real.sqrt (w.self.inConv p) := by
            apply Real.lt_sqrt_of_sq_lt; exact hlt
          rw [gt_iff_lt, lt_div_iff₀ hS]
          have h3 : w.self.S * w.self.y / w.self.yint < Real.sqrt (w.self.inConv p) - w.self.B := by linarith
          rw [div_lt_iff₀ hz] at h3
          linarith
    unfold tradetoAmount
    rcases h1 with h1 | h1 <;> rw [h1] <;> rfl
  obtain ⟨s, w', e, q⟩ := tradeto_of_amount h hl ha le_rfl h.hy0
  refine ⟨s, w', e, ?_⟩
  rcases q with ⟨hd, _⟩ | ⟨_, q1, _, q⟩
  · exact absurd hd (not_le.mpr eps_pos)
  · exact ⟨q1, q⟩

/-- Finding: on a flat curve (both range prices equal) trading to a price at or beyond the end raises
`ZeroDivisionError` instead of selling. -/
theorem C23_flat_violated (w : World ℝ) (h : Sound w.self) (hp : Proper w.self) (hS : w.self.S = 0) (p : ℝ) (hp0 : 0 < p)
    (hb : w.self.inConv p ≤ w.self.pbRaw) :
    tradeto w p = (.error .zeroDiv, w) := by
  have hB := h.hB
  have hpb : 0 < w.self.pbRaw := by unfold pbRaw; positivity
  have hpbp : 0 < w.self.pb := by rw [(pa_eq hp).2]; exact inConv_pos hpb
  have hpa : w.self.paRaw = w.self.pbRaw := by unfold paRaw pbRaw; rw [hS]; ring
  have ha : w.self.tradetoAmount p = .error .zeroDiv := by
    unfold tradetoAmount
    rcases lt_or_eq_of_le hb with hlt | heq
    · have h1 : w.self.dyfrompF p true true = .error (.custom "BeyondEnd") := by
        unfold dyfrompF yfrompF
        rw [if_neg (not_empty' h), rawPrice_ok hp0]
        simp only [Py.ok_bind, Bool.true_and, decide_eq_true_eq]
        rw [if_neg (by linarith), if_pos hlt]
        rfl
      have h2 : w.self.dyfrompF w.self.pb false false = .error .zeroDiv := by
        unfold dyfrompF yfrompF
        rw [if_neg (not_empty' h), rawPrice_ok hpbp, (pa_eq hp).2, inConv_inConv]
        simp only [Py.ok_bind, Bool.false_and, Bool.false_eq_true, if_false]
        rw [pySqrt, if_neg (by linarith), hS, Py.ok_bind, pyDiv_zero]
        rfl
      rw [h1]; exact h2
    · have h1 : w.self.dyfrompF p true true = .error .zeroDiv := by
        unfold dyfrompF yfrompF
        rw [if_neg (not_empty' h), rawPrice_ok hp0]
        simp only [Py.ok_bind, Bool.true_and, decide_eq_true_eq]
        rw [if_neg (by linarith), if_neg (by linarith), pySqrt, if_neg (by linarith), hS, Py.ok_bind, pyDiv_zero]
        rfl
      rw [h1]
  unfold tradeto
  rw [if_neg (yint_ne h)]
  dsimp only
  rw [ha]

/-- Finding: on an empty zero-capacity curve even a simulated trade-to-price changes the curve's capacity. -/
theorem C23_capacity_changed (w : World ℝ) (hz : w.self.yint = 0) (p : ℝ) :
    (tradeto w p false).2.self = { w.self with yint := 1 / 10 ^ 50 } ∧ (tradeto w p false).2.self ≠ w.self := by
  have key : (tradeto w p false).2.self = { w.self with yint := 1 / 10 ^ 50 } := by
    unfold tradeto
    rw [if_pos hz]
    dsimp only
    split
    · rfl
    · rename_i dy _
      have := C22_self_unchanged ({ w with self := { w.self with yint := 1 / 10 ^ 50 } } : World ℝ) dy false false true
      split
      · exact this
      · exact this
      · exact this
  refine ⟨key, ?_⟩
  rw [key]
  intro he
  have := congrArg UICurve.yint he
  rw [hz] at this
  norm_num at this

example : ∃ s w', tradeto ⟨realCurve, none⟩ (25 / 16) = (.ok s, w') ∧ w'.self.pMarg = .ok (some (25 / 16)) := by
  have hm : realCurve.pMarg = .ok (some (9 / 4)) := by
    rw [pMarg_ok realCurve_sound]
    have : realCurve.pair.hasQuote realCurve.tkn = true := by simp only [realCurve]; decide +kernel
    simp only [inConv, this, if_true]
    norm_num [realCurve]
  have hpb : realCurve.pb = 1 := by
    rw [(pa_eq realCurve_proper).2]
    have : realCurve.pair.hasQuote realCurve.tkn = true := by simp only [realCurve]; decide +kernel
    simp only [inConv, this, if_true, pbRaw]
    norm_num [realCurve]
  obtain ⟨s, w', e, q⟩ := C23_reaches_price ⟨realCurve, none⟩ realCurve_sound realCurve_proper
    (by norm_num [realCurve]) (by simp) (25 / 16) (9 / 4) (by norm_num) hm
    (by rw [hpb]; norm_num) (by rw [hpb]; norm_num)
  refine ⟨s, w', e, ?_⟩
  rcases q with q | ⟨_, dy, h0, h1, h2⟩
  · exact q
  · exfalso
    have hd : dy ≤ realCurve.y := by
      have : (EPS : ℝ) < 50 := by unfold EPS; norm_num
      simp only [realCurve]; linarith
    rw [pMargF_ok realCurve_sound hd true false (fun _ => h0)] at h2
    have : realCurve.pair.hasQuote realCurve.tkn = true := by simp only [realCurve]; decide +kernel
    simp only [inConv, this, if_true, Except.ok.injEq, Option.some.injEq] at h2
    simp only [realCurve] at h2
    have h3 : (1 + 1 * (50 - dy) / 100 : ℝ) = 5 / 4 := by
      have hpos : (0 : ℝ) < 1 + 1 * (50 - dy) / 100 := by
        have : (EPS : ℝ) < 50 := by unfold EPS; norm_num
        linarith
      nlinarith
    have : (EPS : ℝ) < 25 := by unfold EPS; norm_num
    linarith

/-! ## C62 construction from prices -/

theorem make_ok {a : CarbonPair.Arg} {p : CarbonPair} {tkn : Str} {B S yint y : ℝ}
    (hm : CarbonPair.make a none none = .ok p) (ht : p.hasToken (upper tkn) = true)
    (hs : Sound (⟨p, upper tkn, B, S, yint, y⟩ : UICurve ℝ)) :
    make a tkn B S yint y = .ok ⟨p, upper tkn, B, S, yint, y⟩ := by
  have hB : 0 < B := hs.hB
  have hS : 0 ≤ S := hs.hS
  unfold make
  rw [hm]
  simp only [Py.ok_bind, ht, Bool.not_true, Bool.false_eq_true, if_false, hs.not_disabled]
  unfold conv
  split
  · rw [pyDiv_ok, pyDiv_ok]
    · rfl
    · simp only [pbRaw]; positivity
    · simp only [paRaw]; positivity
  · rfl

/-- A curve built from two positive prices (in either order) has exactly that price range, starts at the end that is
cheapest for the buyer of the token, and holds what was asked for. -/
theorem C62_from_prices (s : Str) (p : CarbonPair) (hm : CarbonPair.make (.str s) none none = .ok p)
    (hd : p.tknb ≠ p.tknq) (tkn : Str) (ht : tkn = p.tknb ∨ tkn = p.tknq) (pa pb yint y : ℝ) (ha : 0 < pa)
    (hb : 0 < pb) (hz : 0 < yint) (h0 : 0 ≤ y) (h1 : y ≤ yint) :
    ∃ c, fromPrices (.str s) tkn pa pb yint y = .ok c ∧ Sound c ∧ Proper c ∧ c.tkn = tkn ∧
      c.pair.slashpair = p.slashpair ∧ c.y = y ∧ c.yint = yint ∧ c.pmin = min pa pb ∧ c.pmax = max pa pb ∧
      (tkn = p.tknb → c.pa = min pa pb ∧ c.pb = max pa pb) ∧
      (tkn = p.tknq → c.pa = max pa pb ∧ c.pb = min pa pb) := by
  obtain ⟨u1, u2⟩ := CarbonPair.make_upper hm
  obtain ⟨_, _, n1, n2, _⟩ := CarbonPair.C15_names s false p hm
  set i : Bool := p.hasBase tkn with hi
  have ut : upper tkn = tkn := by rcases ht with rfl | rfl <;> assumption
  -- the copied pair
  set p2 := CarbonPair.finish p.tknb p.tknq false p.decB p.decQ with hp2
  have hmk : CarbonPair.make (.pair p) none none = .ok p2 := by
    simp only [CarbonPair.make, CarbonPair.truthy, Bool.or_self, Bool.false_eq_true, if_false, Py.bind_eq_ok,
      CarbonPair.unpack_eq_ok, Except.ok.injEq]
    exact ⟨(p.tknb, p.tknq), ⟨rfl, n1, n2⟩, rfl⟩
  have t1 : p2.tknb = p.tknb := u1
  have t2 : p2.tknq = p.tknq := u2
  -- raw prices
  set ra : ℝ := if i then 1 / pa else pa with hra
  set rb : ℝ := if i then 1 / pb else pb with hrb
  have ra0 : 0 < ra := by rw [hra]; split <;> positivity
  have rb0 : 0 < rb := by rw [hrb]; split <;> positivity
  have e1 : invertIf i pa = .ok ra := by
    unfold invertIf; rw [hra]; split
    · exact pyDiv_ok ha.ne'
    · rfl
  have e2 : invertIf i pb = .ok rb := by
    unfold invertIf; rw [hrb]; split
    · exact pyDiv_ok hb.ne'
    · rfl
  have e3 : orderPrices ra rb = (max ra rb, min ra rb) := by
    unfold orderPrices; split
    · rename_i h; rw [max_eq_right h.le, min_eq_left h.le]
    · rename_i h; rw [max_eq_left (not_lt.mp h), min_eq_right (not_lt.mp h)]
  have m0 : 0 < min ra rb := lt_min ra0 rb0
  have M0 : 0 < max ra rb := lt_of_lt_of_le ra0 (le_max_left _ _)
  set c : UICurve ℝ := ⟨p2, upper tkn, Real.sqrt (min ra rb), Real.sqrt (max ra rb) - Real.sqrt (min ra rb), yint, y⟩
    with hc
  have sB : 0 < c.B := Real.sqrt_pos.mpr m0
  have hle : Real.sqrt (min ra rb) ≤ Real.sqrt (max ra rb) := Real.sqrt_le_sqrt (le_trans (min_le_left _ _) (le_max_left _ _))
  have hs : Sound c := ⟨sB, sub_nonneg.mpr hle, hz, h0, h1⟩
  have hpbr : c.pbRaw = min ra rb := Real.mul_self_sqrt m0.le
  have hpar : c.paRaw = max ra rb := by
    unfold paRaw
    simp only [hc, sub_add_cancel]
    exact Real.sq_sqrt M0.le
  have hprop : Proper c := by
    unfold Proper
    simp only [hc, ut, t1, t2]
    rcases ht with rfl | rfl
    · exact .inl ⟨rfl, hd⟩
    · exact .inr ⟨rfl, hd.symm⟩
  have hrev : c.reverseq = i := by
    unfold reverseq CarbonPair.hasBase
    simp only [hc, ut, t1]
    rw [hi]; rfl
  have hpa : c.pa = if i then 1 / max ra rb else max ra rb := by unfold UICurve.pa; rw [hrev, hpar]
  have hpb : c.pb = if i then 1 / min ra rb else min ra rb := by unfold UICurve.pb; rw [hrev, hpbr]
  have hpb' : i = true → 1 / min ra rb = max pa pb ∧ 1 / max ra rb = min pa pb := by
    intro hi'
    rw [hra, hrb, hi']
    simp only [if_true]
    rcases le_total pa pb with hle | hle
    · have := one_div_le_one_div_of_le ha hle
      rw [min_eq_right this, max_eq_left this, max_eq_right hle, min_eq_left hle]; simp
    · have := one_div_le_one_div_of_le hb hle
      rw [min_eq_left this, max_eq_right this, max_eq_left hle, min_eq_right hle]; simp
  have hq' : i = false → min ra rb = min pa pb ∧ max ra rb = max pa pb := by
    intro hi'
    rw [hra, hrb, hi']
    simp
  have tknb_i : tkn = p.tknb → i = true := by intro h; rw [hi, h]; simp [CarbonPair.hasBase]
  have tknq_i : tkn = p.tknq → i = false := by
    intro h; rw [hi, h]; simp [CarbonPair.hasBase, hd.symm]
  have fin1 : tkn = p.tknb → c.pa = min pa pb ∧ c.pb = max pa pb := by
    intro h
    have h' := tknb_i h
    rw [hpa, hpb, h']
    simp only [if_true]
    exact ⟨(hpb' h').2, (hpb' h').1⟩
  have fin2 : tkn = p.tknq → c.pa = max pa pb ∧ c.pb = min pa pb := by
    intro h
    have h' := tknq_i h
    rw [hpa, hpb, h']
    simp only [Bool.false_eq_true, if_false]
    exact ⟨(hq' h').2, (hq' h').1⟩
  refine ⟨c, ?_, hs, hprop, ut, ?_, rfl, rfl, ?_, ?_, fin1, fin2⟩
  · unfold fromPrices
    rw [hm]
    simp only [Py.ok_bind]
    rw [if_neg (by linarith), if_neg (by linarith), if_neg (by linarith), ← hi, e1, e2]
    simp only [Py.ok_bind]
    rw [e3]
    simp only [pySqrt, if_neg (not_lt.mpr m0.le), if_neg (not_lt.mpr M0.le), Py.ok_bind]
    have htok : p2.hasToken (upper tkn) = true := by
      simp only [ut, CarbonPair.hasToken, CarbonPair.hasQuote, CarbonPair.hasBase, t1, t2]
      rcases ht with rfl | rfl <;> simp
    exact make_ok hmk htok hs
  · simp only [hc, CarbonPair.slashpair, t1, t2]
  · rw [(pmin_pmax_eq c).1]
    rcases ht with h | h
    · rw [(fin1 h).1, (fin1 h).2]
      exact min_eq_right (le_trans (min_le_left _ _) (le_max_left _ _))
    · rw [(fin2 h).1, (fin2 h).2]
      exact min_eq_left (le_trans (min_le_left _ _) (le_max_left _ _))
  · rw [(pmin_pmax_eq c).2]
    rcases ht with h | h
    · rw [(fin1 h).1, (fin1 h).2]
      exact max_eq_left (le_trans (min_le_left _ _) (le_max_left _ _))
    · rw [(fin2 h).1, (fin2 h).2]
      exact max_eq_right (le_trans (min_le_left _ _) (le_max_left _ _))

/-- Holdings above capacity, negative holdings and negative capacity are rejected. -/
theorem C62_rejects (s : Str) (p : CarbonPair) (hm : CarbonPair.make (.str s) none none = .ok p) (tkn : Str)
    (pa pb yint y : ℝ) (hbad : yint < 0 ∨ yint < y ∨ y < 0) :
    fromPrices (.str s) tkn pa pb yint y = .error .value := by
  unfold fromPrices
  rw [hm]
  simp only [Py.ok_bind]
  split
  · rfl
  · split
    · rfl
    · split
      · rfl
      · rename_i a b c
        rcases hbad with h | h | h
        · exact absurd h a
        · exact absurd h b
        · exact absurd h c

/-- Finding: a token given in lower case is not recognised as the base token when the prices are inverted, but is
upper-cased afterwards; the resulting curve has the reciprocal prices. Here 4 USDC per ETH becomes 1/4. -/
theorem C62_lower_case_violated :
    ∃ c, fromPrices (.str "ETH/USDC".toList) "eth".toList 4 4 10 10 = .ok c ∧ c.tkn = "ETH".toList ∧
      c.pmin = 1 / 4 ∧ c.pmax = 1 / 4 := by
  set p : CarbonPair := { CarbonPair.ethUsdc with tknbOrig := "ETH".toList } with hp
  have hm : CarbonPair.make (.str "ETH/USDC".toList) none none = .ok p := by decide +kernel
  have hm2 : CarbonPair.make (.pair p) none none = .ok p := by decide +kernel
  have hb : p.hasBase "eth".toList = false := by decide +kernel
  have hup : upper "eth".toList = "ETH".toList := by decide +kernel
  have s4 : Real.sqrt 4 = 2 := by
    rw [show (4 : ℝ) = 2 * 2 by norm_num, Real.sqrt_mul_self (by norm_num)]
  have htok : p.hasToken "ETH".toList = true := by decide +kernel
  have hrev : p.hasBase "ETH".toList = true := by decide +kernel
  set c : UICurve ℝ := ⟨p, "ETH".toList, 2, 2 - 2, 10, 10⟩ with hc
  refine ⟨c, ?_, rfl, ?_, ?_⟩
  · unfold fromPrices
    rw [hm]
    simp only [Py.ok_bind]
    rw [if_neg (by norm_num), if_neg (by norm_num), if_neg (by norm_num), hb]
    simp only [invertIf, Bool.false_eq_true, if_false, Py.ok_bind, orderPrices, lt_irrefl, pySqrt]
    rw [if_neg (by norm_num)]
    simp only [Py.ok_bind, s4]
    have := make_ok (tkn := "eth".toList) (B := 2) (S := 2 - 2) (yint := 10) (y := 10) hm2
      (by rw [hup]; exact htok) (by constructor <;> norm_num)
    rw [this]
    simp only [hup, hc]
  · simp only [pmin, pa, pb, reverseq, hrev, hc, paRaw, pbRaw, if_true]; norm_num
  · simp only [pmax, pa, pb, reverseq, hrev, hc, paRaw, pbRaw, if_true]; norm_num

example : (0 : ℝ) < 2000 ∧ (0 : ℝ) < 1500 ∧ CarbonPair.make (.str "eth/USDC".toList) none none = .ok CarbonPair.ethUsdc :=
  ⟨by norm_num, by norm_num, by decide +kernel⟩

/-! ## C63 share of the liquidity in a price window -/

section Liq
variable {K : Type} [Field K] [LinearOrder K] [IsStrictOrderedRing K]

theorem perc_eq {c : UICurve K} (hd : c.disabled = false) (hr : c.pmin < c.pmax) {a b : K} (hab : a ≤ b) :
    c.liquidityPerc a b =
      (max c.pmin (min b c.pmax) - max c.pmin (min a c.pmax)) / (c.pmax - c.pmin) := by
  unfold liquidityPerc
  rw [if_neg (not_lt.mpr hab), if_neg (not_lt.mpr hab)]
  simp only [hd, Bool.false_eq_true, if_false, hr.ne']
  split
  · rename_i h
    rcases h with h | h
    · rw [min_eq_right (le_trans h hab), min_eq_right h, sub_self, zero_div]
    · rw [max_eq_left (le_trans (min_le_left _ _) h), max_eq_left (le_trans (min_le_left _ _) (le_trans hab h)),
        sub_self, zero_div]
  · rename_i h
    push Not at h
    obtain ⟨h1, h2⟩ := h
    congr 1
    congr 1
    · split
      · rename_i h3; rw [min_eq_right h3.le, max_eq_right hr.le]
      · rename_i h3; rw [min_eq_left (not_lt.mp h3), max_eq_right h2.le]
    · split
      · rename_i h3; rw [min_eq_left h1.le, max_eq_left h3.le]
      · rename_i h3; rw [min_eq_left h1.le, max_eq_right (not_lt.mp h3)]

/-- The share is between 0 and 1, does not depend on the order of the two prices, adds up over adjacent windows, is 1
for a window covering the range and 0 for a window outside of it. -/
theorem C63_share (c : UICurve K) (hd : c.disabled = false) (hr : c.pmin < c.pmax) (a b e : K) (hab : a ≤ b)
    (hbe : b ≤ e) :
    0 ≤ c.liquidityPerc a b ∧ c.liquidityPerc a b ≤ 1 ∧ c.liquidityPerc b a = c.liquidityPerc a b ∧
    c.liquidityPerc a b + c.liquidityPerc b e = c.liquidityPerc a e ∧
    (a ≤ c.pmin → c.pmax ≤ b → c.liquidityPerc a b = 1) ∧
    (b ≤ c.pmin ∨ c.pmax ≤ a → c.liquidityPerc a b = 0) := by
  have hpos : 0 < c.pmax - c.pmin := sub_pos.mpr hr
  have mono : ∀ x y : K, x ≤ y → max c.pmin (min x c.pmax) ≤ max c.pmin (min y c.pmax) :=
    fun x y h => max_le_max le_rfl (min_le_min h le_rfl)
  have ub : ∀ x : K, max c.pmin (min x c.pmax) ≤ c.pmax := fun x => max_le hr.le (min_le_right _ _)
  have lb : ∀ x : K, c.pmin ≤ max c.pmin (min x c.pmax) := fun x => le_max_left _ _
  refine ⟨?_, ?_, ?_, ?_, ?_, ?_⟩
  · rw [perc_eq hd hr hab]
    exact div_nonneg (sub_nonneg.mpr (mono a b hab)) hpos.le
  · rw [perc_eq hd hr hab, div_le_one hpos]
    linarith [ub b, lb a]
  · rcases eq_or_lt_of_le hab with h | h
    · rw [h]
    · unfold liquidityPerc
      simp only [gt_iff_lt, h, if_true, if_neg (not_lt.mpr h.le)]
  · rw [perc_eq hd hr hab, perc_eq hd hr hbe, perc_eq hd hr (le_trans hab hbe), ← add_div]
    congr 1; ring
  · intro h1 h2
    rw [perc_eq hd hr hab, min_eq_right h2, max_eq_right hr.le, max_eq_left (le_trans (min_le_left _ _) h1),
      div_self hpos.ne']
  · intro h
    rw [perc_eq hd hr hab]
    rcases h with h | h
    · rw [max_eq_left (le_trans (min_le_left _ _) h), max_eq_left (le_trans (min_le_left _ _) (le_trans hab h)),
        sub_self, zero_div]
    · rw [min_eq_right h, min_eq_right (le_trans h hab), sub_self, zero_div]

/-- Degenerate range: all of the liquidity belongs to exactly one of two adjacent proper windows. -/
theorem C63_point_range (c : UICurve K) (hd : c.disabled = false) (hr : c.pmin = c.pmax) (a b e : K) (hab : a < b)
    (hbe : b < e) (ha : a ≤ c.pmax) (he : c.pmax < e) :
    c.liquidityPerc a b + c.liquidityPerc b e = 1 := by
  unfold liquidityPerc
  simp only [gt_iff_lt, if_neg (not_lt.mpr hab.le), if_neg (not_lt.mpr hbe.le), hd, Bool.false_eq_true, if_false,
    hr, if_true, hab.ne, hbe.ne]
  by_cases h : b ≤ c.pmax
  · simp [not_lt.mpr h, h, he]
  · simp [not_le.mp h, h, ha]

example : sampleCurve.liquidityPerc 2 3 = 1 / 3 ∧ sampleCurve.liquidityPerc 3 0 = 2 / 3 ∧
    sampleCurve.liquidityPerc 0 9 = 1 ∧ sampleCurve.disabled = false ∧ sampleCurve.pmin < sampleCurve.pmax := by
  decide +kernel

end Liq

/-! ## C65 the invariant -/

theorem gamma_facts {c : UICurve ℝ} (h : Sound c) (hS : 0 < c.S) :
    ∃ g, 0 < g ∧ g < 1 ∧ c.Gamma = 1 - g ∧ c.B = g ^ 2 * (c.B + c.S) := by
  have hB := h.hB
  have hP : 0 < c.B + c.S := by positivity
  have hQ : c.Q = c.B / (c.B + c.S) := by
    unfold Q pbRaw paRaw
    have : c.B * c.B / (c.S + c.B) ^ 2 = (c.B / (c.B + c.S)) ^ 2 := by
      rw [div_pow, add_comm c.S]; ring
    rw [this, Real.sqrt_sq (by positivity)]
  have hQ0 : 0 < c.Q := by rw [hQ]; positivity
  have hQ1 : c.Q < 1 := by rw [hQ, div_lt_one hP]; linarith
  refine ⟨Real.sqrt c.Q, Real.sqrt_pos.mpr hQ0, ?_, rfl, ?_⟩
  · rw [Real.sqrt_lt' one_pos]; simpa using hQ1
  · rw [Real.sq_sqrt hQ0.le, hQ]; field_simp

/-- Every point of the curve satisfies the constant-product equation `(x - xasym) (y - yasym) = kappa` around the
(negative) asymptotes. -/
theorem C65_invariant (c : UICurve ℝ) (h : Sound c) (hS : 0 < c.S) (y : ℝ) (h0 : 0 ≤ y) (h1 : y ≤ c.yint) :
    ∃ x, c.xfromyF y = .ok (some x) ∧ (x - c.xasym) * (y - c.yasym) = c.kappa ∧ 0 < c.kappa ∧ c.xasym < 0 ∧
      c.yasym < 0 := by
  obtain ⟨g, g0, g1, hG, hBg⟩ := gamma_facts h hS
  have hB := h.hB
  have hz := h.hyint
  have hP : 0 < c.B + c.S := by positivity
  refine ⟨_, xfromyF_ok h h0 h1 true false, ?_⟩
  set P := c.B + c.S with hPdef
  have hSg : c.S = (1 - g ^ 2) * P := by rw [hPdef] at hBg ⊢; linarith
  have e1 : c.B ^ 2 + c.B * c.S = c.B * P := by rw [hPdef]; ring
  have g2 : 0 < 1 - g := by linarith
  have g3 : 0 < 1 + g := by linarith
  have g4 : 0 < 1 - g ^ 2 := by nlinarith
  have hx0 : c.x0 = c.yint / (P ^ 2 * g * (1 + g)) := by
    unfold x0; rw [e1, hG, hBg]
    have : (2 : ℝ) - (1 - g) = 1 + g := by ring
    rw [this, sub_sub_cancel]
    field_simp
  have hy0 : c.y0 = c.yint * g / (1 + g) := by
    unfold y0; rw [hG]
    have : (2 : ℝ) - (1 - g) = 1 + g := by ring
    rw [this, sub_sub_cancel]
  have hxa : c.xasym = - (c.yint / (P ^ 2 * (1 - g ^ 2))) := by
    unfold xasym; rw [hx0, hG]
    have : 1 - g ^ 2 = (1 - g) * (1 + g) := by ring
    rw [this]
    field_simp
    ring
  have hya : c.yasym = - (c.yint * g ^ 2 / (1 - g ^ 2)) := by
    unfold yasym; rw [hy0, hG]
    have : 1 - g ^ 2 = (1 - g) * (1 + g) := by ring
    rw [this]
    field_simp
    ring
  have hk : c.kappa = c.yint ^ 2 / (P ^ 2 * (1 - g ^ 2) ^ 2) := by
    unfold kappa; rw [hx0, hy0, hG]
    have : 1 - g ^ 2 = (1 - g) * (1 + g) := by ring
    rw [this]
    field_simp
  rw [hxa, hya, hk]
  refine ⟨?_, by positivity, by rw [neg_lt_zero]; positivity, by rw [neg_lt_zero]; positivity⟩
  rw [hBg, hSg]
  have hd : 0 < g ^ 2 * c.yint + (1 - g ^ 2) * y := by positivity
  have : g ^ 2 * P * c.yint + (1 - g ^ 2) * P * y = P * (g ^ 2 * c.yint + (1 - g ^ 2) * y) := by ring
  rw [this]
  field_simp
  ring

example : Sound realCurve ∧ 0 < realCurve.S := ⟨realCurve_sound, by norm_num [realCurve]⟩

/-! ## C66 construction from convexity and intercepts -/

/-- A curve built from convexity `0 < Q ≤ 1` and intercepts has exactly these. -/
theorem C66_from_Qxy (s : Str) (p : CarbonPair) (hm : CarbonPair.make (.str s) none none = .ok p) (tkn : Str)
    (ht : tkn = p.tknb ∨ tkn = p.tknq) (q xint yint y : ℝ) (hq : 0 < q) (hq1 : q ≤ 1) (hx : 0 < xint) (hz : 0 < yint)
    (h0 : 0 ≤ y) (h1 : y ≤ yint) :
    ∃ c, fromQxy (.str s) tkn q xint yint y = .ok c ∧ Sound c ∧ c.Q = q ∧ c.xint = .ok xint ∧ c.yint = yint ∧ c.y = y := by
  obtain ⟨u1, u2⟩ := CarbonPair.make_upper hm
  obtain ⟨_, _, n1, n2, _⟩ := CarbonPair.C15_names s false p hm
  have ut : upper tkn = tkn := by rcases ht with rfl | rfl <;> assumption
  set p2 := CarbonPair.finish p.tknb p.tknq false p.decB p.decQ with hp2
  have hmk : CarbonPair.make (.pair p) none none = .ok p2 := by
    simp only [CarbonPair.make, CarbonPair.truthy, Bool.or_self, Bool.false_eq_true, if_false, Py.bind_eq_ok,
      CarbonPair.unpack_eq_ok, Except.ok.injEq]
    exact ⟨(p.tknb, p.tknq), ⟨rfl, n1, n2⟩, rfl⟩
  have t1 : p2.tknb = p.tknb := u1
  have t2 : p2.tknq = p.tknq := u2
  have p0 : 0 < yint / xint := by positivity
  have b0 : 0 < yint / xint * q := by positivity
  have a0 : 0 < yint / xint / q := by positivity
  have hle : yint / xint * q ≤ yint / xint / q := by
    rw [le_div_iff₀ hq]
    have : q * q ≤ 1 := by nlinarith
    nlinarith
  set B := Real.sqrt (yint / xint * q) with hB
  set A := Real.sqrt (yint / xint / q) with hA
  have B0 : 0 < B := Real.sqrt_pos.mpr b0
  have A0 : 0 < A := Real.sqrt_pos.mpr a0
  have hBA : B ≤ A := Real.sqrt_le_sqrt hle
  have hBB : B * B = yint / xint * q := Real.mul_self_sqrt b0.le
  have hAA : A * A = yint / xint / q := Real.mul_self_sqrt a0.le
  have hAB : A * B = yint / xint := by
    rw [hA, hB, ← Real.sqrt_mul a0.le]
    have : yint / xint / q * (yint / xint * q) = (yint / xint) ^ 2 := by field_simp
    rw [this, Real.sqrt_sq p0.le]
  set c : UICurve ℝ := ⟨p2, upper tkn, B, A - B, yint, y⟩ with hc
  have hs : Sound c := ⟨B0, sub_nonneg.mpr hBA, hz, h0, h1⟩
  have hpar : c.paRaw = A ^ 2 := by simp [paRaw, hc]
  have hpbr : c.pbRaw = B * B := by simp [pbRaw, hc]
  refine ⟨c, ?_, hs, ?_, ?_, rfl, rfl⟩
  · have htok1 : p.hasToken tkn = true := by
      simp only [CarbonPair.hasToken, CarbonPair.hasQuote, CarbonPair.hasBase]
      rcases ht with rfl | rfl <;> simp
    have htok : p2.hasToken (upper tkn) = true := by
      simp only [ut, CarbonPair.hasToken, CarbonPair.hasQuote, CarbonPair.hasBase, t1, t2]
      rcases ht with rfl | rfl <;> simp
    unfold fromQxy
    rw [hm]
    simp only [Py.ok_bind]
    rw [if_neg (by simp [htok1]), if_neg (by linarith), if_neg (by linarith), if_neg (by linarith),
      if_neg (by linarith), pySqrt, if_neg (by linarith), ← hB]
    simp only [Py.ok_bind]
    rw [pyDiv_ok hq.ne']
    simp only [Py.ok_bind]
    rw [pySqrt, if_neg (by linarith), ← hA]
    simp only [Py.ok_bind]
    exact make_ok hmk htok hs
  · unfold Q
    rw [hpar, hpbr, pow_two, hBB, hAA]
    have : yint / xint * q / (yint / xint / q) = q ^ 2 := by field_simp
    rw [this, Real.sqrt_sq hq.le]
  · unfold UICurve.xint
    have : c.B ^ 2 + c.B * c.S = A * B := by simp only [hc]; ring
    rw [this, hAB, pyDiv_ok p0.ne']
    simp only [hc]
    congr 1
    field_simp

end Carbon.UICurve
