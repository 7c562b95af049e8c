import Verif.Prop.OrderUIFloat

/-!
# C148: order and holdings in floating-point arithmetic
-/

set_option linter.unusedSectionVars false

namespace Carbon

open UICurve (Sound inConv World Sale sampleCurve sampleLinked sample_sound sampleLinked_sound)

namespace FloatUI

variable {K : Type} [Field K] [LinearOrder K] [IsStrictOrderedRing K] {R : Rounding K}

theorem fl_nonneg {x : K} (h : 0 ≤ x) : 0 ≤ R.fl x := (Rounding.near_fl h).nonneg h

theorem fl_pos {x : K} (h : 0 < x) : 0 < R.fl x := (Rounding.near_fl h.le).pos h

/-! ### Order -/

theorem sub_le_sub' (hR : R.Regular) (a : K) {d e : K} (h : d ≤ e) : R.sub a e ≤ R.sub a d := hR.mono (by linarith)

theorem mul_le' (hR : R.Regular) {a d e : K} (ha : 0 ≤ a) (h : d ≤ e) : R.mul a d ≤ R.mul a e :=
  hR.mono (mul_le_mul_of_nonneg_left h ha)

theorem add_le' (hR : R.Regular) {a b c d : K} (h : a ≤ c) (g : b ≤ d) : R.add a b ≤ R.add c d := hR.mono (add_le_add h g)

theorem sq_le' (hR : R.Regular) {a b : K} (ha : 0 ≤ a) (h : a ≤ b) : R.sq a ≤ R.sq b := by
  rw [hR.square, hR.square]; exact hR.mono (mul_self_le_mul_self ha h)

theorem div_ok {a b : K} (h : b ≠ 0) : R.div a b = .ok (R.fl (a / b)) := if_neg h

/-- The raw marginal price of a curve with holdings `y`. -/
def rawAt (R : Rounding K) (c : UICurve K) (y : K) : K := R.sq (R.add c.B (R.fl (R.mul c.S y / c.yint)))

theorem pMargF_raw {c : UICurve K} (h : Sound c) {dy : K} (hd : dy ≤ c.y) (cb r : Bool) (hcb : cb = true → 0 ≤ dy) :
    pMargF R c dy false cb r = quotePrice R c (rawAt R c (R.sub c.y dy)) := by
  have hz := h.hyint
  unfold pMargF
  rw [if_neg (by simp [not_disabled h])]
  simp only [Bool.false_eq_true, if_false]
  rw [if_neg, if_neg, if_neg hz.ne', div_ok hz.ne']
  · rfl
  · have := (Rounding.near_sub (R := R) hd).nonneg (sub_nonneg.mpr hd)
    simp only [Bool.and_eq_true, decide_eq_true_eq, not_and, not_lt]; exact fun _ => this
  · simp only [Bool.and_eq_true, decide_eq_true_eq, not_and, not_lt]; exact hcb

theorem inner_pos {c : UICurve K} (h : Sound c) {y : K} (hy : 0 ≤ y) : 0 < R.add c.B (R.fl (R.mul c.S y / c.yint)) := by
  have h1 : 0 ≤ R.mul c.S y := fl_nonneg (mul_nonneg h.hS hy)
  have h2 : 0 ≤ R.fl (R.mul c.S y / c.yint) := fl_nonneg (div_nonneg h1 h.hyint.le)
  exact fl_pos (by have := h.hB; linarith)

theorem rawAt_pos {c : UICurve K} (h : Sound c) {y : K} (hy : 0 ≤ y) : 0 < rawAt R c y :=
  (Rounding.near_sq (R := R) _).pos (by have := inner_pos (R := R) h hy; positivity)

theorem rawAt_mono (hR : R.Regular) {c : UICurve K} (h : Sound c) {y z : K} (hy : 0 ≤ y) (hyz : y ≤ z) : rawAt R c y ≤ rawAt R c z :=
  sq_le' hR (inner_pos h hy).le
    (add_le' hR le_rfl (hR.mono (div_le_div_of_nonneg_right (mul_le' hR h.hS hyz) h.hyint.le)))

theorem quotePrice_cases (c : UICurve K) {a : K} (h : 0 < a) :
    quotePrice R c a = .ok (some (if c.pair.hasQuote c.tkn then a else R.fl (1 / a))) := by
  unfold quotePrice
  split
  · rfl
  · rw [div_ok h.ne']; rfl

/-- The computed marginal price never moves the wrong way: the more is sold, the lower the price of the sold token. -/
theorem C148_price (hR : R.Regular) (c : UICurve K) (h : Sound c) (d e : K) (h0 : 0 ≤ d) (hde : d ≤ e) (h1 : e ≤ c.y) (cb r : Bool) :
    ∃ p q, pMargF R c d false cb r = .ok (some p) ∧ pMargF R c e false cb r = .ok (some q) ∧
      (c.pair.hasQuote c.tkn = true → q ≤ p) ∧ (c.pair.hasQuote c.tkn = false → p ≤ q) := by
  have hs : 0 ≤ R.sub c.y e := fl_nonneg (sub_nonneg.mpr h1)
  have hle := sub_le_sub' hR c.y hde
  have hp := rawAt_pos (R := R) h hs
  have hm := rawAt_mono hR h hs hle
  rw [pMargF_raw h (le_trans hde h1) cb r fun _ => h0, pMargF_raw h h1 cb r fun _ => le_trans h0 hde,
    quotePrice_cases c (lt_of_lt_of_le hp hm), quotePrice_cases c hp]
  refine ⟨_, _, rfl, rfl, fun hq => ?_, fun hq => ?_⟩
  · rw [if_pos hq, if_pos hq]; exact hm
  · rw [if_neg (by simp [hq]), if_neg (by simp [hq])]
    exact hR.mono (one_div_le_one_div_of_le hp hm)

/-- The computed marginal price never passes the computed end of the range. -/
theorem C148_end (hR : R.Regular) (c : UICurve K) (h : Sound c) (hB : R.Rep c.B) (d : K) (h0 : 0 ≤ d) (h1 : d ≤ c.y) (cb r : Bool) :
    ∃ p, pMargF R c d false cb r = .ok (some p) ∧ (c.pair.hasQuote c.tkn = true → pbRaw R c ≤ p) ∧
      (c.pair.hasQuote c.tkn = false → R.div 1 (pbRaw R c) = .ok (R.fl (1 / pbRaw R c)) ∧ p ≤ R.fl (1 / pbRaw R c)) := by
  have hs : 0 ≤ R.sub c.y d := fl_nonneg (sub_nonneg.mpr h1)
  have hb : 0 < pbRaw R c := fl_pos (mul_pos h.hB h.hB)
  have hle : pbRaw R c ≤ rawAt R c (R.sub c.y d) := by
    have h2 : 0 ≤ R.fl (R.mul c.S (R.sub c.y d) / c.yint) := fl_nonneg (div_nonneg (fl_nonneg (mul_nonneg h.hS hs)) h.hyint.le)
    have h3 : c.B ≤ R.add c.B (R.fl (R.mul c.S (R.sub c.y d) / c.yint)) := by
      calc c.B = R.fl c.B := hB.symm
        _ ≤ _ := hR.mono (by linarith)
    unfold pbRaw rawAt Rounding.mul
    rw [hR.square]
    exact hR.mono (mul_self_le_mul_self h.hB.le h3)
  rw [pMargF_raw h h1 cb r fun _ => h0, quotePrice_cases c (lt_of_lt_of_le hb hle)]
  refine ⟨_, rfl, fun hq => ?_, fun hq => ⟨div_ok hb.ne', ?_⟩⟩
  · rw [if_pos hq]; exact hle
  · rw [if_neg (by simp [hq])]
    exact hR.mono (one_div_le_one_div_of_le hb hle)

/-- A full curve whose slope is one tenth. -/
def tenth : UICurve ℚ :=
  ⟨CarbonPair.ethUsdc, "USDC".toList, 5764607523034235 / 2 ^ 59, 3602879701896397 / 2 ^ 55, 3, 3⟩

/-- The computed marginal price of a full curve can lie above the computed start of the range, which in exact arithmetic it equals. -/
theorem C148_start_violated : ∃ c : UICurve ℚ, Sound c ∧ Rounding.double.Rep c.B ∧ Rounding.double.Rep c.S ∧ Rounding.double.Rep c.y ∧
    c.y = c.yint ∧ c.pMarg = .ok (some c.paRaw) ∧ ∃ p, pMarg .double c = .ok (some p) ∧ paRaw .double c < p := by
  refine ⟨tenth, ⟨by norm_num [tenth], by norm_num [tenth], by norm_num [tenth], by norm_num [tenth], by norm_num [tenth]⟩,
    by unfold Rounding.Rep; decide +kernel, by unfold Rounding.Rep; decide +kernel, by unfold Rounding.Rep; decide +kernel, rfl,
    by decide +kernel, rawAt .double tenth 3, by decide +kernel, by decide +kernel⟩

/-- The computed coordinate falls when the holdings rise. -/
theorem C148_x (hR : R.Regular) (c : UICurve K) (h : Sound c) (y z : K) (h0 : 0 ≤ y) (hyz : y ≤ z) (h1 : z ≤ c.yint) (cb r : Bool) :
    ∃ a b, xfromyF R c y cb r = .ok (some a) ∧ xfromyF R c z cb r = .ok (some b) ∧ 0 ≤ b ∧ b ≤ a := by
  obtain ⟨a, ha, na⟩ := xfromyF_near (R := R) h h0 (le_trans hyz h1) cb r
  obtain ⟨b, hb, nb⟩ := xfromyF_near (R := R) h (le_trans h0 hyz) h1 cb r
  have hB := h.hB
  have hS := h.hS
  have hz := h.hyint
  have hs1 := sub_nonneg.mpr h1
  refine ⟨a, b, ha, hb, nb.nonneg (by have := le_trans h0 hyz; positivity), ?_⟩
  have val : ∀ (t v : K), 0 ≤ t → t ≤ c.yint → xfromyF R c t cb r = .ok (some v) →
      v = R.fl (R.mul c.yint (R.sub c.yint t) / R.add (R.add (R.add (R.mul (R.sq c.B) c.yint) (R.mul (R.mul c.B c.S) t))
        (R.mul (R.mul c.B c.S) c.yint)) (R.mul (R.sq c.S) t)) ∧
      0 < R.add (R.add (R.add (R.mul (R.sq c.B) c.yint) (R.mul (R.mul c.B c.S) t)) (R.mul (R.mul c.B c.S) c.yint)) (R.mul (R.sq c.S) t) := by
    intro t v ht0 ht1 hv
    have p1 : 0 < R.mul (R.sq c.B) c.yint := fl_pos (mul_pos ((Rounding.near_sq _).pos (by positivity)) hz)
    have p2 : 0 ≤ R.mul (R.mul c.B c.S) t := fl_nonneg (mul_nonneg (fl_nonneg (by positivity)) ht0)
    have p3 : 0 ≤ R.mul (R.mul c.B c.S) c.yint := fl_nonneg (mul_nonneg (fl_nonneg (by positivity)) hz.le)
    have p4 : 0 ≤ R.mul (R.sq c.S) t := fl_nonneg (mul_nonneg ((Rounding.near_sq _).nonneg (by positivity)) ht0)
    have p5 : 0 < R.add (R.mul (R.sq c.B) c.yint) (R.mul (R.mul c.B c.S) t) := fl_pos (by linarith)
    have p6 : 0 < R.add (R.add (R.mul (R.sq c.B) c.yint) (R.mul (R.mul c.B c.S) t)) (R.mul (R.mul c.B c.S) c.yint) := fl_pos (by linarith)
    have p7 : 0 < R.add (R.add (R.add (R.mul (R.sq c.B) c.yint) (R.mul (R.mul c.B c.S) t)) (R.mul (R.mul c.B c.S) c.yint))
      (R.mul (R.sq c.S) t) := fl_pos (by linarith)
    refine ⟨?_, p7⟩
    unfold xfromyF at hv
    rw [if_neg (by simp only [Bool.and_eq_true, decide_eq_true_eq, not_and, gt_iff_lt, not_lt]; exact fun _ => ht1),
      if_neg (by simp only [Bool.and_eq_true, decide_eq_true_eq, not_and, not_lt]; exact fun _ => ht0)] at hv
    dsimp only at hv
    rw [div_ok p7.ne'] at hv
    change Except.ok (some _) = Except.ok (some _) at hv
    injection hv with hv
    injection hv with hv
    exact hv.symm
  obtain ⟨ea, pa⟩ := val y a h0 (le_trans hyz h1) ha
  obtain ⟨eb, pb⟩ := val z b (le_trans h0 hyz) h1 hb
  rw [ea, eb]
  refine hR.mono (div_le_div₀ ?_ ?_ pa ?_)
  · exact fl_nonneg (mul_nonneg hz.le (fl_nonneg (sub_nonneg.mpr (le_trans hyz h1))))
  · exact mul_le' hR hz.le (sub_le_sub' hR _ hyz)
  · have q1 : 0 ≤ R.mul c.B c.S := fl_nonneg (by positivity)
    have q2 : 0 ≤ R.sq c.S := (Rounding.near_sq _).nonneg (by positivity)
    exact add_le' hR (add_le' hR (add_le' hR le_rfl (mul_le' hR q1 hyz)) le_rfl) (mul_le' hR q2 hyz)

/-- The second factor of the denominator of `dxfromdy_f` is never negative. -/
theorem diff_nonneg (hR : R.Regular) {c : UICurve K} (h : Sound c) {dy : K} (h1 : dy ≤ c.y) :
    0 ≤ R.sub (scaled R c) (R.mul c.S dy) := by
  have e1 : R.mul c.S dy ≤ R.mul c.S c.y := mul_le' hR h.hS h1
  have e2 : R.mul c.S c.y ≤ scaled R c := by
    calc R.mul c.S c.y = R.fl (R.mul c.S c.y) := (hR.idem _).symm
      _ ≤ _ := hR.mono (by have : 0 ≤ R.mul c.B c.yint := fl_nonneg (mul_nonneg h.hB.le h.hyint.le)
                           linarith)
  exact fl_nonneg (by linarith)

theorem scaled_pos {c : UICurve K} (h : Sound c) : 0 < scaled R c := (scaled_near h).pos h.m_pos

theorem dxfromdyF_eq {c : UICurve K} (h : Sound c) {dy : K} (h0 : 0 ≤ dy) (h1 : dy ≤ c.y) (cb r : Bool) :
    dxfromdyF R c dy cb r =
      (R.div (R.sq c.yint) (R.mul (scaled R c) (R.sub (scaled R c) (R.mul c.S dy)))).bind fun q => .ok (some (R.mul dy q)) := by
  unfold dxfromdyF
  rw [if_neg h.not_empty, if_neg, if_neg]
  · rfl
  · simp only [Bool.and_eq_true, decide_eq_true_eq, not_and, gt_iff_lt, not_lt]; exact fun _ => h1
  · simp only [Bool.and_eq_true, decide_eq_true_eq, not_and, not_lt]; exact fun _ => h0

/-- The computed amount asked for a sale never falls when more is sold, and wherever it is defined it is defined for smaller sales. -/
theorem C148_dx (hR : R.Regular) (c : UICurve K) (h : Sound c) (d e : K) (h0 : 0 ≤ d) (hde : d ≤ e) (h1 : e ≤ c.y) (cb r : Bool) :
    dxfromdyF R c e cb r = .error .zeroDiv ∨
    ∃ a b, dxfromdyF R c d cb r = .ok (some a) ∧ dxfromdyF R c e cb r = .ok (some b) ∧ 0 ≤ a ∧ a ≤ b := by
  have hm := scaled_pos (R := R) h
  have he0 := le_trans h0 hde
  have hd1 := le_trans hde h1
  rw [dxfromdyF_eq h h0 hd1, dxfromdyF_eq h he0 h1]
  have n1 := diff_nonneg hR h h1
  have n2 : R.sub (scaled R c) (R.mul c.S e) ≤ R.sub (scaled R c) (R.mul c.S d) := sub_le_sub' hR _ (mul_le' hR h.hS hde)
  have m1 : 0 ≤ R.mul (scaled R c) (R.sub (scaled R c) (R.mul c.S e)) := fl_nonneg (mul_nonneg hm.le n1)
  have m2 := mul_le' hR hm.le n2
  rcases eq_or_lt_of_le m1 with hz | hp
  · left
    unfold Rounding.div
    rw [if_pos hz.symm]
    rfl
  · right
    have hp2 := lt_of_lt_of_le hp m2
    rw [div_ok hp.ne', div_ok hp2.ne']
    have hnum : 0 ≤ R.sq c.yint := (Rounding.near_sq _).nonneg (sq_nonneg _)
    have q1 : 0 ≤ R.fl (R.sq c.yint / R.mul (scaled R c) (R.sub (scaled R c) (R.mul c.S d))) := fl_nonneg (by positivity)
    have q2 : R.fl (R.sq c.yint / R.mul (scaled R c) (R.sub (scaled R c) (R.mul c.S d))) ≤
      R.fl (R.sq c.yint / R.mul (scaled R c) (R.sub (scaled R c) (R.mul c.S e))) := hR.mono (div_le_div_of_nonneg_left hnum hp m2)
    exact ⟨_, _, rfl, rfl, fl_nonneg (mul_nonneg h0 q1), hR.mono (mul_le_mul hde q2 q1 he0)⟩

/-- The amount sold for a given amount is monotone up to twenty-four roundings. -/
theorem C148_dy_partial (R : Rounding K) (c : UICurve K) (h : Sound c) (d e : K) (h0 : 0 ≤ d) (hde : d ≤ e) (cb r : Bool) :
    ∃ a b, dyfromdxF R c d cb r = .ok (some a) ∧ dyfromdxF R c e cb r = .ok (some b) ∧ a * (1 - R.u) ^ 24 ≤ b := by
  obtain ⟨a, ha, na⟩ := dyfromdxF_near (R := R) h h0 cb r
  obtain ⟨b, hb, nb⟩ := dyfromdxF_near (R := R) h (le_trans h0 hde) cb r
  refine ⟨a, b, ha, hb, ?_⟩
  have hm := h.m_pos
  have hz := h.hyint
  have hS := h.hS
  have he := le_trans h0 hde
  set m := c.S * c.y + c.B * c.yint
  have key : d * (m ^ 2 / (c.S * d * m + c.yint ^ 2)) ≤ e * (m ^ 2 / (c.S * e * m + c.yint ^ 2)) := by
    rw [← mul_div_assoc, ← mul_div_assoc, div_le_div_iff₀ (by positivity) (by positivity)]
    have := mul_le_mul_of_nonneg_left hde (by positivity : 0 ≤ m ^ 2 * c.yint ^ 2)
    nlinarith
  have hp : 0 < (1 - R.u) ^ 12 := Rounding.tn_pos 12
  calc a * (1 - R.u) ^ 24 = a * (1 - R.u) ^ 12 * (1 - R.u) ^ 12 := by rw [mul_assoc, ← pow_add]
    _ ≤ e * (m ^ 2 / (c.S * e * m + c.yint ^ 2)) * (1 - R.u) ^ 12 := mul_le_mul_of_nonneg_right (le_trans na.2 key) hp.le
    _ ≤ b := nb.1

/-- A full curve with price range from one to four. -/
def unit : UICurve ℚ := ⟨CarbonPair.ethUsdc, "USDC".toList, 1, 1, 1, 1⟩

/-- Paying more can buy less: for the next float after seven the computed amount is smaller. -/
theorem C148_dy_violated : ∃ (c : UICurve ℚ) (d e : ℚ), Sound c ∧ Rounding.double.Rep d ∧ Rounding.double.Rep e ∧ 0 ≤ d ∧ d < e ∧
    ∃ a b, dyfromdxF .double c d = .ok (some a) ∧ dyfromdxF .double c e = .ok (some b) ∧ b < a := by
  refine ⟨unit, 7, 7 + 1 / 2 ^ 50, ⟨by norm_num [unit], by norm_num [unit], by norm_num [unit], by norm_num [unit], by norm_num [unit]⟩,
    by unfold Rounding.Rep; decide +kernel, by unfold Rounding.Rep; decide +kernel, by norm_num, by norm_num,
    Rounding.double.mul 7 (Rounding.double.fl (4 / 15)),
    Rounding.double.mul (7 + 1 / 2 ^ 50) (Rounding.double.fl (4 / Rounding.double.fl (15 + 1 / 2 ^ 49))), by decide +kernel, by decide +kernel,
    by decide +kernel⟩

/-! ### Holdings -/

/-- The holdings are between zero and the capacity. -/
def Within (c : UICurve K) : Prop := 0 ≤ c.y ∧ c.y ≤ c.yint

/-- Both curves of a world. -/
def AllWithin (w : World K) : Prop := Within w.self ∧ ∀ l, w.linked = some l → Within l

theorem addliqy_within {c : UICurve K} (h : Within c) (dy : K) (ec : Bool) : Within (addliqy R c dy ec).2 := by
  unfold addliqy
  split
  · exact h
  · next hd =>
    have hn : 0 ≤ R.add c.y dy := fl_nonneg (add_nonneg h.1 (not_lt.mp hd))
    split
    · exact h
    · dsimp only
      split
      · split
        · exact h
        · exact ⟨hn, le_refl _⟩
      · next hg => exact ⟨hn, not_lt.mp hg⟩

theorem creditLinked_within {w : World K} (h : AllWithin w) (dx : K) : AllWithin (creditLinked R w dx).2 := by
  unfold creditLinked
  split
  · exact h
  · next l hl =>
    refine ⟨h.1, fun l' hl' => ?_⟩
    dsimp only at hl'
    injection hl' with hl'
    rw [← hl']
    exact addliqy_within (h.2 l hl) dx true

theorem sellyFinish_within {w : World K} (h : AllWithin w) (dy ynew : K) (ex e : Bool) (yo : K) (po pn : Option K)
    (hn : 0 ≤ ynew) (hy : ex = true → ynew ≤ w.self.yint) : AllWithin (sellyFinish R w dy ynew ex e yo po pn).2 := by
  unfold sellyFinish
  split
  · exact h
  · exact h
  · next dx _ =>
    dsimp only
    have h1 : AllWithin (if ex then { w with self := { w.self with y := ynew } } else w) := by
      cases ex
      · exact h
      · exact ⟨⟨hn, hy rfl⟩, h.2⟩
    have h2 := creditLinked_within (R := R) h1 dx
    split
    · exact h2
    · split
      · exact h2
      · exact h2

theorem sellyCore_within {w : World K} (h : AllWithin w) (dy : K) (ex ec r : Bool) : AllWithin (sellyCore R w dy ex ec r).2 := by
  unfold sellyCore
  dsimp only
  split
  · exact h
  · exact h
  · split
    · exact h
    · split
      · next hg =>
        split
        · exact h
        · have hn : 0 ≤ R.sub w.self.y dy := le_trans (le_trans h.1.1 h.1.2) hg.le
          cases ex
          · exact sellyFinish_within h _ _ _ _ _ _ _ hn (by simp)
          · exact sellyFinish_within (w := { w with self := { w.self with yint := R.sub w.self.y dy } })
              ⟨⟨h.1.1, le_trans h.1.2 hg.le⟩, h.2⟩ _ _ _ _ _ _ _ hn fun _ => le_refl _
      · next hg =>
        refine sellyFinish_within h _ _ _ _ _ _ _ ?_ fun _ => ?_
        · split
          · exact le_refl _
          · next hl => exact not_lt.mp hl
        · split
          · exact le_trans h.1.1 h.1.2
          · exact not_lt.mp hg

theorem selly_within {w : World K} (h : AllWithin w) (dy : K) (ex an ec r : Bool) : AllWithin (selly R w dy ex an ec r).2 := by
  unfold selly
  split
  · exact h
  · dsimp only
    generalize (if dy < 0 ∧ !an then 0 else dy) = d
    split
    · exact sellyCore_within h _ _ _ _
    · exact sellyCore_within h _ _ _ _

theorem buyx_within {w : World K} (h : AllWithin w) (dx : K) (ex an ec r : Bool) : AllWithin (buyx R w dx ex an ec r).2 := by
  unfold buyx
  split
  · exact h
  · exact h
  · dsimp only
    have := selly_within (R := R) h (w := w)
    split <;> exact this _ _ _ _ _

/-- What can be done with a curve. -/
inductive Act (K : Type) where
  | sell (dy : K) (execute allowneg expandcurve raiseonerror : Bool)
  | buy (dx : K) (execute allowneg expandcurve raiseonerror : Bool)
  | add (dy : K) (expandcurve : Bool)

/-- The curves after an action, whether or not it raised. -/
def Act.run (R : Rounding K) (w : World K) : Act K → World K
  | .sell dy ex an ec r => (selly R w dy ex an ec r).2
  | .buy dx ex an ec r => (buyx R w dx ex an ec r).2
  | .add dy ec => { w with self := (addliqy R w.self dy ec).2 }

/-- Whatever the rounding and whatever is done, holdings stay between zero and the capacity, on both curves. -/
theorem C148_holdings (R : Rounding K) (w : World K) (h : AllWithin w) (as : List (Act K)) : AllWithin (as.foldl (Act.run R) w) := by
  induction as generalizing w with
  | nil => exact h
  | cons a as ih =>
    refine ih _ ?_
    cases a with
    | sell dy ex an ec r => exact selly_within h dy ex an ec r
    | buy dx ex an ec r => exact buyx_within h dx ex an ec r
    | add dy ec => exact ⟨addliqy_within h.1 dy ec, h.2⟩

theorem fl_sign {x : K} : (R.fl x < 0 ↔ x < 0) ∧ (0 < R.fl x ↔ 0 < x) := by
  have hn : ∀ {x : K}, x < 0 → R.fl x < 0 := by
    intro x hx
    have := R.fl_err x
    rw [abs_of_neg hx] at this
    have h2 := (abs_le.mp this).2
    have := R.u_lt
    nlinarith
  refine ⟨⟨fun h => ?_, hn⟩, ⟨fun h => ?_, fl_pos⟩⟩
  · by_contra hx; exact absurd (fl_nonneg (R := R) (not_lt.mp hx)) (not_le.mpr h)
  · rcases lt_trichotomy x 0 with hx | hx | hx
    · exact absurd (hn hx) (not_lt.mpr h.le)
    · subst hx; rw [Rounding.fl_zero] at h; exact absurd h (lt_irrefl _)
    · exact hx

theorem creditLinked_self (w : World K) (dx : K) : (creditLinked R w dx).2.self = w.self := by
  unfold creditLinked; split <;> rfl

/-- What is left after an executed sale differs from what should be left by one rounding or by the tolerance, and never exceeds what was
there before. -/
theorem C148_sold (hR : R.Regular) (w : World K) (h : AllWithin w) (hrep : R.Rep w.self.y) (dy : K) (h0 : 0 ≤ dy) (an ec r : Bool)
    (s : Sale K) (hs : (selly R w dy true an ec r).1 = .ok (some s)) :
    let y' := (selly R w dy true an ec r).2.self.y
    y' ≤ w.self.y ∧ (s.executed = true → s.dy = dy ∧ s.y = y' ∧
      |y' - (w.self.y - dy)| ≤ max (R.u * w.self.y) (eps R / (1 - R.u))) := by
  have ht : 0 < 1 - R.u := Rounding.t_pos
  have hle : ∀ d, 0 ≤ d → R.sub w.self.y d ≤ w.self.y := fun d hd => by
    calc R.sub w.self.y d ≤ R.fl w.self.y := hR.mono (by linarith)
      _ = w.self.y := hrep
  have core : ∀ (d : K) (ex : Bool) (s : Sale K), 0 ≤ d → (sellyCore R w d ex ec r).1 = .ok (some s) →
      s.executed = ex ∧ s.dy = d ∧ (sellyCore R w d ex ec r).2.self.y = (if ex then s.y else w.self.y) ∧
      s.y = (if R.sub w.self.y d < 0 then 0 else R.sub w.self.y d) ∧ ¬ R.sub w.self.y d < -eps R := by
    intro d ex s hd hs
    unfold sellyCore at hs ⊢
    dsimp only at hs ⊢
    split at hs
    · exact absurd hs (by simp)
    · exact absurd hs (by simp)
    · split at hs
      · unfold UICurve.failWith at hs; split at hs <;> simp at hs
      · next hneg =>
        rw [if_neg hneg]
        rw [if_neg (not_lt.mpr (le_trans (hle d hd) h.1.2))] at hs ⊢
        unfold sellyFinish at hs ⊢
        split at hs
        · exact absurd hs (by simp)
        · exact absurd hs (by simp)
        · dsimp only at hs ⊢
          split at hs
          · exact absurd hs (by simp)
          · split at hs
            · exact absurd hs (by simp)
            · simp only [Except.ok.injEq, Option.some.injEq] at hs
              subst hs
              dsimp only
              rw [creditLinked_self]
              refine ⟨rfl, rfl, ?_, rfl, hneg⟩
              cases ex <;> rfl
  intro y'
  simp only [y']
  clear y'
  unfold selly at hs ⊢
  rw [if_neg (fun hh => absurd hh.1 (not_lt.mpr h0))] at hs ⊢
  dsimp only at hs ⊢
  have hdd : (if dy < 0 ∧ (!an) = true then 0 else dy) = dy := if_neg (fun hh => absurd hh.1 (not_lt.mpr h0))
  rw [hdd] at hs ⊢
  split at hs
  · next hsm =>
    rw [if_pos hsm]
    obtain ⟨e1, e2, e3, e4, e5⟩ := core 0 false s (le_refl _) hs
    rw [e3]
    exact ⟨le_refl _, fun hx => by rw [e1] at hx; exact absurd hx (by simp)⟩
  · next hsm =>
    rw [if_neg hsm]
    obtain ⟨e1, e2, e3, e4, e5⟩ := core dy true s h0 hs
    rw [if_pos rfl] at e3
    rw [e3]
    refine ⟨?_, fun _ => ⟨e2, rfl, ?_⟩⟩
    · rw [e4]; split
      · exact h.1.1
      · exact hle dy h0
    · rw [e4]
      split
      · next hn =>
        refine le_trans ?_ (le_max_right _ _)
        have hz : w.self.y - dy < 0 := fl_sign.1.mp hn
        have he := R.fl_err (w.self.y - dy)
        rw [abs_of_neg hz] at he
        have := (abs_le.mp he).2
        have hns : -eps R ≤ R.sub w.self.y dy := not_lt.mp e5
        unfold Rounding.sub at hns
        rw [zero_sub, abs_neg, abs_of_neg hz, le_div_iff₀ ht]
        nlinarith
      · next hn =>
        refine le_trans ?_ (le_max_left _ _)
        have hz : 0 ≤ w.self.y - dy := by
          by_contra hc
          exact hn (fl_sign.1.mpr (not_le.mp hc))
        have he := R.fl_err (w.self.y - dy)
        rw [abs_of_nonneg hz] at he
        exact le_trans he (mul_le_mul_of_nonneg_left (by linarith) R.u_nonneg)

/-- A curve holding seven million of ten. -/
def millions : UICurve ℚ := ⟨CarbonPair.ethUsdc, "USDC".toList, 1, 2, 10 ^ 7, 7 * 10 ^ 6⟩

/-- The quoted amount for the whole holdings cannot be traded: the amount sold for it is computed as more than there is. -/
theorem C148_everything_violated : ∃ (c : UICurve ℚ) (q : ℚ), Sound c ∧ Rounding.double.Rep c.y ∧
    dxfromdyF .double c c.y = .ok (some q) ∧ (buyx .double ⟨c, none⟩ q).1 = .error .type ∧
    (buyx .double ⟨c, none⟩ q (raiseonerror := true)).1 = .error .value ∧
    ∀ q', c.dxfromdyF c.y = .ok (some q') → (UICurve.buyx ⟨c, none⟩ q').1.toOption.isSome := by
  refine ⟨millions, 3131746986666667 / 2 ^ 30, ⟨by norm_num [millions], by norm_num [millions], by norm_num [millions], by norm_num [millions], by norm_num [millions]⟩,
    by unfold Rounding.Rep; decide +kernel, by decide +kernel, by decide +kernel, by decide +kernel, fun q' hq' => ?_⟩
  have e : millions.dxfromdyF millions.y = .ok (some (8750000 / 3)) := by decide +kernel
  rw [e] at hq'
  injection hq' with hq'
  injection hq' with hq'
  subst hq'
  decide +kernel

/-! ### Instances -/

namespace Examples

example := C148_price Rounding.double_regular sampleCurve sample_sound 5 7 (by norm_num) (by norm_num) (by decide +kernel) true false
example := C148_end Rounding.double_regular sampleCurve sample_sound (by unfold Rounding.Rep; decide +kernel) 5 (by norm_num)
  (by decide +kernel) true false
example := C148_x Rounding.double_regular sampleLinked sampleLinked_sound 5 7 (by norm_num) (by norm_num) (by decide +kernel) true false
example := C148_dx Rounding.double_regular sampleLinked sampleLinked_sound 5 7 (by norm_num) (by norm_num) (by decide +kernel) true false
example := C148_dy_partial .double sampleLinked sampleLinked_sound 5 7 (by norm_num) (by norm_num) true false

theorem sample_within : AllWithin (⟨sampleCurve, some sampleLinked⟩ : World ℚ) :=
  ⟨⟨by decide +kernel, by decide +kernel⟩, fun l hl => by injection hl with hl; subst hl; exact ⟨by decide +kernel, by decide +kernel⟩⟩

example := C148_holdings .double ⟨sampleCurve, some sampleLinked⟩ sample_within
  [.sell 10 true true false false, .buy (-7) true true true false, .add 300 true, .sell 1000 true false false true]

/-- The sale of ten from the sample. -/
def sale10 : Sale ℚ := ((selly .double ⟨sampleCurve, none⟩ 10).1.toOption.getD none).getD ⟨false, 0, 0, 0, 0, false, none, none, none⟩

example := C148_sold Rounding.double_regular ⟨sampleCurve, none⟩ ⟨sample_within.1, fun _ h => by simp at h⟩
  (by unfold Rounding.Rep; decide +kernel) 10 (by norm_num) true false false sale10 (by decide +kernel)

end Examples

end FloatUI

end Carbon
