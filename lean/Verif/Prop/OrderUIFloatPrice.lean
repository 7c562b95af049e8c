import Verif.Carbon.OrderUIFloatPrice
import Verif.Prop.OrderUIFloatOrder
import Verif.Prop.OrderUIPrice

/-!
# C149: prices and square roots in floating-point arithmetic
-/

set_option linter.unusedSectionVars false

namespace Carbon

open UICurve (Sound inConv World Sale sampleCurve sampleLinked sample_sound sampleLinked_sound)

namespace FloatUI

/-! ### Without rounding -/

theorem conv_exact (c : UICurve ℝ) (x : ℝ) : conv Rounding.exact c x = c.conv x := rfl

theorem yfrompF_exact (c : UICurve ℝ) (p : ℝ) (cb r : Bool) : yfrompF Rounding.exactRoot c p cb r = c.yfrompF p cb r := rfl

theorem dyfrompF_exact (c : UICurve ℝ) (p : ℝ) (cb r : Bool) : dyfrompF Rounding.exactRoot c p cb r = c.dyfrompF p cb r := by
  unfold dyfrompF UICurve.dyfrompF
  rw [yfrompF_exact]
  by_cases h : c.B = 0 ∧ c.S = 0
  · rw [if_pos h, if_pos h]
  · rw [if_neg h, if_neg h]
    congr 1
    funext y
    cases y <;> rfl

/-- With exact arithmetic the functions are those of the exact model. -/
theorem C149_exact (w : World ℝ) (p : ℝ) (cb r ex : Bool) (pair : CarbonPair.Arg) (tkn : Str) (pa pb yint y : ℝ) (hB : w.self.B ≠ 0) :
    yfrompF Rounding.exactRoot w.self p cb r = w.self.yfrompF p cb r ∧ dyfrompF Rounding.exactRoot w.self p cb r = w.self.dyfrompF p cb r ∧
    tradetoAmount Rounding.exactRoot w.self p = w.self.tradetoAmount p ∧
    (w.self.yint ≠ 0 → tradeto Rounding.exactRoot w p ex = UICurve.tradeto w p ex) ∧
    fromPrices Rounding.exactRoot pair tkn pa pb yint y = UICurve.fromPrices pair tkn pa pb yint y := by
  have ha : tradetoAmount Rounding.exactRoot w.self p = w.self.tradetoAmount p := by
    unfold tradetoAmount UICurve.tradetoAmount
    simp only [dyfrompF_exact]
    have hc : conv Rounding.exact w.self (pbRaw Rounding.exact w.self) = .ok w.self.pb := by
      rw [conv_exact]
      unfold UICurve.conv UICurve.pb
      have h : w.self.pbRaw ≠ 0 := mul_ne_zero hB hB
      split
      · exact UICurve.pyDiv_ok h
      · rfl
    rw [hc, Py.ok_bind]
    generalize w.self.dyfrompF p true true = o
    split <;> simp_all
  refine ⟨rfl, dyfrompF_exact _ _ _ _, ha, fun hz => ?_, rfl⟩
  unfold tradeto UICurve.tradeto
  simp only [if_neg hz]
  rw [ha]
  simp only [selly_exact]
  generalize w.self.tradetoAmount p = o
  cases o with
  | error e => rfl
  | ok dy =>
    dsimp only
    generalize UICurve.selly w dy ex false false true = q
    obtain ⟨a, b⟩ := q
    rcases a with _ | _ | _ <;> rfl

variable {K : Type} [Field K] [LinearOrder K] [IsStrictOrderedRing K] {R : Rounding K} {Q : R.Root}

/-! ### Curves made from prices -/

theorem root_near {n : ℕ} {a b : K} (h : R.Near n a b) (hb : 0 ≤ b) : R.Near (n + 2) (Q.rt a ^ 2) b := by
  have h1 : R.Near 2 (Q.rt a ^ 2) a := ⟨Q.rt_lo a (h.nonneg hb), Q.rt_hi a (h.nonneg hb)⟩
  have := h1.trans h
  rwa [add_comm 2] at this

theorem root_pos {a : K} (ha : 0 < a) : 0 < Q.rt a := by
  have h1 : R.Near 2 (Q.rt a ^ 2) a := ⟨Q.rt_lo a ha.le, Q.rt_hi a ha.le⟩
  have := h1.pos ha
  rcases eq_or_lt_of_le (Q.rt_nonneg a) with h | h
  · rw [← h] at this; simp at this
  · exact h

theorem sqrt_ok {a : K} (ha : 0 ≤ a) : Q.sqrt a = .ok (Q.rt a) := if_neg (not_lt.mpr ha)

/-- The given price, in the raw convention. -/
def rawOf (b : Bool) (p : K) : K := if b then 1 / p else p

theorem rawOf_pos {b : Bool} {p : K} (hp : 0 < p) : 0 < rawOf b p := by unfold rawOf; split <;> positivity

theorem invertIf_near {b : Bool} {p : K} (hp : 0 < p) : ∃ q, invertIf R b p = .ok q ∧ R.Near 1 q (rawOf b p) := by
  unfold invertIf rawOf
  split
  · exact ⟨_, div_ok hp.ne', Rounding.near_fl (by positivity)⟩
  · exact ⟨p, rfl, (near_input p).mono hp.le (by omega)⟩

theorem near_max {n : ℕ} {a b c d : K} (h : R.Near n a b) (g : R.Near n c d) : R.Near n (max a c) (max b d) := by
  have ht := (Rounding.tn_pos (R := R) n).le
  constructor
  · rw [max_mul_of_nonneg _ _ ht]; exact max_le_max h.1 g.1
  · rw [max_mul_of_nonneg _ _ ht]; exact max_le_max h.2 g.2

theorem near_min {n : ℕ} {a b c d : K} (h : R.Near n a b) (g : R.Near n c d) : R.Near n (min a c) (min b d) := by
  have ht := (Rounding.tn_pos (R := R) n).le
  constructor
  · rw [min_mul_of_nonneg _ _ ht]; exact min_le_min h.1 g.1
  · rw [min_mul_of_nonneg _ _ ht]; exact min_le_min h.2 g.2

theorem orderPrices_eq (a b : K) : orderPrices a b = (max a b, min a b) := by
  unfold orderPrices
  split
  · next h => rw [max_eq_right h.le, min_eq_left h.le]
  · next h => rw [max_eq_left (not_lt.mp h), min_eq_right (not_lt.mp h)]

/-- A curve made from two prices is sound, and its range begins and ends at the prices given, up to a few roundings. -/
theorem fromPrices_near (hQ : Q.Regular) (s : Str) (p : CarbonPair) (hm : CarbonPair.make (.str s) none none = .ok p) (tkn : Str)
    (ht : tkn = p.tknb ∨ tkn = p.tknq) (pa pb yint y : K) (ha : 0 < pa) (hb : 0 < pb) (h0 : 0 ≤ y) (h1 : y ≤ yint) (hz : 0 < yint) :
    ∃ c, fromPrices Q (.str s) tkn pa pb yint y = .ok c ∧ c.pair.tknb = p.tknb ∧ c.pair.tknq = p.tknq ∧ c.tkn = tkn ∧ c.yint = yint ∧ c.y = y ∧ Sound c ∧
      R.Near 4 (pbRaw R c) (min (rawOf (p.hasBase tkn) pa) (rawOf (p.hasBase tkn) pb)) ∧
      R.Near 8 (paRaw R c) (max (rawOf (p.hasBase tkn) pa) (rawOf (p.hasBase tkn) pb)) := by
  obtain ⟨u1, u2⟩ := CarbonPair.make_upper hm
  obtain ⟨_, _, n1, n2, _⟩ := CarbonPair.C15_names s false p hm
  have hu : upper tkn = tkn := by rcases ht with rfl | rfl <;> assumption
  set p2 := CarbonPair.finish p.tknb p.tknq false p.decB p.decQ with hp2
  have em : CarbonPair.make (.pair p) none none = .ok p2 := by
    simp only [CarbonPair.make, CarbonPair.truthy, Bool.or_self, Bool.false_eq_true, if_false, Py.bind_eq_ok,
      CarbonPair.unpack_eq_ok, Except.ok.injEq]
    exact ⟨(p.tknb, p.tknq), ⟨rfl, n1, n2⟩, rfl⟩
  have t1 : p2.tknb = p.tknb := u1
  have t2 : p2.tknq = p.tknq := u2
  have ht2 : p2.hasToken tkn = true := by
    unfold CarbonPair.hasToken CarbonPair.hasQuote CarbonPair.hasBase
    rw [t1, t2]
    rcases ht with rfl | rfl <;> simp
  obtain ⟨qa, ea, na⟩ := invertIf_near (R := R) (b := p.hasBase tkn) ha
  obtain ⟨qb, eb, nb⟩ := invertIf_near (R := R) (b := p.hasBase tkn) hb
  have ra := rawOf_pos (b := p.hasBase tkn) ha
  have rb := rawOf_pos (b := p.hasBase tkn) hb
  have qa0 := na.pos ra
  have qb0 := nb.pos rb
  have mx := near_max na nb
  have mn := near_min na nb
  have hlo : 0 < min qa qb := lt_min qa0 qb0
  have hhi : 0 < max qa qb := lt_max_of_lt_left qa0
  have hle : min qa qb ≤ max qa qb := min_le_max
  set lo := min qa qb
  set hi := max qa qb
  have hB := root_pos (Q := Q) hlo
  have hAB := hQ.mono hlo.le hle
  have hS : 0 ≤ R.sub (Q.rt hi) (Q.rt lo) := fl_nonneg (sub_nonneg.mpr hAB)
  let c : UICurve K := ⟨p2, tkn, Q.rt lo, R.sub (Q.rt hi) (Q.rt lo), yint, y⟩
  have hc : Sound c := ⟨hB, hS, hz, h0, h1⟩
  have nb' : R.Near 4 (pbRaw R c) (min (rawOf (p.hasBase tkn) pa) (rawOf (p.hasBase tkn) pb)) := by
    have e1 : R.Near 1 (pbRaw R c) (Q.rt lo ^ 2) := by
      rw [pow_two]; exact Rounding.near_fl (mul_self_nonneg _)
    exact e1.trans (root_near mn (le_min ra.le rb.le))
  have na' : R.Near 8 (paRaw R c) (max (rawOf (p.hasBase tkn) pa) (rawOf (p.hasBase tkn) pb)) := by
    have e1 : R.Near 2 (R.add c.S c.B) (Q.rt hi) := by
      have := (Rounding.near_sub (R := R) hAB).add (near_input (Q.rt lo)) (sub_nonneg.mpr hAB) hB.le
      rwa [sub_add_cancel] at this
    have e2 := e1.sq (Q.rt_nonneg hi)
    exact e2.trans (root_near mx (le_max_of_le_left ra.le))
  have pos_b : 0 < pbRaw R c := nb'.pos (lt_min ra rb)
  have pos_a : 0 < paRaw R c := na'.pos (lt_max_of_lt_left ra)
  refine ⟨c, ?_, t1, t2, rfl, rfl, rfl, hc, nb', na'⟩
  unfold fromPrices
  rw [hm, Py.ok_bind]
  simp only [not_lt.mpr hz.le, not_lt.mpr h1, not_lt.mpr h0, if_false, ea, eb, Py.ok_bind, orderPrices_eq]
  rw [sqrt_ok hlo.le, Py.ok_bind, sqrt_ok hhi.le, Py.ok_bind]
  unfold make
  rw [em, Py.ok_bind]
  have ek : conv R c (paRaw R c) = .ok (if c.reverseq then R.fl (1 / paRaw R c) else paRaw R c) := by
    unfold conv; split
    · exact div_ok pos_a.ne'
    · rfl
  have el : conv R c (pbRaw R c) = .ok (if c.reverseq then R.fl (1 / pbRaw R c) else pbRaw R c) := by
    unfold conv; split
    · exact div_ok pos_b.ne'
    · rfl
  have hdis := not_disabled (R := R) hc
  rw [hu]
  simp only [ht2, Bool.not_true, Bool.false_eq_true, if_false]
  show (if disabled R c = true then _ else _) = _
  rw [hdis]
  simp only [Bool.false_eq_true, if_false]
  show (do let _ ← conv R c (paRaw R c); let _ ← conv R c (pbRaw R c); Except.ok c) = _
  rw [ek, el]; rfl

theorem inv_max_min {a b : K} (ha : 0 < a) (hb : 0 < b) : 1 / max (1 / a) (1 / b) = min a b ∧ 1 / min (1 / a) (1 / b) = max a b := by
  rcases le_total a b with h | h
  · have := one_div_le_one_div_of_le ha h
    rw [max_eq_left this, min_eq_right this, min_eq_left h, max_eq_right h]; simp
  · have := one_div_le_one_div_of_le hb h
    rw [max_eq_right this, min_eq_left this, min_eq_right h, max_eq_left h]; simp

theorem conv_near {c : UICurve K} {n : ℕ} {a b : K} (h : R.Near n a b) (hb : 0 < b) :
    ∃ x, conv R c a = .ok x ∧ R.Near (n + 1) x (rawOf c.reverseq b) := by
  unfold conv rawOf
  split
  · refine ⟨_, div_ok (h.pos hb).ne', ?_⟩
    have h1 : R.Near n (1 / a) (1 / b) := by rw [one_div, one_div]; exact h.inv hb
    have h2 := (Rounding.near_fl (R := R) (b := 1 / a) (by have := h.pos hb; positivity)).trans h1
    rwa [add_comm 1] at h2
  · exact ⟨a, rfl, h.mono hb.le (by omega)⟩

/-- The ends of the range of a curve made from two prices are these prices, up to nine and five roundings; it holds what was asked for. -/
theorem C149_from_prices (hQ : Q.Regular) (s : Str) (p : CarbonPair) (hm : CarbonPair.make (.str s) none none = .ok p)
    (hd : p.tknb ≠ p.tknq) (tkn : Str) (ht : tkn = p.tknb ∨ tkn = p.tknq) (pa pb yint y : K) (ha : 0 < pa) (hb : 0 < pb) (hz : 0 < yint)
    (h0 : 0 ≤ y) (h1 : y ≤ yint) (hu : 9 * R.u < 1) :
    ∃ c a b, fromPrices Q (.str s) tkn pa pb yint y = .ok c ∧ Sound c ∧ c.tkn = tkn ∧ c.y = y ∧ c.yint = yint ∧
      conv R c (paRaw R c) = .ok a ∧ conv R c (pbRaw R c) = .ok b ∧
      (tkn = p.tknb → |a - min pa pb| ≤ 9 * R.u / (1 - 9 * R.u) * min pa pb ∧ |b - max pa pb| ≤ 5 * R.u / (1 - 5 * R.u) * max pa pb) ∧
      (tkn = p.tknq → |a - max pa pb| ≤ 9 * R.u / (1 - 9 * R.u) * max pa pb ∧ |b - min pa pb| ≤ 5 * R.u / (1 - 5 * R.u) * min pa pb) := by
  obtain ⟨c, hc, t1, _, t3, e1, e2, hs, nb, na⟩ := fromPrices_near hQ s p hm tkn ht pa pb yint y ha hb h0 h1 hz
  have ra := rawOf_pos (b := p.hasBase tkn) ha
  have rb := rawOf_pos (b := p.hasBase tkn) hb
  obtain ⟨a, ea, na⟩ := conv_near (c := c) na (lt_max_of_lt_left ra)
  obtain ⟨b, eb, nb⟩ := conv_near (c := c) nb (lt_min ra rb)
  have hmin : 0 ≤ min pa pb := le_min ha.le hb.le
  have hmax : 0 ≤ max pa pb := le_max_of_le_left ha.le
  have hu5 : ((5 : ℕ) : K) * R.u < 1 := by push_cast; linarith [R.u_nonneg]
  have hu9 : ((9 : ℕ) : K) * R.u < 1 := by push_cast; exact hu
  refine ⟨c, a, b, hc, hs, t3, e2, e1, ea, eb, fun hb' => ?_, fun hq => ?_⟩
  · have h1 : p.hasBase tkn = true := by simp [CarbonPair.hasBase, hb']
    have h2 : c.reverseq = true := by simp [UICurve.reverseq, CarbonPair.hasBase, t3, t1, hb']
    rw [h1, h2] at na nb
    simp only [rawOf, if_true] at na nb
    rw [(inv_max_min ha hb).1] at na
    rw [(inv_max_min ha hb).2] at nb
    exact ⟨by simpa using na.relative hmin hu9, by simpa using nb.relative hmax hu5⟩
  · have hne : tkn ≠ p.tknb := by rw [hq]; exact hd.symm
    have h1 : p.hasBase tkn = false := by simp [CarbonPair.hasBase, hne]
    have h2 : c.reverseq = false := by simp [UICurve.reverseq, CarbonPair.hasBase, t3, t1, hne]
    rw [h1, h2] at na nb
    simp only [rawOf, Bool.false_eq_true, if_false] at na nb
    exact ⟨by simpa using na.relative hmax hu9, by simpa using nb.relative hmin hu5⟩

/-! ### The amount sold to reach a price -/

/-- `yfromp_f` on a raw price within the range, without the comparison with the holdings. -/
def target (Q : R.Root) (c : UICurve K) (d : K) : K := R.fl (R.mul c.yint (R.sub (Q.rt d) c.B) / c.S)

theorem target_mono (hR : R.Regular) (hQ : Q.Regular) {c : UICurve K} (h : Sound c) (hS : 0 < c.S) {d e : K} (h0 : 0 ≤ d) (hde : d ≤ e) :
    target Q c d ≤ target Q c e := by
  have h1 := hQ.mono h0 hde
  have h2 : R.sub (Q.rt d) c.B ≤ R.sub (Q.rt e) c.B := hR.mono (by linarith)
  exact hR.mono (div_le_div_of_nonneg_right (mul_le' hR h.hyint.le h2) hS.le)

theorem pbRaw_pos {c : UICurve K} (h : Sound c) : 0 < pbRaw R c := fl_pos (mul_pos h.hB h.hB)

/-- At the end of the range the target is empty. -/
theorem target_end (hQ : Q.Regular) {c : UICurve K} (h : Sound c) (hB : R.Rep c.B) : target Q c (pbRaw R c) = 0 := by
  have : Q.rt (pbRaw R c) = c.B := hQ.square h.hB.le hB
  unfold target Rounding.mul Rounding.sub
  rw [this, sub_self, Rounding.fl_zero, mul_zero, Rounding.fl_zero, zero_div, Rounding.fl_zero]

theorem target_nonneg (hR : R.Regular) (hQ : Q.Regular) {c : UICurve K} (h : Sound c) (hS : 0 < c.S) (hB : R.Rep c.B) {d : K}
    (hd : pbRaw R c ≤ d) : 0 ≤ target Q c d := by
  rw [← target_end hQ h hB]
  exact target_mono hR hQ h hS (pbRaw_pos h).le hd

theorem pb_le_pa (hR : R.Regular) {c : UICurve K} (h : Sound c) (hB : R.Rep c.B) : pbRaw R c ≤ paRaw R c := by
  unfold pbRaw paRaw Rounding.mul
  rw [hR.square]
  have : c.B ≤ R.add c.S c.B := by
    calc c.B = R.fl c.B := hB.symm
      _ ≤ _ := hR.mono (by have := h.hS; linarith)
  exact hR.mono (mul_self_le_mul_self h.hB.le this)

theorem amount_range (hR : R.Regular) {y t : K} (hy : R.Rep y) (ht : 0 ≤ t) (h0 : 0 ≤ y) :
    0 ≤ (if t ≤ y then R.sub y t else 0) ∧ (if t ≤ y then R.sub y t else 0) ≤ y := by
  split
  · next h =>
    refine ⟨fl_nonneg (sub_nonneg.mpr h), ?_⟩
    calc R.fl (y - t) ≤ R.fl y := hR.mono (by linarith)
      _ = y := hy
  · exact ⟨le_rfl, h0⟩

theorem amount_anti (hR : R.Regular) {y s t : K} (hst : s ≤ t) : (if t ≤ y then R.sub y t else 0) ≤ if s ≤ y then R.sub y s else 0 := by
  by_cases ht : t ≤ y
  · rw [if_pos ht, if_pos (le_trans hst ht)]
    exact hR.mono (by linarith)
  · rw [if_neg ht]
    split
    · next h => exact fl_nonneg (sub_nonneg.mpr h)
    · exact le_rfl

/-- The outcome of `tradeto`'s first step, by raw price. -/
theorem amount_of_raw {c : UICurve K} (h : Sound c) (hS : 0 < c.S) {p d : K} (hp : rawPrice R c p = .ok d) :
    (paRaw R c < d → tradetoAmount Q c p = .ok 0) ∧
    (d ≤ paRaw R c → pbRaw R c ≤ d → tradetoAmount Q c p = .ok (if target Q c d ≤ c.y then R.sub c.y (target Q c d) else 0)) := by
  have hB := h.hB
  refine ⟨fun h1 => ?_, fun h1 h2 => ?_⟩
  · have : dyfrompF Q c p true true = .error (.custom "BeyondStart") := by
      unfold dyfrompF yfrompF
      rw [if_neg (by intro hh; exact hB.ne' hh.1), hp, Py.ok_bind]
      simp [h1, UICurve.failWith]
    unfold tradetoAmount; rw [this]; rfl
  · have hd : 0 ≤ d := le_trans (pbRaw_pos h).le h2
    have e : yfrompF Q c p true true = if target Q c d ≤ c.y then .ok (some (target Q c d)) else .error (.custom "BeyondMarg") := by
      unfold yfrompF
      rw [hp, Py.ok_bind, sqrt_ok hd, Py.ok_bind, div_ok hS.ne', Py.ok_bind]
      simp only [not_lt.mpr h1, not_lt.mpr h2, gt_iff_lt, decide_false, Bool.and_false, Bool.false_eq_true, if_false, Bool.true_and,
        decide_eq_true_eq]
      change (if c.y < target Q c d then _ else Except.ok (some (target Q c d))) = _
      by_cases ht : target Q c d ≤ c.y
      · rw [if_neg (not_lt.mpr ht), if_pos ht]
      · rw [if_pos (not_le.mp ht), if_neg ht]; rfl
    have e2 : dyfrompF Q c p true true = if target Q c d ≤ c.y then .ok (R.sub c.y (target Q c d)) else .error (.custom "BeyondMarg") := by
      unfold dyfrompF
      rw [if_neg (by intro hh; exact hB.ne' hh.1), e]
      split <;> rfl
    unfold tradetoAmount
    rw [e2]
    by_cases ht : target Q c d ≤ c.y
    · simp only [if_pos ht]
    · simp only [if_neg ht]

/-- Trading to the end of the range or beyond sells everything, exactly, if the curve sells the quote token. -/
theorem C149_end (hR : R.Regular) (hQ : Q.Regular) (c : UICurve K) (h : Sound c) (hS : 0 < c.S) (hB : R.Rep c.B) (hy : R.Rep c.y)
    (hq : c.pair.hasQuote c.tkn = true) (hb : c.pair.hasBase c.tkn = false) (p : K) (hp : p ≤ pbRaw R c) :
    tradetoAmount Q c p = .ok c.y := by
  have hy' : R.sub c.y 0 = c.y := by unfold Rounding.sub; rw [sub_zero]; exact hy
  have raw : ∀ x, rawPrice R c x = .ok x := fun x => by unfold rawPrice; rw [if_pos hq]
  have hB0 := h.hB
  have hend := target_end hQ h hB
  have e : dyfrompF Q c (pbRaw R c) false false = .ok c.y := by
    unfold dyfrompF yfrompF
    rw [if_neg (by intro hh; exact hB0.ne' hh.1), raw, Py.ok_bind, sqrt_ok (pbRaw_pos h).le, Py.ok_bind, div_ok hS.ne', Py.ok_bind]
    change Except.ok (R.sub c.y (target Q c (pbRaw R c))) = _
    rw [hend, hy']
  have hab := pb_le_pa hR h hB
  rcases eq_or_lt_of_le hp with he | hl
  · rw [he, (amount_of_raw h hS (raw _)).2 hab le_rfl, hend, if_pos h.hy0, hy']
  · have : dyfrompF Q c p true true = .error (.custom "BeyondEnd") := by
      unfold dyfrompF yfrompF
      rw [if_neg (by intro hh; exact hB0.ne' hh.1), raw, Py.ok_bind]
      simp [hl, not_lt.mpr (le_trans hp hab)]
    unfold tradetoAmount
    rw [this]
    unfold conv UICurve.reverseq
    rw [hb]
    exact e

/-- A sale of the whole holdings that goes through leaves exactly nothing. -/
theorem C149_empties (hR : R.Regular) (hQ : Q.Regular) (w : World K) (h : Sound w.self) (hS : 0 < w.self.S) (hB : R.Rep w.self.B)
    (hy : R.Rep w.self.y) (hq : w.self.pair.hasQuote w.self.tkn = true) (hb : w.self.pair.hasBase w.self.tkn = false)
    (he : eps R ≤ w.self.y) (p : K) (hp : p ≤ pbRaw R w.self) (s : Sale K) (w' : World K) (hr : tradeto Q w p = (.ok s, w')) :
    w'.self.y = 0 ∧ w'.self.yint = w.self.yint ∧ s.dy = w.self.y ∧ s.y = 0 := by
  unfold tradeto at hr
  simp only [if_neg h.hyint.ne', C149_end hR hQ w.self h hS hB hy hq hb p hp] at hr
  have e0 : 0 < eps R := fl_pos (by positivity)
  have hr' : (match (selly R w w.self.y true false false true).1 with
    | .error e => (Except.error e, (selly R w w.self.y true false false true).2)
    | .ok none => (Except.error (Err.custom "RuntimeError"), (selly R w w.self.y true false false true).2)
    | .ok (some s) => (Except.ok s, (selly R w w.self.y true false false true).2)) = ((.ok s, w') : Py (Sale K) × World K) := hr
  have key : ∀ o, (selly R w w.self.y true false false true).1 = .ok (some o) →
      (selly R w w.self.y true false false true).2.self.y = 0 ∧
      (selly R w w.self.y true false false true).2.self.yint = w.self.yint ∧ o.dy = w.self.y ∧ o.y = 0 := by
    intro o
    have e1 : selly R w w.self.y true false false true = sellyCore R w w.self.y true false true := by
      unfold selly
      rw [if_neg (by intro hh; exact absurd hh.1 (not_lt.mpr h.hy0))]
      dsimp only
      have hn : ¬(w.self.y < 0 ∧ (!false) = true) := fun hh => absurd hh.1 (not_lt.mpr h.hy0)
      simp only [if_neg hn]
      rw [if_neg (by rw [abs_of_nonneg h.hy0]; exact not_lt.mpr he)]
    rw [e1]
    have e2 : R.sub w.self.y w.self.y = 0 := by unfold Rounding.sub; rw [sub_self, Rounding.fl_zero]
    unfold sellyCore
    dsimp only
    rw [e2]
    split
    · intro hh; simp at hh
    · intro hh; simp at hh
    · rw [if_neg (by linarith), if_neg (not_lt.mpr h.hyint.le), if_neg (lt_irrefl _)]
      unfold sellyFinish
      split
      · intro hh; simp at hh
      · intro hh; simp at hh
      · dsimp only
        simp only [if_true]
        unfold creditLinked
        cases hl : w.linked with
        | none =>
          dsimp only
          split
          · intro hh; simp at hh
          · intro hh
            simp only [Except.ok.injEq, Option.some.injEq] at hh
            subst hh
            exact ⟨rfl, rfl, rfl, rfl⟩
        | some l =>
          dsimp only
          split
          · intro hh; simp at hh
          · split
            · intro hh; simp at hh
            · intro hh
              simp only [Except.ok.injEq, Option.some.injEq] at hh
              subst hh
              exact ⟨rfl, rfl, rfl, rfl⟩
  split at hr'
  · simp at hr'
  · simp at hr'
  · next o ho =>
    simp only [Prod.mk.injEq, Except.ok.injEq] at hr'
    obtain ⟨rfl, rfl⟩ := hr'
    exact key _ ho

/-- The amount is never negative and never more than the holdings, if the curve sells the quote token. -/
theorem C149_amount (hR : R.Regular) (hQ : Q.Regular) (c : UICurve K) (h : Sound c) (hS : 0 < c.S) (hB : R.Rep c.B) (hy : R.Rep c.y)
    (hq : c.pair.hasQuote c.tkn = true) (hb : c.pair.hasBase c.tkn = false) (p : K) :
    ∃ a, tradetoAmount Q c p = .ok a ∧ 0 ≤ a ∧ a ≤ c.y := by
  have raw : rawPrice R c p = .ok p := by unfold rawPrice; rw [if_pos hq]
  obtain ⟨h1, h2⟩ := amount_of_raw (Q := Q) h hS raw
  by_cases ha : paRaw R c < p
  · exact ⟨0, h1 ha, le_rfl, h.hy0⟩
  · by_cases hp : pbRaw R c ≤ p
    · refine ⟨_, h2 (not_lt.mp ha) hp, ?_⟩
      exact amount_range hR hy (target_nonneg hR hQ h hS hB hp) h.hy0
    · exact ⟨c.y, C149_end hR hQ c h hS hB hy hq hb p (not_le.mp hp).le, h.hy0, le_rfl⟩

/-- The further the price is to move, the more is sold. -/
theorem C149_order (hR : R.Regular) (hQ : Q.Regular) (c : UICurve K) (h : Sound c) (hS : 0 < c.S) (hB : R.Rep c.B) (hy : R.Rep c.y)
    (hq : c.pair.hasQuote c.tkn = true) (hb : c.pair.hasBase c.tkn = false) (p q : K) (hpq : p ≤ q) :
    ∃ a b, tradetoAmount Q c p = .ok a ∧ tradetoAmount Q c q = .ok b ∧ b ≤ a := by
  obtain ⟨a, ea, a0, a1⟩ := C149_amount hR hQ c h hS hB hy hq hb p
  obtain ⟨b, eb, b0, b1⟩ := C149_amount hR hQ c h hS hB hy hq hb q
  refine ⟨a, b, ea, eb, ?_⟩
  have raw : ∀ x, rawPrice R c x = .ok x := fun x => by unfold rawPrice; rw [if_pos hq]
  by_cases hp : p ≤ pbRaw R c
  · rw [C149_end hR hQ c h hS hB hy hq hb p hp] at ea
    cases ea; exact b1
  · have hp := (not_le.mp hp).le
    by_cases ha : paRaw R c < q
    · rw [(amount_of_raw h hS (raw q)).1 ha] at eb
      cases eb; exact a0
    · have ha := not_lt.mp ha
      rw [(amount_of_raw h hS (raw q)).2 ha (le_trans hp hpq)] at eb
      rw [(amount_of_raw h hS (raw p)).2 (le_trans hpq ha) hp] at ea
      cases ea; cases eb
      exact amount_anti hR (target_mono hR hQ h hS (le_trans (pbRaw_pos h).le hp) hpq)

/-! ### The error of the target -/

/-- The distance of the computed target from the exact one, as a multiple of the capacity, is up to a few roundings divided by the relative
width of the range. -/
theorem C149_target_partial (c : UICurve K) (h : Sound c) (hS : 0 < c.S) (hu : R.u ≤ 1 / 100) (p d s : K) (hp : 0 < p)
    (hd : d = if c.pair.hasQuote c.tkn then p else 1 / p) (hs : 0 ≤ s) (hsd : s * s = d) (hB : c.B ≤ s) :
    ∃ a, yfrompF Q c p false false = .ok (some a) ∧ |a - c.yint * (s - c.B) / c.S| ≤ 6 * R.u * (c.yint * s / c.S) := by
  have hu0 := R.u_nonneg
  have hz := h.hyint
  have ht : 0 < 1 - R.u := Rounding.t_pos
  obtain ⟨q, hq, nq⟩ : ∃ q, rawPrice R c p = .ok q ∧ R.Near 1 q d := by
    unfold rawPrice
    rw [hd]
    split
    · exact ⟨p, rfl, (near_input p).mono hp.le (by omega)⟩
    · exact ⟨_, div_ok hp.ne', Rounding.near_fl (by positivity)⟩
  have hd0 : 0 < d := by rw [hd]; split <;> positivity
  have hq0 := nq.pos hd0
  have nr : R.Near 3 (Q.rt q ^ 2) d := root_near nq hd0.le
  have nr4 := nr.mono hd0.le (show 3 ≤ 4 by omega)
  rw [← hsd, ← pow_two] at nr4
  have r0 := Q.rt_nonneg q
  -- the computed root is within two roundings of the exact one
  have r1 : s * (1 - R.u) ^ 2 ≤ Q.rt q := by
    refine le_of_sq_le_sq ?_ r0
    calc (s * (1 - R.u) ^ 2) ^ 2 = s ^ 2 * (1 - R.u) ^ 4 := by ring
      _ ≤ _ := nr4.1
  have r2 : Q.rt q * (1 - R.u) ^ 2 ≤ s := by
    refine le_of_sq_le_sq ?_ hs
    calc (Q.rt q * (1 - R.u) ^ 2) ^ 2 = Q.rt q ^ 2 * (1 - R.u) ^ 4 := by ring
      _ ≤ _ := nr4.2
  have t2 : 1 - 2 * R.u ≤ (1 - R.u) ^ 2 := by nlinarith
  have r1' : s - 2 * R.u * s ≤ Q.rt q := by nlinarith
  have r2' : Q.rt q ≤ s + 21 / 10 * R.u * s := by
    by_contra hc
    have hc := not_le.mp hc
    have k1 : Q.rt q * (1 - 2 * R.u) ≤ s := le_trans (mul_le_mul_of_nonneg_left t2 r0) r2
    have k2 : 0 < 1 - 2 * R.u := by linarith
    have k3 : (s + 21 / 10 * R.u * s) * (1 - 2 * R.u) < s := lt_of_lt_of_le (mul_lt_mul_of_pos_right hc k2) k1
    have k4 : (s + 21 / 10 * R.u * s) * (1 - 2 * R.u) = s + s * (R.u * (1 / 10 - 42 / 10 * R.u)) := by ring
    have k5 : 0 ≤ s * (R.u * (1 / 10 - 42 / 10 * R.u)) := mul_nonneg hs (mul_nonneg hu0 (by linarith))
    linarith
  have hus : 0 ≤ R.u * s := mul_nonneg hu0 hs
  have hus' : R.u * s ≤ 1 / 100 * s := mul_le_mul_of_nonneg_right hu hs
  have d0 : |(Q.rt q - c.B) - (s - c.B)| ≤ 21 / 10 * (R.u * s) := by rw [abs_le]; constructor <;> linarith
  have dM : |Q.rt q - c.B| ≤ 1021 / 1000 * s := by
    have := h.hB
    rw [abs_le]; constructor <;> linarith
  set M := 1021 / 1000 * s with hM
  have hM0 : 0 ≤ M := by positivity
  set D := Q.rt q - c.B with hD
  have b1 : |R.sub (Q.rt q) c.B - D| ≤ R.u * M := le_trans (R.fl_err D) (mul_le_mul_of_nonneg_left dM hu0)
  set a1 := R.sub (Q.rt q) c.B
  have huM : R.u * M ≤ 1 / 100 * M := mul_le_mul_of_nonneg_right hu hM0
  have m1 : |a1| ≤ 101 / 100 * M := by
    obtain ⟨x1, x2⟩ := abs_le.mp b1
    obtain ⟨x3, x4⟩ := abs_le.mp dM
    rw [abs_le]; constructor <;> linarith
  have m1' : |c.yint * a1| ≤ c.yint * (101 / 100 * M) := by
    rw [abs_mul, abs_of_pos hz]; exact mul_le_mul_of_nonneg_left m1 hz.le
  have b2 : |R.mul c.yint a1 - c.yint * a1| ≤ R.u * (c.yint * (101 / 100 * M)) :=
    le_trans (R.fl_err _) (mul_le_mul_of_nonneg_left m1' hu0)
  set a2 := R.mul c.yint a1
  have hzM : 0 ≤ c.yint * (101 / 100 * M) := by positivity
  have huzM : R.u * (c.yint * (101 / 100 * M)) ≤ 1 / 100 * (c.yint * (101 / 100 * M)) := mul_le_mul_of_nonneg_right hu hzM
  have m2 : |a2| ≤ c.yint * (10201 / 10000 * M) := by
    obtain ⟨x1, x2⟩ := abs_le.mp b2
    obtain ⟨x3, x4⟩ := abs_le.mp m1'
    rw [abs_le]; constructor <;> linarith
  have m2' : |a2 / c.S| ≤ c.yint * (10201 / 10000 * M) / c.S := by
    rw [abs_div, abs_of_pos hS]; exact div_le_div_of_nonneg_right m2 hS.le
  have b3 : |R.fl (a2 / c.S) - a2 / c.S| ≤ R.u * (c.yint * (10201 / 10000 * M) / c.S) :=
    le_trans (R.fl_err _) (mul_le_mul_of_nonneg_left m2' hu0)
  refine ⟨R.fl (a2 / c.S), ?_, ?_⟩
  · unfold yfrompF
    rw [hq, Py.ok_bind, sqrt_ok hq0.le, Py.ok_bind, div_ok hS.ne', Py.ok_bind]
    rfl
  · have c2 : |a2 / c.S - c.yint * a1 / c.S| ≤ R.u * (c.yint * (101 / 100 * M)) / c.S := by
      rw [← sub_div, abs_div, abs_of_pos hS]; exact div_le_div_of_nonneg_right b2 hS.le
    have c1 : |c.yint * a1 / c.S - c.yint * D / c.S| ≤ c.yint * (R.u * M) / c.S := by
      rw [← sub_div, ← mul_sub, abs_div, abs_mul, abs_of_pos hS, abs_of_pos hz]
      exact div_le_div_of_nonneg_right (mul_le_mul_of_nonneg_left b1 hz.le) hS.le
    have c0 : |c.yint * D / c.S - c.yint * (s - c.B) / c.S| ≤ c.yint * (21 / 10 * (R.u * s)) / c.S := by
      rw [← sub_div, ← mul_sub, abs_div, abs_mul, abs_of_pos hS, abs_of_pos hz]
      exact div_le_div_of_nonneg_right (mul_le_mul_of_nonneg_left d0 hz.le) hS.le
    have tri : |R.fl (a2 / c.S) - c.yint * (s - c.B) / c.S| ≤ R.u * (c.yint * (10201 / 10000 * M) / c.S) +
        R.u * (c.yint * (101 / 100 * M)) / c.S + c.yint * (R.u * M) / c.S + c.yint * (21 / 10 * (R.u * s)) / c.S := by
      have := abs_le.mp b3; have := abs_le.mp c2; have := abs_le.mp c1; have := abs_le.mp c0
      rw [abs_le]; constructor <;> linarith
    refine le_trans tri ?_
    have hk : 0 ≤ R.u * (c.yint * s / c.S) := by positivity
    have e : R.u * (c.yint * (10201 / 10000 * M) / c.S) + R.u * (c.yint * (101 / 100 * M)) / c.S + c.yint * (R.u * M) / c.S +
        c.yint * (21 / 10 * (R.u * s)) / c.S = ((10201 / 10000 + 101 / 100 + 1) * (1021 / 1000) + 21 / 10) * (R.u * (c.yint * s / c.S)) := by
      rw [hM]; ring
    rw [e]
    nlinarith

/-! ### Where exact arithmetic and floats part -/

/-- Ten thousand ETH for sale between 1040 and 1050 USDC. -/
def shortRange : UICurve ℚ :=
  match fromPrices Rounding.doubleRoot (.str "ETH/USDC".toList) "ETH".toList 1040 1050 10000 10000 with
  | .ok c => c
  | .error _ => sampleLinked

/-- A curve selling the base token cannot be traded to the end of its range: the amount comes out larger than the holdings and the sale is
refused. -/
theorem C149_end_violated : ∃ c : UICurve ℚ,
    fromPrices Rounding.doubleRoot (.str "ETH/USDC".toList) "ETH".toList 1040 1050 10000 10000 = .ok c ∧ Sound c ∧ 0 < c.S ∧
    (∃ a, tradetoAmount Rounding.doubleRoot c 1100 = .ok a ∧ c.y < a) ∧
    (tradeto Rounding.doubleRoot ⟨c, none⟩ 1100).1 = .error .value := by
  refine ⟨shortRange, by decide +kernel, ⟨by decide +kernel, by decide +kernel, by decide +kernel, by decide +kernel, by decide +kernel⟩,
    by decide +kernel, ⟨(tradetoAmount Rounding.doubleRoot shortRange 1100).toOption.getD 0, by decide +kernel, by decide +kernel⟩, by decide +kernel⟩

/-- A curve that is full is not found at its own price. -/
theorem C149_start_violated : ∃ (c : UICurve ℚ) (p : ℚ), Sound c ∧ Rounding.double.Rep c.B ∧ Rounding.double.Rep c.S ∧
    Rounding.double.Rep c.y ∧ 0 < c.y ∧ pMarg .double c = .ok (some p) ∧ yfrompF Rounding.doubleRoot c p = .ok none ∧
    yfrompF Rounding.doubleRoot c p true true = .error (.custom "BeyondStart") := by
  refine ⟨tenth, rawAt .double tenth 3, ⟨by norm_num [tenth], by norm_num [tenth], by norm_num [tenth], by norm_num [tenth], by norm_num [tenth]⟩,
    by unfold Rounding.Rep; decide +kernel, by unfold Rounding.Rep; decide +kernel, by unfold Rounding.Rep; decide +kernel,
    by decide +kernel, by decide +kernel, by decide +kernel, by decide +kernel⟩

/-- A range one step wide around one third. -/
def narrow : UICurve ℚ := ⟨CarbonPair.ethUsdc, "ETH".toList, Rounding.double.fl (1 / 3), 1 / 2 ^ 54, 3, 3⟩

/-- On a narrow range the target is off by a third of the capacity. -/
theorem C149_target_violated : ∃ (c : UICurve ℚ) (p s a : ℚ), Sound c ∧ 0 < c.S ∧ Rounding.double.Rep c.B ∧ Rounding.double.Rep c.S ∧
    0 < p ∧ c.pair.hasQuote c.tkn = false ∧ s * s = 1 / p ∧ c.B ≤ s ∧ s ≤ c.B + c.S ∧ yfrompF Rounding.doubleRoot c p = .ok (some a) ∧
    c.yint / 3 ≤ |a - c.yint * (s - c.B) / c.S| := by
  refine ⟨narrow, 9, 1 / 3, 0, ⟨by decide +kernel, by decide +kernel, by decide +kernel, by decide +kernel, by decide +kernel⟩,
    by decide +kernel, by unfold Rounding.Rep; decide +kernel, by unfold Rounding.Rep; decide +kernel, by norm_num, by decide +kernel,
    by norm_num, by decide +kernel, by decide +kernel, by decide +kernel, by decide +kernel⟩

/-! ### Instances -/

section Examples

theorem pairOk : CarbonPair.make (.str "ETH/USDC".toList) none none =
    .ok (CarbonPair.finish "ETH".toList "USDC".toList false none none) := by decide +kernel

example := C149_from_prices Rounding.doubleRoot_regular "ETH/USDC".toList _ pairOk (by decide +kernel) "ETH".toList
  (.inl (by decide +kernel)) 2000 2500 10 5 (by norm_num) (by norm_num) (by norm_num) (by norm_num) (by norm_num) (by decide +kernel)

theorem sample_proper : sampleCurve.pair.hasQuote sampleCurve.tkn = true ∧ sampleCurve.pair.hasBase sampleCurve.tkn = false := by decide +kernel

example := C149_exact ⟨UICurve.realCurve, none⟩ 2 true false true (.str "ETH/USDC".toList) "ETH".toList 2000 2500 10 5
  (by norm_num [UICurve.realCurve])
example := C149_end Rounding.double_regular Rounding.doubleRoot_regular sampleCurve sample_sound (by decide +kernel)
  (by unfold Rounding.Rep; decide +kernel) (by unfold Rounding.Rep; decide +kernel) sample_proper.1 sample_proper.2 (1 / 2) (by decide +kernel)
example := C149_amount Rounding.double_regular Rounding.doubleRoot_regular sampleCurve sample_sound (by decide +kernel)
  (by unfold Rounding.Rep; decide +kernel) (by unfold Rounding.Rep; decide +kernel) sample_proper.1 sample_proper.2 (3 / 2)
example := C149_order Rounding.double_regular Rounding.doubleRoot_regular sampleCurve sample_sound (by decide +kernel)
  (by unfold Rounding.Rep; decide +kernel) (by unfold Rounding.Rep; decide +kernel) sample_proper.1 sample_proper.2 (5 / 4) (3 / 2) (by norm_num)
example := C149_target_partial (Q := Rounding.doubleRoot) sampleLinked sampleLinked_sound (by decide +kernel) (by decide +kernel) 4 (1 / 4) (1 / 2)
  (by norm_num) (by decide +kernel) (by norm_num) (by norm_num) (by decide +kernel)

theorem sampleAll_ok : ∃ s w, tradeto Rounding.doubleRoot ⟨sampleCurve, none⟩ (1 / 2) = (.ok s, w) := by
  have h : (tradeto Rounding.doubleRoot ⟨sampleCurve, none⟩ (1 / 2)).1.toOption.isSome = true := by decide +kernel
  generalize tradeto Rounding.doubleRoot ⟨sampleCurve, none⟩ (1 / 2) = r at h ⊢
  obtain ⟨r1, r2⟩ := r
  cases r1 with
  | error e => simp [Except.toOption] at h
  | ok s => exact ⟨s, r2, rfl⟩

example : ∃ w : World ℚ, w.self.y = 0 ∧ w.self.yint = 100 := by
  obtain ⟨s, w, h⟩ := sampleAll_ok
  have := C149_empties Rounding.double_regular Rounding.doubleRoot_regular ⟨sampleCurve, none⟩ sample_sound (by decide +kernel)
    (by unfold Rounding.Rep; decide +kernel) (by unfold Rounding.Rep; decide +kernel) sample_proper.1 sample_proper.2 (by decide +kernel) (1 / 2)
    (by decide +kernel) s w h
  exact ⟨w, this.1, by rw [this.2.1]; rfl⟩

end Examples

end FloatUI

end Carbon
