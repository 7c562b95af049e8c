import Verif.Carbon.OrderUIFloat
import Verif.Carbon.OrderUILemmas
import Verif.Prop.OrderUI

/-!
# C147: accuracy of the curve functions in floating-point arithmetic
-/

set_option linter.unusedSectionVars false

namespace Carbon

open UICurve (Sound inConv pyDiv_ok sampleCurve sampleLinked sample_sound sampleLinked_sound)
open CarbonPair (pyDiv)

namespace FloatUI

variable {K : Type} [Field K] [LinearOrder K] [IsStrictOrderedRing K] {R : Rounding K}

/-! ### Without rounding the functions are the exact ones -/

theorem div_exact (a b : K) : (Rounding.exact (K := K)).div a b = pyDiv a b := rfl

theorem quotePrice_exact (c : UICurve K) (d : K) : quotePrice Rounding.exact c d = c.quotePrice d := rfl

theorem disabled_exact (c : UICurve K) : disabled Rounding.exact c = c.disabled := rfl

theorem add_exact (a b : K) : (Rounding.exact (K := K)).add a b = a + b := rfl

theorem sub_exact (a b : K) : (Rounding.exact (K := K)).sub a b = a - b := rfl

theorem mul_exact (a b : K) : (Rounding.exact (K := K)).mul a b = a * b := rfl

theorem sq_exact (a : K) : (Rounding.exact (K := K)).sq a = a ^ 2 := rfl

theorem pMargF_exact (c : UICurve K) (dy : K) (f cb r : Bool) : pMargF Rounding.exact c dy f cb r = c.pMargF dy f cb r := by
  unfold pMargF UICurve.pMargF
  simp only [disabled_exact, quotePrice_exact, add_exact, sub_exact, mul_exact, sq_exact, div_exact]
  by_cases hz : c.yint = 0
  · simp only [hz, if_true]
  · simp only [if_neg hz, pyDiv_ok hz, Py.ok_bind]
    rfl

theorem xfromyF_exact (c : UICurve K) (y : K) (cb r : Bool) : xfromyF Rounding.exact c y cb r = c.xfromyF y cb r := rfl

theorem addliqy_exact (c : UICurve K) (dy : K) (ec : Bool) : addliqy Rounding.exact c dy ec = c.addliqy dy ec := by
  unfold addliqy UICurve.addliqy pMarg UICurve.pMarg
  simp only [pMargF_exact]
  rfl

theorem creditLinked_exact (w : UICurve.World K) (dx : K) : creditLinked Rounding.exact w dx = UICurve.creditLinked w dx := by
  unfold creditLinked UICurve.creditLinked
  simp only [addliqy_exact]
  cases w.linked <;> rfl

theorem sellyFinish_exact (w : UICurve.World K) (dy ynew : K) (ex e : Bool) (yo : K) (po pn : Option K) :
    sellyFinish Rounding.exact w dy ynew ex e yo po pn = UICurve.sellyFinish w dy ynew ex e yo po pn := by
  unfold sellyFinish UICurve.sellyFinish
  simp only [creditLinked_exact, xfromyF_exact]
  rfl

theorem sellyCore_exact (w : UICurve.World K) (dy : K) (ex ec r : Bool) :
    sellyCore Rounding.exact w dy ex ec r = UICurve.sellyCore w dy ex ec r := by
  unfold sellyCore UICurve.sellyCore pMarg UICurve.pMarg
  simp only [pMargF_exact, sellyFinish_exact]
  rfl

theorem selly_exact (w : UICurve.World K) (dy : K) (ex an ec r : Bool) :
    selly Rounding.exact w dy ex an ec r = UICurve.selly w dy ex an ec r := by
  unfold selly UICurve.selly
  simp only [sellyCore_exact]
  rfl

/-- With a rounding that does nothing, every function is the one of the exact model. -/
theorem C147_exact (w : UICurve.World K) (a : K) (f ex an ec cb r : Bool) :
    pMargF Rounding.exact w.self a f cb r = w.self.pMargF a f cb r ∧
    pEffF Rounding.exact w.self a f cb r = w.self.pEffF a f cb r ∧
    xfromyF Rounding.exact w.self a cb r = w.self.xfromyF a cb r ∧ xint Rounding.exact w.self = w.self.xint ∧
    dyfromdxF Rounding.exact w.self a cb r = w.self.dyfromdxF a cb r ∧
    dxfromdyF Rounding.exact w.self a cb r = w.self.dxfromdyF a cb r ∧
    addliqy Rounding.exact w.self a ec = w.self.addliqy a ec ∧
    selly Rounding.exact w a ex an ec r = UICurve.selly w a ex an ec r ∧
    buyx Rounding.exact w a ex an ec r = UICurve.buyx w a ex an ec r := by
  refine ⟨pMargF_exact _ _ _ _ _, ?_, xfromyF_exact _ _ _ _, rfl, rfl, rfl, addliqy_exact _ _ _, selly_exact _ _ _ _ _ _, ?_⟩
  · unfold pEffF UICurve.pEffF
    simp only [pMargF_exact, xfromyF_exact, disabled_exact, quotePrice_exact, add_exact, sub_exact, sq_exact, div_exact]
    rfl
  · unfold buyx UICurve.buyx
    simp only [selly_exact]
    rfl

/-! ### Accuracy -/

theorem near_input (x : K) : R.Near 0 x x := Rounding.near_refl x

theorem scaled_near {c : UICurve K} (h : Sound c) : R.Near 2 (scaled R c) (c.S * c.y + c.B * c.yint) :=
  ((near_input c.S).mul (near_input c.y) h.hS h.hy0).add ((near_input c.B).mul (near_input c.yint) h.hB.le h.hyint.le)
    (mul_nonneg h.hS h.hy0) (mul_nonneg h.hB.le h.hyint.le)

/-- Value of `dyfromdx_f` on a sound curve. -/
theorem dyfromdxF_near {c : UICurve K} (h : Sound c) {dx : K} (hd : 0 ≤ dx) (cb r : Bool) :
    ∃ a, dyfromdxF R c dx cb r = .ok (some a) ∧ R.Near 12 a (dx * ((c.S * c.y + c.B * c.yint) ^ 2 /
      (c.S * dx * (c.S * c.y + c.B * c.yint) + c.yint ^ 2))) := by
  have hm := h.m_pos
  have hz := h.hyint
  have hS := h.hS
  have n1 : R.Near 5 (R.sq (scaled R c)) _ := (scaled_near h).sq hm.le
  have n2 : R.Near 4 (R.mul (R.mul c.S dx) (scaled R c)) _ :=
    ((near_input c.S).mul (near_input dx) hS hd).mul (scaled_near h) (mul_nonneg hS hd) hm.le
  have n3 : R.Near 1 (R.sq c.yint) _ := Rounding.near_sq c.yint
  have n4 : R.Near 5 _ _ := n2.add n3 (mul_nonneg (mul_nonneg hS hd) hm.le) (sq_nonneg _)
  obtain ⟨q, hq, n5⟩ := n1.div n4 (sq_nonneg _) (by positivity)
  refine ⟨R.mul dx q, ?_, ?_⟩
  · unfold dyfromdxF
    dsimp only
    rw [if_neg h.not_empty, if_neg, if_neg, hq]
    · rfl
    · have := n1.nonneg (sq_nonneg _)
      simp only [Bool.and_eq_true, decide_eq_true_eq, not_and, not_lt]; exact fun _ => this
    · simp only [Bool.and_eq_true, decide_eq_true_eq, not_and, not_lt]; exact fun _ => hd
  · have := (near_input (R := R) dx).mul n5 hd (by positivity)
    exact this

/-- The amount sold for a given amount has the relative error of twelve roundings. -/
theorem C147_dy (R : Rounding K) (c : UICurve K) (h : Sound c) (dx : K) (h0 : 0 ≤ dx) (hu : 12 * R.u < 1) (cb r : Bool) :
    ∃ a b, dyfromdxF R c dx cb r = .ok (some a) ∧ c.dyfromdxF dx cb r = .ok (some b) ∧
      |a - b| ≤ 12 * R.u / (1 - 12 * R.u) * b := by
  obtain ⟨a, ha, n⟩ := dyfromdxF_near (R := R) h h0 cb r
  have hm := h.m_pos
  have hz := h.hyint
  have hS := h.hS
  refine ⟨a, _, ha, UICurve.dyfromdxF_ok h h0 cb r, ?_⟩
  have := n.relative (by positivity) (by exact_mod_cast hu)
  exact_mod_cast this

theorem not_disabled {c : UICurve K} (h : Sound c) : disabled R c = false := by
  have := (((near_input c.B).mul (near_input c.B) h.hB.le h.hB.le : R.Near _ (pbRaw R c) _)).pos (mul_pos h.hB h.hB)
  have : pbRaw R c ≠ 0 := this.ne'
  simp [disabled, this]

/-- The price quoted from a raw price. -/
theorem quotePrice_near {c : UICurve K} {n : ℕ} {a b : K} (h : R.Near n a b) (hb : 0 < b) :
    ∃ p, quotePrice R c a = .ok (some p) ∧ R.Near (n + 1) p (c.inConv b) := by
  unfold quotePrice inConv
  split
  · exact ⟨a, rfl, h.mono hb.le (by omega)⟩
  · obtain ⟨p, hp, n⟩ := (near_input (R := R) 1).div h zero_le_one hb
    exact ⟨p, by rw [hp]; rfl, by rwa [Nat.zero_add] at n⟩

theorem inConv_nonneg {c : UICurve K} {b : K} (hb : 0 ≤ b) : 0 ≤ c.inConv b := by
  unfold inConv; split
  · exact hb
  · positivity

theorem pMargF_near {c : UICurve K} (h : Sound c) {dy : K} (hd : dy ≤ c.y) (cb r : Bool) (hcb : cb = true → 0 ≤ dy) :
    ∃ p, pMargF R c dy false cb r = .ok (some p) ∧ R.Near 10 p (c.inConv ((c.B + c.S * (c.y - dy) / c.yint) ^ 2)) := by
  have hs := sub_nonneg.mpr hd
  have hz := h.hyint
  have hB := h.hB
  have hS := h.hS
  have n1 : R.Near 1 (R.sub c.y dy) _ := Rounding.near_sub hd
  have n2 : R.Near 2 (R.mul c.S (R.sub c.y dy)) _ := (near_input c.S).mul n1 hS hs
  obtain ⟨q, hq, n3⟩ := n2.div (near_input c.yint) (mul_nonneg hS hs) hz
  have n4 : R.Near 4 (R.add c.B q) _ := (near_input c.B).add n3 hB.le (by positivity)
  have n5 : R.Near 9 (R.sq (R.add c.B q)) _ := n4.sq (by positivity)
  obtain ⟨p, hp, n6⟩ := quotePrice_near (c := c) n5 (by positivity)
  refine ⟨p, ?_, n6⟩
  unfold pMargF
  rw [if_neg (by simp [not_disabled h])]
  simp only [Bool.false_eq_true, if_false]
  rw [if_neg, if_neg, if_neg hz.ne', hq]
  · exact hp
  · simp only [Bool.and_eq_true, decide_eq_true_eq, not_and, not_lt]; exact fun _ => n1.nonneg hs
  · simp only [Bool.and_eq_true, decide_eq_true_eq, not_and, not_lt]; exact hcb

/-- The marginal price has the relative error of ten roundings. -/
theorem C147_price (R : Rounding K) (c : UICurve K) (h : Sound c) (dy : K) (h0 : 0 ≤ dy) (h1 : dy ≤ c.y) (hu : 10 * R.u < 1)
    (cb r : Bool) :
    ∃ a b, pMargF R c dy false cb r = .ok (some a) ∧ c.pMargF dy false cb r = .ok (some b) ∧
      |a - b| ≤ 10 * R.u / (1 - 10 * R.u) * b := by
  obtain ⟨a, ha, n⟩ := pMargF_near (R := R) h h1 cb r fun _ => h0
  refine ⟨a, _, ha, UICurve.pMargF_ok h h1 cb r fun _ => h0, ?_⟩
  have := n.relative (inConv_nonneg (sq_nonneg _)) (by exact_mod_cast hu)
  exact_mod_cast this

theorem xfromyF_near {c : UICurve K} (h : Sound c) {y : K} (h0 : 0 ≤ y) (h1 : y ≤ c.yint) (cb r : Bool) :
    ∃ a, xfromyF R c y cb r = .ok (some a) ∧ R.Near 8 a (c.yint * (c.yint - y) / ((c.B + c.S) * (c.B * c.yint + c.S * y))) := by
  have hz := h.hyint
  have hB := h.hB
  have hS := h.hS
  have hs := sub_nonneg.mpr h1
  have n1 : R.Near 2 (R.mul c.yint (R.sub c.yint y)) _ := (near_input c.yint).mul (Rounding.near_sub h1) hz.le hs
  have n2 : R.Near 2 (R.mul (R.sq c.B) c.yint) _ := (Rounding.near_sq c.B).mul (near_input c.yint) (sq_nonneg _) hz.le
  have n3 : R.Near 1 (R.mul c.B c.S) _ := (near_input c.B).mul (near_input c.S) hB.le hS
  have n4 : R.Near 2 (R.mul (R.mul c.B c.S) y) _ := n3.mul (near_input y) (by positivity) h0
  have n5 : R.Near 2 (R.mul (R.mul c.B c.S) c.yint) _ := n3.mul (near_input c.yint) (by positivity) hz.le
  have n6 : R.Near 2 (R.mul (R.sq c.S) y) _ := (Rounding.near_sq c.S).mul (near_input y) (sq_nonneg _) h0
  have n7 : R.Near 5 (R.add (R.add (R.add (R.mul (R.sq c.B) c.yint) (R.mul (R.mul c.B c.S) y)) (R.mul (R.mul c.B c.S) c.yint))
      (R.mul (R.sq c.S) y)) _ :=
    ((n2.add n4 (by positivity) (by positivity)).add n5 (by positivity) (by positivity)).add n6 (by positivity) (by positivity)
  obtain ⟨a, ha, n8⟩ := n1.div n7 (by positivity) (by positivity)
  refine ⟨a, ?_, ?_⟩
  · unfold xfromyF
    rw [if_neg, if_neg]
    · dsimp only
      rw [ha]
      rfl
    · simp only [Bool.and_eq_true, decide_eq_true_eq, not_and, not_lt]; exact fun _ => h0
    · simp only [Bool.and_eq_true, decide_eq_true_eq, not_and, gt_iff_lt, not_lt]; exact fun _ => h1
  · have he : c.B ^ 2 * c.yint + c.B * c.S * y + c.B * c.S * c.yint + c.S ^ 2 * y =
        (c.B + c.S) * (c.B * c.yint + c.S * y) := by ring
    rw [he] at n8
    exact n8

/-- The other coordinate of the curve has the relative error of eight roundings. -/
theorem C147_x (R : Rounding K) (c : UICurve K) (h : Sound c) (y : K) (h0 : 0 ≤ y) (h1 : y ≤ c.yint) (hu : 8 * R.u < 1) (cb r : Bool) :
    ∃ a b, xfromyF R c y cb r = .ok (some a) ∧ c.xfromyF y cb r = .ok (some b) ∧ |a - b| ≤ 8 * R.u / (1 - 8 * R.u) * b := by
  have hz := h.hyint
  have hB := h.hB
  have hS := h.hS
  have hs := sub_nonneg.mpr h1
  obtain ⟨a, ha, n⟩ := xfromyF_near (R := R) h h0 h1 cb r
  refine ⟨a, _, ha, UICurve.xfromyF_ok h h0 h1 cb r, ?_⟩
  have := n.relative (by positivity) (by exact_mod_cast hu)
  exact_mod_cast this

/-- The intercept has the relative error of three roundings. -/
theorem C147_xint (R : Rounding K) (c : UICurve K) (h : Sound c) (hu : 3 * R.u < 1) :
    ∃ a b, xint R c = .ok a ∧ c.xint = .ok b ∧ |a - b| ≤ 3 * R.u / (1 - 3 * R.u) * b := by
  have hz := h.hyint
  have hB := h.hB
  have hS := h.hS
  have n : R.Near 2 (R.add (R.sq c.B) (R.mul c.B c.S)) _ :=
    (Rounding.near_sq c.B).add ((near_input c.B).mul (near_input c.S) hB.le hS) (sq_nonneg _) (by positivity)
  obtain ⟨a, ha, n'⟩ := (near_input (R := R) c.yint).div n hz.le (by positivity)
  refine ⟨a, _, ha, pyDiv_ok (by positivity), ?_⟩
  have := n'.relative (by positivity) (by exact_mod_cast hu)
  exact_mod_cast this

/-- The exact difference of the rounded terms in the denominator of `dxfromdy_f`. -/
theorem diff_bounds {c : UICurve K} (h : Sound c) {dy : K} (h0 : 0 ≤ dy) (h1 : dy ≤ c.y)
    (hk : 8 * ((1 + c.S / c.B) * R.u) ≤ 1) :
    let e := 4 * ((1 + c.S / c.B) * R.u)
    let n := c.S * c.y + c.B * c.yint - c.S * dy
    n * (1 - e) ≤ scaled R c - R.mul c.S dy ∧ scaled R c - R.mul c.S dy ≤ n * (1 + e) := by
  intro e n
  have hz := h.hyint
  have hB := h.hB
  have hS := h.hS
  have hm := h.m_pos
  have hn : 0 < n := h.n_pos h1
  have hu := R.u_nonneg
  have hk1 : 1 ≤ 1 + c.S / c.B := by have : 0 ≤ c.S / c.B := by positivity
                                     linarith
  have hu8 : 8 * R.u ≤ 1 := by nlinarith
  set m := c.S * c.y + c.B * c.yint with hmdef
  -- the condition of the difference
  have hmn : m ≤ (1 + c.S / c.B) * n := by
    have e1 : c.B * c.yint ≤ n := by
      have := mul_nonneg hS (sub_nonneg.mpr h1)
      show c.B * c.yint ≤ c.S * c.y + c.B * c.yint - c.S * dy
      nlinarith
    have e2 : c.S / c.B * (c.B * c.yint) = c.S * c.yint := by field_simp
    have e3 : c.S * c.yint ≤ c.S / c.B * n := by
      rw [← e2]; exact mul_le_mul_of_nonneg_left e1 (by positivity)
    have e4 : c.S * dy ≤ c.S * c.yint := mul_le_mul_of_nonneg_left (le_trans h1 h.hy) hS
    have : n = m - c.S * dy := rfl
    linarith
  have ht : c.S * dy ≤ m := by have : n = m - c.S * dy := rfl
                               linarith
  have hT0 : 0 ≤ c.S * dy := mul_nonneg hS h0
  obtain ⟨a1, a2⟩ := scaled_near (R := R) h
  obtain ⟨b1, b2⟩ : R.Near 1 (R.mul c.S dy) (c.S * dy) := (near_input c.S).mul (near_input dy) hS h0
  rw [← hmdef] at a1 a2
  rw [pow_one] at b1 b2
  have hM : scaled R c ≤ m * (1 + 3 * R.u) := by
    have key : 1 ≤ (1 + 3 * R.u) * (1 - R.u) ^ 2 := by nlinarith [mul_nonneg hu hu, mul_nonneg hu (mul_nonneg hu hu)]
    have hp : 0 < (1 - R.u) ^ 2 := Rounding.tn_pos 2
    have : scaled R c * (1 - R.u) ^ 2 ≤ m * (1 + 3 * R.u) * (1 - R.u) ^ 2 := by nlinarith
    exact le_of_mul_le_mul_right this hp
  have hM' : m * (1 - 2 * R.u) ≤ scaled R c := by nlinarith [mul_nonneg hu hu]
  have hT : R.mul c.S dy ≤ c.S * dy * (1 + 2 * R.u) := by
    have key : 1 ≤ (1 + 2 * R.u) * (1 - R.u) := by nlinarith
    have hp : 0 < 1 - R.u := Rounding.t_pos
    have : R.mul c.S dy * (1 - R.u) ≤ c.S * dy * (1 + 2 * R.u) * (1 - R.u) := by nlinarith
    exact le_of_mul_le_mul_right this hp
  have hme : 4 * R.u * m ≤ n * e := by
    have := mul_le_mul_of_nonneg_left hmn (mul_nonneg (by norm_num : (0 : K) ≤ 4) hu)
    calc 4 * R.u * m ≤ 4 * R.u * ((1 + c.S / c.B) * n) := this
      _ = n * e := by simp only [e]; ring
  have hnd : n = m - c.S * dy := rfl
  have hTu : R.u * (c.S * dy) ≤ R.u * m := mul_le_mul_of_nonneg_left ht hu
  constructor <;> nlinarith

/-- Value of `dxfromdy_f` on a sound curve whose range is not too wide. -/
theorem dxfromdyF_near {c : UICurve K} (h : Sound c) {dy : K} (h0 : 0 ≤ dy) (h1 : dy ≤ c.y) (hk : 11 * ((1 + c.S / c.B) * R.u) < 1)
    (cb r : Bool) :
    ∃ a, dxfromdyF R c dy cb r = .ok (some a) ∧
      let b := dy * (c.yint ^ 2 / ((c.S * c.y + c.B * c.yint) * (c.S * c.y + c.B * c.yint - c.S * dy)))
      let d := 11 * ((1 + c.S / c.B) * R.u)
      b * (1 - d) ≤ a ∧ a * (1 - d) ≤ b := by
  have hz := h.hyint
  have hB := h.hB
  have hS := h.hS
  have hm := h.m_pos
  have hn := h.n_pos h1
  have hu := R.u_nonneg
  have hk1 : 1 ≤ 1 + c.S / c.B := by
    have : 0 ≤ c.S / c.B := by positivity
    linarith
  have hku : 0 ≤ (1 + c.S / c.B) * R.u := mul_nonneg (by linarith) hu
  have huk : R.u ≤ (1 + c.S / c.B) * R.u := le_mul_of_one_le_left hu hk1
  obtain ⟨d1, d2⟩ := diff_bounds (R := R) h h0 h1 (by linarith)
  set e := 4 * ((1 + c.S / c.B) * R.u) with he
  set m := c.S * c.y + c.B * c.yint with hmd
  set n := m - c.S * dy with hnd
  set n' := scaled R c - R.mul c.S dy with hn'
  have hn'0 : 0 < n' := lt_of_lt_of_le (mul_pos hn (by linarith)) d1
  have k1 : R.Near 1 (R.sq c.yint) _ := Rounding.near_sq c.yint
  have k2 : R.Near 1 (R.sub (scaled R c) (R.mul c.S dy)) n' := Rounding.near_fl hn'0.le
  have k3 : R.Near 4 (R.mul (scaled R c) (R.sub (scaled R c) (R.mul c.S dy))) (m * n') := (scaled_near h).mul k2 hm.le hn'0.le
  obtain ⟨q, hq, k4⟩ := k1.div k3 (sq_nonneg _) (mul_pos hm hn'0)
  have k5 : R.Near 7 (R.mul dy q) (dy * (c.yint ^ 2 / (m * n'))) := (near_input dy).mul k4 h0 (by positivity)
  refine ⟨R.mul dy q, ?_, ?_⟩
  · unfold dxfromdyF
    rw [if_neg h.not_empty, if_neg, if_neg]
    · dsimp only
      rw [hq]
      rfl
    · simp only [Bool.and_eq_true, decide_eq_true_eq, not_and, gt_iff_lt, not_lt]; exact fun _ => h1
    · simp only [Bool.and_eq_true, decide_eq_true_eq, not_and, not_lt]; exact fun _ => h0
  · intro b d
    have hb : 0 ≤ b := by positivity
    set b' := dy * (c.yint ^ 2 / (m * n')) with hb'd
    have hb' : 0 ≤ b' := by positivity
    have hbn : b' * n' = b * n := by simp only [b, b']; field_simp
    have hp : 1 - 7 * R.u ≤ (1 - R.u) ^ 7 := by
      have := one_add_mul_le_pow (a := -R.u) (by have := R.u_lt; linarith) 7
      calc 1 - 7 * R.u = 1 + (7 : ℕ) * -R.u := by push_cast; ring
        _ ≤ (1 + -R.u) ^ 7 := this
        _ = (1 - R.u) ^ 7 := by rw [sub_eq_add_neg]
    have ha := k5.nonneg hb'
    have e0 : 0 ≤ e := by linarith
    have e1 : 0 < 1 - e := by linarith
    have hbe1 : b' * (1 - e) ≤ b := by
      have : b' * (1 - e) * n ≤ b * n := by
        rw [← hbn]; calc b' * (1 - e) * n = b' * (n * (1 - e)) := by ring
          _ ≤ b' * n' := mul_le_mul_of_nonneg_left d1 hb'
      exact le_of_mul_le_mul_right this hn
    have hbe2 : b ≤ b' * (1 + e) := by
      have : b * n ≤ b' * (1 + e) * n := by
        rw [← hbn]; calc b' * n' ≤ b' * (n * (1 + e)) := mul_le_mul_of_nonneg_left d2 hb'
          _ = b' * (1 + e) * n := by ring
      exact le_of_mul_le_mul_right this hn
    have hbe3 : b * (1 - e) ≤ b' := by
      have := mul_le_mul_of_nonneg_right hbe2 e1.le
      have : b' * (1 + e) * (1 - e) = b' - b' * e ^ 2 := by ring
      have : 0 ≤ b' * e ^ 2 := by positivity
      linarith
    have u7 : 0 < 1 - 7 * R.u := by linarith
    have hde : 1 - d ≤ (1 - 7 * R.u) * (1 - e) := by
      have : d = 7 * ((1 + c.S / c.B) * R.u) + e := by simp only [d, he]; ring
      have := mul_nonneg hu e0
      nlinarith
    constructor
    · calc b * (1 - d) ≤ b * ((1 - 7 * R.u) * (1 - e)) := mul_le_mul_of_nonneg_left hde hb
        _ = b * (1 - e) * (1 - 7 * R.u) := by ring
        _ ≤ b' * (1 - 7 * R.u) := mul_le_mul_of_nonneg_right hbe3 u7.le
        _ ≤ b' * (1 - R.u) ^ 7 := mul_le_mul_of_nonneg_left hp hb'
        _ ≤ R.mul dy q := k5.1
    · calc R.mul dy q * (1 - d) ≤ R.mul dy q * ((1 - 7 * R.u) * (1 - e)) := mul_le_mul_of_nonneg_left hde ha
        _ = R.mul dy q * (1 - 7 * R.u) * (1 - e) := by ring
        _ ≤ R.mul dy q * (1 - R.u) ^ 7 * (1 - e) := mul_le_mul_of_nonneg_right (mul_le_mul_of_nonneg_left hp ha) e1.le
        _ ≤ b' * (1 - e) := mul_le_mul_of_nonneg_right k5.2 e1.le
        _ ≤ b := hbe1

/-- The amount asked for a given sale: the relative error grows with the width of the price range, `1 + S / B` being the square root of
the ratio of the two prices. -/
theorem C147_dx_partial (R : Rounding K) (c : UICurve K) (h : Sound c) (dy : K) (h0 : 0 ≤ dy) (h1 : dy ≤ c.y)
    (hk : 11 * ((1 + c.S / c.B) * R.u) < 1) (cb r : Bool) :
    ∃ a b, dxfromdyF R c dy cb r = .ok (some a) ∧ c.dxfromdyF dy cb r = .ok (some b) ∧
      |a - b| ≤ 11 * ((1 + c.S / c.B) * R.u) / (1 - 11 * ((1 + c.S / c.B) * R.u)) * b := by
  obtain ⟨a, ha, n1, n2⟩ := dxfromdyF_near h h0 h1 hk cb r
  have hn := h.n_pos h1
  have hm := h.m_pos
  refine ⟨a, _, ha, UICurve.dxfromdyF_ok h h1 cb r fun _ => h0, ?_⟩
  have hS := h.hS
  have hB := h.hB
  have hu := R.u_nonneg
  exact Rounding.relative_of (by positivity) (by positivity) hk n1 n2

/-- The amount sold grows at most in proportion to the amount paid. -/
theorem sold_scale {c : UICurve K} (h : Sound c) {d e k : K} (h0 : 0 ≤ d) (hk0 : 0 ≤ k) (hk1 : k ≤ 1) (hde : d * k ≤ e) :
    d * ((c.S * c.y + c.B * c.yint) ^ 2 / (c.S * d * (c.S * c.y + c.B * c.yint) + c.yint ^ 2)) * k ≤
      e * ((c.S * c.y + c.B * c.yint) ^ 2 / (c.S * e * (c.S * c.y + c.B * c.yint) + c.yint ^ 2)) := by
  have hm := h.m_pos
  have hz := h.hyint
  have hS := h.hS
  have he : 0 ≤ e := le_trans (mul_nonneg h0 hk0) hde
  set m := c.S * c.y + c.B * c.yint
  rw [← mul_div_assoc, ← mul_div_assoc, div_mul_eq_mul_div, div_le_div_iff₀ (by positivity) (by positivity)]
  have e1 := mul_le_mul_of_nonneg_left hde (by positivity : 0 ≤ m ^ 2 * c.yint ^ 2)
  have e2 : 0 ≤ m ^ 3 * c.S * d * e * (1 - k) := by
    have : 0 ≤ 1 - k := by linarith
    positivity
  nlinarith

/-- The amount sold for the amount asked for `dy` is `dy`, up to rounding. -/
theorem C147_round_trip_partial (R : Rounding K) (c : UICurve K) (h : Sound c) (dy : K) (h0 : 0 ≤ dy) (h1 : dy ≤ c.y)
    (hk : 23 * ((1 + c.S / c.B) * R.u) < 1) (cb r : Bool) :
    ∃ dx a, dxfromdyF R c dy cb r = .ok (some dx) ∧ dyfromdxF R c dx cb r = .ok (some a) ∧
      |a - dy| ≤ 23 * ((1 + c.S / c.B) * R.u) / (1 - 23 * ((1 + c.S / c.B) * R.u)) * dy := by
  have hS := h.hS
  have hB := h.hB
  have hu := R.u_nonneg
  have hz := h.hyint
  have hm := h.m_pos
  have hn := h.n_pos h1
  have hk1 : 1 ≤ 1 + c.S / c.B := by
    have : 0 ≤ c.S / c.B := by positivity
    linarith
  have hku : 0 ≤ (1 + c.S / c.B) * R.u := mul_nonneg (by linarith) hu
  have huk : R.u ≤ (1 + c.S / c.B) * R.u := le_mul_of_one_le_left hu hk1
  obtain ⟨dx, hdx, n1, n2⟩ := dxfromdyF_near (R := R) h h0 h1 (by linarith) cb r
  set d := 11 * ((1 + c.S / c.B) * R.u) with hd
  set b := dy * (c.yint ^ 2 / ((c.S * c.y + c.B * c.yint) * (c.S * c.y + c.B * c.yint - c.S * dy))) with hb
  have hb0 : 0 ≤ b := by positivity
  have hd0 : 0 ≤ d := by linarith
  have hd1 : 0 < 1 - d := by linarith
  have hx0 : 0 ≤ dx := le_trans (mul_nonneg hb0 hd1.le) n1
  obtain ⟨a, ha, n⟩ := dyfromdxF_near (R := R) h hx0 cb r
  refine ⟨dx, a, hdx, ha, ?_⟩
  set g := fun x => x * ((c.S * c.y + c.B * c.yint) ^ 2 / (c.S * x * (c.S * c.y + c.B * c.yint) + c.yint ^ 2)) with hg
  have gb : g b = dy := by
    set m := c.S * c.y + c.B * c.yint with hmd
    have hn' : m - c.S * dy ≠ 0 := hn.ne'
    have e : c.S * b * m + c.yint ^ 2 = c.yint ^ 2 * m / (m - c.S * dy) := by
      rw [hb]; field_simp; ring
    show b * (m ^ 2 / (c.S * b * m + c.yint ^ 2)) = dy
    rw [e, hb]
    field_simp
    rw [mul_div_assoc, div_self (by rwa [mul_comm dy]), mul_one]
  have s1 : dy * (1 - d) ≤ g dx := by
    have := sold_scale h hb0 hd1.le (by linarith : 1 - d ≤ 1) n1
    rw [← gb]; exact this
  have s2 : g dx * (1 - d) ≤ dy := by
    have := sold_scale h hx0 hd1.le (by linarith : 1 - d ≤ 1) n2
    rw [← gb]; exact this
  have hp : 1 - 12 * R.u ≤ (1 - R.u) ^ 12 := by
    have := one_add_mul_le_pow (a := -R.u) (by have := R.u_lt; linarith) 12
    calc 1 - 12 * R.u = 1 + (12 : ℕ) * -R.u := by push_cast; ring
      _ ≤ (1 + -R.u) ^ 12 := this
      _ = (1 - R.u) ^ 12 := by rw [sub_eq_add_neg]
  have g0 : 0 ≤ g dx := by simp only [hg]; positivity
  have a0 : 0 ≤ a := n.nonneg g0
  have hde : 1 - 23 * ((1 + c.S / c.B) * R.u) ≤ (1 - d) * (1 - 12 * R.u) := by
    have := mul_nonneg hd0 hu
    nlinarith
  refine Rounding.relative_of h0 (by linarith) hk ?_ ?_
  · calc dy * (1 - 23 * ((1 + c.S / c.B) * R.u)) ≤ dy * ((1 - d) * (1 - 12 * R.u)) := mul_le_mul_of_nonneg_left hde h0
      _ = dy * (1 - d) * (1 - 12 * R.u) := by ring
      _ ≤ g dx * (1 - 12 * R.u) := mul_le_mul_of_nonneg_right s1 (by linarith)
      _ ≤ g dx * (1 - R.u) ^ 12 := mul_le_mul_of_nonneg_left hp g0
      _ ≤ a := n.1
  · calc a * (1 - 23 * ((1 + c.S / c.B) * R.u)) ≤ a * ((1 - d) * (1 - 12 * R.u)) := mul_le_mul_of_nonneg_left hde a0
      _ = a * (1 - 12 * R.u) * (1 - d) := by ring
      _ ≤ a * (1 - R.u) ^ 12 * (1 - d) := mul_le_mul_of_nonneg_right (mul_le_mul_of_nonneg_left hp a0) hd1.le
      _ ≤ g dx * (1 - d) := mul_le_mul_of_nonneg_right n.2 hd1.le
      _ ≤ dy := s2

/-! ### Where precision is lost -/

/-- A curve with an extremely wide range. -/
def wide (B : ℚ) : UICurve ℚ := ⟨CarbonPair.ethUsdc, "USDC".toList, B, 1, 1, 1⟩

theorem wide_sound {B : ℚ} (h : 0 < B) : Sound (wide B) := ⟨h, by norm_num [wide], by norm_num [wide], by norm_num [wide], by norm_num [wide]⟩

/-- On a wide range selling everything raises an exception, or asks for three eighths less than it should. -/
theorem C147_dx_violated :
    (∃ c : UICurve ℚ, Sound c ∧ dxfromdyF .double c c.y = .error .zeroDiv ∧ (selly .double ⟨c, none⟩ c.y).1 = .error .zeroDiv ∧
      (UICurve.dxfromdyF c c.y).toOption.isSome) ∧
    (∃ c : UICurve ℚ, Sound c ∧ ∃ a b, dxfromdyF .double c c.y = .ok (some a) ∧ c.dxfromdyF c.y = .ok (some b) ∧ a < b * (63 / 100)) := by
  refine ⟨⟨wide (1 / 2 ^ 60), wide_sound (by norm_num), by decide +kernel, by decide +kernel, by decide +kernel⟩,
    wide (5 / 2 ^ 55), wide_sound (by norm_num), ?_⟩
  exact ⟨2 ^ 52 - 1, 2 ^ 110 / (5 * (2 ^ 55 + 5)), by decide +kernel, by decide +kernel, by norm_num⟩

/-- The effective price of a very small trade raises an exception. -/
theorem C147_effective_violated : ∃ (c : UICurve ℚ) (dy : ℚ), Sound c ∧ 0 < dy ∧ dy ≤ c.y ∧ Rounding.double.Rep dy ∧
    pEffF .double c dy = .error .zeroDiv ∧ ∃ p, c.pEffF dy = .ok (some p) ∧ 0 < p := by
  refine ⟨sampleCurve, 1 / 2 ^ 60, sample_sound, by norm_num, by decide +kernel, by unfold Rounding.Rep; decide +kernel, by decide +kernel,
    518814677073081139197 / 230584300921369395200, by decide +kernel, by norm_num⟩

/-! ### Instances -/

namespace Examples

theorem sample_u : 12 * Rounding.double.u < 1 := by decide +kernel

example := C147_dy .double sampleCurve sample_sound 7 (by norm_num) sample_u true false
example := C147_price .double sampleLinked sampleLinked_sound 3 (by norm_num) (by decide +kernel) (by decide +kernel) true false
example := C147_x .double sampleCurve sample_sound 20 (by norm_num) (by decide +kernel) (by decide +kernel) true false
example := C147_xint .double sampleLinked sampleLinked_sound (by decide +kernel)
example := C147_dx_partial .double sampleLinked sampleLinked_sound 7 (by norm_num) (by decide +kernel) (by decide +kernel) true false
example := C147_round_trip_partial .double sampleLinked sampleLinked_sound 7 (by norm_num) (by decide +kernel) (by decide +kernel) true false

end Examples

end FloatUI

end Carbon
