import Verif.Prop.MargpLoop
import Mathlib.Analysis.Convex.SpecificFunctions.Basic
import Mathlib.Analysis.Complex.ExponentialBounds

/-!
# C133, continued: how close the reported prices are to a balance

* `C133_residual`: if the slopes determine the last step, the reported trades balance every token up to a multiple of the precision and of what
  the pools hold of the token.
* `C133_pair_balance`, `C133_pair_converges`: for pools of one pair without bounds there is one balancing price, and the search from a price within
  a factor of `10 ^ (2 / 5)` of it succeeds and reports the balancing price up to twice the precision in the decimal logarithm.
* `C133_pair_default`: with the default precision and number of iterations it is found within 21 iterations.
* `C134_pair`: if the pools quote prices within that factor of each other, this is so without any parameters.
-/

namespace Carbon

namespace Opt

open Matrix
open CPC (Sound)

/-! ## Small moves of the prices -/

/-- If a price is multiplied by at most the square of `μ`, the reserve of the base token after the trade is divided by at most `μ`. -/
theorem base_moved {c : CPC ℝ} (hs : Sound c) {p p' μ : ℝ} (hp : 0 < p) (hp' : 0 < p') (hμ : 1 ≤ μ) (h : p' ≤ p * μ ^ 2) :
    c.x + (best c p).1 ≤ μ * (c.x + (best c p').1) := by
  obtain ⟨hA, hk⟩ := best_allowed hs hp
  obtain ⟨hA', hk'⟩ := best_allowed hs hp'
  have hkp := hs.hk
  have hX := hA.x
  have hX' := hA'.x
  have hxa := hA.xa
  have hxa' := hA'.xa
  have hya := hA.ya
  have hya' := hA'.ya
  have hb := fun t => best_le hs hp (t := t)
  have hb' := fun t => best_le hs hp' (t := t)
  generalize best c p = A at hA hA' hk hk' hX hX' hxa hxa' hya hya' hb hb' ⊢
  generalize best c p' = A' at hA hA' hk hk' hX hX' hxa hxa' hya hya' hb hb' ⊢
  obtain ⟨a, b⟩ := A
  obtain ⟨a', b'⟩ := A'
  dsimp only at *
  obtain ⟨X, eX⟩ : ∃ X, X = c.x + a := ⟨_, rfl⟩
  obtain ⟨X', eX'⟩ : ∃ X', X' = c.x + a' := ⟨_, rfl⟩
  rw [← eX] at hX hk ⊢
  rw [← eX'] at hX' hk' ⊢
  have hμ0 : 0 < μ := by linarith
  have eb : b = c.k / X - c.y := by rw [← hk]; field_simp; ring
  have eb' : b' = c.k / X' - c.y := by rw [← hk']; field_simp; ring
  by_contra hn
  push Not at hn
  have hlt : X' < X / μ := by rw [lt_div_iff₀ hμ0]; linarith
  have hle : X / μ ≤ X := by rw [div_le_iff₀ hμ0]; nlinarith
  have hge : X' ≤ μ * X' := by nlinarith
  have h1 := hb' (X / μ - c.x, c.k / (X / μ) - c.y) ⟨by simp; positivity, by simp; positivity, by
      simp only [add_sub_cancel]; rw [mul_div_cancel₀ _ (by positivity)], by
      simp only; linarith, by
      have : c.k / X ≤ c.k / (X / μ) := div_le_div_of_nonneg_left hkp.le (by positivity) hle
      simp only; linarith⟩
  have h2 := (hb (μ * X' - c.x, c.k / (μ * X') - c.y) ⟨by simp; positivity, by simp; positivity, by
      simp only [add_sub_cancel]; rw [mul_div_cancel₀ _ (by positivity)], by
      simp only; linarith, by
      have : c.k / X ≤ c.k / (μ * X') := div_le_div_of_nonneg_left hkp.le (by positivity) hn.le
      simp only; linarith⟩).1
  have h1s : p' * a' + b' < p' * (X / μ - c.x) + (c.k / (X / μ) - c.y) := by
    refine lt_of_le_of_ne h1.1 fun e => ?_
    have := congrArg Prod.fst (h1.2 e)
    simp only at this
    linarith
  simp only at h2
  rw [eb, show a = X - c.x by linarith] at h2
  rw [eb', show a' = X' - c.x by linarith] at h1s
  have f1 : 0 < (X / μ - X') * (p' - c.k * μ / (X * X')) := by
    have e : (X / μ - X') * (p' - c.k * μ / (X * X')) = p' * (X / μ - X') - (c.k / X' - c.k / (X / μ)) := by field_simp
    rw [e]; linarith
  have f2 : (X - μ * X') * (p - c.k / (μ * X * X')) ≤ 0 := by
    have e : (X - μ * X') * (p - c.k / (μ * X * X')) = p * (X - μ * X') - (c.k / (μ * X') - c.k / X) := by field_simp
    rw [e]; linarith
  have g1 : c.k * μ / (X * X') < p' := by
    have := (pos_iff_pos_of_mul_pos f1).1 (by linarith)
    linarith
  have g2 : p ≤ c.k / (μ * X * X') := by
    have : 0 < X - μ * X' := by linarith
    by_contra hh
    push Not at hh
    have := mul_pos this (sub_pos.mpr hh)
    linarith
  have g3 : p * μ ^ 2 ≤ c.k / (μ * X * X') * μ ^ 2 := mul_le_mul_of_nonneg_right g2 (by positivity)
  have g4 : c.k / (μ * X * X') * μ ^ 2 = c.k * μ / (X * X') := by field_simp
  linarith

/-- The same for the reserve of the quote token. -/
theorem quote_moved {c : CPC ℝ} (hs : Sound c) {p p' μ : ℝ} (hp : 0 < p) (hp' : 0 < p') (hμ : 1 ≤ μ) (h : p' ≤ p * μ ^ 2) :
    c.y + (best c p').2 ≤ μ * (c.y + (best c p).2) := by
  obtain ⟨hA, hk⟩ := best_allowed hs hp
  obtain ⟨hA', hk'⟩ := best_allowed hs hp'
  have hm := base_moved hs hp hp' hμ h
  have hX := hA.x
  have hX' := hA'.x
  have hY := hA.y
  have hY' := hA'.y
  by_contra hn
  push Not at hn
  have h1 : c.k < c.k := by
    calc c.k = (c.x + (best c p).1) * (c.y + (best c p).2) := hk.symm
      _ ≤ μ * (c.x + (best c p').1) * (c.y + (best c p).2) := mul_le_mul_of_nonneg_right hm hY.le
      _ = (c.x + (best c p').1) * (μ * (c.y + (best c p).2)) := by ring
      _ < (c.x + (best c p').1) * (c.y + (best c p').2) := mul_lt_mul_of_pos_left hn hX'
      _ = c.k := hk'
  exact lt_irrefl _ h1

theorem abs_moved {a b μ : ℝ} (hμ : 1 ≤ μ) (h1 : a ≤ μ * b) (h2 : b ≤ μ * a) : |b - a| ≤ (μ - 1) * a := by
  rw [abs_le]
  constructor
  · nlinarith [mul_nonneg (sub_nonneg.mpr hμ) (sub_nonneg.mpr hμ)]
  · linarith

/-- What the pools hold of a token after some trades. -/
noncomputable def held (t : Str) : List (CPC ℝ) → List (ℝ × ℝ) → ℝ
  | c :: cs, v :: vs => (if c.tknb = t then c.x + v.1 else 0) + (if c.tknq = t then c.y + v.2 else 0) + held t cs vs
  | _, _ => 0

/-- Both prices of every token are within the factor `μ`. -/
def Close (μ : ℝ) (a b : List (Str × ℝ)) : Prop := ∀ t, priceOf a t ≤ priceOf b t * μ ∧ priceOf b t ≤ priceOf a t * μ

theorem trades_moved {μ : ℝ} (hμ : 1 ≤ μ) {a b : List (Str × ℝ)} (ha : ∀ t, 0 < priceOf a t) (hb : ∀ t, 0 < priceOf b t) (h : Close μ a b) (t : Str) :
    ∀ cs : List (CPC ℝ), (∀ c ∈ cs, Sound c) →
      0 ≤ held t cs (cs.map (tradeOf a)) ∧
      held t cs (cs.map (tradeOf a)) ≤ μ * held t cs (cs.map (tradeOf b)) ∧
      |net t cs (cs.map (tradeOf b)) - net t cs (cs.map (tradeOf a))| ≤ (μ - 1) * held t cs (cs.map (tradeOf a))
  | [], _ => by simp [held, net]
  | c :: cs, hs => by
    obtain ⟨i0, i1, i2⟩ := trades_moved hμ ha hb h t cs fun d hd => hs d (List.mem_cons_of_mem _ hd)
    have hc := hs c (by simp)
    have hpa : 0 < priceOf a c.tknb / priceOf a c.tknq := div_pos (ha _) (ha _)
    have hpb : 0 < priceOf b c.tknb / priceOf b c.tknq := div_pos (hb _) (hb _)
    have hμ0 : 0 < μ := by linarith
    have key : ∀ {u v : List (Str × ℝ)}, (∀ t, 0 < priceOf u t) → (∀ t, 0 < priceOf v t) → Close μ u v →
        priceOf u c.tknb / priceOf u c.tknq ≤ priceOf v c.tknb / priceOf v c.tknq * μ ^ 2 := by
      intro u v hu hv huv
      have e : priceOf v c.tknb / priceOf v c.tknq * μ ^ 2 = (priceOf v c.tknb * μ) / (priceOf v c.tknq / μ) := by
        have := (hv c.tknq).ne'; field_simp
      rw [e]
      refine div_le_div₀ (mul_pos (hv _) hμ0).le (huv _).1 (div_pos (hv _) hμ0) ?_
      rw [div_le_iff₀ hμ0]
      exact (huv _).2
    have kab := key ha hb h
    have kba := key hb ha fun t => ⟨(h t).2, (h t).1⟩
    have hAa := (best_allowed hc hpa).1
    have hx1 := base_moved hc hpa hpb hμ kba
    have hx2 := base_moved hc hpb hpa hμ kab
    have hy1 := quote_moved hc hpa hpb hμ kba
    have hy2 := quote_moved hc hpb hpa hμ kab
    have ex := abs_moved hμ hx1 hx2
    have ey := abs_moved hμ hy2 hy1
    have xp := hAa.x
    have yp := hAa.y
    simp only [List.map_cons, held, net]
    simp only [tradeOf] at i0 i1 i2 ⊢
    generalize best c (priceOf a c.tknb / priceOf a c.tknq) = ba at hx1 hx2 hy1 hy2 ex ey xp yp ⊢
    generalize best c (priceOf b c.tknb / priceOf b c.tknq) = bb at hx1 hx2 hy1 hy2 ex ey xp yp ⊢
    have e1 : (if c.tknb = t then c.x + ba.1 else 0) ≤ μ * (if c.tknb = t then c.x + bb.1 else 0) ∧ 0 ≤ (if c.tknb = t then c.x + ba.1 else 0) ∧
        |(if c.tknb = t then bb.1 else 0) - (if c.tknb = t then ba.1 else 0)| ≤ (μ - 1) * (if c.tknb = t then c.x + ba.1 else 0) := by
      split
      · refine ⟨hx1, xp.le, ?_⟩
        rwa [add_sub_add_left_eq_sub] at ex
      · simp
    have e2 : (if c.tknq = t then c.y + ba.2 else 0) ≤ μ * (if c.tknq = t then c.y + bb.2 else 0) ∧ 0 ≤ (if c.tknq = t then c.y + ba.2 else 0) ∧
        |(if c.tknq = t then bb.2 else 0) - (if c.tknq = t then ba.2 else 0)| ≤ (μ - 1) * (if c.tknq = t then c.y + ba.2 else 0) := by
      split
      · refine ⟨hy2, yp.le, ?_⟩
        rwa [add_sub_add_left_eq_sub] at ey
      · simp
    refine ⟨by linarith [e1.2.1, e2.2.1], by linarith [e1.1, e2.1], ?_⟩
    have t1 := abs_le.mp e1.2.2
    have t2 := abs_le.mp e2.2.2
    have t3 := abs_le.mp i2
    rw [abs_le]
    constructor <;> linarith [t1.1, t1.2, t2.1, t2.2, t3.1, t3.2]

theorem close_zip {μ : ℝ} (hμ : 1 ≤ μ) : ∀ (ts : List Str) (a b : List ℝ), a.length = b.length →
    (∀ (i : ℕ) x y, a[i]? = some x → b[i]? = some y → x ≤ y * μ ∧ y ≤ x * μ) → Close μ (ts.zip a) (ts.zip b)
  | [], _, _, _, _ => fun t => by simp [priceOf, dictGet, hμ]
  | _ :: _, [], [], _, _ => fun t => by simp [priceOf, dictGet, hμ]
  | u :: ts, x :: a, y :: b, hl, h => fun t => by
    simp only [List.zip_cons_cons, priceOf, dictGet]
    by_cases e : u = t
    · rw [if_pos e, if_pos e]
      exact h 0 x y rfl rfl
    · rw [if_neg e, if_neg e]
      exact close_zip hμ ts a b (by simpa using hl) (fun i v w hv hw => h (i + 1) v w hv hw) t

/-- What the pools hold of a token other than the target token, after all of them have traded to the prices `p`. -/
noncomputable def holdings (cc : CC ℝ) (target : Str) (p : Fin (tokensOf cc target).length → ℝ) : Fin (tokensOf cc target).length → ℝ :=
  fun i => held (tokensOf cc target)[i] cc.curves (cc.curves.map (tradeOf ((tokensOf cc target).zip (List.ofFn p))))

theorem excess_moved {cc : CC ℝ} {target : Str} (hs : ∀ c ∈ cc.curves, Sound c) {p q : Fin (tokensOf cc target).length → ℝ} (hp : ∀ i, 0 < p i)
    (hq : ∀ i, 0 < q i) {μ : ℝ} (hμ : 1 ≤ μ) (h : ∀ i, p i ≤ q i * μ ∧ q i ≤ p i * μ) (i) :
    0 ≤ holdings cc target q i ∧ holdings cc target q i ≤ μ * holdings cc target p i ∧
      |excess cc target p i - excess cc target q i| ≤ (μ - 1) * holdings cc target q i := by
  have pos : ∀ {r : Fin (tokensOf cc target).length → ℝ}, (∀ i, 0 < r i) → ∀ t, 0 < priceOf ((tokensOf cc target).zip (List.ofFn r)) t := by
    intro r hr
    refine priceOf_pos fun v hv => ?_
    rw [List.mem_ofFn] at hv
    obtain ⟨i, rfl⟩ := hv
    exact hr i
  refine trades_moved hμ (pos hq) (pos hp) (close_zip hμ _ _ _ (by simp) ?_) _ _ hs
  intro j x y hx hy
  rw [List.getElem?_ofFn] at hx hy
  split at hx
  · rename_i hj
    rw [dif_pos hj] at hy
    cases hx; cases hy
    exact ⟨(h _).2, (h _).1⟩
  · cases hx

theorem pow10_le {s : ℝ} (h0 : 0 ≤ s) (h1 : s ≤ 1) : pow10 s ≤ 1 + 9 * s := by
  have h := convexOn_exp.2 (Set.mem_univ (0 : ℝ)) (Set.mem_univ (Real.log 10)) (by linarith : 0 ≤ 1 - s) h0 (by ring)
  simp only [smul_eq_mul, mul_zero, zero_add, Real.exp_zero, mul_one, Real.exp_log (by norm_num : (0 : ℝ) < 10)] at h
  unfold pow10
  linarith

theorem pow10_mono {a b : ℝ} (h : a ≤ b) : pow10 a ≤ pow10 b :=
  Real.exp_le_exp.mpr (mul_le_mul_of_nonneg_right h (Real.log_pos (by norm_num)).le)

theorem one_le_pow10 {a : ℝ} (h : 0 ≤ a) : 1 ≤ pow10 a := by
  rw [← pow10_zero]; exact pow10_mono h

theorem pow10_near {r d e : ℝ} (hr : 0 < r) (h : |d| ≤ e) : r * pow10 d ≤ r * pow10 e ∧ r ≤ r * pow10 d * pow10 e := by
  have := abs_le.mp h
  refine ⟨mul_le_mul_of_nonneg_left (pow10_mono this.2) hr.le, ?_⟩
  rw [mul_assoc, ← pow10_add]
  exact le_mul_of_one_le_right hr.le (one_le_pow10 (by linarith))

theorem logStep_pos (q : ℝ) : 0 < logStep q := by
  unfold logStep
  split
  · norm_num
  · rename_i h
    have := abs_pos.mpr h
    positivity

theorem logStep_le {q b : ℝ} (hb : 1 ≤ b) (h : |log10 q| ≤ b) : logStep q ≤ b * (1 / 100000) := by
  unfold logStep
  split
  · linarith
  · exact mul_le_mul_of_nonneg_right h (by norm_num)

theorem slopes_le {cc : CC ℝ} {target : Str} (hs : ∀ c ∈ cc.curves, Sound c) {q : Fin (tokensOf cc target).length → ℝ} (hq : ∀ i, 0 < q i)
    (hl : ∀ j, |log10 (q j)| ≤ 100000) (i j) : |slopes cc target q i j| ≤ 9 * holdings cc target q i := by
  have h0 := logStep_pos (q j)
  have h1 : logStep (q j) ≤ 1 := by
    have := logStep_le (by norm_num) (hl j); linarith
  obtain ⟨e0, -, e2⟩ := excess_moved hs (p := Function.update q j (q j * pow10 (logStep (q j)))) (q := q) (by
      intro k
      by_cases hk : k = j
      · subst hk; simp only [Function.update_self]; exact mul_pos (hq k) (pow10_pos _)
      · simp only [Function.update_of_ne hk]; exact hq k) hq (one_le_pow10 h0.le) (by
      intro k
      by_cases hk : k = j
      · subst hk
        simp only [Function.update_self]
        exact pow10_near (hq k) (abs_of_pos h0).le
      · simp only [Function.update_of_ne hk]
        exact ⟨le_mul_of_one_le_right (hq k).le (one_le_pow10 h0.le), le_mul_of_one_le_right (hq k).le (one_le_pow10 h0.le)⟩) i
  unfold slopes
  rw [abs_div, abs_of_pos h0, div_le_iff₀ h0]
  refine e2.trans ?_
  have := pow10_le h0.le h1
  have := mul_le_mul_of_nonneg_right (by linarith : pow10 (logStep (q j)) - 1 ≤ 9 * logStep (q j)) e0
  linarith

/-- C133: if the slopes at the prices before the last step determine that step, the reported trades balance every token other than the target token
up to the precision, in proportion to what the pools hold of the token afterwards. -/
theorem C133_residual {cc : CC ℝ} {target : Str} {params : MargpParams} {start} (h : Ready cc target params start) {n : Nat} {m : Margp ℝ}
    (hr : margpRun cc target params = .ok (.found n m)) (he : params.epsValue ≤ 1) :
    ∃ q p : Fin (tokensOf cc target).length → ℝ, (∀ i, 0 < q i ∧ 0 < p i) ∧ m.prices = (tokensOf cc target).zip (List.ofFn p) ∧
      (∀ i, |log10 (p i) - log10 (q i)| ≤ params.epsValue) ∧
      (IsUnit (slopes cc target q).det → (∀ j, |log10 (p j)| ≤ 99999) → ∀ i, ∃ e, dictGet m.dtokens (tokensOf cc target)[i] = some e ∧
        |e| ≤ pow10 params.epsValue * (9 * (tokensOf cc target).length * params.epsValue + (pow10 params.epsValue - 1)) * holdings cc target p i) := by
  obtain ⟨q, p, d, h1, h2, -, h4, h5, h6, h7, -, h9, h10⟩ := C133_found h hr
  have he0 : 0 ≤ params.epsValue := (Real.sqrt_nonneg _).trans h5.le
  have hd : ∀ i, |d i| ≤ params.epsValue := abs_le_of_normSq h5
  have hnear : ∀ i, p i ≤ q i * pow10 params.epsValue ∧ q i ≤ p i * pow10 params.epsValue := by
    intro i
    by_cases hn : n = 0
    · rw [(h6 hn).1, (h6 hn).2]
      have := le_mul_of_one_le_right (h.pos i).le (one_le_pow10 he0)
      exact ⟨this, this⟩
    · rw [h7 hn i]
      exact pow10_near (h1 i) (hd i)
  have hlog : ∀ i, |log10 (p i) - log10 (q i)| ≤ params.epsValue := by
    intro i
    by_cases hn : n = 0
    · rw [(h6 hn).1, (h6 hn).2, sub_self, abs_zero]
      exact he0
    · rw [h7 hn i]
      have e : log10 (q i * pow10 (d i)) = log10 (q i) + d i := by
        have : q i * pow10 (d i) = pow10 (log10 (q i) + d i) := by rw [pow10_add, pow10_log10 (h1 i)]
        rw [this, log10_pow10]
      rw [e, add_sub_cancel_left]
      exact hd i
  refine ⟨q, p, fun i => ⟨h1 i, h2 i⟩, h9, hlog, fun hu hl i => ⟨_, h10 i, ?_⟩⟩
  have hlq : ∀ j, |log10 (q j)| ≤ 100000 := by
    intro j
    have a := abs_le.mp (hlog j)
    have b := abs_le.mp (hl j)
    rw [abs_le]
    constructor <;> linarith [a.1, a.2, b.1, b.2]
  obtain ⟨g0, g1, g2⟩ := excess_moved h.sound h2 h1 (one_le_pow10 he0) hnear i
  have e := (leastSquares_of_unit hu _ _).1 h4
  have e1 : excess cc target q i = - ∑ j, slopes cc target q i j * d j := by
    have := congrFun e i
    simp only [Matrix.mulVec, dotProduct, Pi.neg_apply] at this
    rw [this, neg_neg]
  have e2 : |excess cc target q i| ≤ ∑ _j : Fin (tokensOf cc target).length, 9 * holdings cc target q i * params.epsValue := by
    rw [e1, abs_neg]
    refine (Finset.abs_sum_le_sum_abs _ _).trans (Finset.sum_le_sum fun j _ => ?_)
    rw [abs_mul]
    exact mul_le_mul (slopes_le h.sound h1 hlq i j) (hd j) (abs_nonneg _) (by linarith)
  rw [Finset.sum_const, Finset.card_univ, Fintype.card_fin, nsmul_eq_mul] at e2
  have e3 : |excess cc target p i| ≤ |excess cc target q i| + |excess cc target p i - excess cc target q i| := by
    have := abs_add_le (excess cc target q i) (excess cc target p i - excess cc target q i)
    rwa [add_sub_cancel] at this
  have e4 : 0 ≤ 9 * ((tokensOf cc target).length : ℝ) * params.epsValue + (pow10 params.epsValue - 1) := by
    have := one_le_pow10 he0
    have : 0 ≤ 9 * ((tokensOf cc target).length : ℝ) * params.epsValue := by positivity
    linarith
  have e5 := mul_le_mul_of_nonneg_left g1 e4
  linarith

/-! ## One step for a single price -/

theorem log_ten_bounds : 2 ≤ Real.log 10 ∧ Real.log 10 ≤ 12 / 5 := by
  have h1 := Real.exp_one_gt_d9
  have h2 := Real.exp_one_lt_d9
  constructor
  · rw [Real.le_log_iff_exp_le (by norm_num)]
    have : Real.exp 2 = Real.exp 1 * Real.exp 1 := by rw [← Real.exp_add]; norm_num
    rw [this]
    nlinarith
  · rw [Real.log_le_iff_le_exp (by norm_num)]
    have : Real.exp (12 / 5) = Real.exp 1 * Real.exp 1 * Real.exp (2 / 5) := by rw [← Real.exp_add, ← Real.exp_add]; norm_num
    rw [this]
    have h3 := Real.add_one_le_exp (2 / 5 : ℝ)
    have h4 : (7 : ℝ) + 3 / 10 ≤ Real.exp 1 * Real.exp 1 := by nlinarith
    nlinarith

/-- The distance of the linearised step. -/
theorem exp_near {w : ℝ} (h : |w| ≤ 1 / 2) : |w - (1 - Real.exp (-w))| ≤ 31 / 100 * |w| := by
  have hb := Real.exp_bound (x := -w) (by rw [abs_neg]; linarith) (n := 3) (by norm_num)
  simp only [Finset.sum_range_succ, Finset.sum_range_zero, Nat.factorial, abs_neg] at hb
  norm_num at hb
  have hw := abs_nonneg w
  have e : w ^ 2 = |w| ^ 2 := (sq_abs w).symm
  have h3 : |w| ^ 3 * (2 / 9) ≤ |w| * (1 / 18) := by
    have : |w| ^ 2 ≤ 1 / 4 := by nlinarith
    nlinarith
  have h2 : |w| ^ 2 / 2 ≤ |w| * (1 / 4) := by nlinarith
  have := abs_le.mp hb
  rw [abs_le]
  constructor <;> linarith [this.1, this.2, sq_nonneg w]

/-- What the difference quotient adds to the step. -/
theorem quotient_near {τ : ℝ} (h : 0 < τ) : 0 < 1 - Real.exp (-τ) ∧ 1 ≤ τ / (1 - Real.exp (-τ)) ∧ τ / (1 - Real.exp (-τ)) ≤ 1 + τ := by
  have h1 : Real.exp (-τ) < 1 := by rw [← Real.exp_zero]; exact Real.exp_lt_exp.mpr (by linarith)
  have h2 := Real.add_one_le_exp (-τ)
  have h3 := Real.add_one_le_exp τ
  have h4 : Real.exp τ * Real.exp (-τ) = 1 := by rw [← Real.exp_add]; simp
  have hp : 0 < 1 - Real.exp (-τ) := by linarith
  refine ⟨hp, ?_, ?_⟩
  · rw [le_div_iff₀ hp]; linarith
  · rw [div_le_iff₀ hp]
    have := mul_le_mul_of_nonneg_right h3 (Real.exp_pos (-τ)).le
    nlinarith

/-- One step halves the distance `w` to the balance, and is not much different from it. `L` is the logarithm of ten. -/
theorem one_step {w s L d : ℝ} (hL : 2 ≤ L ∧ L ≤ 12 / 5) (hw : |w| ≤ 1 / 2) (hs0 : 0 < s) (hs1 : s ≤ 1 / 10)
    (hd : d = (1 - Real.exp (-w)) * s / (1 - Real.exp (-(s * L / 2)))) :
    |w - d * L / 2| ≤ |w| / 2 ∧ |d| ≤ 3 / 2 * |w| ∧ |w| ≤ 2 * |d| := by
  have hτ : 0 < s * L / 2 := by have := hL.1; positivity
  have hτ1 : s * L / 2 ≤ 12 / 100 := by nlinarith [hL.1, hL.2]
  obtain ⟨q0, q1, q2⟩ := quotient_near hτ
  have hn := exp_near hw
  obtain ⟨θ, hθ⟩ : ∃ θ, θ = s * L / 2 / (1 - Real.exp (-(s * L / 2))) := ⟨_, rfl⟩
  obtain ⟨g, hg⟩ : ∃ g, g = 1 - Real.exp (-w) := ⟨_, rfl⟩
  rw [← hθ] at q1 q2
  rw [← hg] at hn hd
  have e : d * L / 2 = g * θ := by rw [hd, hθ]; field_simp
  have hw0 := abs_nonneg w
  have g1 : |g| ≤ 131 / 100 * |w| := by
    have := abs_sub_abs_le_abs_sub g w
    rw [abs_sub_comm] at this
    linarith
  have g2 : 69 / 100 * |w| ≤ |g| := by
    have := abs_sub_abs_le_abs_sub w g
    linarith
  have hθ0 : 0 ≤ θ - 1 := by linarith
  have ed : |d| * (L / 2) = |g| * θ := by
    have := congrArg abs e
    rw [abs_mul g, abs_of_pos (by linarith : 0 < θ), mul_div_assoc, abs_mul, abs_of_pos (by linarith [hL.1] : 0 < L / 2)] at this
    exact this
  have hd0 := abs_nonneg d
  have hg0 := abs_nonneg g
  refine ⟨?_, ?_, ?_⟩
  · rw [e]
    have e1 : w - g * θ = (w - g) - g * (θ - 1) := by ring
    rw [e1]
    have h1 := abs_sub (w - g) (g * (θ - 1))
    have h2 : |g * (θ - 1)| ≤ 131 / 100 * |w| * (12 / 100) := by
      rw [abs_mul, abs_of_nonneg hθ0]
      exact mul_le_mul g1 (by linarith) hθ0 (by positivity)
    linarith
  · have h1 : |g| * θ ≤ 131 / 100 * |w| * (112 / 100) := mul_le_mul g1 (by linarith) (by linarith) (by positivity)
    have h2 : |d| * 1 ≤ |d| * (L / 2) := mul_le_mul_of_nonneg_left (by linarith [hL.1]) hd0
    linarith
  · have h1 : |g| * 1 ≤ |g| * θ := mul_le_mul_of_nonneg_left q1 hg0
    have h2 : |d| * (L / 2) ≤ |d| * (6 / 5) := mul_le_mul_of_nonneg_left (by linarith [hL.2]) hd0
    linarith

/-! ## Pools of one pair -/

/-- A pool of which everything can be traded goes to the price. -/
theorem best_free {c : CPC ℝ} (hs : Sound c) (hx : c.xAct = c.x) (hy : c.yAct = c.y) {p : ℝ} (hp : 0 < p) :
    best c p = (√c.k / √p - c.x, √c.k * √p - c.y) := by
  have hk := hs.hk
  have sk := Real.sqrt_pos.mpr hk
  have sp := Real.sqrt_pos.mpr hp
  have ek := Real.mul_self_sqrt hk.le
  have ep := Real.mul_self_sqrt hp.le
  obtain ⟨hA, hXY⟩ := best_allowed hs hp
  have h := best_le hs hp (t := (√c.k / √p - c.x, √c.k * √p - c.y)) ⟨by simp; positivity, by simp; positivity, by
      simp only [add_sub_cancel]
      have : √c.k / √p * (√c.k * √p) = √c.k * √c.k := by field_simp
      rw [this, ek], by simp only [hx, add_sub_cancel]; positivity, by simp only [hy, add_sub_cancel]; positivity⟩
  refine (h.2 (le_antisymm h.1 ?_)).symm
  have hX := hA.x
  have hY := hA.y
  simp only
  have e1 : p * (√c.k / √p - c.x) + (√c.k * √p - c.y) = 2 * (√c.k * √p) - p * c.x - c.y := by
    have : p * (√c.k / √p) = √c.k * √p := by
      rw [mul_div_assoc', div_eq_iff sp.ne', mul_assoc, ep, mul_comm]
    linarith
  rw [e1]
  have e2 : 2 * (√c.k * √p) ≤ p * (c.x + (best c p).1) + (c.y + (best c p).2) := by
    refine abs_le_of_sq_le_sq' ?_ (by positivity) |>.2
    have : (√c.k * √p) ^ 2 = (c.x + (best c p).1) * (c.y + (best c p).2) * p := by
      rw [hXY, mul_pow, Real.sq_sqrt hk.le, Real.sq_sqrt hp.le]
    rw [mul_pow, this]
    nlinarith [sq_nonneg (p * (c.x + (best c p).1) - (c.y + (best c p).2))]
  linarith

/-- All pools trade the same two tokens, the target token and `a`, and all they have. -/
structure PairPools (cc : CC ℝ) (target a : Str) : Prop where
  tokens : tokensOf cc target = [a]
  free : ∀ c ∈ cc.curves, c.xAct = c.x ∧ c.yAct = c.y
  pair : ∀ c ∈ cc.curves, (c.tknb = a ∧ c.tknq = target) ∨ (c.tknb = target ∧ c.tknq = a)

/-- What the pools hold of `a` before the trades. -/
noncomputable def heldBefore (a : Str) (cs : List (CPC ℝ)) : ℝ := (cs.map fun c => if c.tknb = a then c.x else c.y).sum

/-- The sum of the liquidities of the pools. -/
noncomputable def depthOf (cs : List (CPC ℝ)) : ℝ := (cs.map fun c => √c.k).sum

theorem net_pair {prices : List (Str × ℝ)} {target a : Str} (hne : a ≠ target) {r : ℝ} (hr : 0 < r) (ha : priceOf prices a = r) (ht : priceOf prices target = 1) :
    ∀ cs : List (CPC ℝ), (∀ c ∈ cs, Sound c) → (∀ c ∈ cs, c.xAct = c.x ∧ c.yAct = c.y) →
      (∀ c ∈ cs, (c.tknb = a ∧ c.tknq = target) ∨ (c.tknb = target ∧ c.tknq = a)) →
      net a cs (cs.map (tradeOf prices)) = depthOf cs / √r - heldBefore a cs
  | [], _, _, _ => by simp [net, depthOf, heldBefore]
  | c :: cs, h1, h2, h3 => by
    have ih := net_pair hne hr ha ht cs (fun d hd => h1 d (List.mem_cons_of_mem _ hd)) (fun d hd => h2 d (List.mem_cons_of_mem _ hd))
      (fun d hd => h3 d (List.mem_cons_of_mem _ hd))
    have hc := h1 c (by simp)
    have hf := h2 c (by simp)
    unfold depthOf heldBefore at ih ⊢
    simp only [List.map_cons, net, List.sum_cons]
    rw [ih]
    unfold tradeOf
    rcases h3 c (by simp) with ⟨e1, e2⟩ | ⟨e1, e2⟩
    · rw [e1, e2, if_pos rfl, if_neg (Ne.symm hne), if_pos rfl, ha, ht, div_one, best_free hc hf.1 hf.2 hr]
      simp only
      ring
    · rw [e1, e2, if_neg (Ne.symm hne), if_pos rfl, if_neg (Ne.symm hne), ha, ht, best_free hc hf.1 hf.2 (by positivity)]
      simp only
      rw [one_div, Real.sqrt_inv]
      ring

theorem dictGet_one {ts : List Str} {a : Str} (h : ts = [a]) (p : Fin ts.length → ℝ) (i : Fin ts.length) :
    ts[i] = a ∧ dictGet (ts.zip (List.ofFn p)) a = some (p i) ∧ ∀ t, t ≠ a → dictGet (ts.zip (List.ofFn p)) t = none := by
  subst h
  have hi : i = ⟨0, by simp⟩ := Fin.ext (Nat.lt_one_iff.mp i.2)
  subst hi
  refine ⟨rfl, by simp [dictGet], fun t ht => ?_⟩
  simp [dictGet, Ne.symm ht]

theorem solve_one {n : ℕ} (hn : n = 1) (J : Matrix (Fin n) (Fin n) ℝ) (v : Fin n → ℝ) (i : Fin n) (hJ : J i i ≠ 0) : solve J v i = v i / J i i := by
  subst hn
  have hi : i = 0 := Subsingleton.elim _ _
  subst hi
  have hu : IsUnit J.det := by rw [Matrix.det_fin_one]; exact hJ.isUnit
  have := congrFun ((leastSquares_of_unit hu _ _).1 (solve_spec J v)) 0
  simp only [Matrix.mulVec, dotProduct, Fin.sum_univ_one, Fin.isValue] at this
  rw [← this]
  exact (mul_div_cancel_left₀ _ hJ).symm

theorem normSq_one {n : ℕ} (hn : n = 1) (v : Fin n → ℝ) (i : Fin n) : √(normSq v) = |v i| := by
  subst hn
  have hi : i = 0 := Subsingleton.elim _ _
  subst hi
  simp [normSq, Real.sqrt_sq_eq_abs]

section Pair

variable {cc : CC ℝ} {target a : Str}

theorem PairPools.ne (h : PairPools cc target a) : a ≠ target :=
  (tokensOf_mem.1 (by rw [h.tokens]; simp : a ∈ tokensOf cc target)).2

theorem PairPools.length (h : PairPools cc target a) : (tokensOf cc target).length = 1 := by rw [h.tokens]; rfl

theorem excess_pair (h : PairPools cc target a) (hs : ∀ c ∈ cc.curves, Sound c) {p : Fin (tokensOf cc target).length → ℝ} (i) (hp : 0 < p i) :
    excess cc target p i = depthOf cc.curves / √(p i) - heldBefore a cc.curves := by
  obtain ⟨e1, e2, e3⟩ := dictGet_one h.tokens p i
  unfold excess
  rw [e1]
  refine net_pair h.ne hp ?_ ?_ _ hs h.free h.pair
  · unfold priceOf; rw [e2]; rfl
  · unfold priceOf; rw [e3 _ h.ne.symm]; rfl

theorem sums_pos (h : PairPools cc target a) (hs : ∀ c ∈ cc.curves, Sound c) : 0 < depthOf cc.curves ∧ 0 < heldBefore a cc.curves := by
  have hne : cc.curves ≠ [] := by
    have hm : a ∈ cc.tkns := (tokensOf_mem.1 (by rw [h.tokens]; simp : a ∈ tokensOf cc target)).1
    exact curves_ne_nil hm
  constructor
  · refine List.sum_pos _ (fun x hx => ?_) (by simpa using hne)
    obtain ⟨c, hc, rfl⟩ := List.mem_map.mp hx
    exact Real.sqrt_pos.mpr (hs c hc).hk
  · refine List.sum_pos _ (fun x hx => ?_) (by simpa using hne)
    obtain ⟨c, hc, rfl⟩ := List.mem_map.mp hx
    split
    · exact (hs c hc).hx
    · exact (hs c hc).y_pos

/-- C133: pools of one pair without bounds balance at exactly one price. -/
theorem C133_pair_balance (h : PairPools cc target a) (hs : ∀ c ∈ cc.curves, Sound c) :
    ∃! b : ℝ, 0 < b ∧ ∀ i, excess cc target (fun _ => b) i = 0 := by
  obtain ⟨hS, hC⟩ := sums_pos h hs
  have hl : 0 < (tokensOf cc target).length := by rw [h.length]; norm_num
  refine ⟨(depthOf cc.curves / heldBefore a cc.curves) ^ 2, ⟨by positivity, fun i => ?_⟩, ?_⟩
  · rw [excess_pair h hs i (by positivity), Real.sqrt_sq (by positivity)]
    field_simp
    ring
  · rintro b ⟨hb, hb0⟩
    have := hb0 ⟨0, hl⟩
    rw [excess_pair h hs _ hb] at this
    have sb := Real.sqrt_pos.mpr hb
    have e : √b = depthOf cc.curves / heldBefore a cc.curves := by
      rw [eq_div_iff hC.ne']
      rw [sub_eq_zero, div_eq_iff sb.ne'] at this
      linarith
    rw [← e, Real.sq_sqrt hb.le]

/-- The distance of a logarithmic price from the balance. -/
noncomputable def away (b u : ℝ) : ℝ := (log10 b - u) * Real.log 10 / 2

theorem sqrt_pow10 (u : ℝ) : √(pow10 u) = Real.exp (u * Real.log 10 / 2) := by
  unfold pow10
  rw [Real.sqrt_eq_iff_mul_self_eq (Real.exp_pos _).le (Real.exp_pos _).le, ← Real.exp_add]
  congr 1
  ring

theorem excess_away (h : PairPools cc target a) (hs : ∀ c ∈ cc.curves, Sound c) {b : ℝ} (hb : 0 < b) (hb0 : ∀ i, excess cc target (fun _ => b) i = 0)
    {p : Fin (tokensOf cc target).length → ℝ} (i) (u : ℝ) (hp : p i = pow10 u) :
    excess cc target p i = heldBefore a cc.curves * (Real.exp (away b u) - 1) := by
  have e0 := hb0 i
  rw [excess_pair h hs i hb] at e0
  rw [excess_pair h hs i (by rw [hp]; exact pow10_pos _), hp, sqrt_pow10]
  have sb : √b = Real.exp (log10 b * Real.log 10 / 2) := by
    conv_lhs => rw [← pow10_log10 hb]
    exact sqrt_pow10 _
  rw [sb] at e0
  have e1 : depthOf cc.curves = heldBefore a cc.curves * Real.exp (log10 b * Real.log 10 / 2) := by
    rw [sub_eq_zero, div_eq_iff (Real.exp_pos _).ne'] at e0
    exact e0
  have e2 : Real.exp (away b u) = Real.exp (log10 b * Real.log 10 / 2) / Real.exp (u * Real.log 10 / 2) := by
    rw [← Real.exp_sub]
    unfold away
    congr 1
    ring
  rw [e1, e2]
  ring

/-- The step of the search, for one price. -/
theorem step_pair (h : PairPools cc target a) (hs : ∀ c ∈ cc.curves, Sound c) {b : ℝ} (hb : 0 < b) (hb0 : ∀ i, excess cc target (fun _ => b) i = 0)
    (plog : Fin (tokensOf cc target).length → ℝ) (i) :
    logStepAt cc target plog i = (1 - Real.exp (-away b (plog i))) * logStep (pow10 (plog i)) /
      (1 - Real.exp (-(logStep (pow10 (plog i)) * Real.log 10 / 2))) := by
  obtain ⟨hS, hC⟩ := sums_pos h hs
  have hs0 := logStep_pos (pow10 (plog i))
  obtain ⟨s, hse⟩ : ∃ s, s = logStep (pow10 (plog i)) := ⟨_, rfl⟩
  have hL := Real.log_pos (by norm_num : (1 : ℝ) < 10)
  have q0 := (quotient_near (τ := s * Real.log 10 / 2) (by rw [hse]; positivity)).1
  have ex := excess_away h hs hb hb0 (p := fun j => pow10 (plog j)) i (plog i) rfl
  have eu := excess_away h hs hb hb0 (p := Function.update (fun j => pow10 (plog j)) i (pow10 (plog i) * pow10 s)) i (plog i + s)
    (by simp [pow10_add])
  have ea : Real.exp (away b (plog i + s)) = Real.exp (away b (plog i)) * Real.exp (-(s * Real.log 10 / 2)) := by
    rw [← Real.exp_add]; unfold away; congr 1; ring
  have sl : slopes cc target (fun j => pow10 (plog j)) i i =
      -(heldBefore a cc.curves * Real.exp (away b (plog i)) * (1 - Real.exp (-(s * Real.log 10 / 2))) / s) := by
    unfold slopes
    rw [← hse, eu, ex, ea]
    ring
  have hw := Real.exp_pos (away b (plog i))
  rw [← hse] at hs0
  unfold logStepAt stepAt
  rw [solve_one h.length _ _ i (by rw [sl]; exact neg_ne_zero.mpr (by positivity)), sl, Pi.neg_apply, ex, ← hse, Real.exp_neg (away b (plog i))]
  generalize 1 - Real.exp (-(s * Real.log 10 / 2)) = Q at q0
  generalize Real.exp (away b (plog i)) = W at hw
  field_simp

theorem halving (h : PairPools cc target a) (hs : ∀ c ∈ cc.curves, Sound c) {b : ℝ} (hb : 0 < b) (hb0 : ∀ i, excess cc target (fun _ => b) i = 0)
    (hbl : |log10 b| ≤ 9999) (plog : Fin (tokensOf cc target).length → ℝ) (i) (hw : |away b (plog i)| ≤ 1 / 2) :
    |away b (plog i + logStepAt cc target plog i)| ≤ |away b (plog i)| / 2 ∧ |logStepAt cc target plog i| ≤ 3 / 2 * |away b (plog i)| ∧
      |away b (plog i)| ≤ 2 * |logStepAt cc target plog i| := by
  have hL := log_ten_bounds
  have hu : |plog i| ≤ 10000 := by
    unfold away at hw
    rw [mul_div_assoc, abs_mul, abs_of_pos (by linarith [hL.1] : 0 < Real.log 10 / 2)] at hw
    have h1 : |log10 b - plog i| * 1 ≤ |log10 b - plog i| * (Real.log 10 / 2) := mul_le_mul_of_nonneg_left (by linarith [hL.1]) (abs_nonneg _)
    have h2 := abs_sub_abs_le_abs_sub (plog i) (log10 b)
    rw [abs_sub_comm] at h2
    linarith
  have hst : logStep (pow10 (plog i)) ≤ 1 / 10 := by
    have := logStep_le (q := pow10 (plog i)) (b := 10000) (by norm_num) (by rw [log10_pow10]; exact hu)
    linarith
  have := one_step hL hw (logStep_pos _) hst (step_pair h hs hb hb0 plog i)
  have e : away b (plog i + logStepAt cc target plog i) = away b (plog i) - logStepAt cc target plog i * Real.log 10 / 2 := by unfold away; ring
  rw [e]
  exact this

theorem away_logs (h : PairPools cc target a) (hs : ∀ c ∈ cc.curves, Sound c) {b : ℝ} (hb : 0 < b) (hb0 : ∀ i, excess cc target (fun _ => b) i = 0)
    (hbl : |log10 b| ≤ 9999) {start : Fin (tokensOf cc target).length → ℝ} (i) (hw : |away b (log10 (start i))| ≤ 1 / 2) (k : ℕ) :
    |away b (logsAt cc target start k i)| ≤ 1 / 2 ^ (k + 1) := by
  induction k with
  | zero => simpa [logsAt] using hw
  | succ k ih =>
    have h1 : (1 : ℝ) / 2 ^ (k + 1) ≤ 1 / 2 := by
      rw [pow_succ]
      have : (1 : ℝ) ≤ 2 ^ k := one_le_pow₀ (by norm_num)
      rw [div_le_div_iff₀ (by positivity) (by norm_num)]
      linarith
    have e : logsAt cc target start (k + 1) i = logsAt cc target start k i + logStepAt cc target (logsAt cc target start k) i := by
      unfold logsAt
      rw [Function.iterate_succ_apply']
      rfl
    rw [e]
    refine (halving h hs hb hb0 hbl _ i (ih.trans h1)).1.trans ?_
    have : (1 : ℝ) / 2 ^ (k + 1 + 1) = 1 / 2 ^ (k + 1) / 2 := by rw [pow_succ 2 (k + 1)]; field_simp
    rw [this]
    linarith

/-- C133: for pools of one pair without bounds, the search from a price within a factor of `10 ^ (2 / 5)` of the balancing price `b` succeeds,
if the permitted iterations are enough to halve the precision down from one. The reported price has the balancing logarithm up to twice the precision,
and what remains of the other token is in proportion to the precision. -/
theorem C133_pair_converges {params : MargpParams} {start} (h : PairPools cc target a) (hR : Ready cc target params start) {b : ℝ} (hb : 0 < b)
    (hb0 : ∀ i, excess cc target (fun _ => b) i = 0) (hbl : |log10 b| ≤ 9999) (hst : ∀ i, |log10 (start i) - log10 b| ≤ 2 / 5) {N : ℕ}
    (hN : 1 / 2 ^ N ≤ params.epsValue) (hm : (N : Int) + 1 < params.maxiterValue) :
    ∃ n m p e, margpRun cc target params = .ok (.found n m) ∧ n ≤ N ∧ dictGet m.prices a = some p ∧ 0 < p ∧ |log10 p - log10 b| ≤ 2 * params.epsValue ∧
      dictGet m.dtokens a = some e ∧ |e| ≤ heldBefore a cc.curves * (pow10 params.epsValue - 1) := by
  obtain ⟨hS, hC⟩ := sums_pos h hR.sound
  have hL := log_ten_bounds
  have hl : 0 < (tokensOf cc target).length := by rw [h.length]; norm_num
  obtain ⟨i⟩ : Nonempty (Fin (tokensOf cc target).length) := ⟨⟨0, hl⟩⟩
  have haw : ∀ u, |log10 b - u| ≤ |away b u| ∧ |away b u| ≤ |log10 b - u| * (6 / 5) := by
    intro u
    unfold away
    rw [mul_div_assoc, abs_mul, abs_of_pos (by linarith [hL.1] : 0 < Real.log 10 / 2)]
    have := abs_nonneg (log10 b - u)
    constructor <;> nlinarith [hL.1, hL.2]
  have hw : |away b (log10 (start i))| ≤ 1 / 2 := by
    have h1 := (haw (log10 (start i))).2
    have h2 := hst i
    rw [abs_sub_comm] at h2
    linarith
  have hall := away_logs h hR.sound hb hb0 hbl i hw
  have hhalf : ∀ k : ℕ, (1 : ℝ) / 2 ^ (k + 1) = 1 / 2 ^ k / 2 := fun k => by rw [pow_succ]; field_simp
  have hle : ∀ k : ℕ, (1 : ℝ) / 2 ^ (k + 1) ≤ 1 / 2 := fun k => by
    rw [hhalf]
    have : (1 : ℝ) / 2 ^ k ≤ 1 := by
      rw [div_le_one (by positivity)]
      exact one_le_pow₀ (by norm_num)
    linarith
  have hhv := fun k => halving h hR.sound hb hb0 hbl (logsAt cc target start k) i ((hall k).trans (hle k))
  have hstop : Stops cc target start params.epsValue N := by
    unfold Stops
    rw [normSq_one h.length _ i]
    have h1 := (hhv N).2.1
    have h2 := hall N
    have h3 : (0 : ℝ) < 1 / 2 ^ N := by positivity
    rw [hhalf] at h2
    linarith
  rcases searchFrom_cases start params.epsValue params.maxiterValue with ⟨n, c1, c2, c3⟩ | c
  swap
  · exact absurd hstop (c N hm)
  have hnN : n ≤ N := by
    by_contra hh
    exact c3 N (by omega) hstop
  obtain ⟨m, hmm⟩ := margp_found hR.sound hR.known hR.pos n
  have hrun : margpRun cc target params = .ok (.found n m) := by
    rw [margpRun_eq hR, searchFrom_found hR.sound hR.known c1 c2 c3, hmm]
    rfl
  unfold Stops at c2
  rw [normSq_one h.length _ i] at c2
  obtain ⟨f1, -, f3⟩ := hhv n
  obtain ⟨p, hp⟩ : ∃ p : Fin (tokensOf cc target).length → ℝ, p = if n = 0 then start else fun j => pow10 (logsAt cc target start (n + 1) j) := ⟨_, rfl⟩
  rw [← hp] at hmm
  have hpp : ∀ j, 0 < p j := by
    intro j
    rw [hp]
    split
    · exact hR.pos j
    · exact pow10_pos _
  have hfar : |away b (log10 (p i))| ≤ 2 * params.epsValue := by
    rw [hp]
    split
    · rename_i h0
      subst h0
      have : logsAt cc target start 0 i = log10 (start i) := rfl
      rw [this] at f3
      linarith
    · rw [log10_pow10]
      have e : logsAt cc target start (n + 1) i = logsAt cc target start n i + logStepAt cc target (logsAt cc target start n) i := by
        unfold logsAt
        rw [Function.iterate_succ_apply']
        rfl
      rw [e]
      have := abs_nonneg (logStepAt cc target (logsAt cc target start n) i)
      linarith
  obtain ⟨m', g1, -, -, g4, -, g6, -⟩ := margp_eq (input_ofFn hR.sound hR.known hpp)
  rw [hmm] at g1
  cases g1
  obtain ⟨d1, d2, -⟩ := dictGet_one h.tokens p i
  have g6' := g6 _ (token_mem i)
  rw [g4] at g6'
  refine ⟨n, m, p i, excess cc target p i, hrun, hnN, by rw [g4]; exact d2, hpp i, ?_, ?_, ?_⟩
  · rw [abs_sub_comm]
    exact (haw _).1.trans hfar
  · rw [← d1]
    exact g6'
  · rw [excess_away h hR.sound hb hb0 i (log10 (p i)) (pow10_log10 (hpp i)).symm, abs_mul, abs_of_pos hC]
    refine mul_le_mul_of_nonneg_left ?_ hC.le
    have e1 : Real.exp |away b (log10 (p i))| ≤ pow10 params.epsValue := by
      unfold pow10
      rw [Real.exp_le_exp]
      have he : 0 ≤ params.epsValue := (by positivity : (0 : ℝ) ≤ 1 / 2 ^ N).trans hN
      nlinarith [hL.1]
    have e2 := Real.exp_le_exp.mpr (le_abs_self (away b (log10 (p i))))
    have e3 := Real.exp_le_exp.mpr (neg_abs_le (away b (log10 (p i))))
    have e4 : 1 - Real.exp (-|away b (log10 (p i))|) ≤ Real.exp |away b (log10 (p i))| - 1 := by
      have t1 := Real.add_one_le_exp (-|away b (log10 (p i))|)
      have t2 := Real.add_one_le_exp |away b (log10 (p i))|
      linarith
    rw [abs_le]
    constructor <;> linarith

/-- C133: with the default precision and number of iterations, 21 iterations are enough. -/
theorem C133_pair_default {pstart : List (Str × ℝ)} {start} (h : PairPools cc target a) (hR : Ready cc target { pstart := some pstart } start) {b : ℝ} (hb : 0 < b)
    (hb0 : ∀ i, excess cc target (fun _ => b) i = 0) (hbl : |log10 b| ≤ 9999) (hst : ∀ i, |log10 (start i) - log10 b| ≤ 2 / 5) :
    ∃ n m p, margpRun cc target { pstart := some pstart } = .ok (.found n m) ∧ n ≤ 20 ∧ dictGet m.prices a = some p ∧ |log10 p - log10 b| ≤ 2 / 1000000 := by
  obtain ⟨n, m, p, e, h1, h2, h3, -, h5, -⟩ := C133_pair_converges h hR hb hb0 hbl hst (N := 20) (by unfold MargpParams.epsValue; norm_num)
    (by unfold MargpParams.maxiterValue; norm_num)
  refine ⟨n, m, p, h1, h2, h3, h5.trans ?_⟩
  unfold MargpParams.epsValue
  norm_num

/-- A pool of which everything can be traded is not at the boundary of its range. -/
theorem free_usable (h : PairPools cc target a) {c : CPC ℝ} (hc : c ∈ cc.curves) : CC.Usable c a target := by
  refine ⟨?_, ?_⟩
  · obtain ⟨f1, f2⟩ := h.free c hc
    simp [CPC.atBoundary, CPC.atXmin, CPC.atXmax, CPC.xMin, CPC.xMax, CPC.yMin, f1, f2]
  · unfold CC.Trades
    rcases h.pair c hc with e | e
    · exact .inl e
    · exact .inr e

/-- What a pool holds of the token `a`, and the price of `a` that it quotes. -/
theorem own_price (h : PairPools cc target a) (hs : ∀ c ∈ cc.curves, Sound c) {c : CPC ℝ} (hc : c ∈ cc.curves) :
    0 < CC.dirPrice c a target ∧ (if c.tknb = a then c.x else c.y) * √(CC.dirPrice c a target) = √c.k := by
  have hS := hs c hc
  have hx := hS.hx
  have hy := hS.y_pos
  have hxy := hS.xy
  have hp : c.p = c.y / c.x := rfl
  unfold CC.dirPrice
  rcases h.pair c hc with ⟨e1, e2⟩ | ⟨e1, e2⟩
  · rw [if_pos ⟨e1, e2⟩, if_pos e1, hp, ← hxy]
    refine ⟨div_pos hy hx, ?_⟩
    rw [← Real.sqrt_sq hx.le, ← Real.sqrt_mul (sq_nonneg _), Real.sqrt_sq hx.le]
    congr 1
    field_simp
  · have hn : ¬ (c.tknb = a ∧ c.tknq = target) := fun hh => h.ne (hh.1.symm.trans e1)
    rw [if_neg hn, if_neg (fun hh => h.ne (hh.symm.trans e1)), hp, ← hxy]
    refine ⟨by positivity, ?_⟩
    rw [← Real.sqrt_sq hy.le, ← Real.sqrt_mul (sq_nonneg _), Real.sqrt_sq hy.le]
    congr 1
    field_simp

theorem balance_between (h : PairPools cc target a) (hs : ∀ c ∈ cc.curves, Sound c) {lo hi : ℝ}
    (hp : ∀ c ∈ cc.curves, lo ≤ CC.dirPrice c a target ∧ CC.dirPrice c a target ≤ hi) {b : ℝ} (hb : 0 < b) (hb0 : ∀ i, excess cc target (fun _ => b) i = 0) :
    lo ≤ b ∧ b ≤ hi := by
  obtain ⟨hS, hC⟩ := sums_pos h hs
  have hl : 0 < (tokensOf cc target).length := by rw [h.length]; norm_num
  have e0 := hb0 ⟨0, hl⟩
  rw [excess_pair h hs _ hb] at e0
  have sb := Real.sqrt_pos.mpr hb
  rw [sub_eq_zero, div_eq_iff sb.ne'] at e0
  have hpos : ∀ c ∈ cc.curves, 0 < (if c.tknb = a then c.x else c.y) := by
    intro c hc
    split
    · exact (hs c hc).hx
    · exact (hs c hc).y_pos
  have hsum : ∀ (r : ℝ) (cs : List (CPC ℝ)), (heldBefore a cs) * r = (cs.map fun c => (if c.tknb = a then c.x else c.y) * r).sum := by
    intro r cs
    unfold heldBefore
    rw [← List.sum_map_mul_right]
  have l1 : heldBefore a cc.curves * √lo ≤ depthOf cc.curves := by
    rw [hsum]
    unfold depthOf
    refine List.sum_le_sum fun c hc => ?_
    rw [← (own_price h hs hc).2]
    exact mul_le_mul_of_nonneg_left (Real.sqrt_le_sqrt (hp c hc).1) (hpos c hc).le
  have l2 : depthOf cc.curves ≤ heldBefore a cc.curves * √hi := by
    rw [hsum]
    unfold depthOf
    refine List.sum_le_sum fun c hc => ?_
    rw [← (own_price h hs hc).2]
    exact mul_le_mul_of_nonneg_left (Real.sqrt_le_sqrt (hp c hc).2) (hpos c hc).le
  rw [e0] at l1 l2
  constructor
  · have := le_of_mul_le_mul_left l1 hC
    exact (Real.sqrt_le_sqrt_iff hb.le).1 this
  · have := le_of_mul_le_mul_left l2 hC
    by_contra hh
    push Not at hh
    have := Real.sqrt_lt_sqrt_iff_of_pos hb |>.2 hh
    linarith

theorem log10_mono {x y : ℝ} (hx : 0 < x) (h : x ≤ y) : log10 x ≤ log10 y :=
  div_le_div_of_nonneg_right (Real.log_le_log hx h) (Real.log_pos (by norm_num)).le

/-- Without parameters the search begins at the estimate of the price from the pools. -/
theorem pair_ready (h : PairPools cc target a) (hs : ∀ c ∈ cc.curves, Sound c) (ht : target ∈ cc.tkns) :
    ∃ v, Ready cc target {} (fun _ => v) ∧ (∀ lo, (∀ c ∈ cc.curves, lo ≤ CC.dirPrice c a target) → lo ≤ v) ∧
      ∀ hi, (∀ c ∈ cc.curves, CC.dirPrice c a target ≤ hi) → v ≤ hi := by
  have hne := curves_ne_nil ht
  obtain ⟨c0, hc0⟩ := List.exists_mem_of_ne_nil _ hne
  rcases C134_estimates (params := {}) hs ht rfl with ⟨-, l, l1, l2, l3⟩ | ⟨⟨t, h1, h2, h3⟩, -⟩
  swap
  · have hta : t = a := by
      have : t ∈ tokensOf cc target := tokensOf_mem.2 ⟨h1, h2⟩
      rw [h.tokens] at this
      simpa using this
    subst hta
    exact absurd (.inr ⟨c0, hc0, free_usable h hc0⟩) h3
  obtain ⟨v, v1, v2⟩ := l3 0 a (by rw [h.tokens]; rfl)
  have hlv : l = [v] := by
    rw [h.length] at l2
    match l, l2, v1 with
    | [w], _, e => simpa using e
  obtain ⟨m, m', e1, -, hm0, -, e4, e5⟩ := (CC.C74_estimate_partial cc hs a target h.ne).2 ⟨c0, hc0, free_usable h hc0⟩ false
  rw [v2] at e1
  cases e1
  refine ⟨v, ⟨hs, ht, ?_, fun _ => hm0⟩, fun lo h' => e4 lo fun c hc _ => h' c hc, fun hi h' => e5 hi fun c hc _ => h' c hc⟩
  rw [l1, hlv, List.ofFn_const, h.length]
  rfl

/-- C134: for pools of one pair without bounds, of which all quote prices within a factor of `10 ^ (2 / 5)` of each other, the optimizer finds the
balancing price without parameters, within 21 iterations. -/
theorem C134_pair (h : PairPools cc target a) (hs : ∀ c ∈ cc.curves, Sound c) (ht : target ∈ cc.tkns) {lo hi : ℝ} (hlo : 0 < lo)
    (hp : ∀ c ∈ cc.curves, lo ≤ CC.dirPrice c a target ∧ CC.dirPrice c a target ≤ hi) (hw : log10 hi - log10 lo ≤ 2 / 5)
    (hl1 : -9999 ≤ log10 lo) (hl2 : log10 hi ≤ 9999) {b : ℝ} (hb : 0 < b) (hb0 : ∀ i, excess cc target (fun _ => b) i = 0) :
    ∃ n m p e, margpRun cc target = .ok (.found n m) ∧ n ≤ 20 ∧ dictGet m.prices a = some p ∧ 0 < p ∧ |log10 p - log10 b| ≤ 2 / 1000000 ∧
      dictGet m.dtokens a = some e ∧ |e| ≤ heldBefore a cc.curves * (9 / 1000000) := by
  obtain ⟨hS, hC⟩ := sums_pos h hs
  have hbetw := balance_between h hs hp hb hb0
  obtain ⟨v, hR, e4, e5⟩ := pair_ready h hs ht
  have hm0 : 0 < v := hR.pos ⟨0, by rw [h.length]; norm_num⟩
  have b1 := e4 lo fun c hc => (hp c hc).1
  have b2 := e5 hi fun c hc => (hp c hc).2
  have q1 := log10_mono hlo hbetw.1
  have q2 := log10_mono hb hbetw.2
  have q3 := log10_mono hlo b1
  have q4 := log10_mono hm0 b2
  obtain ⟨n, m, p, e, r1, r2, r3, r4, r5, r6, r7⟩ := C133_pair_converges (params := {}) h hR hb hb0 (by rw [abs_le]; constructor <;> linarith)
    (fun _ => by rw [abs_le]; constructor <;> linarith) (N := 20) (by unfold MargpParams.epsValue; norm_num) (by unfold MargpParams.maxiterValue; norm_num)
  have he : MargpParams.epsValue {} = 1 / 1000000 := rfl
  rw [he] at r5 r7
  refine ⟨n, m, p, e, r1, r2, r3, r4, by linarith, r6, r7.trans ?_⟩
  refine mul_le_mul_of_nonneg_left ?_ hC.le
  have := pow10_le (s := 1 / 1000000) (by norm_num) (by norm_num)
  linarith

end Pair

end Opt

end Carbon
