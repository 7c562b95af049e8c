import Mathlib.Analysis.SpecialFunctions.Pow.Real
import Verif.Carbon.OrderUISdk
import Verif.Carbon.OrderUILemmas
import Verif.Prop.OrderUIPrice

/-! Properties of the contract parameters and of the further parameters of a curve. -/

namespace Carbon.UICurve

open CarbonPair (pyDiv)
open Sdk

/-! ## Parameters for the contract -/

/-- The decimals of the token that is sold and of the other one. -/
def HasDecimals (c : UICurve ℝ) (dy dx : ℤ) : Prop :=
  (c.tkn = c.pair.tknb ∧ c.pair.decB = some (.int dy) ∧ c.pair.decQ = some (.int dx)) ∨
  (c.tkn = c.pair.tknq ∧ c.pair.decQ = some (.int dy) ∧ c.pair.decB = some (.int dx))

theorem yzABS_eq {c : UICurve ℝ} {dy dx : ℤ} (hp : Proper c) (h : HasDecimals c dy dx) (sx : ℕ) :
    c.yzABS sx = .ok ⟨c.y * 10 ^ dy, c.yint * 10 ^ dy, SdkTkn.toInt (c.S * (10 : ℝ) ^ (((dy : ℝ) - dx) / 2) * 2 ^ sx),
      SdkTkn.toInt (c.B * (10 : ℝ) ^ (((dy : ℝ) - dx) / 2) * 2 ^ sx), 2 ^ sx⟩ := by
  have hd : c.pair.hasDecimals = true := by
    unfold CarbonPair.hasDecimals
    rcases h with ⟨_, h1, h2⟩ | ⟨_, h1, h2⟩ <;> rw [h1, h2] <;> rfl
  unfold yzABS
  rw [hd]
  simp only [Bool.not_true, Bool.false_eq_true, if_false]
  rcases hp with ⟨e, ne⟩ | ⟨e, ne⟩
  · have hne : c.pair.tknb ≠ c.pair.tknq := e ▸ ne
    rcases h with ⟨_, h1, h2⟩ | ⟨h0, _, _⟩
    · have d1 : decimalsOf c.pair c.tkn = some (.int dy) := by unfold decimalsOf; rw [if_neg ne, if_pos e, h1]
      have d2 : (c.pair.other c.tkn).bind (decimalsOf c.pair) = some (.int dx) := by
        unfold CarbonPair.other CarbonPair.hasBase
        rw [if_pos (by simp [e])]
        simp [decimalsOf, h2]
      rw [d1, d2]
    · exact absurd h0 ne
  · rcases h with ⟨h0, _, _⟩ | ⟨_, h1, h2⟩
    · exact absurd h0 ne
    · have hne : ¬ c.pair.tknb = c.pair.tknq := fun hh => ne (e.trans hh.symm)
      have d1 : decimalsOf c.pair c.tkn = some (.int dy) := by unfold decimalsOf; rw [if_pos e, h1]
      have d2 : (c.pair.other c.tkn).bind (decimalsOf c.pair) = some (.int dx) := by
        unfold CarbonPair.other CarbonPair.hasBase CarbonPair.hasQuote
        rw [if_neg (by simpa using ne), if_pos (by simp [e])]
        simp [decimalsOf, h2, hne]
      rw [d1, d2]

theorem toInt_bounds {x : ℝ} (h : 0 ≤ x) : (SdkTkn.toInt x : ℝ) ≤ x ∧ x < SdkTkn.toInt x + 1 := by
  unfold SdkTkn.toInt
  rw [if_pos h]
  exact ⟨Int.floor_le x, Int.lt_floor_add_one x⟩

/-- The parameters for the contract: holdings and capacity in the smallest unit, and the two roots rounded down to multiples of `1/2**sx`. -/
theorem C108_parameters (c : UICurve ℝ) (hp : Proper c) (hB : 0 ≤ c.B) (hS : 0 ≤ c.S) (dy dx : ℤ) (hd : HasDecimals c dy dx) (sx : ℕ) :
    ∃ d a b, c.yzABS sx = .ok d ∧ d.S = 2 ^ sx ∧ d.y = c.y * 10 ^ dy ∧ d.z = c.yint * 10 ^ dy ∧ d.aUnscaled = .ok a ∧ d.bUnscaled = .ok b ∧
      (0 ≤ b ∧ b ^ 2 ≤ c.pbRaw * (10 : ℝ) ^ (dy - dx) ∧ c.pbRaw * (10 : ℝ) ^ (dy - dx) < (b + 1 / 2 ^ sx) ^ 2) ∧
      (0 ≤ a ∧ (a + b) ^ 2 ≤ c.paRaw * (10 : ℝ) ^ (dy - dx) ∧ c.paRaw * (10 : ℝ) ^ (dy - dx) < (a + b + 2 / 2 ^ sx) ^ 2) := by
  obtain ⟨f, hf⟩ : ∃ f : ℝ, f = (10 : ℝ) ^ (((dy : ℝ) - dx) / 2) := ⟨_, rfl⟩
  have f0 : 0 < f := by rw [hf]; positivity
  have f2 : f ^ 2 = (10 : ℝ) ^ (dy - dx) := by
    rw [hf, ← Real.rpow_natCast, ← Real.rpow_mul (by norm_num), ← Real.rpow_intCast]
    congr 1
    push_cast
    ring
  have s0 : (0 : ℝ) < 2 ^ sx := by positivity
  have e := yzABS_eq hp hd sx
  rw [← hf] at e
  obtain ⟨a1, a2⟩ := toInt_bounds (x := c.S * f * 2 ^ sx) (by positivity)
  obtain ⟨b1, b2⟩ := toInt_bounds (x := c.B * f * 2 ^ sx) (by positivity)
  have nn : ∀ {x : ℝ}, 0 ≤ x → (0 : ℝ) ≤ SdkTkn.toInt x := by
    intro x hx; unfold SdkTkn.toInt; rw [if_pos hx]; exact_mod_cast Int.floor_nonneg.mpr hx
  have a0 := nn (x := c.S * f * 2 ^ sx) (by positivity)
  have b0 := nn (x := c.B * f * 2 ^ sx) (by positivity)
  obtain ⟨A, hA⟩ : ∃ A : ℤ, A = SdkTkn.toInt (c.S * f * 2 ^ sx) := ⟨_, rfl⟩
  obtain ⟨B, hB'⟩ : ∃ B : ℤ, B = SdkTkn.toInt (c.B * f * 2 ^ sx) := ⟨_, rfl⟩
  rw [← hA] at a1 a2 a0 e
  rw [← hB'] at b1 b2 b0 e
  have hs : (((2 : ℤ) ^ sx : ℤ) : ℝ) = 2 ^ sx := by push_cast; rfl
  have ua : (A : ℝ) / 2 ^ sx ≤ c.S * f := (div_le_iff₀ s0).mpr a1
  have ub : (B : ℝ) / 2 ^ sx ≤ c.B * f := (div_le_iff₀ s0).mpr b1
  have la : c.S * f < (A : ℝ) / 2 ^ sx + 1 / 2 ^ sx := by rw [← add_div, lt_div_iff₀ s0]; exact a2
  have lb : c.B * f < (B : ℝ) / 2 ^ sx + 1 / 2 ^ sx := by rw [← add_div, lt_div_iff₀ s0]; exact b2
  have na : 0 ≤ (A : ℝ) / 2 ^ sx := by positivity
  have nb : 0 ≤ (B : ℝ) / 2 ^ sx := by positivity
  have eb : c.pbRaw * (10 : ℝ) ^ (dy - dx) = (c.B * f) ^ 2 := by rw [← f2]; unfold pbRaw; ring
  have ea : c.paRaw * (10 : ℝ) ^ (dy - dx) = (c.S * f + c.B * f) ^ 2 := by rw [← f2]; unfold paRaw; ring
  have nB : 0 ≤ c.B * f := by positivity
  have nS : 0 ≤ c.S * f := by positivity
  refine ⟨_, (A : ℝ) / 2 ^ sx, (B : ℝ) / 2 ^ sx, e, rfl, rfl, rfl, ?_, ?_, ⟨nb, ?_, ?_⟩, na, ?_, ?_⟩
  · unfold YzABS.aUnscaled; dsimp only; rw [hs]; exact pyDiv_ok s0.ne'
  · unfold YzABS.bUnscaled; dsimp only; rw [hs]; exact pyDiv_ok s0.ne'
  · rw [eb]; exact pow_le_pow_left₀ nb ub 2
  · rw [eb]; exact pow_lt_pow_left₀ lb nB (by norm_num)
  · rw [ea]; exact pow_le_pow_left₀ (by positivity) (by linarith) 2
  · rw [ea]
    have : (2 : ℝ) / 2 ^ sx = 1 / 2 ^ sx + 1 / 2 ^ sx := by ring
    exact pow_lt_pow_left₀ (by rw [this]; linarith) (by positivity) (by norm_num)

/-- Without the decimals of both tokens there are no parameters. -/
theorem C108_no_decimals (c : UICurve ℝ) (sx : ℕ) (h : c.pair.decB = none ∨ c.pair.decQ = none) : c.yzABS sx = .error .value := by
  have hd : c.pair.hasDecimals = false := by
    unfold CarbonPair.hasDecimals
    rcases h with h | h <;> rw [h] <;> simp
  unfold yzABS
  rw [hd]
  rfl

/-- A curve of ETH/USDC with decimals that sells USDC between 4 and 9. -/
noncomputable def decCurve : UICurve ℝ :=
  ⟨⟨"ETH".toList, "USDC".toList, "ETH".toList, "USDC".toList, false, some (.int 18), some (.int 6)⟩, "USDC".toList, 2, 1, 1, 1 / 3⟩

theorem dec_proper : Proper decCurve := Or.inr ⟨rfl, by show "USDC".toList ≠ "ETH".toList; decide⟩

theorem dec_decimals : HasDecimals decCurve 6 18 := Or.inr ⟨rfl, rfl, rfl⟩

/-- Holdings and capacity are announced as integers, but they are not rounded. -/
theorem C108_integers_violated : ∃ (c : UICurve ℝ) (d : YzABS), Proper c ∧ HasDecimals c 6 18 ∧ c.yzABS 48 = .ok d ∧ ∀ n : ℤ, d.y ≠ n := by
  obtain ⟨d, a, b, e, -, hy, -⟩ := C108_parameters decCurve dec_proper (by norm_num [decCurve]) (by norm_num [decCurve]) 6 18 dec_decimals 48
  refine ⟨decCurve, d, dec_proper, dec_decimals, e, fun n hn => ?_⟩
  have h1 : d.y = 1000000 / 3 := by rw [hy]; norm_num [decCurve]
  rw [hn] at h1
  have h2 : ((3 * n : ℤ) : ℝ) = ((1000000 : ℤ) : ℝ) := by push_cast; linarith
  have h3 : 3 * n = 1000000 := by exact_mod_cast h2
  omega

/-- With the default scale the roots of a token with fewer decimals are all lost: the parameters of every price range of less than `10**12` are the
same. -/
theorem C108_default_scale_violated (c : UICurve ℝ) (hp : Proper c) (hB : 0 ≤ c.B) (hS : 0 ≤ c.S) (hd : HasDecimals c 6 18)
    (hr : c.paRaw < 10 ^ 12) : ∃ d, c.yzABS = .ok d ∧ d.A = 0 ∧ d.B = 0 := by
  have hf : (10 : ℝ) ^ ((((6 : ℤ) : ℝ) - ((18 : ℤ) : ℝ)) / 2) = 1 / 10 ^ 6 := by
    rw [show ((((6 : ℤ) : ℝ) - ((18 : ℤ) : ℝ)) / 2) = ((-6 : ℤ) : ℝ) by norm_num, Real.rpow_intCast]; norm_num
  have e := yzABS_eq hp hd 0
  rw [hf] at e
  have h1 : c.S + c.B < 10 ^ 6 := by
    by_contra hh
    have := pow_le_pow_left₀ (by norm_num) (not_lt.mp hh) 2
    unfold paRaw at hr
    norm_num at this hr
    linarith
  have z : ∀ x : ℝ, 0 ≤ x → x < 10 ^ 6 → SdkTkn.toInt (x * (1 / 10 ^ 6) * 2 ^ 0) = 0 := by
    intro x h0 h1
    have h2 : 0 ≤ x * (1 / 10 ^ 6) * 2 ^ 0 := by positivity
    unfold SdkTkn.toInt
    rw [if_pos h2, Int.floor_eq_zero_iff]
    refine ⟨h2, ?_⟩
    rw [pow_zero, mul_one, mul_one_div, div_lt_one (by norm_num)]
    exact h1
  refine ⟨_, e, z _ hS (by linarith), z _ hB (by linarith)⟩

/-- The bounds for the sample curve, with the scale of the contracts. -/
example : ∃ d a b, decCurve.yzABS 48 = .ok d ∧ d.z = 1000000 ∧ d.aUnscaled = .ok a ∧ d.bUnscaled = .ok b ∧ b ^ 2 ≤ 4 / 10 ^ 12 ∧
    4 / 10 ^ 12 < (b + 1 / 2 ^ 48) ^ 2 := by
  obtain ⟨d, a, b, e, -, -, hz, ha, hb, ⟨-, h1, h2⟩, -⟩ :=
    C108_parameters decCurve dec_proper (by norm_num [decCurve]) (by norm_num [decCurve]) 6 18 dec_decimals 48
  have hp : decCurve.pbRaw * (10 : ℝ) ^ ((6 : ℤ) - 18) = 4 / 10 ^ 12 := by norm_num [decCurve, pbRaw]
  rw [hp] at h1 h2
  exact ⟨d, a, b, e, by rw [hz]; norm_num [decCurve], ha, hb, h1, h2⟩

example : ∃ d, decCurve.yzABS = .ok d ∧ d.A = 0 ∧ d.B = 0 :=
  C108_default_scale_violated _ dec_proper (by norm_num [decCurve]) (by norm_num [decCurve]) dec_decimals
    (by norm_num [decCurve, paRaw])

/-! ## Sorting by pair -/

/-- Curves sorted by pair and side: under the name of a pair are exactly its curves, each of them on one side, in the order in which they
are given. The asks are those that sell the base token. -/
theorem C108_sides (cs : List (UICurve ℝ)) (name : Str) :
    (byPair cs name = none ↔ ∀ c ∈ cs, c.pair.slashpair ≠ name) ∧
    ∀ r, byPair cs name = some r → r.all.Sublist cs ∧ r.ask.Sublist r.all ∧ r.bid.Sublist r.all ∧ (r.ask ++ r.bid).Perm r.all ∧ r.all ≠ [] ∧
      (∀ c, c ∈ r.all ↔ c ∈ cs ∧ c.pair.slashpair = name) ∧
      (∀ c, c ∈ r.ask ↔ c ∈ r.all ∧ c.tkn = c.pair.tknb) ∧ (∀ c, c ∈ r.bid ↔ c ∈ r.all ∧ c.tkn ≠ c.pair.tknb) := by
  unfold byPair
  constructor
  · split
    · rename_i h
      obtain ⟨c, hc, e⟩ := List.mem_map.mp h
      exact ⟨fun hh => (Option.some_ne_none _ hh).elim, fun hh => absurd e (hh c hc)⟩
    · rename_i h
      exact ⟨fun _ c hc e => h (List.mem_map.mpr ⟨c, hc, e⟩), fun _ => rfl⟩
  · intro r hr
    split at hr
    · rename_i h
      obtain ⟨c0, hc0, e0⟩ := List.mem_map.mp h
      cases hr
      dsimp only
      have fa : (cs.filter fun c => decide (c.pair.slashpair = name) && c.isBid) =
          (cs.filter fun c => decide (c.pair.slashpair = name)).filter (fun c => c.isBid) := by
        rw [List.filter_filter]; congr 1; funext c; rw [Bool.and_comm]
      have fb : (cs.filter fun c => decide (c.pair.slashpair = name) && !c.isBid) =
          (cs.filter fun c => decide (c.pair.slashpair = name)).filter (fun c => !c.isBid) := by
        rw [List.filter_filter]; congr 1; funext c; rw [Bool.and_comm]
      refine ⟨List.filter_sublist, by rw [fa]; exact List.filter_sublist, by rw [fb]; exact List.filter_sublist,
        by rw [fa, fb]; exact List.filter_append_perm _ _, ?_, ?_, ?_, ?_⟩
      · exact List.ne_nil_of_mem (List.mem_filter.mpr ⟨hc0, by simpa using e0⟩)
      · intro c; simp
      · intro c; simp [isBid, and_assoc]
      · intro c; simp [isBid, and_assoc]
    · cases hr

/-! ## Further parameters -/

/-- The two width parameters determine each other. -/
theorem C109_width (g : ℝ) (h1 : g ≤ 1) : gammaFromQ (qFromGamma g) = .ok g ∧ ∀ q, 0 ≤ q → ∃ g', gammaFromQ q = .ok g' ∧ qFromGamma g' = q := by
  unfold gammaFromQ qFromGamma pySqrt
  constructor
  · rw [if_neg (not_lt.mpr (sq_nonneg _)), Real.sqrt_sq (by linarith)]
    show Except.ok (1 - (1 - g)) = _
    rw [sub_sub_cancel]
  · intro q hq
    refine ⟨1 - Real.sqrt q, by rw [if_neg (not_lt.mpr hq)]; rfl, ?_⟩
    rw [sub_sub_cancel, Real.sq_sqrt hq]

/-- The geometry of a curve in terms of the fourth root `g` of its price ratio. -/
theorem central {c : UICurve ℝ} (h : Sound c) :
    ∃ g, 0 < g ∧ g ≤ 1 ∧ (0 < c.S → g < 1) ∧ (c.S = 0 → g = 1) ∧ c.Gamma = 1 - g ∧ c.Q = g ^ 2 ∧ c.B = g ^ 2 * (c.B + c.S) ∧
      c.y0 = c.yint * g / (1 + g) ∧ c.x0 = c.yint / ((c.B + c.S) ^ 2 * g * (1 + g)) := by
  have hB := h.hB
  have hS := h.hS
  have hP : 0 < c.B + c.S := by positivity
  have hQ : c.Q = c.B / (c.B + c.S) := by
    unfold Q pbRaw paRaw
    have : c.B * c.B / (c.S + c.B) ^ 2 = (c.B / (c.B + c.S)) ^ 2 := by
      rw [div_pow, add_comm c.S]; ring
    rw [this, Real.sqrt_sq (by positivity)]
  have hQ0 : 0 < c.Q := by rw [hQ]; positivity
  have hQ1 : c.Q ≤ 1 := by rw [hQ, div_le_one hP]; linarith
  obtain ⟨g, hg⟩ : ∃ g, g = Real.sqrt c.Q := ⟨_, rfl⟩
  have g0 : 0 < g := by rw [hg]; exact Real.sqrt_pos.mpr hQ0
  have hG : c.Gamma = 1 - g := by rw [hg]; rfl
  have hq : c.Q = g ^ 2 := by rw [hg, Real.sq_sqrt hQ0.le]
  have hBg : c.B = g ^ 2 * (c.B + c.S) := by rw [← hq, hQ]; field_simp
  have e2 : (2 : ℝ) - (1 - g) = 1 + g := by ring
  have e1 : c.B ^ 2 + c.B * c.S = g ^ 2 * (c.B + c.S) ^ 2 := by
    calc c.B ^ 2 + c.B * c.S = c.B * (c.B + c.S) := by ring
      _ = g ^ 2 * (c.B + c.S) * (c.B + c.S) := by rw [← hBg]
      _ = _ := by ring
  refine ⟨g, g0, by rw [hg, Real.sqrt_le_iff]; exact ⟨zero_le_one, by simpa using hQ1⟩, ?_, ?_, hG, hq, hBg, ?_, ?_⟩
  · intro hs
    rw [hg, Real.sqrt_lt' one_pos, hQ, one_pow, div_lt_one hP]; linarith
  · intro hs
    rw [hg, hQ, hs, add_zero, div_self hB.ne', Real.sqrt_one]
  · unfold y0; rw [hG, e2, sub_sub_cancel]
  · unfold x0; rw [hG, e2, sub_sub_cancel, e1]; field_simp

/-- The point `(x0, y0)` lies on the curve, inside of the range. The price there is the central price `p0`, which is the geometric mean of the ends of
the range, and in raw form the quotient of the coordinates. -/
theorem C109_center (c : UICurve ℝ) (h : Sound c) (hp : Proper c) :
    ∃ p r, c.p0 = .ok p ∧ c.p0Raw = .ok r ∧ 0 < p ∧ p ^ 2 = c.pmin * c.pmax ∧ c.pmin ≤ p ∧ p ≤ c.pmax ∧
      p = (if c.tkn = c.pair.tknq then r else 1 / r) ∧ 0 < c.y0 ∧ c.y0 < c.yint ∧
      c.xfromyF c.y0 = .ok (some c.x0) ∧ c.pMargF (c.yint - c.y0) true = .ok (some p) := by
  obtain ⟨g, g0, g1, -, -, hG, hQ, hB, hy, hx⟩ := central h
  have hz := h.hyint
  obtain ⟨P, hP⟩ : ∃ P, P = c.B + c.S := ⟨_, rfl⟩
  have P0 : 0 < P := by rw [hP]; have := h.hB; have := h.hS; positivity
  rw [← hP] at hB hx
  have hS : c.S = (1 - g ^ 2) * P := by rw [sub_mul, one_mul, ← hB, hP]; ring
  have ea : c.paRaw = P ^ 2 := by unfold paRaw; rw [hP, add_comm]
  have eb : c.pbRaw = (g ^ 2 * P) ^ 2 := by unfold pbRaw; rw [← hB]; ring
  have y0 : 0 < c.y0 := by rw [hy]; positivity
  have y1 : c.y0 < c.yint := by rw [hy, div_lt_iff₀ (by positivity)]; nlinarith
  have x0 : 0 < c.x0 := by rw [hx]; positivity
  have hr : c.y0 / c.x0 = (g * P) ^ 2 := by rw [hy, hx]; field_simp
  have hm : c.B + c.S * c.y0 / c.yint = g * P := by
    rw [hS, hB, hy]; field_simp; ring
  have hxy : c.xfromyF c.y0 = .ok (some c.x0) := by
    rw [xfromyF_ok h y0.le y1.le true false, ← hP]
    have h2 : c.B * c.yint + c.S * c.y0 = g * P * c.yint := by rw [← hm]; field_simp
    have h3 : c.yint - c.y0 = c.yint / (1 + g) := by rw [hy]; field_simp; ring
    rw [h2, h3, hx]
    congr 2
    field_simp
  have hpm : c.pMargF (c.yint - c.y0) true = .ok (some (c.inConv ((g * P) ^ 2))) := by
    unfold pMargF
    rw [if_neg (by simp [h.not_disabled])]
    simp only [if_true, sub_sub_cancel]
    rw [if_neg (by simpa using y1.le), if_neg (by simpa using y0.le), if_neg hz.ne', hm, quotePrice_ok (by positivity)]
  have mm : c.pmin * c.pmax = c.pa * c.pb ∧ c.pmin = min c.pa c.pb ∧ c.pmax = max c.pa c.pb := by
    unfold pmin pmax
    split
    · rename_i hl; exact ⟨rfl, (min_eq_left hl.le).symm, (max_eq_right hl.le).symm⟩
    · rename_i hl; exact ⟨mul_comm _ _, (min_eq_right (not_lt.mp hl)).symm, (max_eq_left (not_lt.mp hl)).symm⟩
  have g2 : g ^ 2 ≤ 1 := by nlinarith
  have r1 : (g ^ 2 * P) ^ 2 ≤ (g * P) ^ 2 := pow_le_pow_left₀ (by positivity) (mul_le_mul_of_nonneg_right (by nlinarith) P0.le) 2
  have r2 : (g * P) ^ 2 ≤ P ^ 2 := pow_le_pow_left₀ (by positivity) (by nlinarith) 2
  -- the product of the two ends
  have key : c.pa * c.pb = c.inConv ((g * P) ^ 2) ^ 2 ∧ 0 < c.inConv ((g * P) ^ 2) ∧ min c.pa c.pb ≤ c.inConv ((g * P) ^ 2) ∧
      c.inConv ((g * P) ^ 2) ≤ max c.pa c.pb ∧ c.inConv ((g * P) ^ 2) = (if c.tkn = c.pair.tknq then (g * P) ^ 2 else 1 / (g * P) ^ 2) := by
    unfold pa pb inConv reverseq CarbonPair.hasBase CarbonPair.hasQuote
    rcases hp with ⟨e1, e2⟩ | ⟨e1, e2⟩
    · simp only [e1, decide_true, if_true, ea, eb]
      have hne : ¬ c.pair.tknb = c.pair.tknq := e1 ▸ e2
      simp only [hne, decide_false, Bool.false_eq_true, if_false]
      refine ⟨by field_simp, by positivity, (min_le_left _ _).trans ?_, le_trans ?_ (le_max_right _ _), trivial⟩
      · exact one_div_le_one_div_of_le (by positivity) r2
      · exact one_div_le_one_div_of_le (by positivity) r1
    · have hne : ¬ c.pair.tknq = c.pair.tknb := e1 ▸ e2
      simp only [e1, hne, decide_false, Bool.false_eq_true, if_false, decide_true, if_true, ea, eb]
      exact ⟨by ring, by positivity, (min_le_right _ _).trans r1, r2.trans (le_max_left _ _), trivial⟩
  obtain ⟨k1, k2, k3, k4, k5⟩ := key
  refine ⟨c.inConv ((g * P) ^ 2), (g * P) ^ 2, ?_, ?_, k2, ?_, ?_, ?_, k5, y0, y1, hxy, hpm⟩
  · unfold p0 pySqrt
    rw [if_neg (not_lt.mpr (k1 ▸ sq_nonneg _)), k1, Real.sqrt_sq k2.le]
  · unfold p0Raw; rw [pyDiv_ok x0.ne', hr]
  · rw [mm.1, k1]
  · rw [mm.2.1]; exact k3
  · rw [mm.2.2]; exact k4

/-- The quotients of the parameters are functions of `Gamma` alone, and so are the width of the range and the leverage. -/
theorem C109_ratios (c : UICurve ℝ) (h : Sound c) (hp : Proper c) (hS : 0 < c.S) :
    ∃ i a l k w v xi, intOver0 c.Gamma = .ok i ∧ asymOver0 c.Gamma = .ok a ∧ c.leverage = .ok l ∧ c.kappaBar = .ok k ∧ c.widthr = .ok w ∧
      c.widthpc = .ok v ∧ c.xint = .ok xi ∧ c.yint = i * c.y0 ∧ xi = i * c.x0 ∧ c.yasym = a * c.y0 ∧ c.xasym = a * c.x0 ∧ a < 0 ∧ 1 < l ∧
      0 < k ∧ k ^ 2 = c.kappa ∧ k = l * Real.sqrt (c.x0 * c.y0) ∧ qFromGamma c.Gamma = c.Q ∧ w * c.Q ^ 2 = 1 ∧ v = 1 / c.Q - c.Q := by
  obtain ⟨g, g0, -, g1, -, hG, hQ, hB, hy, hx⟩ := central h
  have g1 := g1 hS
  have hz := h.hyint
  obtain ⟨P, hP⟩ : ∃ P, P = c.B + c.S := ⟨_, rfl⟩
  have P0 : 0 < P := by rw [hP]; have := h.hB; positivity
  rw [← hP] at hB hx
  have ea : c.paRaw = P ^ 2 := by unfold paRaw; rw [hP, add_comm]
  have eb : c.pbRaw = (g ^ 2 * P) ^ 2 := by unfold pbRaw; rw [← hB]; ring
  have y0 : 0 < c.y0 := by rw [hy]; positivity
  have x0 : 0 < c.x0 := by rw [hx]; positivity
  have d1 : 0 < 1 - g := by linarith
  have exi : c.B ^ 2 + c.B * c.S = g ^ 2 * P ^ 2 := by
    have : c.B ^ 2 + c.B * c.S = c.B * P := by rw [hP]; ring
    rw [this, hB]; ring
  obtain ⟨p, r, hp0, -, p0, hpp, -⟩ := C109_center c h hp
  have g2 : g ^ 2 < 1 := by nlinarith
  have lt : (g ^ 2 * P) ^ 2 < P ^ 2 := pow_lt_pow_left₀ (by nlinarith) (by positivity) (by norm_num)
  -- the two ends of the range
  have ends : 0 < c.pmin ∧ c.pmax / c.pmin = 1 / g ^ 4 := by
    unfold pmin pmax pa pb reverseq
    rw [ea, eb]
    split
    · have hl : 1 / P ^ 2 < 1 / (g ^ 2 * P) ^ 2 := one_div_lt_one_div_of_lt (by positivity) lt
      rw [if_pos hl, if_pos hl]
      exact ⟨by positivity, by field_simp⟩
    · rw [if_neg (not_lt.mpr lt.le), if_neg (not_lt.mpr lt.le)]
      exact ⟨by positivity, by field_simp⟩
  obtain ⟨m0, hw⟩ := ends
  have hmax : c.pmax = c.pmin / g ^ 4 := by rw [div_eq_iff m0.ne'] at hw; rw [hw]; ring
  have hpv : p = c.pmin / g ^ 2 := by
    have : p ^ 2 = (c.pmin / g ^ 2) ^ 2 := by rw [hpp, hmax]; field_simp
    exact (pow_left_inj₀ p0.le (by positivity) (by norm_num)).mp this
  have xy0 : 0 ≤ c.x0 * c.y0 := by positivity
  refine ⟨(1 + g) / g, 1 - 1 / (1 - g), 1 / (1 - g), Real.sqrt (c.x0 * c.y0) / (1 - g), 1 / g ^ 4, 1 / g ^ 2 - g ^ 2, c.yint / (g ^ 2 * P ^ 2),
    ?_, ?_, ?_, ?_, ?_, ?_, ?_, ?_, ?_, ?_, ?_, ?_, ?_, ?_, ?_, ?_, ?_, ?_, ?_⟩
  · unfold intOver0; rw [hG, sub_sub_cancel, pyDiv_ok g0.ne']; congr 2; ring
  · unfold asymOver0; rw [hG, pyDiv_ok d1.ne']; rfl
  · unfold leverage; rw [hG, pyDiv_ok d1.ne']
  · unfold kappaBar pySqrt; rw [if_neg (not_lt.mpr xy0), Py.ok_bind, hG, pyDiv_ok d1.ne']
  · unfold widthr; rw [pyDiv_ok m0.ne', hw]
  · unfold widthpc
    rw [hp0, Py.ok_bind, pyDiv_ok p0.ne', hpv, hmax]
    congr 1
    field_simp
  · unfold xint; rw [exi, pyDiv_ok (by positivity)]
  · rw [hy]; field_simp
  · rw [hx]; field_simp
  · unfold yasym; rw [hG]; ring
  · unfold xasym; rw [hG]; ring
  · have : 1 < 1 / (1 - g) := by rw [lt_div_iff₀ d1]; linarith
    linarith
  · rw [lt_div_iff₀ d1]; linarith
  · have : 0 < Real.sqrt (c.x0 * c.y0) := Real.sqrt_pos.mpr (by positivity)
    positivity
  · unfold kappa; rw [div_pow, Real.sq_sqrt xy0, hG]
  · ring
  · unfold qFromGamma; rw [hG, hQ]; ring
  · rw [hQ]; field_simp
  · rw [hQ]

/-- A range of a single price has no such parameters: the leverage would be infinite. -/
theorem C109_flat (c : UICurve ℝ) (h : Sound c) (hS : c.S = 0) : c.leverage = .error .zeroDiv ∧ c.kappaBar = .error .zeroDiv := by
  obtain ⟨g, g0, -, -, g1, hG, -, -, hy, hx⟩ := central h
  have hz := h.hyint
  have hP : 0 < c.B + c.S := by rw [hS, add_zero]; exact h.hB
  have hg : c.Gamma = 0 := by rw [hG, g1 hS, sub_self]
  have xy0 : 0 ≤ c.x0 * c.y0 := by rw [hx, hy]; positivity
  unfold leverage kappaBar pySqrt pyDiv
  rw [hg, if_pos rfl, if_neg (not_lt.mpr xy0)]
  exact ⟨rfl, by rw [Py.ok_bind, if_pos rfl]⟩

theorem dec_sound : Sound decCurve := ⟨by norm_num [decCurve], by norm_num [decCurve], by norm_num [decCurve], by norm_num [decCurve], by norm_num [decCurve]⟩

/-- The central price between 4 and 9 is 6. -/
example : decCurve.p0 = .ok 6 ∧ decCurve.pMargF (decCurve.yint - decCurve.y0) true = .ok (some 6) := by
  obtain ⟨p, r, h0, -, hp, hpp, -, -, -, -, -, -, hm⟩ := C109_center decCurve dec_sound dec_proper
  have hrev : decCurve.reverseq = false := by decide
  have : p ^ 2 = 36 := by
    rw [hpp]; unfold pmin pmax pa pb paRaw pbRaw; rw [hrev]; norm_num [decCurve]
  have h6 : p = 6 := by nlinarith
  rw [h6] at h0 hm
  exact ⟨h0, hm⟩

/-- The width of the range from 4 to 9 is 9/4, relative to the central price it is 5/6. -/
example : decCurve.widthr = .ok (9 / 4) ∧ decCurve.widthpc = .ok (5 / 6) := by
  obtain ⟨i, a, l, k, w, v, xi, -, -, -, -, hw, hv, -, -, -, -, -, -, -, -, -, -, -, hw2, hv2⟩ :=
    C109_ratios decCurve dec_sound dec_proper (by norm_num [decCurve])
  have hQ : decCurve.Q = 2 / 3 := by
    unfold Q paRaw pbRaw
    rw [show decCurve.B * decCurve.B / (decCurve.S + decCurve.B) ^ 2 = (2 / 3) ^ 2 by norm_num [decCurve]]
    exact Real.sqrt_sq (by norm_num)
  rw [hQ] at hw2 hv2
  have h1 : w = 9 / 4 := by linarith
  have h2 : v = 5 / 6 := by rw [hv2]; norm_num
  rw [h1] at hw
  rw [h2] at hv
  exact ⟨hw, hv⟩

end Carbon.UICurve
