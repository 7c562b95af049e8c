import Verif.Tools.Univ3
import Verif.Prop.CpcTrade

/-!
# C92: Uniswap v3 contract values
-/

set_option linter.unusedSectionVars false

namespace Carbon.Univ3

open CarbonPair (pyDiv)
open UICurve (pyDiv_ok)

/-! ## The pool -/

theorem new_cases {t0 t1 : Str} {sp tick liq fee : ℤ} {d0 d1 : Option ℤ} {u : Univ3} (h : new t0 t1 sp tick liq fee d0 d1 = .ok u) :
    u.sp96 = sp ∧ u.tick = tick ∧ u.liquidity = liq ∧ u.feeConst = fee ∧ (u.tkn0, u.tkn1) = rename t0 t1 ∧
      (∀ d, d0 = some d → u.dec0 = d) ∧ (∀ d, d1 = some d → u.dec1 = d) ∧
      (fee = 100 ∧ u.ticksize = 1 ∨ fee = 500 ∧ u.ticksize = 10 ∨ fee = 3000 ∧ u.ticksize = 60 ∨ fee = 10000 ∧ u.ticksize = 200) := by
  unfold new at h
  dsimp only at h
  rw [Py.bind_eq_ok] at h
  obtain ⟨a, ha, h⟩ := h
  rw [Py.bind_eq_ok] at h
  obtain ⟨b, hb, h⟩ := h
  by_cases hf : fee ∈ ticksz.map Prod.fst
  · rw [if_pos hf] at h
    have := Except.ok.inj h
    subst this
    refine ⟨rfl, rfl, rfl, rfl, rfl, ?_, ?_, ?_⟩
    · intro d hd; subst hd; exact (Except.ok.inj ha).symm
    · intro d hd; subst hd; exact (Except.ok.inj hb).symm
    · have : fee = 100 ∨ fee = 500 ∨ fee = 3000 ∨ fee = 10000 := by simpa [ticksz] using hf
      rcases this with e | e | e | e <;> subst e <;> simp [ticksize, ticksz]
  · rw [if_neg hf] at h
    cases h

theorem ticksize_pos {t0 t1 : Str} {sp tick liq fee : ℤ} {d0 d1 : Option ℤ} {u : Univ3}
    (h : new t0 t1 sp tick liq fee d0 d1 = .ok u) : 0 < u.ticksize := by
  obtain ⟨_, _, _, _, _, _, _, h⟩ := new_cases h
  rcases h with ⟨_, h⟩ | ⟨_, h⟩ | ⟨_, h⟩ | ⟨_, h⟩ <;> rw [h] <;> decide

/-- **C92** The range of a pool is the interval of adjacent multiples of the tick size of its fee tier that contains the current tick,
also for negative ticks; fees other than the four tiers are refused. -/
theorem C92_ticks {t0 t1 : Str} {sp tick liq fee : ℤ} {d0 d1 : Option ℤ} {u : Univ3} (h : new t0 t1 sp tick liq fee d0 d1 = .ok u) :
    ∃ w : ℤ, (fee = 100 ∧ w = 1 ∨ fee = 500 ∧ w = 10 ∨ fee = 3000 ∧ w = 60 ∨ fee = 10000 ∧ w = 200) ∧
      w ∣ u.tickab.1 ∧ u.tickab.2 = u.tickab.1 + w ∧ u.tickab.1 ≤ tick ∧ tick < u.tickab.2 := by
  obtain ⟨_, ht, _, _, _, _, _, hw⟩ := new_cases h
  have hp := ticksize_pos h
  refine ⟨u.ticksize, hw, ?_, rfl, ?_, ?_⟩
  · exact Dvd.intro_left _ rfl
  · show Int.fdiv u.tick u.ticksize * u.ticksize ≤ tick
    rw [ht, Int.fdiv_eq_ediv_of_nonneg _ hp.le]
    exact Int.ediv_mul_le _ hp.ne'
  · show tick < Int.fdiv u.tick u.ticksize * u.ticksize + u.ticksize
    rw [ht, Int.fdiv_eq_ediv_of_nonneg _ hp.le]
    have := Int.lt_ediv_add_one_mul_self tick hp
    linarith

theorem C92_fee_refused (t0 t1 : Str) (sp tick liq fee d0 d1 : ℤ) :
    (∃ u, new t0 t1 sp tick liq fee (some d0) (some d1) = .ok u) ↔ fee ∈ [100, 500, 3000, 10000] := by
  unfold new
  dsimp only [Option.elim_some]
  rw [Py.ok_bind, Py.ok_bind]
  by_cases hf : fee ∈ ticksz.map Prod.fst
  · rw [if_pos hf]
    exact ⟨fun _ => hf, fun _ => ⟨_, rfl⟩⟩
  · rw [if_neg hf]
    refine ⟨?_, fun h => absurd h hf⟩
    rintro ⟨u, hu⟩
    cases hu

section Field
variable {K : Type} [Field K] [LinearOrder K] [IsStrictOrderedRing K]

theorem tickBase_gt : (1 : K) < tickBase K := by unfold tickBase; rw [lt_div_iff₀ (by norm_num)]; norm_num

theorem decf_pos (u : Univ3) : (0 : K) < u.decf := zpow_pos (by norm_num) _

/-- **C92** The two ends of the range are positive prices in the right order, one tick size apart; and if the reported price belongs to
the reported tick, the price is in the range. -/
theorem C92_range {t0 t1 : Str} {sp tick liq fee : ℤ} {d0 d1 : Option ℤ} {u : Univ3} (h : new t0 t1 sp tick liq fee d0 d1 = .ok u) :
    0 < (u.papb : K × K).1 ∧ (u.papb : K × K).1 < (u.papb : K × K).2 ∧
      (u.papb : K × K).2 = (u.papb : K × K).1 * (10001 / 10000) ^ (u.tickab.2 - u.tickab.1) ∧
      (((10001 : K) / 10000) ^ tick ≤ (sp : K) ^ 2 / 2 ^ 192 → (sp : K) ^ 2 / 2 ^ 192 < ((10001 : K) / 10000) ^ (tick + 1) →
        (u.papb : K × K).1 ≤ u.price ∧ (u.price : K) < (u.papb : K × K).2) := by
  obtain ⟨w, hw, hd, hb, h1, h2⟩ := C92_ticks h
  have hwp : 0 < w := by rcases hw with ⟨_, e⟩ | ⟨_, e⟩ | ⟨_, e⟩ | ⟨_, e⟩ <;> rw [e] <;> decide
  obtain ⟨hsp, _⟩ := new_cases h
  have hB := tickBase_gt (K := K)
  have hB0 : (0 : K) < tickBase K := lt_trans one_pos hB
  have hdf := decf_pos (K := K) u
  have hab : u.tickab.1 < u.tickab.2 := by omega
  refine ⟨mul_pos (zpow_pos hB0 _) hdf, mul_lt_mul_of_pos_right (zpow_lt_zpow_right₀ hB hab) hdf, ?_, ?_⟩
  · show tickBase K ^ u.tickab.2 * u.decf = tickBase K ^ u.tickab.1 * u.decf * tickBase K ^ (u.tickab.2 - u.tickab.1)
    rw [mul_right_comm, ← zpow_add₀ hB0.ne']
    congr 2; ring
  · intro g1 g2
    have e : (u.price : K) = (sp : K) ^ 2 / 2 ^ 192 * u.decf := by unfold price priceF; rw [hsp]
    rw [e]
    constructor
    · refine mul_le_mul_of_nonneg_right (le_trans ?_ g1) hdf.le
      exact zpow_le_zpow_right₀ hB.le h1
    · refine mul_lt_mul_of_pos_right (lt_of_lt_of_le g2 ?_) hdf
      exact zpow_le_zpow_right₀ hB.le (by omega)

/-- **C92** The prices in the other direction are the reciprocals, and the range in the other direction descends. -/
theorem C92_inverse {t0 t1 : Str} {sp tick liq fee : ℤ} {d0 d1 : Option ℤ} {u : Univ3} (h : new t0 t1 sp tick liq fee d0 d1 = .ok u) :
    ((∃ q : K, u.priceInv = .ok q) ↔ sp ≠ 0) ∧ (∀ q : K, u.priceInv = .ok q → q * u.price = 1) ∧
      (u.papbInv : K × K).1 * (u.papb : K × K).1 = 1 ∧ (u.papbInv : K × K).2 * (u.papb : K × K).2 = 1 ∧
      (u.papbInv : K × K).2 < (u.papbInv : K × K).1 := by
  obtain ⟨ha, hab, _⟩ := C92_range (K := K) h
  obtain ⟨hsp, _⟩ := new_cases h
  have hdf := decf_pos (K := K) u
  have h0 : (u.price : K) = 0 ↔ sp = 0 := by
    unfold price priceF
    rw [hsp]
    constructor
    · intro e
      rcases mul_eq_zero.mp e with e | e
      · rcases div_eq_zero_iff.mp e with e | e
        · exact_mod_cast pow_eq_zero_iff (two_ne_zero) |>.mp e
        · exact absurd e (by positivity)
      · exact absurd e hdf.ne'
    · intro e; rw [e]; simp
  have hdiv : sp ≠ 0 → (u.priceInv : Py K) = .ok (1 / u.price) := fun e => pyDiv_ok (fun e' => e (h0.mp e'))
  have hinv : sp = 0 → (u.priceInv : Py K) = .error .zeroDiv := fun e => if_pos (h0.mpr e)
  have hb : 0 < (u.papb : K × K).2 := lt_trans ha hab
  refine ⟨⟨?_, fun e => ⟨_, hdiv e⟩⟩, ?_, one_div_mul_cancel ha.ne', one_div_mul_cancel hb.ne', one_div_lt_one_div_of_lt ha hab⟩
  · rintro ⟨q, hq⟩ e
    rw [hinv e] at hq; cases hq
  · intro q hq
    by_cases e : sp = 0
    · rw [hinv e] at hq; cases hq
    · rw [hdiv e] at hq
      have := Except.ok.inj hq
      rw [← this]
      exact one_div_mul_cancel (fun e' => e (h0.mp e'))

end Field

/-- **C92** The number the contract stores for a price is recovered from the price. -/
theorem C92_sp96 (sp : ℤ) (h : 0 ≤ sp) : sp96FromPrice (priceF sp : ℝ) = .ok (sp : ℝ) := by
  unfold sp96FromPrice
  have hn : (0 : ℝ) ≤ priceF sp := by unfold priceF; positivity
  rw [CPC.sqrtE_ok hn, Py.ok_bind]
  congr 1
  have e : (priceF sp : ℝ) = ((sp : ℝ) / 2 ^ 96) ^ 2 := by
    unfold priceF; rw [div_pow, ← pow_mul]
  have hs : (0 : ℝ) ≤ sp := by exact_mod_cast h
  rw [e, Real.sqrt_sq (by positivity)]
  field_simp

/-! ## The curve -/

/-- A pool that trades: positive liquidity and a price inside of the range, and names without a slash. -/
structure Active (u : Univ3) : Prop where
  liq : 0 < u.liquidity
  sp : 0 < u.sp96
  lo : (0 : ℝ) < (u.papb : ℝ × ℝ).1
  range : (u.papb : ℝ × ℝ).1 < (u.papb : ℝ × ℝ).2
  above : (u.papb : ℝ × ℝ).1 < u.price
  below : (u.price : ℝ) < (u.papb : ℝ × ℝ).2
  names : '/' ∉ u.tkn0 ∧ '/' ∉ u.tkn1

theorem sqrt10_pos (u : Univ3) : (0 : ℝ) < Real.sqrt (10 ^ (u.dec0 + u.dec1)) := Real.sqrt_pos.mpr (zpow_pos (by norm_num) _)

theorem L_pos {u : Univ3} (h : 0 < u.liquidity) : (0 : ℝ) < u.L := by
  refine div_pos (by exact_mod_cast h) (sqrt10_pos u)

theorem price_pos {u : Univ3} (h : 0 < u.sp96) : (0 : ℝ) < u.price := by
  have h' : (0 : ℝ) < u.sp96 := by exact_mod_cast h
  exact mul_pos (by unfold priceF; positivity) (decf_pos u)

/-- **C92** The curve of an active pool has the price and the range of the pool; its invariant is the square of the liquidity in token
units, and its reserves are those of a Uniswap v3 position. -/
theorem C92_curve (u : Univ3) (h : Active u) (cid : Option Cid) :
    ∃ c : CPC ℝ, u.curve cid = .ok c ∧ CPC.Sound c ∧ c.p = u.price ∧ c.pMin = some (u.papb : ℝ × ℝ).1 ∧
      c.pMax = some (u.papb : ℝ × ℝ).2 ∧ c.k = u.liquidity ^ 2 / 10 ^ (u.dec0 + u.dec1) ∧
      c.xAct = u.L * (1 / √u.price - 1 / √(u.papb : ℝ × ℝ).2) ∧ c.yAct = u.L * (√u.price - √(u.papb : ℝ × ℝ).1) ∧
      c.tknb = u.tkn0 ∧ c.tknq = u.tkn1 ∧ c.cid = cid := by
  have hL := L_pos h.liq
  have hlo := h.lo
  have hhi : 0 < (u.papb : ℝ × ℝ).2 := lt_trans h.lo h.range
  have hp : (0 : ℝ) < u.price := lt_trans h.lo h.above
  have hn : CarbonPair.unpack u.pair = .ok (u.tkn0, u.tkn1) := CarbonPair.unpack_eq_ok.mpr ⟨rfl, h.names⟩
  obtain ⟨c, hc, hs, hk, hcp, hmin, hmax⟩ := CPC.C39_from_range u.price (u.L * u.L) (u.papb : ℝ × ℝ).1 (u.papb : ℝ × ℝ).2
    (by positivity) h.lo h.above.le h.below.le (some u.pair) cid (some "uv3".toList) u.tkn0 u.tkn1 hn
  have hcurve : u.curve cid = .ok c := by
    unfold curve CPC.fromUniV3
    rw [if_neg (not_not.mpr h.range), if_neg (not_not.mpr ⟨h.above, h.below⟩)]
    exact hc
  have e1 : Real.sqrt (u.L * u.L / u.price) = u.L / √u.price := by
    rw [Real.sqrt_div (by positivity), Real.sqrt_mul_self hL.le]
  have e2 : Real.sqrt (u.L * u.L / (u.papb : ℝ × ℝ).2) = u.L / √(u.papb : ℝ × ℝ).2 := by
    rw [Real.sqrt_div (by positivity), Real.sqrt_mul_self hL.le]
  have e3 : Real.sqrt (u.L * u.L * u.price) = u.L * √u.price := by
    rw [Real.sqrt_mul (by positivity), Real.sqrt_mul_self hL.le]
  have e4 : Real.sqrt (u.L * u.L * (u.papb : ℝ × ℝ).1) = u.L * √(u.papb : ℝ × ℝ).1 := by
    rw [Real.sqrt_mul (by positivity), Real.sqrt_mul_self hL.le]
  unfold CPC.fromPKPP at hc
  simp only [Option.getD_some] at hc
  rw [pyDiv_ok hp.ne', Py.ok_bind, CPC.sqrtE_ok (by positivity), Py.ok_bind, CPC.sqrtE_ok (by positivity), Py.ok_bind,
    pyDiv_ok hhi.ne', Py.ok_bind, CPC.sqrtE_ok (by positivity), Py.ok_bind, CPC.sqrtE_ok (by positivity), Py.ok_bind] at hc
  obtain ⟨_, rfl, _⟩ := CPC.make_cases hc
  have hpr := CPC.tkn_of_pair (c := (⟨u.L * u.L, √(u.L * u.L / u.price), √(u.L * u.L / u.price) - √(u.L * u.L / (u.papb : ℝ × ℝ).2),
    √(u.L * u.L * u.price) - √(u.L * u.L * (u.papb : ℝ × ℝ).1), u.pair, cid, "pkpp".toList⟩ : CPC ℝ)) hn
  refine ⟨_, hcurve, hs, hcp, hmin, hmax, ?_, ?_, ?_, hpr.1, hpr.2.1, rfl⟩
  · show u.L * u.L = _
    unfold L
    show (u.liquidity : ℝ) / √_ * ((u.liquidity : ℝ) / √_) = _
    rw [div_mul_div_comm, Real.mul_self_sqrt (zpow_pos (by norm_num) _).le, sq]
  · show √(u.L * u.L / u.price) - √(u.L * u.L / (u.papb : ℝ × ℝ).2) = _
    rw [e1, e2]; ring
  · show √(u.L * u.L * u.price) - √(u.L * u.L * (u.papb : ℝ × ℝ).1) = _
    rw [e3, e4]; ring

/-- **C92** The curve is refused unless the price is strictly inside of the range. -/
theorem C92_curve_refused (u : Univ3) (h : ¬ ((u.papb : ℝ × ℝ).1 < u.price ∧ (u.price : ℝ) < (u.papb : ℝ × ℝ).2))
    (cid : Option Cid) : (u.curve cid : Py (CPC ℝ)) = .error .assertion := by
  unfold curve CPC.fromUniV3
  by_cases g : (u.papb : ℝ × ℝ).1 < (u.papb : ℝ × ℝ).2
  · rw [if_neg (not_not.mpr g), if_pos h]
  · rw [if_pos g]

/-! ## Reserves -/

theorem reserve0_ok (u : Univ3) (h : Active u) :
    (u.reserve0 : Py ℝ) = .ok (u.liquidity * u.decf * (1 / √u.price - 1 / √(u.papb : ℝ × ℝ).2)) := by
  have hhi : 0 < (u.papb : ℝ × ℝ).2 := lt_trans h.lo h.range
  have hp : (0 : ℝ) < u.price := lt_trans h.lo h.above
  have s1 := Real.sqrt_pos.mpr hp
  have s2 := Real.sqrt_pos.mpr hhi
  unfold reserve0
  rw [CPC.sqrtE_ok hhi.le, Py.ok_bind, CPC.sqrtE_ok hp.le, Py.ok_bind, pyDiv_ok (mul_pos s1 s2).ne', Py.ok_bind]
  congr 1
  field_simp

theorem reserve1_ok (u : Univ3) (h : Active u) :
    (u.reserve1 : Py ℝ) = .ok (u.liquidity * u.decf * (√u.price - √(u.papb : ℝ × ℝ).1)) := by
  have hp : (0 : ℝ) < u.price := lt_trans h.lo h.above
  unfold reserve1
  rw [CPC.sqrtE_ok h.lo.le, Py.ok_bind, CPC.sqrtE_ok hp.le, Py.ok_bind]
  congr 1
  ring

/-- The factor of the reserves is the liquidity in token units exactly if the second token has three times the decimals of the first. -/
theorem factor_iff (u : Univ3) (h : 0 < u.liquidity) : (u.liquidity * u.decf : ℝ) = u.L ↔ u.dec1 = 3 * u.dec0 := by
  have hl : (0 : ℝ) < u.liquidity := by exact_mod_cast h
  have h10 : (0 : ℝ) < 10 := by norm_num
  have hs := sqrt10_pos u
  have hd := decf_pos (K := ℝ) u
  have e : (u.liquidity * u.decf : ℝ) = u.L ↔ (u.decf : ℝ) * √(10 ^ (u.dec0 + u.dec1)) = 1 := by
    unfold L
    show _ = (u.liquidity : ℝ) / √_ ↔ _
    rw [eq_div_iff hs.ne', mul_assoc]
    constructor
    · intro g; exact mul_left_cancel₀ hl.ne' (by rw [g, mul_one])
    · intro g; rw [g, mul_one]
  have e2 : (u.decf : ℝ) * √(10 ^ (u.dec0 + u.dec1)) = 1 ↔ ((u.decf : ℝ) * √(10 ^ (u.dec0 + u.dec1))) ^ 2 = 1 := by
    have := mul_pos hd hs
    constructor
    · intro g; rw [g, one_pow]
    · intro g
      nlinarith
  have e3 : ((u.decf : ℝ) * √(10 ^ (u.dec0 + u.dec1))) ^ 2 = 10 ^ (3 * u.dec0 - u.dec1) := by
    rw [mul_pow, Real.sq_sqrt (zpow_pos h10 _).le]
    unfold decf
    rw [← zpow_natCast, ← zpow_mul, ← zpow_add₀ h10.ne']
    congr 1
    push_cast
    ring
  rw [e, e2, e3, zpow_eq_one_iff_right₀ h10.le (by norm_num)]
  omega

/-- **C92** The reserves and the total value the calculator reports are those of the curve if the second token has three times as many
decimals as the first (as for USDC and WETH). -/
theorem C92_reserves_partial (u : Univ3) (h : Active u) (hd : u.dec1 = 3 * u.dec0) (cid : Option Cid) :
    ∃ c : CPC ℝ, u.curve cid = .ok c ∧ u.reserve0 = .ok c.xAct ∧ u.reserve1 = .ok c.yAct ∧
      u.tvl = .ok (c.p * c.xAct + c.yAct) ∧ u.tvl true = .ok (c.xAct + c.yAct / c.p) := by
  obtain ⟨c, hc, hs, hp, _, _, _, hx, hy, _⟩ := C92_curve u h cid
  have hp0 : (0 : ℝ) < u.price := lt_trans h.lo h.above
  have r0 := reserve0_ok u h
  have r1 := reserve1_ok u h
  rw [(factor_iff u h.liq).mpr hd, ← hx] at r0
  rw [(factor_iff u h.liq).mpr hd, ← hy] at r1
  have hq : (u.priceInv : Py ℝ) = .ok (1 / u.price) := pyDiv_ok hp0.ne'
  refine ⟨c, hc, r0, r1, ?_, ?_⟩ <;> unfold tvl <;> rw [r0, Py.ok_bind, r1, Py.ok_bind, hq, Py.ok_bind, hp]
  · show Except.ok ((c.xAct + c.yAct * (1 / u.price)) * u.price) = _
    congr 1
    field_simp
  · show Except.ok (c.xAct + c.yAct * (1 / u.price)) = _
    congr 1
    ring

/-- **C92** fails for all other decimals: neither reserve is the one of the curve, whatever the price and the liquidity. -/
theorem C92_reserves_violated (u : Univ3) (h : Active u) (hd : u.dec1 ≠ 3 * u.dec0) (c : CPC ℝ) (cid : Option Cid)
    (hc : u.curve cid = .ok c) : u.reserve0 ≠ .ok c.xAct ∧ u.reserve1 ≠ .ok c.yAct := by
  obtain ⟨c', hc', _, _, _, _, _, hx, hy, _⟩ := C92_curve u h cid
  rw [hc] at hc'
  have := Except.ok.inj hc'
  subst this
  have hp0 : (0 : ℝ) < u.price := lt_trans h.lo h.above
  have hhi : 0 < (u.papb : ℝ × ℝ).2 := lt_trans h.lo h.range
  have s1 := Real.sqrt_pos.mpr hp0
  have s2 := Real.sqrt_lt_sqrt hp0.le h.below
  have s3 := Real.sqrt_lt_sqrt h.lo.le h.above
  have hf : (u.liquidity * u.decf : ℝ) ≠ u.L := fun e => hd ((factor_iff u h.liq).mp e)
  constructor
  · rw [reserve0_ok u h, hx]
    intro e
    have := one_div_lt_one_div_of_lt s1 s2
    exact hf (mul_right_cancel₀ (sub_pos.mpr this).ne' (Except.ok.inj e))
  · rw [reserve1_ok u h, hy]
    intro e
    exact hf (mul_right_cancel₀ (sub_pos.mpr s3).ne' (Except.ok.inj e))

/-- **C92** fails for a price at the lower end of the range, which belongs to the range in Uniswap: no curve can be built. The pool is at
price one and tick zero. -/
theorem C92_boundary_violated : ∃ u : Univ3, new "A".toList "B".toList (2 ^ 96) 0 1000 3000 (some 18) (some 18) = .ok u ∧
    (u.papb : ℚ × ℚ).1 = 1 ∧ (u.price : ℚ) = 1 ∧ (1 : ℚ) < (u.papb : ℚ × ℚ).2 ∧ (u.curve : Py (CPC ℚ)) = .error .assertion := by
  refine ⟨⟨"A".toList, "B".toList, 2 ^ 96, 0, 1000, 3000, 18, 18⟩, by decide +kernel, ?_, ?_, ?_, ?_⟩
  · decide +kernel
  · decide +kernel
  · decide +kernel
  · decide +kernel

/-! ## Names -/

/-- **C92** A pool of two known addresses is named by the tokens and has their decimals. -/
theorem C92_names (sp tick liq fee : ℤ) (hf : fee ∈ [100, 500, 3000, 10000]) (a b : Str × Str × ℤ) (ha : a ∈ addrdec) (hb : b ∈ addrdec) :
    new a.2.1 b.2.1 sp tick liq fee = .ok ⟨a.1, b.1, sp, tick, liq, fee, a.2.2, b.2.2⟩ := by
  have hf' : fee ∈ ticksz.map Prod.fst := hf
  have hn : ∀ r ∈ addrdec, nameOf r.2.1 = some r.1 ∧ decOf r.1 = .ok r.2.2 := by decide +kernel
  unfold new rename
  dsimp only
  rw [(hn a ha).1, (hn b hb).1]
  dsimp only [Option.elim_none]
  rw [(hn a ha).2, (hn b hb).2, Py.ok_bind, Py.ok_bind, if_pos hf']

/-- **C92** A pool of a known address and of an unknown second token is named by the first token and has its decimals; the second token keeps
its name and its decimals are those given. -/
theorem C92_names_second (sp tick liq fee : ℤ) (hf : fee ∈ [100, 500, 3000, 10000]) (a : Str × Str × ℤ) (ha : a ∈ addrdec) (t : Str)
    (ht : ∀ r ∈ addrdec, t ≠ r.2.1) (d : ℤ) :
    new a.2.1 t sp tick liq fee none (some d) = .ok ⟨a.1, t, sp, tick, liq, fee, a.2.2, d⟩ := by
  have hf' : fee ∈ ticksz.map Prod.fst := hf
  have hn : ∀ r ∈ addrdec, nameOf r.2.1 = some r.1 ∧ decOf r.1 = .ok r.2.2 := by decide +kernel
  have hnt : nameOf t = none := by
    unfold nameOf
    rw [Option.map_eq_none_iff, List.find?_eq_none]
    intro r hr
    simpa using (ht r hr).symm
  unfold new rename
  dsimp only
  rw [(hn a ha).1, hnt]
  dsimp only [Option.elim_none, Option.elim_some]
  rw [(hn a ha).2, Py.ok_bind, Py.ok_bind, if_pos hf']

/-- **C92** The fee of a pool is one of four proportions, and goes with the width of its range: 1, 5, 30 or 100 basis points with 1, 10, 60 or
200 ticks. -/
theorem C92_fee {K : Type} [Field K] [LinearOrder K] [IsStrictOrderedRing K] {t0 t1 : Str} {sp tick liq fee : ℤ} {d0 d1 : Option ℤ}
    {u : Univ3}
    (h : new t0 t1 sp tick liq fee d0 d1 = .ok u) :
    ((u.fee : K), u.tickab.2 - u.tickab.1) ∈ [((1 / 10000 : K), (1 : ℤ)), (5 / 10000, 10), (30 / 10000, 60), (100 / 10000, 200)] := by
  obtain ⟨_, _, _, hf, _, _, _, hw⟩ := new_cases h
  have e : u.tickab.2 - u.tickab.1 = u.ticksize := by unfold tickab; ring
  rw [e]
  unfold Univ3.fee
  rw [hf]
  rcases hw with ⟨a, b⟩ | ⟨a, b⟩ | ⟨a, b⟩ | ⟨a, b⟩ <;> rw [a, b] <;> norm_num

/-- **C92** fails if the first token is not known: the second is not recognised either, and the pool is refused although the decimals of
the first token are given and the second is known. -/
theorem C92_names_violated (t : Str) (ht : nameOf t = none) (sp tick liq fee d : ℤ) :
    new t "0xC02aaA39b223FE8D0A0e5C4F27eAD9083C756Cc2".toList sp tick liq fee (some d) = .error .key ∧
      nameOf "0xC02aaA39b223FE8D0A0e5C4F27eAD9083C756Cc2".toList = some "WETH".toList := by
  refine ⟨?_, by decide +kernel⟩
  unfold new rename
  dsimp only
  rw [ht]
  dsimp only [Option.elim_some, Option.elim_none]
  rw [Py.ok_bind]
  have : decOf "0xC02aaA39b223FE8D0A0e5C4F27eAD9083C756Cc2".toList = .error .key := by decide +kernel
  rw [this, Py.error_bind]

/-- A pool of the 0.3% tier at tick -59: the range is -60..0. -/
example : (new "USDC".toList "WETH".toList (2 ^ 96) (-59) 1000 3000).map (fun u => (u.tickab, u.pair)) =
    .ok ((-60, 0), "USDC/WETH".toList) := by
  decide +kernel

/-- A pool with a square root of the price of `1 + 2 ^ (-12)`, inside of the range of the ticks 0 and 10. -/
example : ∃ u : Univ3, new "A".toList "B".toList (2 ^ 96 + 2 ^ 84) 4 1000 500 (some 6) (some 18) = .ok u ∧ Active u ∧
    u.dec1 = 3 * u.dec0 := by
  refine ⟨⟨"A".toList, "B".toList, 2 ^ 96 + 2 ^ 84, 4, 1000, 500, 6, 18⟩, by decide +kernel, ?_, by decide⟩
  have ht : (⟨"A".toList, "B".toList, 2 ^ 96 + 2 ^ 84, 4, 1000, 500, 6, 18⟩ : Univ3).tickab = (0, 10) := by decide +kernel
  constructor
  · decide
  · decide
  all_goals first
    | (unfold papb papbRaw price priceF decf tickBase; rw [ht]; norm_num)
    | (unfold papb papbRaw decf tickBase; rw [ht]; norm_num)
    | decide +kernel

end Carbon.Univ3
