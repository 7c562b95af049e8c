import Verif.Prop.CpcTrade

/-!
# C42: Carbon orders as constant-product curves
-/

namespace Carbon.CPC

open CarbonPair (pyDiv)
open UICurve (pyDiv_ok)

set_option linter.unusedSectionVars false

section Field
variable {K : Type} [Field K] [LinearOrder K] [IsStrictOrderedRing K] [PySqrt K]

/-- The numbers of the constant-product curve of an order: its hyperbola, shifted so that the asymptotes are the axes, with the
token of the order as `y`. -/
structure OfOrder (o : UICurve K) (c : CPC K) : Prop where
  k : c.k = (o.yint / o.S) ^ 2
  x : c.x = (o.yint / o.S) ^ 2 / (o.y + o.yint * o.B / o.S)
  xAct : c.xAct = 0
  yAct : c.yAct = o.y

/-- The two quotes of a curve are those of an order: for each amount paid in, the amount paid out with the sign reversed, or
nothing if the order does not hold that much; and for each amount within what the order holds, the amount to be paid in. -/
def SameQuotes (o : UICurve K) (byInput byOutput : K → Py (Option K)) : Prop :=
  (∀ dx, 0 ≤ dx → ∃ d, o.dyfromdxF dx = .ok (some d) ∧ byInput dx = .ok (if d ≤ o.y then some (-d) else none)) ∧
    ∀ dy, 0 ≤ dy → dy ≤ o.y → ∃ d, o.dxfromdyF dy = .ok (some d) ∧ byOutput (-dy) = .ok (some d)

theorem inrange_some {v lo h : K} : inrange v lo (some h) = (decide (lo ≤ v) && decide (v ≤ h)) := by
  unfold inrange
  by_cases h1 : v < lo
  · rw [if_pos h1, decide_eq_false (not_le.mpr h1)]; rfl
  · rw [if_neg h1, decide_eq_true (not_lt.mp h1)]
    dsimp only
    by_cases h2 : h < v
    · rw [if_pos h2, decide_eq_false (not_le.mpr h2)]; rfl
    · rw [if_neg h2, decide_eq_true (not_lt.mp h2)]; rfl

theorem OfOrder.quotes {o : UICurve K} {c : CPC K} (h : OfOrder o c) (ho : UICurve.Sound o) (hS : 0 < o.S) :
    SameQuotes o c.dyfromdx c.dxfromdy := by
  obtain ⟨h1, h2, h3, h4⟩ := h
  have hB := ho.hB
  have hz := ho.hyint
  have hoy := ho.hy0
  have ha : 0 < o.S * o.y + o.B * o.yint := by positivity
  have q1 := fun dx hd => UICurve.dyfromdxF_ok ho (dx := dx) hd true false
  have q2 := fun dy hd hd0 => UICurve.dxfromdyF_ok ho (dy := dy) hd true false (fun _ => hd0)
  set a := o.S * o.y + o.B * o.yint with hadef
  have hY : o.y + o.yint * o.B / o.S = a / o.S := by rw [hadef]; field_simp
  have hx : c.x = o.yint ^ 2 / (o.S * a) := by rw [h2, hY]; field_simp
  have hxp : 0 < c.x := by rw [hx]; positivity
  have hkp : 0 < c.k := by rw [h1]; positivity
  have hy : c.y = a / o.S := by unfold CPC.y; rw [h1, hx]; field_simp
  have hyp : 0 < c.y := by rw [hy]; positivity
  have hxmin : c.xMin = c.x := by unfold xMin; rw [h3, sub_zero]
  have hymin : c.yMin = o.yint * o.B / o.S := by unfold yMin; rw [h4, hy, ← hY]; ring
  have hymin0 : 0 < c.yMin := by rw [hymin]; positivity
  have hymax : c.yMax = some c.y := by unfold yMax; rw [hxmin, if_pos hxp]; rfl
  have hxmax : c.xMax = some (c.k / c.yMin) := by unfold xMax; rw [if_pos hymin0]
  have hyd : o.y = a / o.S - o.yint * o.B / o.S := by rw [← hY]; ring
  refine ⟨fun dx hdx => ?_, fun dy hdy0 hdy => ?_⟩
  · have hD : 0 < o.S * dx * a + o.yint ^ 2 := by positivity
    refine ⟨dx * (a ^ 2 / (o.S * dx * a + o.yint ^ 2)), q1 dx hdx, ?_⟩
    have hxd : 0 < c.x + dx := by linarith
    have hny : c.k / (c.x + dx) = c.y - dx * (a ^ 2 / (o.S * dx * a + o.yint ^ 2)) := by
      have e : c.x + dx = (o.S * dx * a + o.yint ^ 2) / (o.S * a) := by rw [hx]; field_simp; ring
      rw [e, h1, hy]; field_simp; ring
    have hd0 : 0 ≤ dx * (a ^ 2 / (o.S * dx * a + o.yint ^ 2)) := by positivity
    set d := dx * (a ^ 2 / (o.S * dx * a + o.yint ^ 2)) with hd
    have hyf : c.yfromx (c.x + dx) = .ok (if d ≤ o.y then some (c.k / (c.x + dx)) else none) := by
      unfold yfromx
      rw [pyDiv_ok hxd.ne', Py.ok_bind, if_neg (by simp), hymin, hymax, inrange_some, hny,
        decide_eq_true (show c.y - d ≤ c.y by linarith), Bool.and_true]
      by_cases hle : d ≤ o.y
      · rw [if_pos hle, decide_eq_true (by rw [hy]; linarith), if_neg (by simp)]
      · rw [if_neg hle, decide_eq_false (not_le.mpr (by rw [hy]; linarith)), if_pos rfl]
    show c.dyfromdx dx = _
    unfold dyfromdx
    rw [hyf, Py.ok_bind]
    by_cases hle : d ≤ o.y
    · rw [if_pos hle, if_pos hle]
      dsimp only
      rw [hny]; congr 2; ring
    · rw [if_neg hle, if_neg hle]
  · refine ⟨_, q2 dy hdy hdy0, ?_⟩
    have hle : o.S * dy ≤ o.S * o.y := mul_le_mul_of_nonneg_left hdy hS.le
    have hb : 0 < o.B * o.yint := by positivity
    have hd : 0 < a - o.S * dy := by linarith
    have hny : c.y + -dy = (a - o.S * dy) / o.S := by rw [hy]; field_simp; ring
    have hnp : 0 < c.y + -dy := by rw [hny]; positivity
    have hlo : c.yMin ≤ c.y + -dy := by rw [hymin, hy]; linarith
    have hxx : c.x = c.k / c.y := by unfold CPC.y; field_simp
    have r1 : c.x ≤ c.k / (c.y + -dy) := by
      rw [hxx]; exact div_le_div_of_nonneg_left hkp.le hnp (by linarith)
    have r2 : c.k / (c.y + -dy) ≤ c.k / c.yMin := div_le_div_of_nonneg_left hkp.le hymin0 hlo
    show c.dxfromdy (-dy) = _
    unfold dxfromdy xfromy
    rw [pyDiv_ok hnp.ne', Py.ok_bind, if_neg (by simp), hxmin, hxmax, inrange_some, decide_eq_true r1, decide_eq_true r2,
      if_neg (by simp), Py.ok_bind]
    dsimp only
    congr 2
    rw [hny, hx, h1]
    field_simp
    ring

theorem OfOrder.of_make {o : UICurve K} (ho : UICurve.Sound o) (hS : 0 < o.S) (tx : Str) (hx : '/' ∉ tx) (ht : '/' ∉ o.tkn)
    (cid : Option Cid) :
    ∃ c, carbonCurve o.yint o.y o.S o.B tx o.tkn cid = .ok c ∧ OfOrder o c ∧ c.tknb = tx ∧ c.tknq = o.tkn := by
  have hB := ho.hB
  have hz := ho.hyint
  have hoy := ho.hy0
  have hp : CarbonPair.unpack (tx ++ '/' :: o.tkn) = .ok (tx, o.tkn) := CarbonPair.unpack_eq_ok.mpr ⟨rfl, hx, ht⟩
  have hk : o.yint ^ 2 / o.S ^ 2 = (o.yint / o.S) ^ 2 := by rw [div_pow]
  have hY : 0 < o.y + o.yint * o.B / o.S := by positivity
  have hX : 0 < (o.yint / o.S) ^ 2 / (o.y + o.yint * o.B / o.S) := by positivity
  refine ⟨⟨(o.yint / o.S) ^ 2, (o.yint / o.S) ^ 2 / (o.y + o.yint * o.B / o.S), 0, o.y, tx ++ '/' :: o.tkn, cid, "carb".toList⟩,
    ?_, ⟨rfl, rfl, rfl, rfl⟩, ?_⟩
  · unfold carbonCurve
    rw [pyDiv_ok hS.ne', Py.ok_bind, pyDiv_ok (pow_ne_zero 2 hS.ne'), Py.ok_bind, hk, pyDiv_ok hY.ne', Py.ok_bind,
      make_ok hX.ne' hp]
  · obtain ⟨a, b, -⟩ := tkn_of_pair (c := ⟨(o.yint / o.S) ^ 2, (o.yint / o.S) ^ 2 / (o.y + o.yint * o.B / o.S), 0, o.y,
      tx ++ '/' :: o.tkn, cid, "carb".toList⟩) hp
    exact ⟨a, b⟩

/-- The token of the pair that the order buys. -/
def otherToken (o : UICurve K) : Str := if o.tkn = o.pair.tknq then o.pair.tknb else o.pair.tknq

/-- The names of the tokens of the pair of an order contain no slash and the order sells one of them. -/
structure Named (o : UICurve K) : Prop where
  proper : UICurve.Proper o
  hb : '/' ∉ o.pair.tknb
  hq : '/' ∉ o.pair.tknq

theorem Named.facts {o : UICurve K} (h : Named o) :
    CarbonPair.unpack o.pair.slashpair = .ok (o.pair.tknb, o.pair.tknq) ∧ (o.tkn = o.pair.tknb ∨ o.tkn = o.pair.tknq) ∧
      '/' ∉ o.tkn ∧ '/' ∉ otherToken o := by
  refine ⟨CarbonPair.unpack_eq_ok.mpr ⟨rfl, h.hb, h.hq⟩, ?_, ?_, ?_⟩
  · rcases h.proper with ⟨h, _⟩ | ⟨h, _⟩
    · exact Or.inl h
    · exact Or.inr h
  · rcases h.proper with ⟨e, _⟩ | ⟨e, _⟩ <;> rw [e]
    · exact h.hb
    · exact h.hq
  · unfold otherToken
    split
    · exact h.hb
    · exact h.hq

/-- **C42** (the part that holds) The curve built by `from_carbon` from the parameters of an order whose prices differ quotes
what the order quotes, and sells the same token for the same other token. -/
theorem C42_from_carbon_partial (o : UICurve K) (ho : UICurve.Sound o) (hS : 0 < o.S) (hn : Named o) (cid : Option Cid) :
    let args : CarbonArgs K :=
      { yint := some o.yint, y := some o.y, A := some o.S, B := some o.B, pair := some o.pair.slashpair,
        tkny := some o.tkn, cid := cid }
    ∃ c, fromCarbon args = .ok c ∧
      c.tknq = o.tkn ∧ c.tknb = otherToken o ∧ c.xAct = 0 ∧ c.yAct = o.y ∧ SameQuotes o c.dyfromdx c.dxfromdy := by
  intro args
  obtain ⟨hp, ht, hs1, hs2⟩ := hn.facts
  obtain ⟨c, h1, h2, h3, h4⟩ := OfOrder.of_make ho hS (otherToken o) hs2 hs1 cid
  refine ⟨c, ?_, h4, h3, h2.xAct, h2.yAct, h2.quotes ho hS⟩
  unfold fromCarbon
  dsimp only [args]
  rw [if_neg (not_not.mpr ho.hy), if_neg (not_not.mpr ho.hy0), if_neg (by simp), if_neg (not_not.mpr hS.le), hp, Py.ok_bind]
  dsimp only
  rw [if_neg (not_not.mpr ht)]
  exact h1

end Field

/-- **C42** (the part that holds) The same from the prices of the order, in units of the token sold per other token or in the
convention of the pair. -/
theorem C42_from_prices_partial (o : UICurve ℝ) (ho : UICurve.Sound o) (hS : 0 < o.S) (hn : Named o) (cid : Option Cid) :
    let raw : CarbonArgs ℝ :=
      { yint := some o.yint, y := some o.y, pa := some o.paRaw, pb := some o.pbRaw,
        pair := some o.pair.slashpair, tkny := some o.tkn, cid := cid, isdydx := true }
    let conv : CarbonArgs ℝ :=
      { yint := some o.yint, y := some o.y, pa := some o.pa, pb := some o.pb,
        pair := some o.pair.slashpair, tkny := some o.tkn, cid := cid, isdydx := false }
    ∃ c, fromCarbon raw = .ok c ∧ fromCarbon conv = .ok c ∧ c.tknq = o.tkn ∧ c.tknb = otherToken o ∧ c.xAct = 0 ∧
      c.yAct = o.y ∧ SameQuotes o c.dyfromdx c.dxfromdy := by
  intro raw conv
  obtain ⟨hp, ht, hs1, hs2⟩ := hn.facts
  obtain ⟨c, h1, h2, h3, h4⟩ := OfOrder.of_make ho hS (otherToken o) hs2 hs1 cid
  have hB := ho.hB
  have hlt : o.pbRaw < o.paRaw := by unfold UICurve.pbRaw UICurve.paRaw; nlinarith
  have e1 : Real.sqrt o.paRaw = o.S + o.B := by unfold UICurve.paRaw; exact Real.sqrt_sq (by positivity)
  have e2 : Real.sqrt o.pbRaw = o.B := by unfold UICurve.pbRaw; exact Real.sqrt_mul_self hB.le
  have e0 : 0 < o.pbRaw := by unfold UICurve.pbRaw; positivity
  have e00 : 0 < o.paRaw := lt_trans e0 hlt
  have core : ∀ isdydx quote : Bool, ∀ pa pb, carbonPrice isdydx quote pa = .ok o.paRaw →
      carbonPrice isdydx quote pb = .ok o.pbRaw → carbonAB isdydx quote pa pb = .ok (o.S, o.B) := by
    intro d qt pa pb ha hb
    unfold carbonAB
    rw [ha, hb, Py.ok_bind, Py.ok_bind]
    dsimp only
    rw [if_neg hlt.ne']
    dsimp only
    rw [if_neg (not_not.mpr hlt), sqrtE_ok e00.le, Py.ok_bind, sqrtE_ok e0.le, Py.ok_bind, e1, e2, add_sub_cancel_right]
  refine ⟨c, ?_, ?_, h4, h3, h2.xAct, h2.yAct, h2.quotes ho hS⟩
  · unfold fromCarbon
    dsimp only [raw]
    rw [if_neg (not_not.mpr ho.hy), if_neg (not_not.mpr ho.hy0), hp, Py.ok_bind]
    dsimp only
    rw [if_neg (not_not.mpr ht), core true _ _ _ rfl rfl, Py.ok_bind]
    exact h1
  · unfold fromCarbon
    dsimp only [conv]
    rw [if_neg (not_not.mpr ho.hy), if_neg (not_not.mpr ho.hy0), hp, Py.ok_bind]
    dsimp only
    have hc : carbonPrice false (decide (o.tkn = o.pair.tknq)) o.pa = .ok o.paRaw ∧
        carbonPrice false (decide (o.tkn = o.pair.tknq)) o.pb = .ok o.pbRaw := by
      unfold carbonPrice UICurve.pa UICurve.pb UICurve.reverseq CarbonPair.hasBase
      rcases hn.proper with ⟨g1, g2⟩ | ⟨g1, g2⟩
      · simp only [decide_eq_true g1, decide_eq_false g2, if_true, Bool.not_false, Bool.and_self]
        rw [pyDiv_ok (one_div_ne_zero e00.ne'), pyDiv_ok (one_div_ne_zero e0.ne'), one_div_one_div, one_div_one_div]
        exact ⟨rfl, rfl⟩
      · simp only [decide_eq_true g1, decide_eq_false g2]
        exact ⟨rfl, rfl⟩
    rw [if_neg (not_not.mpr ht), core false _ _ _ hc.1 hc.2, Py.ok_bind]
    exact h1

theorem kappa_eq {o : UICurve ℝ} (h : UICurve.Sound o) (hS : 0 < o.S) : o.Gamma ≠ 0 ∧ o.kappa = (o.yint / o.S) ^ 2 := by
  obtain ⟨g, g0, g1, hG, hBg⟩ := UICurve.gamma_facts h hS
  have hB := h.hB
  have hP : 0 < o.B + o.S := by positivity
  have g2 : 0 < 1 - g := by linarith
  have g3 : 0 < 1 + g := by linarith
  refine ⟨by rw [hG]; exact g2.ne', ?_⟩
  have hSg : o.S = (1 - g ^ 2) * (o.B + o.S) := by linarith
  unfold UICurve.kappa UICurve.x0 UICurve.y0
  rw [hG]
  have e1 : o.B ^ 2 + o.B * o.S = o.B * (o.B + o.S) := by ring
  have e2 : (2 : ℝ) - (1 - g) = 1 + g := by ring
  rw [e1, e2, sub_sub_cancel]
  set P := o.B + o.S with hPd
  have hz := h.hyint
  have e3 : 1 - g ^ 2 = (1 - g) * (1 + g) := by ring
  rw [hBg, hSg, e3]
  field_simp

/-- `from_pkpp` at one end of the price range, for a curve given by the square roots of its numbers. -/
theorem fromPKPP_squares {K0 m e : ℝ} (hK : 0 < K0) (hm : 0 < m) (he : 0 < e) {pr : Str} {bq : Str × Str}
    (hp : CarbonPair.unpack pr = .ok bq) :
    fromPKPP (m ^ 2) (K0 ^ 2) (some (e ^ 2)) (some (m ^ 2)) (some pr) =
        .ok ⟨K0 ^ 2, K0 / m, 0, K0 * m - K0 * e, pr, none, "pkpp".toList⟩ ∧
      fromPKPP (1 / m ^ 2) (K0 ^ 2) (some (1 / m ^ 2)) (some (1 / e ^ 2)) (some pr) =
        .ok ⟨K0 ^ 2, K0 * m, K0 * m - K0 * e, 0, pr, none, "pkpp".toList⟩ := by
  have s1 : Real.sqrt (K0 ^ 2 / m ^ 2) = K0 / m := by rw [← div_pow]; exact Real.sqrt_sq (by positivity)
  have s2 : ∀ v, 0 < v → Real.sqrt (K0 ^ 2 * v ^ 2) = K0 * v := fun v hv => by
    rw [← mul_pow]; exact Real.sqrt_sq (by positivity)
  have s3 : ∀ v, 0 < v → Real.sqrt (K0 ^ 2 / (1 / v ^ 2)) = K0 * v := fun v hv => by
    rw [div_div_eq_mul_div, div_one]; exact s2 v hv
  have s4 : Real.sqrt (K0 ^ 2 * (1 / m ^ 2)) = K0 / m := by rw [mul_one_div]; exact s1
  constructor
  · unfold fromPKPP
    simp only [Option.getD_some]
    rw [pyDiv_ok (by positivity), Py.ok_bind, sqrtE_ok (by positivity), Py.ok_bind, sqrtE_ok (by positivity), Py.ok_bind,
      Py.ok_bind, sqrtE_ok (by positivity), Py.ok_bind, sqrtE_ok (by positivity), Py.ok_bind, s1, s2 m hm, s2 e he, sub_self]
    exact make_ok (by positivity) hp _ _ _ _
  · unfold fromPKPP
    simp only [Option.getD_some]
    rw [pyDiv_ok (by positivity), Py.ok_bind, sqrtE_ok (by positivity), Py.ok_bind, sqrtE_ok (by positivity), Py.ok_bind,
      pyDiv_ok (by positivity), Py.ok_bind, sqrtE_ok (by positivity), Py.ok_bind, Py.ok_bind,
      s3 m hm, s3 e he, s4, sub_self]
    exact make_ok (by positivity) hp _ _ _ _

/-- **C42** (the part that holds) The curve that an order with different prices returns quotes what the order quotes. The pair of
the curve is that of the order, so that an order selling the base token pays out `x` for `y`. -/
theorem C42_as_cpc_partial (o : UICurve ℝ) (ho : UICurve.Sound o) (hS : 0 < o.S) (hn : Named o) :
    ∃ c, o.asCpc = .ok c ∧ c.tknb = o.pair.tknb ∧ c.tknq = o.pair.tknq ∧
      (o.tkn = o.pair.tknq → SameQuotes o c.dyfromdx c.dxfromdy) ∧
      (o.tkn = o.pair.tknb → SameQuotes o c.dxfromdy c.dyfromdx) := by
  obtain ⟨hp, ht, -, -⟩ := hn.facts
  obtain ⟨hG, hk⟩ := kappa_eq ho hS
  have hB := ho.hB
  have hz := ho.hyint
  have hy0 := ho.hy0
  have hK : 0 < o.yint / o.S := by positivity
  have hm : 0 < o.B + o.S * o.y / o.yint := by positivity
  have hmul : o.yint / o.S * (o.B + o.S * o.y / o.yint) = o.y + o.yint * o.B / o.S := by field_simp; ring
  have hYp : 0 < o.y + o.yint * o.B / o.S := by positivity
  obtain ⟨q1, q2⟩ := fromPKPP_squares hK hm hB hp
  rcases hn.proper with ⟨g1, g2⟩ | ⟨g1, g2⟩
  · -- selling the base token
    set c : CPC ℝ := ⟨(o.yint / o.S) ^ 2, o.yint / o.S * (o.B + o.S * o.y / o.yint),
      o.yint / o.S * (o.B + o.S * o.y / o.yint) - o.yint / o.S * o.B, 0, o.pair.slashpair, none, "pkpp".toList⟩ with hc
    obtain ⟨t1, t2, -⟩ := tkn_of_pair (c := c) hp
    refine ⟨c, ?_, t1, t2, fun e => absurd e g2, fun _ => ?_⟩
    · unfold UICurve.asCpc
      rw [UICurve.pMarg_ok ho, Py.ok_bind]
      dsimp only
      have hc1 : o.pair.hasBase o.tkn = true := decide_eq_true g1
      have hc2 : o.pair.hasQuote o.tkn = false := decide_eq_false g2
      have e1 : o.inConv ((o.B + o.S * o.y / o.yint) ^ 2) = 1 / (o.B + o.S * o.y / o.yint) ^ 2 := by
        unfold UICurve.inConv; rw [hc2]; rfl
      have e2 : o.pb = 1 / o.B ^ 2 := by unfold UICurve.pb UICurve.reverseq UICurve.pbRaw; rw [hc1, if_pos rfl, sq]
      rw [if_neg hG, hc1, if_pos rfl, hk, e1, e2, q2]
    · have hcx : c.x = o.y + o.yint * o.B / o.S := hmul
      have hxa : c.xAct = o.y := by
        show o.yint / o.S * (o.B + o.S * o.y / o.yint) - o.yint / o.S * o.B = o.y
        rw [hmul]; ring
      have hs : Sound c := by
        refine ⟨by positivity, by rw [hcx]; exact hYp, by rw [hxa]; exact hy0, ?_, le_refl _, ?_, _, _, hp⟩
        · rw [hxa, hcx]; have : 0 < o.yint * o.B / o.S := by positivity
          linarith
        · have : 0 < c.y := div_pos (by positivity) (by rw [hcx]; exact hYp)
          exact this.le
      have hof : OfOrder o (mirror c) := by
        refine ⟨rfl, ?_, rfl, hxa⟩
        show (o.yint / o.S) ^ 2 / c.x = _
        rw [hcx]
      have := hof.quotes ho hS
      have a1 : (fun v => (mirror c).dyfromdx v) = fun v => c.dxfromdy v := by
        funext v; exact (C41_quotes c hs v false).2.2.1.symm
      have a2 : (fun v => (mirror c).dxfromdy v) = fun v => c.dyfromdx v := by
        funext v; exact (C41_quotes c hs v false).2.2.2.symm
      rw [a1, a2] at this
      exact this
  · set c : CPC ℝ := ⟨(o.yint / o.S) ^ 2, o.yint / o.S / (o.B + o.S * o.y / o.yint), 0,
      o.yint / o.S * (o.B + o.S * o.y / o.yint) - o.yint / o.S * o.B, o.pair.slashpair, none, "pkpp".toList⟩ with hc
    obtain ⟨t1, t2, -⟩ := tkn_of_pair (c := c) hp
    refine ⟨c, ?_, t1, t2, fun _ => ?_, fun e => absurd e g2⟩
    · unfold UICurve.asCpc
      rw [UICurve.pMarg_ok ho, Py.ok_bind]
      dsimp only
      have hc1 : o.pair.hasBase o.tkn = false := decide_eq_false g2
      have hc2 : o.pair.hasQuote o.tkn = true := decide_eq_true g1
      have e1 : o.inConv ((o.B + o.S * o.y / o.yint) ^ 2) = (o.B + o.S * o.y / o.yint) ^ 2 := by
        unfold UICurve.inConv; rw [hc2]; rfl
      have e2 : o.pb = o.B ^ 2 := by unfold UICurve.pb UICurve.reverseq UICurve.pbRaw; rw [hc1, if_neg (by simp), sq]
      rw [if_neg hG, hc1, if_neg (by simp), hk, e1, e2, q1]
    · have hof : OfOrder o c := by
        refine ⟨rfl, ?_, rfl, ?_⟩
        · show o.yint / o.S / (o.B + o.S * o.y / o.yint) = _
          rw [← hmul]; field_simp
        · show o.yint / o.S * (o.B + o.S * o.y / o.yint) - o.yint / o.S * o.B = o.y
          rw [hmul]; ring
      exact hof.quotes ho hS

/-- **C42** fails for orders with a single price: they cannot be converted. -/
theorem C42_flat_violated (o : UICurve ℝ) (ho : UICurve.Sound o) (hS : o.S = 0) : o.asCpc = .error .zeroDiv := by
  have hB := ho.hB
  have hG : o.Gamma = 0 := by
    unfold UICurve.Gamma UICurve.Q UICurve.pbRaw UICurve.paRaw
    rw [hS, zero_add, ← sq, div_self (pow_ne_zero 2 hB.ne'), Real.sqrt_one, Real.sqrt_one, sub_self]
  unfold UICurve.asCpc
  rw [UICurve.pMarg_ok ho, Py.ok_bind]
  dsimp only
  rw [if_pos hG]

/-- **C42** fails for orders with a single price: `from_carbon` refuses the parameters of such an order with a division by zero. -/
theorem C42_from_carbon_violated :
    (fromCarbon { yint := some (100 : ℚ), y := some 100, A := some 0, B := some 1, pair := some "ETH/USDC".toList,
                  tkny := some "USDC".toList }).map CPC.k = .error .zeroDiv := by
  decide +kernel

/-- **C42** fails for orders with a single price: given this price, `from_carbon` builds a curve that starts at a higher price, at
which the order does not sell. -/
theorem C42_widened_violated (p z : ℝ) (hp : 0 < p) (hz : 0 < z) :
    ∃ c, fromCarbon { yint := some z, y := some z, pa := some p, pb := some p, pair := some "ETH/USDC".toList,
                      tkny := some "USDC".toList } = .ok c ∧ c.p = p * (1 + 1 / 10 ^ 7) ∧ p < c.p := by
  have hw : (0 : ℝ) < 1 + 1 / 10 ^ 7 := by positivity
  set w : ℝ := 1 + 1 / 10 ^ 7 with hwd
  have hw1 : (1 : ℝ) < w := by rw [hwd]; norm_num
  have hlt : p / w < p * w := lt_trans (div_lt_self hp hw1) (lt_mul_of_one_lt_right hp hw1)
  set sa := Real.sqrt (p * w) with hsa
  set sb := Real.sqrt (p / w) with hsb
  have hb : 0 < sb := Real.sqrt_pos.mpr (by positivity)
  have hab : sb < sa := Real.sqrt_lt_sqrt (by positivity) hlt
  have hsa2 : sa ^ 2 = p * w := Real.sq_sqrt (by positivity)
  have hA : 0 < sa - sb := sub_pos.mpr hab
  have hab2 : carbonAB true true p p = .ok (sa - sb, sb) := by
    unfold carbonAB carbonPrice
    simp only [Bool.not_true, Bool.and_self, Bool.false_eq_true, if_false, Py.ok_bind]
    rw [← hwd, if_neg (not_not.mpr (by simpa using hlt))]
    simp only [if_true]
    rw [sqrtE_ok (by positivity), Py.ok_bind, sqrtE_ok (by positivity), Py.ok_bind]
  let o : UICurve ℝ := ⟨CarbonPair.ethUsdc, "USDC".toList, sb, sa - sb, z, z⟩
  have ho : UICurve.Sound o := ⟨hb, hA.le, hz, hz.le, le_refl _⟩
  obtain ⟨c, h1, h2, -, -⟩ := OfOrder.of_make ho hA "ETH".toList (by decide +kernel) (by simp only [o]; decide +kernel) none
  have hp' : CarbonPair.unpack "ETH/USDC".toList = .ok ("ETH".toList, "USDC".toList) := by decide +kernel
  have hcp : c.p = p * w := by
    unfold CPC.p CPC.y
    rw [h2.k, h2.x, ← hsa2]
    simp only [o]
    have e : z + z * sb / (sa - sb) = z * sa / (sa - sb) := by field_simp; ring
    have hsa0 : 0 < sa := lt_trans hb hab
    rw [e]; field_simp
  refine ⟨c, ?_, hcp, by rw [hcp]; exact lt_mul_of_one_lt_right hp hw1⟩
  unfold fromCarbon
  dsimp only
  rw [if_neg (not_not.mpr (le_refl _)), if_neg (not_not.mpr hz.le), hp', Py.ok_bind]
  dsimp only
  rw [if_neg (by simp), decide_eq_true rfl, hab2, Py.ok_bind]
  exact h1

/-- The order of `realCurve` satisfies the hypotheses. -/
example : UICurve.Sound UICurve.realCurve ∧ 0 < UICurve.realCurve.S ∧ Named UICurve.realCurve :=
  ⟨UICurve.realCurve_sound, by norm_num [UICurve.realCurve], UICurve.realCurve_proper, by
    simp only [UICurve.realCurve]; decide +kernel, by simp only [UICurve.realCurve]; decide +kernel⟩

/-- An order selling 50 of at most 100 USDC from 9/4 to 1 is paid 8 ETH. -/
example : (⟨CarbonPair.ethUsdc, "USDC".toList, 1, 1, 100, 50⟩ : UICurve ℚ).dyfromdxF 8 = .ok (some (225 / 14)) ∧
    (fromCarbon { yint := some (100 : ℚ), y := some 50, A := some 1, B := some 1, pair := some "ETH/USDC".toList,
                  tkny := some "USDC".toList }).bind (fun c => c.dyfromdx 8) = .ok (some (-(225 / 14))) ∧
    (fromCarbon { yint := some (100 : ℚ), y := some 50, pa := some 4, pb := some 1, pair := some "ETH/USDC".toList,
                  tkny := some "USDC".toList }).bind (fun c => c.dxfromdy (-(225 / 14))) = .ok (some 8) := by
  decide +kernel

end Carbon.CPC
