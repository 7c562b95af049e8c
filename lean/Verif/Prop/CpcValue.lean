import Verif.Prop.CpcTrade
import Verif.Prop.Params
import Verif.Tools.Univ3

/-!
# C93: the value locked in a curve and the ends of its range; C94: scales of tokens
-/

set_option linter.unusedSectionVars false

namespace Carbon.CPC

open CarbonPair (pyDiv)
open UICurve (pyDiv_ok)

section Field
variable {K : Type} [Field K] [LinearOrder K] [IsStrictOrderedRing K] [PySqrt K]

theorem Sound.p_pos {c : CPC K} (h : Sound c) : 0 < c.p := div_pos h.y_pos h.hx

/-- **C93** The value locked in a curve is the value of its available reserves at its own price, in either token; the two are the same
value at this price. Other tokens are refused. -/
theorem C93_units (c : CPC K) (hs : Sound c) (hbq : c.tknb ≠ c.tknq) (m : K) :
    c.tvl (some c.tknq) m = .ok (some (m * (c.p * c.xAct + c.yAct))) ∧
      c.tvl (some c.tknb) m = .ok (some (m * (c.xAct + c.yAct / c.p))) ∧ c.tvl none m = c.tvl (some c.tknq) m ∧
      (∀ vb vq, c.tvl (some c.tknb) m = .ok (some vb) → c.tvl (some c.tknq) m = .ok (some vq) → vb * c.p = vq) ∧
      ∀ t, t ≠ c.tknb → t ≠ c.tknq → c.tvl (some t) m = .error .value ∧ c.tvl (some t) m false = .ok none := by
  have hp := hs.p_pos
  have hq : c.tvl (some c.tknq) m = .ok (some (m * (c.p * c.xAct + c.yAct))) := by
    unfold tvl
    dsimp only [Option.getD_some]
    rw [if_neg (not_not.mpr (Or.inr rfl)), if_pos rfl, mul_comm]
  have hb : c.tvl (some c.tknb) m = .ok (some (m * (c.xAct + c.yAct / c.p))) := by
    unfold tvl
    dsimp only [Option.getD_some]
    rw [if_neg (not_not.mpr (Or.inl rfl)), if_neg hbq, pyDiv_ok hp.ne', Py.ok_bind]
    congr 2
    field_simp
  refine ⟨hq, hb, rfl, ?_, ?_⟩
  · intro vb vq h1 h2
    rw [hb] at h1
    rw [hq] at h2
    rw [← Option.some.inj (Except.ok.inj h1), ← Option.some.inj (Except.ok.inj h2)]
    field_simp
  · intro t h1 h2
    have : ¬ (t = c.tknb ∨ t = c.tknq) := by rintro (h | h); exacts [h1 h, h2 h]
    unfold tvl
    dsimp only [Option.getD_some]
    rw [if_pos this, if_pos this]
    exact ⟨rfl, rfl⟩

/-- **C93** Half of the value of a curve without leverage is in each token. -/
theorem C93_full (c : CPC K) (hs : Sound c) (hx : c.xAct = c.x) (hy : c.yAct = c.y) (hbq : c.tknb ≠ c.tknq) :
    c.tvl = .ok (some (2 * c.y)) ∧ c.tvl (some c.tknb) = .ok (some (2 * c.x)) := by
  obtain ⟨h1, h2, h3, _⟩ := C93_units c hs hbq 1
  have hp := hs.p_pos
  have e : c.p * c.x = c.y := by unfold p; have := hs.hx; field_simp
  rw [h3, h1, h2, hx, hy, e]
  constructor
  · congr 2; ring
  · congr 2
    rw [← e]
    field_simp
    ring

/-- **C93** No trade makes a curve worth more than its old reserves at the new price; it is worth strictly less if anything was
traded. -/
theorem C93_loss (c c' : CPC K) (hs : Sound c) (dx dy : Option K) (h : c.execute dx dy = .ok c') :
    ∃ v, c'.tvl = .ok (some v) ∧ v ≤ c'.p * c.xAct + c.yAct ∧ (v = c'.p * c.xAct + c.yAct → c'.x = c.x ∧ c'.y = c.y) := by
  obtain ⟨hk, hxy', hpair, _, _, _, hxa, hya⟩ := C37_invariant c c' dx dy false h
  obtain ⟨hx', hy', _⟩ := C37_reserves_partial c c' hs dx dy h
  have hxy := hs.xy
  have hx := hs.hx
  have hy := hs.y_pos
  have hp : c'.p * c'.x = c'.y := by unfold p; field_simp
  have hp0 : 0 < c'.p := div_pos hy' hx'
  refine ⟨c'.p * c'.xAct + c'.yAct, ?_, ?_, ?_⟩
  · unfold tvl
    dsimp only [Option.getD_none]
    rw [if_neg (not_not.mpr (Or.inr rfl)), if_pos rfl, mul_one]
  all_goals
    have e : (c'.p * c.xAct + c.yAct - (c'.p * c'.xAct + c'.yAct)) * c.x = c'.p * (c.x - c'.x) ^ 2 := by
      have h1 : c.xAct = c'.xAct - (c'.x - c.x) := by linarith
      have h2 : c.yAct = c'.yAct - (c'.y - c.y) := by linarith
      rw [h1, h2]
      have h3 : c'.p * c'.x * c'.x = c.x * c.y := by rw [hp, hxy, ← hxy', mul_comm]
      have h4 : c'.y * c.x = c'.p * c'.x * c.x := by rw [hp]
      linear_combination (-1) * h3 - h4
  · have : 0 ≤ (c'.p * c.xAct + c.yAct - (c'.p * c'.xAct + c'.yAct)) * c.x := by rw [e]; positivity
    have := nonneg_of_mul_nonneg_left this hx
    linarith
  · intro hv
    rw [hv, sub_self, zero_mul] at e
    have h1 : (c.x - c'.x) ^ 2 = 0 := (mul_eq_zero.mp e.symm).resolve_left hp0.ne'
    have h2 : c.x - c'.x = 0 := by simpa using h1
    have h3 : c'.x = c.x := by linarith
    refine ⟨h3, ?_⟩
    show c'.k / c'.x = c.k / c.x
    rw [hk, h3]

/-- **C93** The value is the same for the curve with the tokens the other way round. -/
theorem C93_mirror (c : CPC K) (hs : Sound c) (hbq : c.tknb ≠ c.tknq) (m : K) (t : Str) :
    (mirror c).tvl (some t) m = c.tvl (some t) m := by
  obtain ⟨b, q, hp⟩ := hs.hpair
  obtain ⟨h1, h2, _⟩ := tkn_of_pair hp
  obtain ⟨g1, g2, _⟩ := tkn_of_pair (mirror_unpack hp)
  have hk := hs.hk
  have hx := hs.hx
  have hy := hs.y_pos
  have hpp := hs.p_pos
  have ey : (mirror c).y = c.x := mirror_y hk.ne' hx.ne'
  have ep : (mirror c).p = 1 / c.p := by
    show (mirror c).y / c.y = 1 / (c.y / c.x)
    rw [ey]; field_simp
  have n1 : (mirror c).tknb = c.tknq := by rw [g1, h2]
  have n2 : (mirror c).tknq = c.tknb := by rw [g2, h1]
  unfold tvl
  dsimp only [Option.getD_some]
  rw [n1, n2, ep]
  by_cases hb : t = c.tknb
  · subst hb
    rw [if_neg (not_not.mpr (Or.inr rfl)), if_pos rfl, if_neg (not_not.mpr (Or.inl rfl)), if_neg hbq, pyDiv_ok hpp.ne', Py.ok_bind]
    congr 2
    show (1 / c.p * c.yAct + c.xAct) * m = (c.p * c.xAct + c.yAct) * m / c.p
    field_simp
    ring
  · by_cases hq : t = c.tknq
    · subst hq
      rw [if_neg (not_not.mpr (Or.inl rfl)), if_neg hb, if_neg (not_not.mpr (Or.inr rfl)), if_pos rfl,
        pyDiv_ok (one_div_pos.mpr hpp).ne', Py.ok_bind]
      congr 2
      show (1 / c.p * c.yAct + c.xAct) * m / (1 / c.p) = (c.p * c.xAct + c.yAct) * m
      field_simp
      ring
    · have n3 : ¬ (t = c.tknq ∨ t = c.tknb) := by rintro (h | h); exacts [hq h, hb h]
      have n4 : ¬ (t = c.tknb ∨ t = c.tknq) := by rintro (h | h); exacts [hb h, hq h]
      rw [if_pos n3, if_pos n4]

/-! ## The ends of the range -/

/-- **C93** A curve is reported to be at an end of its range exactly if the range ends there and no more than a millionth of the token
is left (relative to the smallest virtual reserve of the base token, to the current virtual reserve of the quote token). -/
theorem C93_ends (c : CPC K) (hs : Sound c) :
    (c.atXmin = true ↔ 0 < c.xMin ∧ 10 ^ 6 * c.xAct < c.xMin) ∧ (c.atXmax = true ↔ 0 < c.yMin ∧ 10 ^ 6 * c.yAct < c.y) ∧
      (c.atBoundary = true ↔ (0 < c.xMin ∧ 10 ^ 6 * c.xAct < c.xMin) ∨ (0 < c.yMin ∧ 10 ^ 6 * c.yAct < c.y)) := by
  have hk := hs.hk
  have hx := hs.hx
  have hy := hs.y_pos
  have hxy := hs.xy
  have x0 : 0 ≤ c.xMin := sub_nonneg.mpr hs.hxx
  have h1 : c.atXmin = true ↔ 0 < c.xMin ∧ 10 ^ 6 * c.xAct < c.xMin := by
    unfold atXmin
    by_cases h0 : c.xMin = 0
    · rw [if_pos h0, h0]
      simp
    · have hp := lt_of_le_of_ne x0 (Ne.symm h0)
      rw [if_neg h0, decide_eq_true_iff]
      have e : c.x / c.xMin - 1 = c.xAct / c.xMin := by
        have : c.x = c.xMin + c.xAct := by unfold xMin; ring
        rw [this]; field_simp; ring
      rw [e, abs_of_nonneg (div_nonneg hs.hxa x0), div_lt_div_iff₀ hp (by norm_num), one_mul, mul_comm]
      exact ⟨fun h => ⟨hp, h⟩, fun h => h.2⟩
  have h2 : c.atXmax = true ↔ 0 < c.yMin ∧ 10 ^ 6 * c.yAct < c.y := by
    unfold atXmax xMax
    by_cases h0 : 0 < c.yMin
    · rw [if_pos h0]
      dsimp only
      rw [decide_eq_true_iff]
      have e : c.x / (c.k / c.yMin) - 1 = -(c.yAct / c.y) := by
        have : c.yMin = c.y - c.yAct := rfl
        rw [← hxy, this]
        have : c.y - c.yAct ≠ 0 := by rw [← this]; exact h0.ne'
        field_simp
        ring
      rw [e, abs_neg, abs_of_nonneg (div_nonneg hs.hya hy.le), div_lt_div_iff₀ hy (by norm_num), one_mul, mul_comm]
      exact ⟨fun h => ⟨h0, h⟩, fun h => h.2⟩
    · rw [if_neg h0]
      simp [h0]
  refine ⟨h1, h2, ?_⟩
  unfold atBoundary
  rw [Bool.or_eq_true, h1, h2]

/-- **C93** Buying all of the base token that is available brings the curve to the end of its range (without leverage this trade is not
possible). -/
theorem C93_emptied (c c' : CPC K) (hs : Sound c) (h : c.execute (some (-c.xAct)) none = .ok c') :
    c'.atXmin = true ∧ c'.atBoundary = true ∧ c'.pMax = some c'.p := by
  obtain ⟨hk, hxy', _, hdx, _, _, hxa, hya⟩ := C37_invariant c c' _ _ false h
  obtain ⟨hx', hy', _⟩ := C37_reserves_partial c c' hs _ _ h
  have hx := hdx _ rfl
  have h0 : c'.xAct = 0 := by linarith
  have hm : c'.xMin = c'.x := by unfold xMin; rw [h0, sub_zero]
  have h1 : c'.atXmin = true := by
    unfold atXmin
    rw [hm, if_neg hx'.ne', div_self hx'.ne', sub_self, abs_zero]
    exact decide_eq_true (by norm_num)
  refine ⟨h1, by unfold atBoundary; rw [h1]; rfl, ?_⟩
  unfold pMax yMax
  rw [hm, if_pos hx', if_pos hx', Option.map_some]
  rfl

end Field

/-- One token of each for sale at price one: worth two of either; bought empty of the first token it is at the end of the range. -/
example : exCurve.tvl = .ok (some 2) ∧ exCurve.tvl (some "TKNB".toList) 3 = .ok (some 6) ∧
    (exCurve.execute (some (-1)) none).map (fun c => (c.p, c.tvl, c.atXmin)) = .ok (4, .ok (some 3), true) ∧
    exCurve.atBoundary = false := by
  decide +kernel

end Carbon.CPC

namespace Carbon.TokenScale

variable {K : Type} [Field K]

/-- **C94** Every token has a scale: after any number of additions it is the last one added for the token, or else the one given at the
beginning, or else 0.01. -/
theorem C94_scale (init adds : List (Str × K)) (t : Str) :
    (adds.foldl (fun s kv => s.addScale kv.1 kv.2) (ofScales init)).scale t =
      ((adds.reverse ++ init).find? fun kv => kv.1 == t).elim (1 / 100) (·.2) := by
  have key : ∀ s : TokenScale K, dictGet (adds.foldl (fun s kv => s.addScale kv.1 kv.2) s).dct t =
      (dictGet adds.reverse t).or (dictGet s.dct t) := by
    induction adds using List.reverseRecOn with
    | nil => intro s; rfl
    | append_singleton l kv ih =>
      intro s
      rw [List.foldl_append, List.foldl_cons, List.foldl_nil, List.reverse_append, List.reverse_singleton, List.singleton_append]
      show dictGet (dictSet _ kv.1 kv.2) t = _
      rw [dictGet_set, show dictGet (kv :: l.reverse) t = if kv.1 = t then some kv.2 else dictGet l.reverse t from rfl]
      by_cases h : kv.1 = t
      · rw [if_pos h, if_pos h]; rfl
      · rw [if_neg h, if_neg h, ih]
  have app : ∀ a b : List (Str × K), dictGet (a ++ b) t = (dictGet a t).or (dictGet b t) := by
    intro a b
    induction a with
    | nil => rfl
    | cons x a ih =>
      obtain ⟨k, v⟩ := x
      rw [List.cons_append, show dictGet ((k, v) :: (a ++ b)) t = if k = t then some v else dictGet (a ++ b) t from rfl,
        show dictGet ((k, v) :: a) t = if k = t then some v else dictGet a t from rfl]
      by_cases h : k = t
      · rw [if_pos h, if_pos h]; rfl
      · rw [if_neg h, if_neg h, ih]
  have fnd : ∀ l : List (Str × K), (dictGet l t).getD (1 / 100) = (l.find? fun kv => kv.1 == t).elim (1 / 100) (·.2) := by
    intro l
    induction l with
    | nil => rfl
    | cons x l ih =>
      obtain ⟨k, v⟩ := x
      rw [show dictGet ((k, v) :: l) t = if k = t then some v else dictGet l t from rfl]
      by_cases h : k = t
      · rw [if_pos h, List.find?_cons_of_pos (by simpa using h)]; rfl
      · rw [if_neg h, List.find?_cons_of_neg (by simpa using h), ih]
  unfold scale
  rw [key, show (default K : K) = 1 / 100 from rfl, show (ofScales init : TokenScale K).dct = init from rfl, ← app, fnd]

example : ((ofScales [("ETH".toList, (1000 : ℚ))]).addScale "BNT".toList 1).scale "BNT".toList = 1 ∧
    ((ofScales [("ETH".toList, (1000 : ℚ))]).addScale "BNT".toList 1).scale "ETH".toList = 1000 ∧
    ((ofScales [("ETH".toList, (1000 : ℚ))]).addScale "BNT".toList 1).scale "UNI".toList = 1 / 100 := by
  decide +kernel

end Carbon.TokenScale
