import Verif.Tools.Cpc
import Verif.Prop.OrderUIPrice

/-!
# C37-C39: constant-product curves
-/

set_option linter.unusedSectionVars false

namespace Carbon.CPC

open CarbonPair (pyDiv)
open UICurve (pyDiv_ok)

section Field
variable {K : Type} [Field K] [LinearOrder K] [IsStrictOrderedRing K] [PySqrt K]

/-- A curve with a pair of two tokens, a positive invariant and reserves, and available reserves that are not negative and not
larger than the virtual ones. -/
structure Sound (c : CPC K) : Prop where
  hk : 0 < c.k
  hx : 0 < c.x
  hxa : 0 ≤ c.xAct
  hxx : c.xAct ≤ c.x
  hya : 0 ≤ c.yAct
  hyy : c.yAct ≤ c.y
  hpair : ∃ b q, CarbonPair.unpack c.pair = .ok (b, q)

theorem make_ok {k x : K} (hx : x ≠ 0) {pr : Str} {bq : Str × Str} (hp : CarbonPair.unpack pr = .ok bq) (xa ya : K)
    (cid : Option Cid) (cs : Str) : make k x (some xa) (some ya) (some pr) cid cs = .ok ⟨k, x, xa, ya, pr, cid, cs⟩ := by
  unfold make TPair.ofStr
  simp only [Option.getD_some, Option.elim_some, hp, Py.ok_bind, pyDiv_ok hx]

theorem make_cases {k x : K} {xa ya : Option K} {pr : Option Str} {cid : Option Cid} {cs : Str} {c : CPC K}
    (h : make k x xa ya pr cid cs = .ok c) :
    x ≠ 0 ∧ c = ⟨k, x, xa.getD x, ya.getD (k / x), pr.getD "TKNB/TKNQ".toList, cid, cs⟩ ∧
      ∃ b q, CarbonPair.unpack c.pair = .ok (b, q) := by
  have hx : x ≠ 0 := by
    intro hx
    unfold make at h
    have e : ∀ k : K, pyDiv k x = .error .zeroDiv := by intro k; rw [hx]; exact if_pos rfl
    rw [Py.bind_eq_ok] at h
    obtain ⟨_, _, h⟩ := h
    dsimp only at h
    rw [Py.bind_eq_ok] at h
    obtain ⟨_, _, h⟩ := h
    rw [e] at h
    cases h
  refine ⟨hx, ?_⟩
  unfold make at h
  rw [Py.bind_eq_ok] at h
  obtain ⟨v, hv, h⟩ := h
  dsimp only at h
  rw [Py.bind_eq_ok] at h
  obtain ⟨t, ht, h⟩ := h
  rw [pyDiv_ok hx, Py.ok_bind] at h
  unfold TPair.ofStr at ht
  rw [Py.bind_eq_ok] at ht
  obtain ⟨bq, hbq, _⟩ := ht
  have hv' : v = ya.getD (k / x) := by
    cases ya with
    | none => rw [pyDiv_ok hx] at hv; exact (Except.ok.inj hv).symm
    | some w => exact (Except.ok.inj hv).symm
  have := Except.ok.inj h
  subst this
  exact ⟨by rw [hv'], bq.1, bq.2, hbq⟩

/-- Every constructed curve has `x ≠ 0` and a proper pair. -/
theorem make_wf {k x : K} {xa ya : Option K} {pr : Option Str} {cid : Option Cid} {cs : Str} {c : CPC K}
    (h : make k x xa ya pr cid cs = .ok c) : c.x ≠ 0 ∧ ∃ b q, CarbonPair.unpack c.pair = .ok (b, q) := by
  obtain ⟨h1, rfl, h3⟩ := make_cases h
  exact ⟨h1, h3⟩

theorem Sound.y_pos {c : CPC K} (h : Sound c) : 0 < c.y := div_pos h.hk h.hx

theorem Sound.xy {c : CPC K} (h : Sound c) : c.x * c.y = c.k := by unfold y; field_simp [h.hx.ne']

/-- What both ways of executing a trade have in common. -/
structure Moved (c c' : CPC K) : Prop where
  x_ne : c'.x ≠ 0
  k : c'.k = c.k
  xAct : c'.xAct = c.xAct + c'.x - c.x
  yAct : c'.yAct = c.yAct + c'.y - c.y
  pair : c'.pair = c.pair

theorem executed_cases {c c' : CPC K} {newx newy : K} (h : c.executed newx newy = .ok c') (hy : newy = c.k / newx) :
    c'.x = newx ∧ Moved c c' := by
  obtain ⟨h1, rfl, _⟩ := make_cases h
  refine ⟨rfl, h1, rfl, rfl, ?_, rfl⟩
  simp only [CPC.y, Option.getD_some] at hy ⊢
  rw [hy]

theorem execute_x {c c' : CPC K} {dx : Option K} {ib : Bool} (h : c.execute dx none ib = .ok c') :
    (ib = false → -c.xAct ≤ dx.getD 0) ∧ c'.x = c.x + dx.getD 0 ∧ Moved c c' := by
  have e : c.execute dx none ib = if ¬ -c.xAct ≤ dx.getD 0 ∧ ib = false then .error .value
      else (pyDiv c.k (c.x + dx.getD 0) >>= fun newy => c.executed (c.x + dx.getD 0) newy) := by
    cases dx <;> rfl
  rw [e] at h
  by_cases hb : ¬ -c.xAct ≤ dx.getD 0 ∧ ib = false
  · rw [if_pos hb] at h; cases h
  rw [if_neg hb, Py.bind_eq_ok] at h
  obtain ⟨newy, hn, h⟩ := h
  have hx : c.x + dx.getD 0 ≠ 0 := by
    intro h0; rw [h0] at hn; unfold pyDiv at hn; rw [if_pos rfl] at hn; cases hn
  rw [pyDiv_ok hx] at hn
  obtain ⟨h1, h2⟩ := executed_cases h (Except.ok.inj hn).symm
  refine ⟨fun hib => ?_, h1, h2⟩
  by_contra hc
  exact hb ⟨hc, hib⟩

theorem execute_y {c c' : CPC K} {b : K} {ib : Bool} (h : c.execute none (some b) ib = .ok c') :
    (ib = false → -c.yAct ≤ b) ∧ c'.y = c.y + b ∧ Moved c c' := by
  unfold execute at h
  dsimp only at h
  by_cases hb : ¬ -c.yAct ≤ b ∧ ib = false
  · rw [if_pos hb] at h; cases h
  rw [if_neg hb, Py.bind_eq_ok] at h
  obtain ⟨newx, hn, h⟩ := h
  have hy0 : c.y + b ≠ 0 := by
    intro h0; rw [h0] at hn; unfold pyDiv at hn; rw [if_pos rfl] at hn; cases hn
  rw [pyDiv_ok hy0] at hn
  have hn := (Except.ok.inj hn).symm
  have h1 : newx ≠ 0 := by obtain ⟨h1, _⟩ := make_cases h; exact h1
  have hk : c.k ≠ 0 := by rintro h0; rw [h0, zero_div] at hn; exact h1 hn
  have hyy : c.y + b = c.k / newx := by rw [hn]; field_simp
  obtain ⟨h2, h3⟩ := executed_cases h hyy
  refine ⟨fun hib => ?_, ?_, h3⟩
  · by_contra hc
    exact hb ⟨hc, hib⟩
  · rw [hyy]; show c'.k / c'.x = _; rw [h3.k, h2]

/-! ## C37: executing a trade -/

/-- **C37** An executed trade, by either amount and with or without bounds, keeps the invariant and the pair, moves the given
reserve by exactly the amount, and shifts both available reserves by exactly what the virtual ones moved. -/
theorem C37_invariant (c c' : CPC K) (dx dy : Option K) (ib : Bool) (h : c.execute dx dy ib = .ok c') :
    c'.k = c.k ∧ c'.x * c'.y = c.k ∧ c'.pair = c.pair ∧ (∀ a, dx = some a → c'.x - c.x = a) ∧
      (∀ b, dy = some b → c'.y - c.y = b) ∧ (dx = none → dy = none → c'.x = c.x) ∧
      c'.xAct - c.xAct = c'.x - c.x ∧ c'.yAct - c.yAct = c'.y - c.y := by
  have fin : ∀ {c c' : CPC K}, Moved c c' → c'.k = c.k ∧ c'.x * c'.y = c.k ∧ c'.pair = c.pair ∧
      c'.xAct - c.xAct = c'.x - c.x ∧ c'.yAct - c.yAct = c'.y - c.y := by
    intro c c' m
    refine ⟨m.k, ?_, m.pair, by rw [m.xAct]; ring, by rw [m.yAct]; ring⟩
    have := m.x_ne
    show c'.x * (c'.k / c'.x) = c.k
    rw [m.k]; field_simp
  cases dy with
  | none =>
    obtain ⟨_, h2, m⟩ := execute_x h
    obtain ⟨f1, f2, f3, f4, f5⟩ := fin m
    refine ⟨f1, f2, f3, ?_, ?_, ?_, f4, f5⟩
    · rintro a rfl; rw [h2, Option.getD_some]; ring
    · intro b hb; cases hb
    · rintro rfl _; rw [h2, Option.getD_none, add_zero]
  | some b =>
    cases dx with
    | some a => cases h
    | none =>
      obtain ⟨_, h2, m⟩ := execute_y h
      obtain ⟨f1, f2, f3, f4, f5⟩ := fin m
      refine ⟨f1, f2, f3, ?_, ?_, ?_, f4, f5⟩
      · intro a ha; cases ha
      · intro b' hb; cases hb; rw [h2]; ring
      · intro _ hb; cases hb

/-- **C37** On a sound curve a trade within bounds leaves positive reserves, an available reserve of the traded token that is
not negative, and available reserves below the virtual ones. Missing: the available reserve of the other token
(`C37_violated`, `C37_other_side`). -/
theorem C37_reserves_partial (c c' : CPC K) (hs : Sound c) (dx dy : Option K) (h : c.execute dx dy = .ok c') :
    0 < c'.x ∧ 0 < c'.y ∧ c'.xAct ≤ c'.x ∧ c'.yAct ≤ c'.y ∧ (dy = none → 0 ≤ c'.xAct) ∧ (∀ b, dy = some b → 0 ≤ c'.yAct) := by
  have fin : ∀ {c' : CPC K}, Moved c c' → 0 < c'.x → 0 < c'.x ∧ 0 < c'.y ∧ c'.xAct ≤ c'.x ∧ c'.yAct ≤ c'.y := by
    intro c' m hx
    have h1 := hs.hxx
    have h2 := hs.hyy
    refine ⟨hx, ?_, by rw [m.xAct]; linarith, by rw [m.yAct]; linarith⟩
    show 0 < c'.k / c'.x
    rw [m.k]; exact div_pos hs.hk hx
  cases dy with
  | none =>
    obtain ⟨h1, h2, m⟩ := execute_x h
    have h1 := h1 rfl
    have hxx := hs.hxx
    have hx : 0 < c'.x := lt_of_le_of_ne (by rw [h2]; linarith) m.x_ne.symm
    obtain ⟨f1, f2, f3, f4⟩ := fin m hx
    refine ⟨f1, f2, f3, f4, fun _ => ?_, fun b hb => by cases hb⟩
    rw [m.xAct, h2]; linarith
  | some b =>
    cases dx with
    | some a => cases h
    | none =>
      obtain ⟨h1, h2, m⟩ := execute_y h
      have h1 := h1 rfl
      have hyy := hs.hyy
      have hy0 : 0 ≤ c'.y := by rw [h2]; linarith
      have hx : 0 < c'.x := by
        have e : c'.y = c.k / c'.x := by show c'.k / c'.x = _; rw [m.k]
        rcases lt_or_gt_of_ne m.x_ne with hn | hn
        · exact absurd (div_neg_of_pos_of_neg hs.hk hn) (not_lt.mpr (e ▸ hy0))
        · exact hn
      obtain ⟨f1, f2, f3, f4⟩ := fin m hx
      refine ⟨f1, f2, f3, f4, fun hb => (by cases hb), fun b _ => ?_⟩
      rw [m.yAct, h2]; linarith

/-- **C37** Exactly which purchases drive the available reserve of the other token below zero: those that take `x` beyond its
maximum. -/
theorem C37_other_side (c c' : CPC K) (hs : Sound c) (dx : K) (h : c.execute (some dx) none = .ok c') :
    0 ≤ c'.yAct ↔ ∀ m, c.xMax = some m → c.x + dx ≤ m := by
  obtain ⟨_, h2, m⟩ := execute_x h
  rw [Option.getD_some] at h2
  obtain ⟨hx, _⟩ := C37_reserves_partial c c' hs (some dx) none h
  have e : c'.yAct = c.k / c'.x - c.yMin := by
    have e1 : c'.y = c.k / c'.x := by show c'.k / c'.x = _; rw [m.k]
    rw [m.yAct, e1]; unfold yMin; ring
  have hm : 0 ≤ c.yMin := sub_nonneg.mpr hs.hyy
  rw [e, sub_nonneg, ← h2]
  unfold xMax
  rcases hm.eq_or_lt with h0 | h0
  · rw [← h0, if_neg (lt_irrefl _)]
    exact ⟨fun _ m hm => (by cases hm), fun _ => (div_pos hs.hk hx).le⟩
  · rw [if_pos h0]
    constructor
    · intro hle m hm
      cases hm
      rw [le_div_iff₀ h0]; rw [le_div_iff₀ hx] at hle; linarith
    · intro hall
      have := hall _ rfl
      rw [le_div_iff₀ h0] at this
      rw [le_div_iff₀ hx]; linarith

/-- **C37** Amounts beyond the available reserve, or two amounts, are refused. -/
theorem C37_refuses (c : CPC K) (a b : K) :
    c.execute (some a) (some b) = .error .value ∧ (a < -c.xAct → c.execute (some a) none = .error .value) ∧
      (b < -c.yAct → c.execute none (some b) = .error .value) := by
  refine ⟨rfl, fun h => ?_, fun h => ?_⟩
  · unfold execute
    dsimp only
    rw [if_pos ⟨by simpa using h, rfl⟩]
  · unfold execute
    dsimp only
    rw [if_pos ⟨by simpa using h, rfl⟩]

/-- **C37** Within the available reserves a trade always goes through, unless it empties the curve completely. -/
theorem C37_accepts (c : CPC K) (hs : Sound c) (a : K) :
    (-c.xAct ≤ a → 0 < c.x + a → ∃ c', c.execute (some a) none = .ok c') ∧
      (-c.yAct ≤ a → 0 < c.y + a → ∃ c', c.execute none (some a) = .ok c') := by
  obtain ⟨b, q, hp⟩ := hs.hpair
  refine ⟨fun h h0 => ?_, fun h h0 => ?_⟩
  · unfold execute
    dsimp only
    rw [if_neg (by simpa using h), Option.getD_some, pyDiv_ok h0.ne', Py.ok_bind]
    exact ⟨_, make_ok h0.ne' hp _ _ _ _⟩
  · unfold execute
    dsimp only
    rw [if_neg (by simpa using h), pyDiv_ok h0.ne', Py.ok_bind]
    exact ⟨_, make_ok (div_pos hs.hk h0).ne' hp _ _ _ _⟩

/-! ## C39: bounds -/

/-- **C39** On a sound curve the bounds of the reserves and of the price contain the current values and belong together through
the invariant; a missing bound means that the reserve is not levered. -/
theorem C39_bounds (c : CPC K) (hs : Sound c) :
    0 ≤ c.xMin ∧ c.xMin ≤ c.x ∧ 0 ≤ c.yMin ∧ c.yMin ≤ c.y ∧
      (∀ m, c.xMax = some m → c.x ≤ m ∧ m * c.yMin = c.k) ∧ (∀ m, c.yMax = some m → c.y ≤ m ∧ m * c.xMin = c.k) ∧
      (∀ m, c.pMin = some m → 0 < m ∧ m ≤ c.p ∧ ∀ xm, c.xMax = some xm → m * xm ^ 2 = c.k) ∧
      (∀ m, c.pMax = some m → c.p ≤ m ∧ m * c.xMin ^ 2 = c.k) ∧
      (c.xMax = none ↔ c.yAct = c.y) ∧ (c.pMin = none ↔ c.yAct = c.y) ∧ (c.yMax = none ↔ c.xAct = c.x) ∧
      (c.pMax = none ↔ c.xAct = c.x) := by
  have hk := hs.hk
  have hx := hs.hx
  have hy := hs.y_pos
  have hxy := hs.xy
  have hxa := hs.hxa
  have hya := hs.hya
  have x0 : 0 ≤ c.xMin := sub_nonneg.mpr hs.hxx
  have y0 : 0 ≤ c.yMin := sub_nonneg.mpr hs.hyy
  have x1 : c.xMin ≤ c.x := by unfold xMin; linarith
  have y1 : c.yMin ≤ c.y := by unfold yMin; linarith
  have xe : c.xMin = 0 ↔ c.xAct = c.x := by unfold xMin; rw [sub_eq_zero]; exact eq_comm
  have ye : c.yMin = 0 ↔ c.yAct = c.y := by unfold yMin; rw [sub_eq_zero]; exact eq_comm
  have hp : c.p = c.k / c.x ^ 2 := by unfold p y; field_simp
  rcases x0.eq_or_lt with hx0 | hx0 <;> rcases y0.eq_or_lt with hy0 | hy0
  all_goals
    have xM : c.xMax = if 0 < c.yMin then some (c.k / c.yMin) else none := rfl
    have yM : c.yMax = if 0 < c.xMin then some (c.k / c.xMin) else none := rfl
    have pM : c.pMax = if 0 < c.xMin then c.yMax.map (· / c.xMin) else none := rfl
    have pm : c.pMin = match c.xMax with
      | none => none
      | some m => if 0 < m then some (c.yMin / m) else none := rfl
    rw [xM] at pm
    first
      | rw [if_pos hx0] at yM pM
      | rw [if_neg (by rw [← hx0]; exact lt_irrefl _)] at yM pM
    first
      | (rw [yM] at pM; rw [Option.map_some] at pM)
      | skip
    first
      | rw [if_pos hy0] at xM pm
      | rw [if_neg (by rw [← hy0]; exact lt_irrefl _)] at xM pm
    first
      | (have hk' := div_pos hk hy0; dsimp only at pm; rw [if_pos hk'] at pm)
      | dsimp only at pm
    rw [xM, yM, pM, pm]
    refine ⟨x0, x1, y0, y1, ?_, ?_, ?_, ?_, ?_, ?_, ?_, ?_⟩
    · first
        | (intro m hm; simp only [reduceCtorEq] at hm)
        | (intro m hm
           have hm := (Option.some.inj hm).symm
           subst hm
           refine ⟨?_, by field_simp⟩
           rw [le_div_iff₀ hy0]
           nlinarith)
    · first
        | (intro m hm; simp only [reduceCtorEq] at hm)
        | (intro m hm
           have hm := (Option.some.inj hm).symm
           subst hm
           refine ⟨?_, by field_simp⟩
           rw [le_div_iff₀ hx0]
           nlinarith)
    · first
        | (intro m hm; simp only [reduceCtorEq] at hm)
        | (intro m hm
           have hm := (Option.some.inj hm).symm
           subst hm
           refine ⟨by positivity, ?_, ?_⟩
           · have e : c.yMin / (c.k / c.yMin) = c.yMin ^ 2 / c.k := by field_simp
             have e2 : c.k / c.x ^ 2 = c.y ^ 2 / c.k := by rw [← hxy]; field_simp
             rw [hp, e, e2]
             gcongr
           · intro xm hxm
             have hxm := (Option.some.inj hxm).symm
             subst hxm
             field_simp)
    · first
        | (intro m hm; simp only [reduceCtorEq] at hm)
        | (intro m hm
           have hm := (Option.some.inj hm).symm
           subst hm
           refine ⟨?_, by field_simp⟩
           have e : c.k / c.xMin / c.xMin = c.k / c.xMin ^ 2 := by field_simp
           rw [hp, e]
           gcongr)
    · first
        | exact ⟨fun _ => ye.mp hy0.symm, fun _ => rfl⟩
        | exact ⟨fun h => (by cases h), fun h => absurd (ye.mpr h) hy0.ne'⟩
    · first
        | exact ⟨fun _ => ye.mp hy0.symm, fun _ => rfl⟩
        | exact ⟨fun h => (by cases h), fun h => absurd (ye.mpr h) hy0.ne'⟩
    · first
        | exact ⟨fun _ => xe.mp hx0.symm, fun _ => rfl⟩
        | exact ⟨fun h => (by cases h), fun h => absurd (xe.mpr h) hx0.ne'⟩
    · first
        | exact ⟨fun _ => xe.mp hx0.symm, fun _ => rfl⟩
        | exact ⟨fun h => (by cases h), fun h => absurd (xe.mpr h) hx0.ne'⟩

end Field

/-- A levered curve: `x = y = 2`, one token of each for sale. -/
def exCurve : CPC ℚ := ⟨4, 2, 1, 1, "TKNB/TKNQ".toList, none, "default".toList⟩

theorem exCurve_sound : Sound exCurve := by
  constructor
  · decide +kernel
  · decide +kernel
  · decide +kernel
  · decide +kernel
  · decide +kernel
  · decide +kernel
  · exact ⟨"TKNB".toList, "TKNQ".toList, by decide +kernel⟩

example : (exCurve.execute (some (-1)) none).map (fun c => (c.k, c.x, c.xAct, c.yAct)) = .ok (4, 1, 0, 3) := by
  decide +kernel

/-- **C37** fails: adding 6 to `x` takes 1.5 out of `y`, of which only 1 is available; the trade is executed. -/
theorem C37_violated :
    (exCurve.execute (some 6) none).map (fun c => (c.k, c.x, c.xAct, c.yAct)) = .ok (4, 8, 7, -1 / 2) := by
  decide +kernel

/-- **C39** fails for the constructor from prices if the price is outside of the range: price 4, range 1..1. -/
theorem C39_outside_violated :
    (fromPKPP (4 : ℚ) 4 (some 1) (some 1)).map (fun c => (c.x, c.xAct, c.xMin)) = .ok (1, -1, 2) := by
  decide +kernel

/-! ## C38: constructors -/

theorem sqrtE_ok {v : ℝ} (h : 0 ≤ v) : Curve.sqrtE v = .ok (Real.sqrt v) := by
  unfold Curve.sqrtE; rw [if_neg (not_lt.mpr h)]; rfl

/-- The curve with reserves `x`, `y` and the optional data `m`. -/
def IsPool (c : CPC ℝ) (x y : ℝ) (m : Meta ℝ) : Prop :=
  c.k = x * y ∧ c.x = x ∧ c.y = y ∧ c.p = y / x ∧ c.xAct = m.xAct.getD x ∧ c.yAct = m.yAct.getD y ∧
    c.pair = m.pair.getD "TKNB/TKNQ".toList ∧ c.cid = m.cid

theorem make_pool {x y k : ℝ} (hx : 0 < x) (hk : k = x * y) {m : Meta ℝ} {bq : Str × Str}
    (hp : CarbonPair.unpack (m.pair.getD "TKNB/TKNQ".toList) = .ok bq) (cs : Str) :
    ∃ c, make k x m.xAct m.yAct m.pair m.cid cs = .ok c ∧ IsPool c x y m := by
  subst hk
  have e : x * y / x = y := by field_simp
  refine ⟨⟨x * y, x, m.xAct.getD x, m.yAct.getD y, m.pair.getD "TKNB/TKNQ".toList, m.cid, cs⟩, ?_,
    rfl, rfl, e, ?_, rfl, rfl, rfl, rfl⟩
  · unfold make TPair.ofStr
    cases h : m.yAct with
    | none => simp only [hp, Py.ok_bind, pyDiv_ok hx.ne', Option.elim_none, e, Option.getD_none]
    | some v => simp only [hp, Py.ok_bind, pyDiv_ok hx.ne', Option.elim_some, Option.getD_some]
  · show x * y / x / x = y / x
    rw [e]

/-- **C38** All six constructors, given the corresponding two of the four numbers of a pool, build the same curve. -/
theorem C38_constructors (x y : ℝ) (hx : 0 < x) (hy : 0 < y) (m : Meta ℝ) (b q : Str)
    (hp : CarbonPair.unpack (m.pair.getD "TKNB/TKNQ".toList) = .ok (b, q)) :
    (∃ c, fromKX (x * y) x m = .ok c ∧ IsPool c x y m) ∧ (∃ c, fromKY (x * y) y m = .ok c ∧ IsPool c x y m) ∧
      (∃ c, fromXY x y m = .ok c ∧ IsPool c x y m) ∧ (∃ c, fromPK (y / x) (x * y) m = .ok c ∧ IsPool c x y m) ∧
      (∃ c, fromPX (y / x) x m = .ok c ∧ IsPool c x y m) ∧ (∃ c, fromPY (y / x) y m = .ok c ∧ IsPool c x y m) := by
  have hr : 0 < y / x := div_pos hy hx
  refine ⟨make_pool hx rfl hp _, ?_, make_pool hx rfl hp _, ?_, ?_, ?_⟩
  · unfold fromKY
    rw [pyDiv_ok hy.ne', Py.ok_bind]
    have e : x * y / y = x := by field_simp
    rw [e]; exact make_pool hx rfl hp _
  · unfold fromPK
    rw [pyDiv_ok hr.ne', Py.ok_bind]
    have e : x * y / (y / x) = x ^ 2 := by field_simp
    rw [e, sqrtE_ok (by positivity), Py.ok_bind, Real.sqrt_sq hx.le]
    exact make_pool hx rfl hp _
  · have e : x * x * (y / x) = x * y := by field_simp
    unfold fromPX
    rw [e]; exact make_pool hx rfl hp _
  · unfold fromPY
    rw [pyDiv_ok hr.ne', Py.ok_bind, pyDiv_ok hr.ne', Py.ok_bind]
    have e : y * y / (y / x) = x * y := by field_simp
    have e2 : y / (y / x) = x := by field_simp
    rw [e, e2]; exact make_pool hx rfl hp _

/-- **C38** The constructor for Uniswap v2 pools builds the same curve from any two of the three numbers, and refuses one or
three. -/
theorem C38_univ2 (x y : ℝ) (hx : 0 < x) (hy : 0 < y) (pr : Str) (cid : Cid) (b q : Str)
    (hp : CarbonPair.unpack pr = .ok (b, q)) :
    let m : Meta ℝ := { xAct := some x, yAct := some y, pair := some pr, cid := some cid }
    (∃ c, fromUniV2 (some x) (some y) none (some pr) (some cid) = .ok c ∧ IsPool c x y m) ∧
      (∃ c, fromUniV2 none (some y) (some (x * y)) (some pr) (some cid) = .ok c ∧ IsPool c x y m) ∧
      (∃ c, fromUniV2 (some x) none (some (x * y)) (some pr) (some cid) = .ok c ∧ IsPool c x y m) ∧
      (∀ z : ℝ, fromUniV2 (some x) (some y) (some z) (some pr) (some cid) = .error .assertion) ∧
      (∀ z : ℝ, fromUniV2 (some z) none none (some pr) (some cid) = .error .assertion) ∧
      (∀ z : ℝ, fromUniV2 none (some z) none (some pr) (some cid) = .error .assertion) ∧
      (∀ z : ℝ, fromUniV2 none none (some z) (some pr) (some cid) = .error .assertion) := by
  intro m
  have hp' : CarbonPair.unpack (m.pair.getD "TKNB/TKNQ".toList) = .ok (b, q) := hp
  have e1 : x * y / y = x := by field_simp
  have e2 : x * y / x = y := by field_simp
  have g : ¬ ((some pr).isNone = true ∨ (some cid).isNone = true ∨ true = false) := by simp
  refine ⟨?_, ?_, ?_, ?_, ?_, ?_, ?_⟩
  · unfold fromUniV2; rw [if_neg g]; exact make_pool hx rfl hp' _
  · unfold fromUniV2; rw [if_neg g]; dsimp only; rw [pyDiv_ok hy.ne', Py.ok_bind, e1]; exact make_pool hx rfl hp' _
  · unfold fromUniV2; rw [if_neg g]; dsimp only; rw [pyDiv_ok hx.ne', Py.ok_bind, e2]; exact make_pool hx rfl hp' _
  all_goals intro z; unfold fromUniV2; rw [if_neg g]

example : (fromXY (3 : ℚ) 12).map (fun c => (c.k, c.x, c.y, c.p)) = .ok (36, 3, 12, 4) ∧
    (fromPK (4 : ℚ) 36).map (fun c => (c.k, c.x, c.y, c.p)) = .ok (36, 3, 12, 4) ∧
    (fromPY (4 : ℚ) 12).map (fun c => (c.k, c.x, c.y, c.p)) = .ok (36, 3, 12, 4) := by
  decide +kernel

/-- **C39** The constructor from a price, an invariant and a price range: the curve is sound and has exactly this price and
range. -/
theorem C39_from_range (p k lo hi : ℝ) (hk : 0 < k) (hlo : 0 < lo) (h1 : lo ≤ p) (h2 : p ≤ hi) (pr : Option Str)
    (cid : Option Cid) (cs : Option Str) (b q : Str) (hp : CarbonPair.unpack (pr.getD "TKNB/TKNQ".toList) = .ok (b, q)) :
    ∃ c, fromPKPP p k (some lo) (some hi) pr cid cs = .ok c ∧ Sound c ∧ c.k = k ∧ c.p = p ∧ c.pMin = some lo ∧
      c.pMax = some hi := by
  have hp0 : 0 < p := lt_of_lt_of_le hlo h1
  have hhi : 0 < hi := lt_of_lt_of_le hp0 h2
  set x0 := Real.sqrt (k / p) with hx0
  set a := Real.sqrt (k / hi) with ha
  set y0 := Real.sqrt (k * p) with hy0
  set d := Real.sqrt (k * lo) with hd
  have x0p : 0 < x0 := Real.sqrt_pos.mpr (by positivity)
  have ap : 0 < a := Real.sqrt_pos.mpr (by positivity)
  have y0p : 0 < y0 := Real.sqrt_pos.mpr (by positivity)
  have dp : 0 < d := Real.sqrt_pos.mpr (by positivity)
  have x0s : x0 ^ 2 = k / p := Real.sq_sqrt (by positivity)
  have as : a ^ 2 = k / hi := Real.sq_sqrt (by positivity)
  have ds : d ^ 2 = k * lo := Real.sq_sqrt (by positivity)
  have hxy : x0 * y0 = k := by
    rw [hx0, hy0, ← Real.sqrt_mul (by positivity)]
    have : k / p * (k * p) = k ^ 2 := by field_simp
    rw [this, Real.sqrt_sq hk.le]
  have hax : a ≤ x0 := Real.sqrt_le_sqrt (by gcongr)
  have hdy : d ≤ y0 := Real.sqrt_le_sqrt (by gcongr)
  have hy : k / x0 = y0 := by rw [← hxy]; field_simp
  set c : CPC ℝ := ⟨k, x0, x0 - a, y0 - d, pr.getD "TKNB/TKNQ".toList, cid, "pkpp".toList⟩ with hc
  have hcy : c.y = y0 := hy
  have hxm : c.xMin = a := by show x0 - (x0 - a) = a; ring
  have hym : c.yMin = d := by show c.y - (y0 - d) = d; rw [hcy]; ring
  refine ⟨c, ?_, ⟨hk, x0p, sub_nonneg.mpr hax, ?_, sub_nonneg.mpr hdy, ?_, b, q, hp⟩, rfl, ?_, ?_, ?_⟩
  · unfold fromPKPP
    simp only [Option.getD_some]
    rw [pyDiv_ok hp0.ne', Py.ok_bind, sqrtE_ok (by positivity), Py.ok_bind, sqrtE_ok (by positivity), Py.ok_bind,
      pyDiv_ok hhi.ne', Py.ok_bind, sqrtE_ok (by positivity), Py.ok_bind, sqrtE_ok (by positivity), Py.ok_bind]
    unfold make TPair.ofStr
    rw [← hx0]
    simp only [hp, Py.ok_bind, pyDiv_ok x0p.ne', Option.elim_some, Option.getD_some]
    rfl
  · show x0 - a ≤ x0; linarith
  · rw [hcy]; show y0 - d ≤ y0; linarith
  · show k / x0 / x0 = p
    have : k / x0 / x0 = k / x0 ^ 2 := by field_simp
    rw [this, x0s]; field_simp
  · have e : c.xMax = some (k / d) := by unfold xMax; rw [hym, if_pos dp]
    unfold pMin
    rw [e]; dsimp only
    rw [if_pos (by positivity), hym]
    congr 1
    have : d / (k / d) = d ^ 2 / k := by field_simp
    rw [this, ds]; field_simp
  · have e : c.yMax = some (k / a) := by unfold yMax; rw [hxm, if_pos ap]
    unfold pMax
    rw [hxm, if_pos ap, e, Option.map_some]
    congr 1
    have : k / a / a = k / a ^ 2 := by field_simp
    rw [this, as]; field_simp

example : (fromPKPP (4 : ℚ) 4 (some 1) (some 16)).map (fun c => (c.x, c.y, c.xAct, c.yAct)) =
    .ok (1, 4, 1 / 2, 2) ∧
    (fromPKPP (4 : ℚ) 4 (some 1) (some 16)).map (fun c => (c.pMin, c.pMax)) = .ok (some 1, some 16) := by
  decide +kernel

end Carbon.CPC
