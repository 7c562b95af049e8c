import Verif.Carbon.OrderUILemmas
import Verif.Prop.Pair

/-!
# Properties of the order curve (`CarbonOrderUI`): C16-C22, C64
-/

set_option linter.unusedSectionVars false

namespace Carbon.UICurve

variable {K : Type} [Field K] [LinearOrder K] [IsStrictOrderedRing K]

/-- A half-full curve selling USDC for ETH between 4 and 1 USDC per ETH. -/
def sampleCurve : UICurve ℚ := ⟨CarbonPair.ethUsdc, "USDC".toList, 1, 1, 100, 50⟩

/-- A curve selling ETH. -/
def sampleLinked : UICurve ℚ := ⟨CarbonPair.ethUsdc, "ETH".toList, 1 / 3, 1 / 5, 10, 10⟩

theorem sample_sound : Sound sampleCurve := by
  constructor <;> decide +kernel

theorem sampleLinked_sound : Sound sampleLinked := by
  constructor <;> decide +kernel

/-! ## C16 buying and selling are inverse -/

/-- What has to be paid for `dy` buys exactly `dy`. -/
theorem C16_dx_then_dy (c : UICurve K) (h : Sound c) (dy : K) (h0 : 0 ≤ dy) (h1 : dy ≤ c.y) :
    ∃ dx, c.dxfromdyF dy = .ok (some dx) ∧ 0 ≤ dx ∧ c.dyfromdxF dx = .ok (some dy) := by
  have hm := h.m_pos
  have hn := h.n_pos h1
  have hz := h.hyint
  have hS := h.hS
  refine ⟨_, dxfromdyF_ok h h1 true false (fun _ => h0), by positivity, ?_⟩
  rw [dyfromdxF_ok h (by positivity)]
  congr 2
  generalize c.S * c.y + c.B * c.yint = m at hm hn ⊢
  have h2 : c.S * (dy * (c.yint ^ 2 / (m * (m - c.S * dy)))) * m + c.yint ^ 2 = c.yint ^ 2 * m / (m - c.S * dy) := by
    field_simp
    ring
  rw [h2]
  generalize m - c.S * dy = n at hn ⊢
  field_simp

/-- What `dx` buys costs exactly `dx`, as long as it is available. -/
theorem C16_dy_then_dx (c : UICurve K) (h : Sound c) (dx : K) (h0 : 0 ≤ dx) :
    ∃ dy, c.dyfromdxF dx = .ok (some dy) ∧ 0 ≤ dy ∧ (dy ≤ c.y → c.dxfromdyF dy = .ok (some dx)) := by
  have hm := h.m_pos
  have hz := h.hyint
  have hS := h.hS
  refine ⟨_, dyfromdxF_ok h h0 true false, by positivity, ?_⟩
  intro hle
  have hn := h.n_pos hle
  rw [dxfromdyF_ok h hle true false (fun _ => by positivity)]
  congr 2
  generalize c.S * c.y + c.B * c.yint = m at hm hn hle ⊢
  have hden : 0 < c.S * dx * m + c.yint ^ 2 := by positivity
  have h2 : m - c.S * (dx * (m ^ 2 / (c.S * dx * m + c.yint ^ 2))) = m * c.yint ^ 2 / (c.S * dx * m + c.yint ^ 2) := by
    field_simp
    ring
  rw [h2]
  field_simp

/-- The two quotes are strictly order preserving inverses, so each determines the other. -/
theorem C16_iff (c : UICurve K) (h : Sound c) (dx dy : K) (hx : 0 ≤ dx) (h0 : 0 ≤ dy) (h1 : dy ≤ c.y) :
    c.dxfromdyF dy = .ok (some dx) ↔ c.dyfromdxF dx = .ok (some dy) := by
  constructor
  · intro e
    obtain ⟨dx', e1, _, e2⟩ := C16_dx_then_dy c h dy h0 h1
    rw [e] at e1
    simp only [Except.ok.injEq, Option.some.injEq] at e1
    rw [e1]; exact e2
  · intro e
    obtain ⟨dy', e1, _, e2⟩ := C16_dy_then_dx c h dx hx
    rw [e] at e1
    simp only [Except.ok.injEq, Option.some.injEq] at e1
    rw [e1]; exact e2 (e1 ▸ h1)

example : sampleCurve.dxfromdyF 25 = .ok (some (40 / 3)) ∧ sampleCurve.dyfromdxF (40 / 3) = .ok (some 25) := by
  decide +kernel

/-! ## C17 trades stay on the curve -/

/-- `x` from `y` and `y` from `x` are inverse on the whole range. -/
theorem C17_x_then_y (c : UICurve K) (h : Sound c) (y : K) (h0 : 0 ≤ y) (h1 : y ≤ c.yint) :
    ∃ x, c.xfromyF y = .ok (some x) ∧ 0 ≤ x ∧ c.yfromxF x = .ok (some y) := by
  have hB := h.hB
  have hS := h.hS
  have hz := h.hyint
  have hs : 0 ≤ c.yint - y := sub_nonneg.mpr h1
  refine ⟨_, xfromyF_ok h h0 h1 true false, by positivity, ?_⟩
  set x := c.yint * (c.yint - y) / ((c.B + c.S) * (c.B * c.yint + c.S * y)) with hx
  have hx0 : 0 ≤ x := by rw [hx]; positivity
  have hp : 0 < c.B * c.yint + c.S * y := by positivity
  have hq : 0 < c.B + c.S := by positivity
  have hden : c.B * c.S * x + c.S ^ 2 * x + c.yint = c.yint ^ 2 * (c.B + c.S) / (c.B * c.yint + c.S * y) := by
    rw [hx]; field_simp; ring
  have hnum : -c.B ^ 2 * x - c.B * c.S * x + c.yint = c.yint * y * (c.B + c.S) / (c.B * c.yint + c.S * y) := by
    rw [hx]; field_simp; ring
  unfold yfromxF
  rw [if_neg (by simp [hx0])]
  dsimp only
  rw [hden, hnum, CarbonPair.pyDiv, if_neg (by positivity)]
  have hy : c.yint * (c.yint * y * (c.B + c.S) / (c.B * c.yint + c.S * y)) /
      (c.yint ^ 2 * (c.B + c.S) / (c.B * c.yint + c.S * y)) = y := by field_simp
  rw [hy]
  simp [h0]

/-- An executed sale moves the point along the curve: `x` goes up by exactly what was received, `y` down by exactly
what was sold, nothing else changes. -/
theorem C17_execute (w : World K) (h : Sound w.self) (hl : ∀ l, w.linked = some l → Sound l) (dy : K)
    (h0 : EPS ≤ dy) (h1 : dy ≤ w.self.y) (an ec r : Bool) :
    ∃ s w' x x', selly w dy true an ec r = (.ok (some s), w') ∧ s.dy = dy ∧ w'.self = { w.self with y := w.self.y - dy } ∧
      w.self.xfromyF w.self.y = .ok (some x) ∧ w'.self.xfromyF w'.self.y = .ok (some x') ∧ x' = x + s.dx ∧
      s.x = some x' := by
  have he := eps_pos (K := K)
  rw [selly_eq_core h0]
  obtain ⟨s, w', e, e1, e2, e3, _, _, _, _, _, _, ex, e4, _⟩ := sellyCore_ok h hl (dy := dy) (by linarith) h1 true ec r
  have hz := h.hyint
  have hB := h.hB
  have hS := h.hS
  have hy := h.hy
  have hy0 := h.hy0
  have hn : 0 ≤ w.self.y - dy := sub_nonneg.mpr h1
  have hx' := xfromyF_ok h hn (by linarith) true false
  refine ⟨s, w', _, w.self.yint * (w.self.yint - (w.self.y - dy)) /
    ((w.self.B + w.self.S) * (w.self.B * w.self.yint + w.self.S * (w.self.y - dy))), e, e1, by simpa using e4,
    xfromyF_ok h h.hy0 h.hy true false, ?_, ?_, ?_⟩
  · have : w'.self = { w.self with y := w.self.y - dy } := by simpa using e4
    rw [this]
    exact hx'
  · rw [dxfromdyF_ok h h1 true false (fun _ => by linarith)] at e2
    simp only [Except.ok.injEq, Option.some.injEq] at e2
    rw [← e2]
    have a1 : 0 < w.self.B * w.self.yint + w.self.S * w.self.y := by positivity
    have a2 : 0 < w.self.B * w.self.yint + w.self.S * (w.self.y - dy) := by positivity
    have a3 : w.self.S * w.self.y + w.self.B * w.self.yint - w.self.S * dy =
        w.self.B * w.self.yint + w.self.S * (w.self.y - dy) := by ring
    have a4 : w.self.S * w.self.y + w.self.B * w.self.yint = w.self.B * w.self.yint + w.self.S * w.self.y := by ring
    have a5 : 0 < w.self.B + w.self.S := by positivity
    rw [a3, a4]
    field_simp
    ring
  · rw [hx'] at ex
    simpa using ex.symm

example : selly ⟨sampleCurve, some sampleLinked⟩ 25 = (.ok (some ⟨true, 50, 25, 25, 40 / 3, false, some 30,
      some (9 / 4), some (25 / 16)⟩),
      ⟨{ sampleCurve with y := 25 }, some { sampleLinked with y := 70 / 3, yint := 70 / 3 }⟩) := by
  decide +kernel

/-! ## C18 splitting -/

/-- Execute sales one after the other; total received and final state, if none of them fails. -/
def sellSeq (w : World K) : List K → Option (K × World K)
  | [] => some (0, w)
  | d :: ds =>
    match selly w d with
    | (.ok (some s), w') => (sellSeq w' ds).map fun r => (s.dx + r.1, r.2)
    | _ => none

theorem sound_sub {c : UICurve K} (h : Sound c) {d : K} (h0 : 0 ≤ d) (h1 : d ≤ c.y) : Sound { c with y := c.y - d } := by
  have := h.hy
  refine ⟨h.hB, h.hS, h.hyint, ?_, ?_⟩ <;> simp only <;> linarith

theorem list_sum_nonneg {l : List K} (h : ∀ d ∈ l, EPS ≤ d) : 0 ≤ l.sum := by
  induction l with
  | nil => simp
  | cons a l ih =>
    have he := eps_pos (K := K)
    have h1 := h a (by simp)
    have h2 := ih (fun d hd => h d (by simp [hd]))
    rw [List.sum_cons]; linarith

/-- The cost of two consecutive sales adds up (formula level, arbitrarily small pieces). -/
theorem C18_two_pieces (c : UICurve K) (h : Sound c) (d e : K) (hd : 0 ≤ d) (he : 0 ≤ e) (hle : d + e ≤ c.y) :
    ∃ a b t, c.dxfromdyF d = .ok (some a) ∧ ({ c with y := c.y - d } : UICurve K).dxfromdyF e = .ok (some b) ∧
      c.dxfromdyF (d + e) = .ok (some t) ∧ a + b = t := by
  have hd1 : d ≤ c.y := by linarith
  have h' := sound_sub h hd hd1
  have he1 : e ≤ ({ c with y := c.y - d } : UICurve K).y := by simp only; linarith
  refine ⟨_, _, _, dxfromdyF_ok h hd1 true false (fun _ => hd), dxfromdyF_ok h' he1 true false (fun _ => he),
    dxfromdyF_ok h hle true false (fun _ => by linarith), ?_⟩
  have m1 := h.m_pos
  have m2 := h.n_pos hd1
  have m3 := h.n_pos hle
  have m4 := h'.m_pos
  have m5 := h'.n_pos he1
  simp only at m4 m5 ⊢
  have e1 : c.S * (c.y - d) + c.B * c.yint = c.S * c.y + c.B * c.yint - c.S * d := by ring
  rw [e1] at m5 ⊢
  have e2 : c.S * c.y + c.B * c.yint - c.S * d - c.S * e = c.S * c.y + c.B * c.yint - c.S * (d + e) := by ring
  rw [e2]
  generalize c.S * c.y + c.B * c.yint - c.S * d = n at *
  generalize hg : c.S * c.y + c.B * c.yint - c.S * (d + e) = q at *
  generalize hm : c.S * c.y + c.B * c.yint = m at *
  have hn : n = q + c.S * e := by linarith
  have hmm : m = q + c.S * (d + e) := by linarith
  subst hn
  rw [hmm]
  rw [hmm] at m1
  field_simp
  ring

/-- Selling in any number of pieces (each at least the dust threshold) costs exactly what one sale of the sum costs,
leaves the curve at the same holdings, and credits the linked curve with that total. -/
theorem C18_split (ds : List K) : ∀ (w : World K), Sound w.self → (∀ l, w.linked = some l → Sound l) →
    (∀ d ∈ ds, EPS ≤ d) → ds.sum ≤ w.self.y →
    ∃ t w', sellSeq w ds = some (t, w') ∧ w.self.dxfromdyF ds.sum = .ok (some t) ∧
      w'.self = { w.self with y := w.self.y - ds.sum } ∧
      (∀ l, w.linked = some l → ∃ l', w'.linked = some l' ∧ l'.y = l.y + t) := by
  induction ds with
  | nil =>
    intro w h hl _ _
    refine ⟨0, w, rfl, ?_, ?_, ?_⟩
    · rw [List.sum_nil, dxfromdyF_ok h h.hy0 true false (fun _ => le_rfl), zero_mul]
    · simp
    · intro l hl; exact ⟨l, hl, by simp⟩
  | cons d ds ih =>
    intro w h hl hds hsum
    have he := eps_pos (K := K)
    have hd := hds d (by simp)
    have hds' : ∀ x ∈ ds, EPS ≤ x := fun x hx => hds x (by simp [hx])
    have hs0 := list_sum_nonneg hds'
    rw [List.sum_cons] at hsum
    have hd1 : d ≤ w.self.y := by linarith
    have hd0 : 0 ≤ d := by linarith
    obtain ⟨s, w1, e, e1, e2, e3, _, _, _, _, _, _, _, e4, e5, e6⟩ := sellyCore_ok h hl hd0 hd1 true false false
    have e4 : w1.self = { w.self with y := w.self.y - d } := by simpa using e4
    have hl1 : ∀ l, w1.linked = some l → Sound l := by
      intro l hl1
      cases hw : w.linked with
      | none => rw [e5 hw] at hl1; cases hl1
      | some l0 =>
        obtain ⟨l', q1, q2, _⟩ := e6 l0 hw
        rw [q1] at hl1; cases hl1; exact q2
    have hs1 : Sound w1.self := by rw [e4]; exact sound_sub h hd0 hd1
    obtain ⟨t, w', f1, f2, f3, f4⟩ := ih w1 hs1 hl1 hds' (by rw [e4]; simp only; linarith)
    obtain ⟨a, b, c', g1, g2, g3, g4⟩ := C18_two_pieces w.self h d ds.sum hd0 hs0 hsum
    rw [e4] at f2
    rw [f2] at g2
    rw [e2] at g1
    simp only [Except.ok.injEq, Option.some.injEq] at g1 g2
    refine ⟨s.dx + t, w', ?_, ?_, ?_, ?_⟩
    · simp only [sellSeq, selly_eq_core hd, e, f1, Option.map_some]
    · rw [List.sum_cons, g3, ← g4, g1, g2]
    · rw [f3, e4, List.sum_cons]; simp only; congr 1; ring
    · intro l hw
      obtain ⟨l1, q1, _, q3, _⟩ := e6 l hw
      obtain ⟨l', r1, r2⟩ := f4 l1 q1
      exact ⟨l', r1, by rw [r2, q3]; ring⟩

example : (sellSeq ⟨sampleCurve, some sampleLinked⟩ [10, 5, 10]).map (fun r => (r.1, r.2.self.y)) =
    some (40 / 3, 25) := by decide +kernel

/-! ## C19 price range -/

theorem inConv_between (c : UICurve K) {a m b : K} (ha : 0 < a) (h1 : a ≤ m) (h2 : m ≤ b) :
    min (c.inConv a) (c.inConv b) ≤ c.inConv m ∧ c.inConv m ≤ max (c.inConv a) (c.inConv b) := by
  unfold inConv
  split
  · exact ⟨le_trans (min_le_left _ _) h1, le_trans h2 (le_max_right _ _)⟩
  · have hm : 0 < m := by linarith
    have hb : 0 < b := by linarith
    exact ⟨le_trans (min_le_right _ _) (one_div_le_one_div_of_le hm h2),
      le_trans (one_div_le_one_div_of_le ha h1) (le_max_left _ _)⟩

theorem pa_eq {c : UICurve K} (hp : Proper c) : c.pa = c.inConv c.paRaw ∧ c.pb = c.inConv c.pbRaw := by
  unfold pa pb inConv reverseq CarbonPair.hasBase CarbonPair.hasQuote
  rcases hp with ⟨h1, h2⟩ | ⟨h1, h2⟩
  · have h3 : c.pair.tknb ≠ c.pair.tknq := h1 ▸ h2
    simp [h1, h3]
  · have h3 : c.pair.tknq ≠ c.pair.tknb := h1 ▸ h2
    simp [h1, h3]

theorem pmin_pmax_eq (c : UICurve K) : c.pmin = min c.pb c.pa ∧ c.pmax = max c.pb c.pa := by
  unfold pmin pmax
  split
  · rename_i h; exact ⟨(min_eq_right h.le).symm, (max_eq_left h.le).symm⟩
  · rename_i h; exact ⟨(min_eq_left (not_lt.mp h)).symm, (max_eq_right (not_lt.mp h)).symm⟩

theorem raw_bounds {c : UICurve K} (h : Sound c) {y : K} (h0 : 0 ≤ y) (h1 : y ≤ c.yint) :
    c.pbRaw ≤ (c.B + c.S * y / c.yint) ^ 2 ∧ (c.B + c.S * y / c.yint) ^ 2 ≤ c.paRaw := by
  have hB := h.hB
  have hS := h.hS
  have hz := h.hyint
  have a : 0 ≤ c.S * y / c.yint := by positivity
  have b : c.S * y / c.yint ≤ c.S := by
    rw [div_le_iff₀ hz]; exact mul_le_mul_of_nonneg_left h1 hS
  unfold pbRaw paRaw
  constructor
  · have : c.B * c.B = c.B ^ 2 := by ring
    rw [this]
    exact pow_le_pow_left₀ hB.le (by linarith) 2
  · exact pow_le_pow_left₀ (by positivity) (by linarith) 2

/-- The marginal price after selling any available amount lies within the range set by the user; an empty curve is at
one end (`p_end`), a full curve at the other (`p_start`). -/
theorem C19_marginal_in_range (c : UICurve K) (h : Sound c) (hp : Proper c) (dy : K) (h0 : 0 ≤ dy) (h1 : dy ≤ c.y) :
    ∃ p, c.pMargF dy = .ok (some p) ∧ 0 < p ∧ c.pmin ≤ p ∧ p ≤ c.pmax ∧
      (dy = c.y → p = c.pb) ∧ (c.y - dy = c.yint → p = c.pa) := by
  have hz := h.hyint
  have hB := h.hB
  have hS := h.hS
  have hy := h.hy
  have hn : 0 ≤ c.y - dy := sub_nonneg.mpr h1
  obtain ⟨r1, r2⟩ := raw_bounds h hn (by linarith)
  have hpb : 0 < c.pbRaw := by unfold pbRaw; positivity
  obtain ⟨b1, b2⟩ := inConv_between c hpb r1 r2
  refine ⟨_, pMargF_ok h h1 true false (fun _ => h0), ?_, ?_, ?_, ?_, ?_⟩
  · unfold inConv; split <;> positivity
  · rw [(pmin_pmax_eq c).1, (pa_eq hp).1, (pa_eq hp).2]; exact b1
  · rw [(pmin_pmax_eq c).2, (pa_eq hp).1, (pa_eq hp).2]; exact b2
  · intro he; rw [(pa_eq hp).2, he, sub_self]; unfold pbRaw; congr 1; simp; ring
  · intro he; rw [(pa_eq hp).1, he]; unfold paRaw; congr 1; rw [mul_div_assoc, div_self hz.ne']; ring

/-- The effective price of a sale lies between the marginal prices before and after it; more precisely it is their
geometric mean. It is also exactly the ratio of the amounts exchanged. -/
theorem C19_effective (c : UICurve K) (h : Sound c) (dy : K) (h0 : 0 < dy) (h1 : dy ≤ c.y) :
    ∃ pe p0 p1 dx, c.pEffF dy = .ok (some pe) ∧ c.pMarg = .ok (some p0) ∧ c.pMargF dy = .ok (some p1) ∧
      c.dxfromdyF dy = .ok (some dx) ∧ pe = c.inConv (dy / dx) ∧ pe ^ 2 = p0 * p1 ∧ min p0 p1 ≤ pe ∧ pe ≤ max p0 p1 := by
  have hz := h.hyint
  have hB := h.hB
  have hS := h.hS
  have hy := h.hy
  have hy0 := h.hy0
  have hn : 0 ≤ c.y - dy := sub_nonneg.mpr h1
  have a1 : 0 < c.B * c.yint + c.S * c.y := by positivity
  have a2 : 0 < c.B * c.yint + c.S * (c.y - dy) := by positivity
  have a5 : 0 < c.B + c.S := by positivity
  set m := c.B * c.yint + c.S * c.y with hm
  set n := c.B * c.yint + c.S * (c.y - dy) with hnn
  have hmn : m = n + c.S * dy := by rw [hm, hnn]; ring
  have hxd : c.yint * (c.yint - (c.y - dy)) / ((c.B + c.S) * n) - c.yint * (c.yint - c.y) / ((c.B + c.S) * m) =
      dy * c.yint ^ 2 / (m * n) := by
    rw [div_sub_div _ _ (by positivity) (by positivity), div_eq_div_iff (by positivity) (by positivity), hm, hnn]
    ring
  have hdx : dy * (c.yint ^ 2 / ((c.S * c.y + c.B * c.yint) * (c.S * c.y + c.B * c.yint - c.S * dy))) =
      dy * c.yint ^ 2 / (m * n) := by
    have e1 : c.S * c.y + c.B * c.yint = m := by rw [hm]; ring
    have e2 : c.S * c.y + c.B * c.yint - c.S * dy = n := by rw [hnn]; ring
    rw [e1] at e2 ⊢; rw [e2]; ring
  have hraw : dy / (dy * c.yint ^ 2 / (m * n)) = m * n / c.yint ^ 2 := by field_simp
  have hp0 : (c.B + c.S * c.y / c.yint) ^ 2 = m ^ 2 / c.yint ^ 2 := by rw [hm]; field_simp
  have hp1 : (c.B + c.S * (c.y - dy) / c.yint) ^ 2 = n ^ 2 / c.yint ^ 2 := by rw [hnn]; field_simp
  have hrp : 0 < m * n / c.yint ^ 2 := by positivity
  have hnm : n ≤ m := by
    rw [hmn]; linarith [mul_nonneg hS h0.le]
  have l1 : n ^ 2 / c.yint ^ 2 ≤ m * n / c.yint ^ 2 := by
    apply div_le_div_of_nonneg_right _ (by positivity)
    rw [pow_two]; exact mul_le_mul_of_nonneg_right hnm a2.le
  have l2 : m * n / c.yint ^ 2 ≤ m ^ 2 / c.yint ^ 2 := by
    apply div_le_div_of_nonneg_right _ (by positivity)
    rw [pow_two]; exact mul_le_mul_of_nonneg_left hnm a1.le
  refine ⟨c.inConv (m * n / c.yint ^ 2), c.inConv (m ^ 2 / c.yint ^ 2), c.inConv (n ^ 2 / c.yint ^ 2),
    dy * c.yint ^ 2 / (m * n), ?_, ?_, ?_, ?_, ?_, ?_, ?_, ?_⟩
  · unfold pEffF
    rw [if_neg (by simp [h.not_disabled])]
    simp only [Bool.false_eq_true, if_false]
    rw [if_neg (by simp [h0.le]), if_neg (by simp [h1]), if_neg hz.ne', if_neg h0.ne',
      xfromyF_ok h hn (by linarith), xfromyF_ok h hy0 hy]
    simp only [Py.ok_bind, subOpt]
    rw [← hm, ← hnn, hxd, pyDiv_ok (by positivity), hraw]
    exact quotePrice_ok hrp
  · rw [pMarg_ok h, hp0]
  · rw [pMargF_ok h h1 true false (fun _ => h0.le), hp1]
  · rw [dxfromdyF_ok h h1 true false (fun _ => h0.le), hdx]
  · rw [hraw]
  · unfold inConv; split <;> field_simp
  · rw [min_comm]; exact (inConv_between c (by positivity) l1 l2).1
  · rw [max_comm]; exact (inConv_between c (by positivity) l1 l2).2

example : Proper sampleCurve ∧ Proper sampleLinked ∧ sampleCurve.pMarg = .ok (some (9 / 4)) ∧
    sampleCurve.pMargF 25 = .ok (some (25 / 16)) ∧ sampleCurve.pEffF 25 = .ok (some (15 / 8)) ∧
    sampleCurve.pmin = 1 ∧ sampleCurve.pmax = 4 ∧ sampleLinked.pmin = 225 / 64 ∧ sampleLinked.pmax = 9 := by
  unfold Proper; decide +kernel

/-! ## C20 slippage -/

/-- Taking more costs strictly more, and the cost per unit never falls; it strictly rises on a curve with `S > 0`. -/
theorem C20_monotone (c : UICurve K) (h : Sound c) (d e : K) (h0 : 0 ≤ d) (hde : d < e) (h1 : e ≤ c.y) :
    ∃ a b, c.dxfromdyF d = .ok (some a) ∧ c.dxfromdyF e = .ok (some b) ∧ a < b ∧ a * e ≤ b * d ∧
      (0 < d → 0 < c.S → a / d < b / e) := by
  have hd1 : d ≤ c.y := by linarith
  have hm := h.m_pos
  have hn := h.n_pos hd1
  have hq := h.n_pos h1
  have hz := h.hyint
  have hS := h.hS
  refine ⟨_, _, dxfromdyF_ok h hd1 true false (fun _ => h0), dxfromdyF_ok h h1 true false (fun _ => by linarith), ?_⟩
  have hSde : c.S * d ≤ c.S * e := mul_le_mul_of_nonneg_left hde.le hS
  generalize c.S * c.y + c.B * c.yint = m at *
  have key : c.yint ^ 2 / (m * (m - c.S * d)) ≤ c.yint ^ 2 / (m * (m - c.S * e)) := by
    apply div_le_div_of_nonneg_left (by positivity) (by positivity)
    exact mul_le_mul_of_nonneg_left (by linarith) hm.le
  have kpos : 0 < c.yint ^ 2 / (m * (m - c.S * e)) := by positivity
  have kpos' : 0 < c.yint ^ 2 / (m * (m - c.S * d)) := by positivity
  refine ⟨?_, ?_, ?_⟩
  · exact lt_of_le_of_lt (mul_le_mul_of_nonneg_left key h0) (mul_lt_mul_of_pos_right hde kpos)
  · have : 0 ≤ d * e := by nlinarith
    nlinarith
  · intro hd hSp
    have he : 0 < e := by linarith
    rw [mul_div_assoc, mul_div_assoc]
    have : ∀ x k : K, 0 < x → x * (k / x) = k := fun x k hx => by field_simp
    rw [this d _ hd, this e _ he]
    apply div_lt_div_of_pos_left (by positivity) (by positivity)
    apply mul_lt_mul_of_pos_left _ hm
    have := mul_lt_mul_of_pos_left hde hSp
    linarith

/-- Paying more buys strictly more. -/
theorem C20_monotone_source (c : UICurve K) (h : Sound c) (d e : K) (h0 : 0 ≤ d) (hde : d < e) :
    ∃ a b, c.dyfromdxF d = .ok (some a) ∧ c.dyfromdxF e = .ok (some b) ∧ a < b ∧ b * d ≤ a * e := by
  have hm := h.m_pos
  have hz := h.hyint
  have hS := h.hS
  have he : 0 < e := by linarith
  refine ⟨_, _, dyfromdxF_ok h h0 true false, dyfromdxF_ok h he.le true false, ?_⟩
  generalize c.S * c.y + c.B * c.yint = m at *
  have d1 : 0 < c.S * d * m + c.yint ^ 2 := by positivity
  have d2 : 0 < c.S * e * m + c.yint ^ 2 := by positivity
  constructor
  · rw [← mul_div_assoc, ← mul_div_assoc, div_lt_div_iff₀ d1 d2]
    have : 0 < m ^ 2 * c.yint ^ 2 := by positivity
    nlinarith
  · have key : m ^ 2 / (c.S * e * m + c.yint ^ 2) ≤ m ^ 2 / (c.S * d * m + c.yint ^ 2) := by
      apply div_le_div_of_nonneg_left (by positivity) d1
      have := mul_le_mul_of_nonneg_left hde.le hS
      have := mul_le_mul_of_nonneg_right this hm.le
      linarith
    have : 0 ≤ e * d := by positivity
    nlinarith

example : sampleCurve.dxfromdyF 10 = .ok (some (100 / 21)) ∧ sampleCurve.dxfromdyF 20 = .ok (some (400 / 39)) := by
  decide +kernel

/-! ## C21 no overdraft -/

theorem creditLinked_self (w : World K) (dx : K) : (creditLinked w dx).2.self = w.self := by
  unfold creditLinked; split <;> rfl

theorem sellyFinish_self (w : World K) (dy ynew : K) (ex e : Bool) (yo : K) (po pn : Option K) :
    (sellyFinish w dy ynew ex e yo po pn).2.self = w.self ∨
      (ex = true ∧ (sellyFinish w dy ynew ex e yo po pn).2.self = { w.self with y := ynew }) := by
  unfold sellyFinish
  split
  · exact .inl rfl
  · exact .inl rfl
  · cases ex
    · left
      dsimp only [Bool.false_eq_true, if_false]
      split
      · exact creditLinked_self _ _
      · split <;> exact creditLinked_self _ _
    · right
      refine ⟨rfl, ?_⟩
      dsimp only [if_true]
      split
      · exact creditLinked_self _ _
      · split <;> exact creditLinked_self _ _

/-- Whatever non-negative amount is asked for and whatever the flags, the curve never ends up with less than nothing
or more than it had, and its other parameters do not change. -/
theorem C21_never_overdrawn (w : World K) (h0 : 0 ≤ w.self.y) (hy : w.self.y ≤ w.self.yint) (dy : K) (hd : 0 ≤ dy)
    (ex an ec r : Bool) :
    let c' := (selly w dy ex an ec r).2.self
    0 ≤ c'.y ∧ c'.y ≤ w.self.y ∧ c' = { w.self with y := c'.y } := by
  have key : ∀ (d : K) (e : Bool), 0 ≤ d →
      (sellyCore w d e ec r).2.self = w.self ∨
      (sellyCore w d e ec r).2.self = { w.self with y := if w.self.y - d < 0 then 0 else w.self.y - d } := by
    intro d e hd
    unfold sellyCore
    dsimp only
    split
    · exact .inl rfl
    · exact .inl rfl
    · split
      · exact .inl rfl
      · rw [if_neg (by linarith)]
        rcases sellyFinish_self w d (if w.self.y - d < 0 then 0 else w.self.y - d) e false w.self.y _ _ with h | h
        · exact .inl h
        · exact .inr h.2
  have key2 : ∀ (d : K) (e : Bool), 0 ≤ d →
      0 ≤ (sellyCore w d e ec r).2.self.y ∧ (sellyCore w d e ec r).2.self.y ≤ w.self.y ∧
      (sellyCore w d e ec r).2.self = { w.self with y := (sellyCore w d e ec r).2.self.y } := by
    intro d e hd
    rcases key d e hd with h | h
    · rw [h]; exact ⟨h0, le_rfl, rfl⟩
    · rw [h]
      refine ⟨?_, ?_, rfl⟩
      · simp only; split <;> linarith
      · simp only; split <;> linarith
  have he := eps_pos (K := K)
  dsimp only
  by_cases hdust : dy < EPS
  · rw [selly_eq_dust hd hdust]; exact key2 0 false le_rfl
  · rw [selly_eq_core (not_lt.mp hdust)]; exact key2 dy ex hd

theorem sellyCore_too_much (w : World K) (dy : K) (h1 : w.self.y + EPS < dy) (ex ec r : Bool) :
    (sellyCore w dy ex ec r).2 = w ∧ ∀ s, (sellyCore w dy ex ec r).1 ≠ .ok (some s) := by
  unfold sellyCore
  dsimp only
  split
  · simp
  · simp
  · rw [if_pos (by linarith)]
    refine ⟨rfl, ?_⟩
    intro s
    unfold failWith
    cases r <;> simp

/-- An amount within the holdings is sold exactly; an amount clearly beyond them changes nothing and reports failure. -/
theorem C21_all_or_nothing_partial (w : World K) (h : Sound w.self) (hl : ∀ l, w.linked = some l → Sound l) (dy : K)
    (hd : EPS ≤ dy) (an ec r : Bool) :
    (dy ≤ w.self.y → ∃ s w', selly w dy true an ec r = (.ok (some s), w') ∧ s.dy = dy ∧ s.y = w.self.y - dy ∧
      w'.self = { w.self with y := w.self.y - dy }) ∧
    (w.self.y + EPS < dy → (selly w dy true an ec r).2 = w ∧
      ∀ s, (selly w dy true an ec r).1 ≠ .ok (some s)) := by
  have he := eps_pos (K := K)
  rw [selly_eq_core hd]
  constructor
  · intro h1
    obtain ⟨s, w', e, e1, _, _, e2, _, _, _, _, _, _, e4, _⟩ := sellyCore_ok h hl (dy := dy) (by linarith) h1 true ec r
    exact ⟨s, w', e, e1, e2, by simpa using e4⟩
  · intro h1
    exact sellyCore_too_much w dy h1 true ec r

/-- Violation of the full claim "raises and changes nothing": buying back on a linked curve raises after the curve
itself has already been changed. -/
theorem C21_violated :
    (selly ⟨sampleCurve, some sampleLinked⟩ (-10)).1 = .error .value ∧
    (selly ⟨sampleCurve, some sampleLinked⟩ (-10)).2.self.y = 60 := by
  decide +kernel

example : selly ⟨sampleCurve, none⟩ 51 = (.ok none, ⟨sampleCurve, none⟩) ∧
    (selly ⟨sampleCurve, none⟩ 51 (raiseonerror := true)).1 = .error .value := by decide +kernel

/-! ## C22 simulated sales -/

/-- A simulated sale never changes the curve itself, for any input. -/
theorem C22_self_unchanged (w : World K) (dy : K) (an ec r : Bool) :
    (selly w dy false an ec r).2.self = w.self := by
  have key : ∀ d, (sellyCore w d false ec r).2.self = w.self := by
    intro d
    unfold sellyCore
    dsimp only
    split
    · rfl
    · rfl
    · split
      · rfl
      · split
        · split
          · rfl
          · rcases sellyFinish_self w d (w.self.y - d) false true w.self.y _ _ with h | h
            · exact h
            · exact absurd h.1 (by simp)
        · rcases sellyFinish_self w d (if w.self.y - d < 0 then 0 else w.self.y - d) false false w.self.y _ _ with h | h
          · exact h
          · exact absurd h.1 (by simp)
  unfold selly
  split
  · rfl
  · dsimp only
    generalize (if dy < 0 ∧ (!an) = true then 0 else dy) = d1
    split
    · exact key 0
    · exact key _

theorem sellyFinish_linked_none (w : World K) (hn : w.linked = none) (dy ynew : K) (ex e : Bool) (yo : K)
    (po pn : Option K) : (sellyFinish w dy ynew ex e yo po pn).2.linked = none := by
  have key : ∀ w' : World K, w'.linked = none → ∀ d, (creditLinked w' d).2.linked = none := by
    intro w' h d
    unfold creditLinked
    split
    · exact h
    · rename_i h2; rw [h] at h2; cases h2
  unfold sellyFinish
  split
  · exact hn
  · exact hn
  · dsimp only
    have hn' : (if ex = true then ({ w with self := { w.self with y := ynew } } : World K) else w).linked = none := by
      split <;> exact hn
    split
    · exact key _ hn' _
    · split <;> exact key _ hn' _

/-- Without a linked curve a simulated sale changes nothing at all. (The full claim, also for linked curves, is false:
see `C22_violated`.) -/
theorem C22_unlinked_partial (w : World K) (hn : w.linked = none) (dy : K) (an ec r : Bool) :
    (selly w dy false an ec r).2 = w := by
  have hs := C22_self_unchanged w dy an ec r
  have hl : (selly w dy false an ec r).2.linked = none := by
    have key : ∀ d, (sellyCore w d false ec r).2.linked = none := by
      intro d
      unfold sellyCore
      dsimp only
      split
      · exact hn
      · exact hn
      · split
        · exact hn
        · split
          · split
            · exact hn
            · exact sellyFinish_linked_none w hn _ _ _ _ _ _ _
          · exact sellyFinish_linked_none w hn _ _ _ _ _ _ _
    unfold selly
    split
    · exact hn
    · dsimp only
      generalize (if dy < 0 ∧ (!an) = true then 0 else dy) = d1
      split
      · exact key 0
      · exact key _
  generalize (selly w dy false an ec r).2 = w' at hs hl
  obtain ⟨a, b⟩ := w
  obtain ⟨a', b'⟩ := w'
  simp_all

/-- Violation: with a linked curve a simulated sale credits the linked curve, although the result says it was not
executed and the curve itself did not change. Value appears from nowhere. -/
theorem C22_violated :
    ∃ s, (selly ⟨sampleCurve, some sampleLinked⟩ 25 (execute := false)).1 = .ok (some s) ∧ s.executed = false ∧
      (selly ⟨sampleCurve, some sampleLinked⟩ 25 (execute := false)).2.self = sampleCurve ∧
      (selly ⟨sampleCurve, some sampleLinked⟩ 25 (execute := false)).2.linked =
        some { sampleLinked with y := 70 / 3, yint := 70 / 3 } :=
  ⟨⟨false, 50, 25, 25, 40 / 3, false, some 30, some (9 / 4), some (25 / 16)⟩,
    by decide +kernel, rfl, by decide +kernel, by decide +kernel⟩

/-- The amounts a simulated sale announces are the ones the executed sale moves (within the holdings). -/
theorem C22_same_quote (w : World K) (h : Sound w.self) (hl : ∀ l, w.linked = some l → Sound l) (dy : K)
    (h0 : EPS ≤ dy) (h1 : dy ≤ w.self.y) (an ec r : Bool) :
    ∃ s s' , (selly w dy false an ec r).1 = .ok (some s) ∧ (selly w dy true an ec r).1 = .ok (some s') ∧
      s' = { s with executed := true } := by
  have he := eps_pos (K := K)
  rw [selly_eq_core h0, selly_eq_core h0]
  obtain ⟨s, w1, e, a1, a2, a3, a4, a5, a6, a7, a8, a9, a10, _⟩ :=
    sellyCore_ok h hl (dy := dy) (by linarith) h1 false ec r
  obtain ⟨s', w2, e', b1, b2, b3, b4, b5, b6, b7, b8, b9, b10, _⟩ :=
    sellyCore_ok h hl (dy := dy) (by linarith) h1 true ec r
  refine ⟨s, s', by rw [e], by rw [e'], ?_⟩
  rw [a2] at b2; rw [a8] at b8; rw [a9] at b9; rw [a10] at b10
  simp only [Except.ok.injEq, Option.some.injEq] at b2 b8 b9 b10
  cases s; cases s'
  simp_all

/-! ## C64 buying a given amount -/

/-- Buying `dx` that the curve can serve delivers exactly `dx` and takes the curve's own quote for it. -/
theorem C64_buyx (w : World K) (h : Sound w.self) (hl : ∀ l, w.linked = some l → Sound l) (dx dy : K) (h0 : 0 ≤ dx)
    (hq : w.self.dyfromdxF dx = .ok (some dy)) (hy0 : EPS ≤ dy) (hy : dy ≤ w.self.y) (an ec r : Bool) :
    ∃ s w', buyx w dx true an ec r = (.ok s, w') ∧ s.dx = dx ∧ s.dy = dy ∧
      w'.self = { w.self with y := w.self.y - dy } ∧
      (∀ l, w.linked = some l → ∃ l', w'.linked = some l' ∧ l'.y = l.y + dx) := by
  have he := eps_pos (K := K)
  have hq' : w.self.dyfromdxF dx false true = .ok (some dy) := by
    rw [dyfromdxF_ok h h0] at hq ⊢; exact hq
  obtain ⟨s, w', e, a1, a2, a3, a4, a5, a6, a7, a8, a9, a10, a11, a12, a13⟩ :=
    sellyCore_ok h hl (dy := dy) (by linarith) hy true ec r
  have hdx : s.dx = dx := by
    have := (C16_iff w.self h dx dy h0 (by linarith) hy).mpr hq
    rw [a2] at this
    simpa using this
  refine ⟨s, w', ?_, hdx, a1, by simpa using a11, ?_⟩
  · unfold buyx
    rw [hq']
    dsimp only
    rw [selly_eq_core hy0, e]
  · intro l hll
    obtain ⟨l', q1, _, q3, _⟩ := a13 l hll
    exact ⟨l', q1, by rw [q3, hdx]⟩

/-- Buying more than the curve can serve raises instead of returning, and changes nothing. -/
theorem C64_too_much (w : World K) (h : Sound w.self) (dx dy : K) (h0 : 0 ≤ dx)
    (hq : w.self.dyfromdxF dx = .ok (some dy)) (hy : w.self.y + EPS < dy) (an ec r : Bool) :
    (∃ e, (buyx w dx true an ec r).1 = .error e) ∧ (buyx w dx true an ec r).2 = w := by
  have he := eps_pos (K := K)
  have hq' : w.self.dyfromdxF dx false true = .ok (some dy) := by
    rw [dyfromdxF_ok h h0] at hq ⊢; exact hq
  have hy0 := h.hy0
  unfold buyx
  rw [hq']
  dsimp only
  rw [selly_eq_core (by linarith)]
  obtain ⟨c1, c2⟩ := sellyCore_too_much w dy hy true ec r
  generalize sellyCore w dy true ec r = q at c1 c2
  obtain ⟨q1, q2⟩ := q
  dsimp only at c1 c2 ⊢
  subst c1
  split
  · exact ⟨⟨_, rfl⟩, rfl⟩
  · exact ⟨⟨_, rfl⟩, rfl⟩
  · rename_i s; exact absurd rfl (c2 s)

example : buyx ⟨sampleCurve, none⟩ (40 / 3) = (.ok ⟨true, 50, 25, 25, 40 / 3, false, some 30,
      some (9 / 4), some (25 / 16)⟩, ⟨{ sampleCurve with y := 25 }, none⟩) := by decide +kernel

end Carbon.UICurve
