import Verif.Carbon.CurveBook
import Verif.Prop.OrderUIPrice
import Mathlib.Analysis.SpecialFunctions.Integrals.Basic

/-!
# C164: what a list of orders releases and receives when the market moves to a price

All orders are on one side of one pair. `raw` prices are in units of the token sold per unit of the token received.

* `C164_total`: both amounts are determined at every price, and lie within what the orders hold.
* `C164_rising`: the further the market moves, the more is released and received, at a rate between the two prices.
* `C164_effective`: for orders selling the base token, amounts and the effective price rise with the price, and the effective price is below it.
* `C164_least_cost`: no other way to take at least as much from the orders is paid less.
* `C164_every_amount`: each amount up to the whole of the holdings is released at some price.
* `C164_average`: the effective price of an order is the average of its marginal prices.
* `C164_one_price_violated`: an order with a single price has no release at this price; the calculation ends in a division by zero.
-/

namespace Carbon.UICurve

open CarbonPair (pyDiv)

/-- Sound orders with a price range, all selling the quote token (`q`) or all selling the base token. -/
def Side (q : Bool) (cs : List (UICurve ℝ)) : Prop := ∀ c ∈ cs, Sound c ∧ 0 < c.S ∧ c.pair.hasQuote c.tkn = q

/-- The price in units of the token sold per unit of the token received. -/
noncomputable def raw (q : Bool) (p : ℝ) : ℝ := if q then p else 1 / p

theorem raw_pos {q : Bool} {p : ℝ} (h : 0 < p) : 0 < raw q p := by
  unfold raw; split <;> positivity

/-- The root of the raw marginal price. -/
noncomputable def m0 (c : UICurve ℝ) : ℝ := c.B + c.S * c.y / c.yint

/-- The root of the raw marginal price after the market has moved to the raw price `w`. -/
noncomputable def mAt (c : UICurve ℝ) (w : ℝ) : ℝ := min (m0 c) (max c.B (Real.sqrt w))

/-- The amount released. -/
noncomputable def release (c : UICurve ℝ) (w : ℝ) : ℝ := c.yint / c.S * (m0 c - mAt c w)

/-- The amount received. -/
noncomputable def cost (c : UICurve ℝ) (w : ℝ) : ℝ := c.yint / c.S * (1 / mAt c w - 1 / m0 c)

section One

variable {c : UICurve ℝ}

theorem m0_ge (h : Sound c) : c.B ≤ m0 c := by
  have h1 := h.hS; have h2 := h.hy0; have h3 := h.hyint
  unfold m0
  have : 0 ≤ c.S * c.y / c.yint := by positivity
  linarith

theorem mAt_le (c : UICurve ℝ) (w : ℝ) : mAt c w ≤ m0 c := min_le_left _ _

theorem mAt_ge (h : Sound c) (w : ℝ) : c.B ≤ mAt c w := le_min (m0_ge h) (le_max_left _ _)

theorem mAt_pos (h : Sound c) (w : ℝ) : 0 < mAt c w := lt_of_lt_of_le h.hB (mAt_ge h w)

theorem m0_pos (h : Sound c) : 0 < m0 c := lt_of_lt_of_le h.hB (m0_ge h)

theorem L_pos (h : Sound c) (hS : 0 < c.S) : 0 < c.yint / c.S := div_pos h.hyint hS

theorem L_span (h : Sound c) (hS : 0 < c.S) : c.yint / c.S * (m0 c - c.B) = c.y := by
  have := h.hyint.ne'
  unfold m0
  field_simp
  ring

theorem release_nonneg (h : Sound c) (hS : 0 < c.S) (w : ℝ) : 0 ≤ release c w :=
  mul_nonneg (L_pos h hS).le (sub_nonneg.mpr (mAt_le c w))

theorem release_le (h : Sound c) (hS : 0 < c.S) (w : ℝ) : release c w ≤ c.y := by
  rw [← L_span h hS]
  exact mul_le_mul_of_nonneg_left (by linarith [mAt_ge h w]) (L_pos h hS).le

theorem dy_val (h : Sound c) (hS : 0 < c.S) {p : ℝ} (hp : 0 < p) : c.dyfrompF p = .ok (release c (c.inConv p)) := by
  have hw := inConv_pos (c := c) hp
  have hz := h.hyint
  have hB := h.hB
  have hL := L_span h hS
  unfold dyfrompF
  rw [if_neg h.not_empty]
  unfold yfrompF
  rw [rawPrice_ok hp, Py.ok_bind]
  generalize c.inConv p = w at hw
  have hm : m0 c ≤ c.S + c.B := by
    have : c.S * c.y / c.yint ≤ c.S := by
      rw [div_le_iff₀ hz]; exact mul_le_mul_of_nonneg_left h.hy h.hS
    unfold m0; linarith
  by_cases h1 : w > c.paRaw
  · rw [if_pos (by simpa using h1)]
    have : m0 c ≤ Real.sqrt w := by
      apply Real.le_sqrt_of_sq_le
      have : (m0 c) ^ 2 ≤ (c.S + c.B) ^ 2 := pow_le_pow_left₀ (m0_pos h).le hm 2
      unfold paRaw at h1; linarith
    have e : release c w = 0 := by
      unfold release mAt
      rw [min_eq_left (this.trans (le_max_right _ _)), sub_self, mul_zero]
    simp only [failWith, Bool.false_eq_true, if_false, Py.ok_bind, e]
  · rw [if_neg (by simpa using h1)]
    by_cases h2 : w < c.pbRaw
    · rw [if_pos (by simpa using h2)]
      have : Real.sqrt w ≤ c.B := by
        rw [Real.sqrt_le_left hB.le, pow_two]; exact h2.le
      have e : release c w = c.y := by
        unfold release mAt
        rw [max_eq_left this, min_eq_right (m0_ge h), hL]
      simp [e]
    · rw [if_neg (by simpa using h2)]
      have hB' : c.B ≤ Real.sqrt w := sqrt_ge_B (not_lt.mp h2)
      unfold pySqrt
      rw [if_neg (not_lt.mpr hw.le), Py.ok_bind, pyDiv_ok hS.ne', Py.ok_bind]
      have key : c.yint * (Real.sqrt w - c.B) / c.S = c.y - c.yint / c.S * (m0 c - Real.sqrt w) := by
        rw [← hL]; ring
      have hLp := L_pos h hS
      by_cases h3 : c.yint * (Real.sqrt w - c.B) / c.S > c.y
      · rw [if_pos (by simpa using h3)]
        have : m0 c ≤ Real.sqrt w := by
          rw [key] at h3
          by_contra hh
          have : 0 < c.yint / c.S * (m0 c - Real.sqrt w) := mul_pos hLp (by linarith [not_le.mp hh])
          linarith
        have e : release c w = 0 := by
          unfold release mAt
          rw [min_eq_left (this.trans (le_max_right _ _)), sub_self, mul_zero]
        simp only [failWith, Bool.false_eq_true, if_false, Py.ok_bind, e]
      · rw [if_neg (by simpa using h3)]
        have : Real.sqrt w ≤ m0 c := by
          rw [key] at h3
          by_contra hh
          have : c.yint / c.S * (m0 c - Real.sqrt w) < 0 := mul_neg_of_pos_of_neg hLp (by linarith [not_le.mp hh])
          linarith
        have e : release c w = c.y - c.yint * (Real.sqrt w - c.B) / c.S := by
          unfold release mAt
          rw [max_eq_right hB', min_eq_right this, key]
          ring
        simp only [Py.ok_bind, e]

/-- What is received for an amount, in terms of the roots of the marginal prices. -/
theorem dx_val (h : Sound c) (hS : 0 < c.S) {dy : ℝ} (h0 : 0 ≤ dy) (h1 : dy ≤ c.y) :
    c.dxfromdyF dy = .ok (some (c.yint / c.S * (1 / (m0 c - c.S / c.yint * dy) - 1 / m0 c))) ∧ c.B ≤ m0 c - c.S / c.yint * dy := by
  have hz := h.hyint
  have hm := m0_pos h
  have hb : c.B ≤ m0 c - c.S / c.yint * dy := by
    have : c.S / c.yint * dy ≤ c.S / c.yint * c.y := mul_le_mul_of_nonneg_left h1 (by positivity)
    unfold m0
    have e : c.S / c.yint * c.y = c.S * c.y / c.yint := by ring
    linarith
  refine ⟨?_, hb⟩
  rw [dxfromdyF_ok h h1 true false fun _ => h0]
  have hp := lt_of_lt_of_le h.hB hb
  have e1 : c.S * c.y + c.B * c.yint = c.yint * m0 c := by unfold m0; field_simp; ring
  have e2 : c.yint * m0 c - c.S * dy = c.yint * (m0 c - c.S / c.yint * dy) := by field_simp
  rw [e1, e2]
  have e3 : dy = c.yint / c.S * (m0 c - (m0 c - c.S / c.yint * dy)) := by field_simp; ring
  generalize m0 c - c.S / c.yint * dy = n at hp e3
  generalize m0 c = m at hm e3
  congr 2
  rw [e3]
  field_simp

theorem dx_release (h : Sound c) (hS : 0 < c.S) (w : ℝ) : c.dxfromdyF (release c w) = .ok (some (cost c w)) := by
  rw [(dx_val h hS (release_nonneg h hS w) (release_le h hS w)).1]
  have hz := h.hyint
  have : m0 c - c.S / c.yint * release c w = mAt c w := by unfold release; field_simp; ring
  rw [this]
  rfl

theorem mAt_mono (c : UICurve ℝ) {v w : ℝ} (h : v ≤ w) : mAt c v ≤ mAt c w :=
  min_le_min_left _ (max_le_max_left _ (Real.sqrt_le_sqrt h))

/-- The supporting line: taking another amount from an order than the one released at a price costs at least the difference at this price. -/
theorem support (h : Sound c) (hS : 0 < c.S) {w dy dx : ℝ} (hw : 0 < w) (h0 : 0 ≤ dy) (h1 : dy ≤ c.y) (hx : c.dxfromdyF dy = .ok (some dx)) :
    (dy - release c w) / w ≤ dx - cost c w := by
  obtain ⟨e, hb⟩ := dx_val h hS h0 h1
  rw [hx] at e
  simp only [Except.ok.injEq, Option.some.injEq] at e
  have hL := L_pos h hS
  have hz := h.hyint
  have hm := mAt_pos h w
  have hle : m0 c - c.S / c.yint * dy ≤ m0 c := by
    have : 0 ≤ c.S / c.yint * dy := by positivity
    linarith
  have e3 : dy = c.yint / c.S * (m0 c - (m0 c - c.S / c.yint * dy)) := by field_simp; ring
  rw [e]
  generalize m0 c - c.S / c.yint * dy = n at hb e3 hle
  have hn := lt_of_lt_of_le h.hB hb
  rw [e3]
  unfold release cost
  have hs := Real.sq_sqrt hw.le
  have hs0 := Real.sqrt_pos.mpr hw
  set r := Real.sqrt w with hr
  have key : 0 ≤ (mAt c w - n) * (w - mAt c w * n) := by
    unfold mAt
    rw [← hr]
    rcases le_total c.B r with hBr | hBr
    · rw [max_eq_right hBr]
      rcases le_total (m0 c) r with h2 | h2
      · rw [min_eq_left h2]
        refine mul_nonneg (by linarith) ?_
        have := m0_pos h
        nlinarith
      · rw [min_eq_right h2]
        have : (r - n) * (w - r * n) = r * (r - n) ^ 2 := by rw [← hs]; ring
        rw [this]
        positivity
    · rw [max_eq_left hBr, min_eq_right (m0_ge h)]
      have hB := h.hB
      exact mul_nonneg_of_nonpos_of_nonpos (by linarith) (by nlinarith)
  have e4 : c.yint / c.S * (1 / n - 1 / m0 c) - c.yint / c.S * (1 / mAt c w - 1 / m0 c)
      - (c.yint / c.S * (m0 c - n) - c.yint / c.S * (m0 c - mAt c w)) / w
      = c.yint / c.S * ((mAt c w - n) * (w - mAt c w * n) / (mAt c w * n * w)) := by
    have := m0_pos h
    field_simp
    ring
  have : 0 ≤ c.yint / c.S * ((mAt c w - n) * (w - mAt c w * n) / (mAt c w * n * w)) :=
    mul_nonneg hL.le (div_nonneg key (by positivity))
  linarith

end One

/-! ## Sums over the orders -/

theorem inConv_eq {q : Bool} {c : UICurve ℝ} (h : c.pair.hasQuote c.tkn = q) (p : ℝ) : c.inConv p = raw q p := by
  unfold inConv raw; rw [h]

theorem bookDy_acc {q : Bool} {p : ℝ} (hp : 0 < p) : ∀ (cs : List (UICurve ℝ)) (s : ℝ), Side q cs →
    cs.foldlM (fun s o => do let dy ← o.dyfrompF p; .ok (s + dy)) s = (.ok (s + (cs.map fun c => release c (raw q p)).sum) : Py ℝ)
  | [], s, _ => by simp [pure, Except.pure]
  | c :: cs, s, h => by
    obtain ⟨h1, h2, h3⟩ := h c List.mem_cons_self
    rw [List.foldlM_cons, dy_val h1 h2 hp, Py.ok_bind, Py.ok_bind, bookDy_acc hp cs _ fun x hx => h x (List.mem_cons_of_mem _ hx), inConv_eq h3,
      List.map_cons, List.sum_cons, add_assoc]

theorem bookDy_eq {q : Bool} {cs : List (UICurve ℝ)} (h : Side q cs) {p : ℝ} (hp : 0 < p) :
    bookDy cs p = .ok (cs.map fun c => release c (raw q p)).sum := by
  unfold bookDy
  rw [bookDy_acc hp cs 0 h, zero_add]

theorem bookDx_eq {q : Bool} {cs : List (UICurve ℝ)} (h : Side q cs) {p : ℝ} (hp : 0 < p) :
    bookDx cs p = .ok (cs.map fun c => cost c (raw q p)).sum := by
  have key : ∀ (cs : List (UICurve ℝ)) (s : ℝ), Side q cs →
      cs.foldlM (fun s o => do
        let dy ← o.dyfrompF p
        match ← o.dxfromdyF dy with
        | some dx => .ok (s + dx)
        | none => .error .type) s = (.ok (s + (cs.map fun c => cost c (raw q p)).sum) : Py ℝ) := by
    intro cs
    induction cs with
    | nil => intro s _; simp [pure, Except.pure]
    | cons c cs ih =>
      intro s h
      obtain ⟨h1, h2, h3⟩ := h c List.mem_cons_self
      rw [List.foldlM_cons, dy_val h1 h2 hp, Py.ok_bind, inConv_eq h3, dx_release h1 h2, Py.ok_bind]
      dsimp only
      rw [Py.ok_bind, ih _ fun x hx => h x (List.mem_cons_of_mem _ hx), List.map_cons, List.sum_cons, add_assoc]
  refine Eq.trans (key cs 0 h) ?_
  rw [zero_add]

/-- **C164**: at every price the orders release an amount between nothing and all they hold, and receive a non-negative amount for it. -/
theorem C164_total {q : Bool} {cs : List (UICurve ℝ)} (h : Side q cs) {p : ℝ} (hp : 0 < p) :
    ∃ dy dx, bookDy cs p = .ok dy ∧ bookDx cs p = .ok dx ∧ 0 ≤ dy ∧ dy ≤ (cs.map UICurve.y).sum ∧ 0 ≤ dx := by
  refine ⟨_, _, bookDy_eq h hp, bookDx_eq h hp, ?_, ?_, ?_⟩
  · apply List.sum_nonneg
    intro x hx
    obtain ⟨c, hc, rfl⟩ := List.mem_map.mp hx
    exact release_nonneg (h c hc).1 (h c hc).2.1 _
  · exact List.sum_le_sum fun c hc => release_le (h c hc).1 (h c hc).2.1 _
  · apply List.sum_nonneg
    intro x hx
    obtain ⟨c, hc, rfl⟩ := List.mem_map.mp hx
    have := one_div_le_one_div_of_le (mAt_pos (h c hc).1 (raw q p)) (mAt_le c (raw q p))
    exact mul_nonneg (L_pos (h c hc).1 (h c hc).2.1).le (by linarith)

theorem sum_sub (cs : List (UICurve ℝ)) (f g : UICurve ℝ → ℝ) : (cs.map fun c => f c - g c).sum = (cs.map f).sum - (cs.map g).sum := by
  induction cs with
  | nil => simp
  | cons c cs ih => simp only [List.map_cons, List.sum_cons, ih]; ring

theorem sum_div_le {cs : List (UICurve ℝ)} {f g : UICurve ℝ → ℝ} {k : ℝ} (h : ∀ c ∈ cs, f c * k ≤ g c) : (cs.map f).sum * k ≤ (cs.map g).sum := by
  induction cs with
  | nil => simp
  | cons c cs ih =>
    have h1 := h c List.mem_cons_self
    have h2 := ih fun x hx => h x (List.mem_cons_of_mem _ hx)
    simp only [List.map_cons, List.sum_cons]
    linarith [add_mul (f c) (cs.map f).sum k]

/-- **C164**: if the market moves on from a price to another, in favour of the sellers, then more is released and more is received, and what is released in
between is paid at a rate between the two prices. -/
theorem C164_rising {q : Bool} {cs : List (UICurve ℝ)} (h : Side q cs) {p p' dy dy' dx dx' : ℝ} (hp : 0 < p) (hp' : 0 < p')
    (hm : raw q p' ≤ raw q p) (e1 : bookDy cs p = .ok dy) (e2 : bookDy cs p' = .ok dy') (e3 : bookDx cs p = .ok dx) (e4 : bookDx cs p' = .ok dx') :
    dy ≤ dy' ∧ dx ≤ dx' ∧ raw q p' * (dx' - dx) ≤ dy' - dy ∧ dy' - dy ≤ raw q p * (dx' - dx) := by
  rw [bookDy_eq h hp] at e1
  rw [bookDy_eq h hp'] at e2
  rw [bookDx_eq h hp] at e3
  rw [bookDx_eq h hp'] at e4
  cases e1; cases e2; cases e3; cases e4
  have hw := raw_pos (q := q) hp
  have hw' := raw_pos (q := q) hp'
  generalize raw q p = w at *
  generalize raw q p' = w' at *
  have d : ∀ c ∈ cs, (release c w' - release c w) / w ≤ cost c w' - cost c w ∧ (release c w - release c w') / w' ≤ cost c w - cost c w' := by
    intro c hc
    obtain ⟨h1, h2, -⟩ := h c hc
    exact ⟨support h1 h2 hw (release_nonneg h1 h2 w') (release_le h1 h2 w') (dx_release h1 h2 w'),
      support h1 h2 hw' (release_nonneg h1 h2 w) (release_le h1 h2 w) (dx_release h1 h2 w)⟩
  have r : ∀ c ∈ cs, release c w ≤ release c w' := by
    intro c hc
    exact mul_le_mul_of_nonneg_left (by linarith [mAt_mono c hm]) (L_pos (h c hc).1 (h c hc).2.1).le
  have s1 : (cs.map fun c => release c w).sum ≤ (cs.map fun c => release c w').sum := List.sum_le_sum r
  have s2 : ((cs.map fun c => release c w').sum - (cs.map fun c => release c w).sum) / w ≤ (cs.map fun c => cost c w').sum - (cs.map fun c => cost c w).sum := by
    have := sum_div_le (cs := cs) (f := fun c => release c w' - release c w) (g := fun c => cost c w' - cost c w) (k := 1 / w)
      fun c hc => by have := (d c hc).1; rwa [mul_one_div]
    rw [sum_sub, sum_sub, mul_one_div] at this
    exact this
  have s3 : ((cs.map fun c => release c w).sum - (cs.map fun c => release c w').sum) / w' ≤ (cs.map fun c => cost c w).sum - (cs.map fun c => cost c w').sum := by
    have := sum_div_le (cs := cs) (f := fun c => release c w - release c w') (g := fun c => cost c w - cost c w') (k := 1 / w')
      fun c hc => by have := (d c hc).2; rwa [mul_one_div]
    rw [sum_sub, sum_sub, mul_one_div] at this
    exact this
  generalize (cs.map fun c => release c w).sum = a at *
  generalize (cs.map fun c => release c w').sum = a' at *
  generalize (cs.map fun c => cost c w).sum = b at *
  generalize (cs.map fun c => cost c w').sum = b' at *
  have t2 : a' - a ≤ (b' - b) * w := (div_le_iff₀ hw).mp s2
  have t3 : a - a' ≤ (b - b') * w' := (div_le_iff₀ hw').mp s3
  refine ⟨s1, ?_, by linarith, by linarith⟩
  by_contra hh
  have : (b' - b) * w < 0 := mul_neg_of_neg_of_pos (by linarith [not_le.mp hh]) hw
  linarith

/-- **C164**: for orders selling the base token both amounts rise with the price, what is received is at most the price for each unit released, and the effective
price rises with the price. -/
theorem C164_effective {cs : List (UICurve ℝ)} (h : Side false cs) {p p' dy dy' dx dx' e e' : ℝ} (hp : 0 < p) (hm : p ≤ p')
    (e1 : bookDy cs p = .ok dy) (e2 : bookDy cs p' = .ok dy') (e3 : bookDx cs p = .ok dx) (e4 : bookDx cs p' = .ok dx')
    (he : effective dx dy = some e) (he' : effective dx' dy' = some e') : dy ≤ dy' ∧ dx ≤ dx' ∧ e ≤ p ∧ e ≤ e' := by
  have hp' : 0 < p' := lt_of_lt_of_le hp hm
  have hr : raw false p' ≤ raw false p := one_div_le_one_div_of_le hp hm
  obtain ⟨a1, a2, a3, a4⟩ := C164_rising h hp hp' hr e1 e2 e3 e4
  unfold effective at he he'
  split at he
  · rename_i hy
    split at he'
    · rename_i hy'
      cases he; cases he'
      -- the amounts at the price
      have hcost : dx ≤ p * dy := by
        rw [bookDy_eq h hp] at e1
        rw [bookDx_eq h hp] at e3
        cases e1; cases e3
        have hw := raw_pos (q := false) hp
        have := sum_div_le (cs := cs) (f := fun c => cost c (raw false p)) (g := fun c => release c (raw false p)) (k := raw false p) fun c hc => by
          obtain ⟨h1, h2, -⟩ := h c hc
          have hx : c.dxfromdyF 0 = .ok (some 0) := by
            have := dxfromdyF_ok h1 h1.hy0 true false (fun _ => le_refl (0 : ℝ))
            rw [this, zero_mul]
          have := support h1 h2 hw le_rfl h1.hy0 hx
          rw [zero_sub, zero_sub, neg_div, neg_le_neg_iff, le_div_iff₀ hw] at this
          exact this
        have e : raw false p = 1 / p := rfl
        rw [e, mul_one_div, div_le_iff₀ hp] at this
        rw [e]
        linarith
      refine ⟨a1, a2, by rw [div_le_iff₀ hy]; exact hcost, ?_⟩
      rw [div_le_div_iff₀ hy hy']
      have e : raw false p = 1 / p := rfl
      rw [e, div_mul_eq_mul_div, one_mul, le_div_iff₀ hp] at a4
      have b1 : dx * (dy' - dy) ≤ p * dy * (dy' - dy) := mul_le_mul_of_nonneg_right hcost (by linarith)
      have b2 : dy * ((dy' - dy) * p) ≤ dy * (dx' - dx) := mul_le_mul_of_nonneg_left a4 hy.le
      nlinarith
    · exact absurd he' (by simp)
  · exact absurd he (by simp)

/-- **C164**: whoever takes at least the amount that is released at a price pays at least what is received at this price, however the amount is
distributed over the orders. -/
theorem C164_least_cost {q : Bool} {cs : List (UICurve ℝ)} (h : Side q cs) {p dy dx : ℝ} (hp : 0 < p) (e1 : bookDy cs p = .ok dy) (e2 : bookDx cs p = .ok dx)
    (take pay : UICurve ℝ → ℝ) (ht : ∀ c ∈ cs, 0 ≤ take c ∧ take c ≤ c.y ∧ c.dxfromdyF (take c) = .ok (some (pay c))) (ha : dy ≤ (cs.map take).sum) :
    dx ≤ (cs.map pay).sum := by
  rw [bookDy_eq h hp] at e1
  rw [bookDx_eq h hp] at e2
  cases e1; cases e2
  have hw := raw_pos (q := q) hp
  have := sum_div_le (cs := cs) (f := fun c => take c - release c (raw q p)) (g := fun c => pay c - cost c (raw q p)) (k := 1 / raw q p) fun c hc => by
    obtain ⟨h1, h2, -⟩ := h c hc
    obtain ⟨t1, t2, t3⟩ := ht c hc
    rw [mul_one_div]
    exact support h1 h2 hw t1 t2 t3
  rw [sum_sub, sum_sub] at this
  have : 0 ≤ ((cs.map take).sum - (cs.map fun c => release c (raw q p)).sum) * (1 / raw q p) := mul_nonneg (by linarith) (by positivity)
  linarith

theorem release_continuous (c : UICurve ℝ) : Continuous (release c) := by
  unfold release mAt
  fun_prop

theorem exists_low : ∀ cs : List (UICurve ℝ), (∀ c ∈ cs, Sound c ∧ 0 < c.S) → ∃ w > 0, ∀ c ∈ cs, ∀ v ≤ w, release c v = c.y
  | [], _ => ⟨1, one_pos, by simp⟩
  | c :: cs, h => by
    obtain ⟨w, hw, hc⟩ := exists_low cs fun x hx => h x (List.mem_cons_of_mem _ hx)
    obtain ⟨h1, h2⟩ := h c List.mem_cons_self
    have hB := h1.hB
    refine ⟨min w (c.B ^ 2), lt_min hw (by positivity), ?_⟩
    intro x hx v hv
    rcases List.mem_cons.mp hx with rfl | hx
    · have : Real.sqrt v ≤ x.B := (Real.sqrt_le_left hB.le).mpr (hv.trans (min_le_right _ _))
      unfold release mAt
      rw [max_eq_left this, min_eq_right (m0_ge h1), L_span h1 h2]
    · exact hc x hx v (hv.trans (min_le_left _ _))

theorem exists_high : ∀ cs : List (UICurve ℝ), (∀ c ∈ cs, Sound c ∧ 0 < c.S) → ∃ w > 0, ∀ c ∈ cs, ∀ v ≥ w, release c v = 0
  | [], _ => ⟨1, one_pos, by simp⟩
  | c :: cs, h => by
    obtain ⟨w, hw, hc⟩ := exists_high cs fun x hx => h x (List.mem_cons_of_mem _ hx)
    obtain ⟨h1, h2⟩ := h c List.mem_cons_self
    refine ⟨max w (m0 c ^ 2), lt_max_of_lt_left hw, ?_⟩
    intro x hx v hv
    rcases List.mem_cons.mp hx with rfl | hx
    · have : m0 x ≤ Real.sqrt v := Real.le_sqrt_of_sq_le ((le_max_right _ _).trans hv)
      unfold release mAt
      rw [min_eq_left (this.trans (le_max_right _ _)), sub_self, mul_zero]
    · exact hc x hx v ((le_max_left _ _).trans hv)

theorem raw_raw (q : Bool) (w : ℝ) : raw q (raw q w) = w := by
  unfold raw; split <;> simp

/-- **C164**: every amount up to the whole of the holdings is released at some price. -/
theorem C164_every_amount {q : Bool} {cs : List (UICurve ℝ)} (h : Side q cs) {a : ℝ} (h0 : 0 ≤ a) (h1 : a ≤ (cs.map UICurve.y).sum) :
    ∃ p > 0, bookDy cs p = .ok a := by
  have hs : ∀ c ∈ cs, Sound c ∧ 0 < c.S := fun c hc => ⟨(h c hc).1, (h c hc).2.1⟩
  obtain ⟨u, hu, hlow⟩ := exists_low cs hs
  obtain ⟨v, hv, hhigh⟩ := exists_high cs hs
  have cont : Continuous fun w => (cs.map fun c => release c w).sum := by
    clear h h1 hs hlow hhigh
    induction cs with
    | nil => simpa using continuous_const
    | cons c cs ih =>
      simp only [List.map_cons, List.sum_cons]
      exact (release_continuous c).add ih
  have hle : min u v ≤ v := min_le_right _ _
  have eu : (cs.map fun c => release c (min u v)).sum = (cs.map UICurve.y).sum :=
    congrArg List.sum (List.map_congr_left fun c hc => hlow c hc _ (min_le_left _ _))
  have ev : (cs.map fun c => release c v).sum = 0 := by
    rw [List.map_congr_left (g := fun _ => (0 : ℝ)) fun c hc => hhigh c hc v le_rfl]
    simp
  obtain ⟨w, hw, e⟩ := intermediate_value_Icc' hle cont.continuousOn (⟨by rw [ev]; exact h0, by rw [eu]; exact h1⟩ : a ∈ Set.Icc _ _)
  have hw0 : 0 < w := lt_of_lt_of_le (lt_min hu hv) hw.1
  refine ⟨raw q w, raw_pos hw0, ?_⟩
  rw [bookDy_eq h (raw_pos hw0), raw_raw]
  exact congrArg _ e

/-- **C164**: what is received for an amount is the sum of its marginal prices, so that the effective price of an order selling the base token is the average of its marginal
prices over the amount. -/
theorem C164_average {c : UICurve ℝ} (h : Sound c) (hS : 0 < c.S) (hq : c.pair.hasQuote c.tkn = false) {dy dx : ℝ} (h0 : 0 ≤ dy) (h1 : dy ≤ c.y)
    (P : ℝ → ℝ) (hP : ∀ t, 0 ≤ t → t ≤ dy → c.pMargF t = .ok (some (P t))) (hx : c.dxfromdyF dy = .ok (some dx)) : ∫ t in (0 : ℝ)..dy, P t = dx := by
  have hz := h.hyint
  have hB := h.hB
  obtain ⟨e, hb⟩ := dx_val h hS h0 h1
  rw [hx] at e
  simp only [Except.ok.injEq, Option.some.injEq] at e
  have pos : ∀ t ∈ Set.uIcc 0 dy, 0 < m0 c - c.S / c.yint * t := by
    intro t ht
    rw [Set.uIcc_of_le h0] at ht
    exact lt_of_lt_of_le hB (dx_val h hS ht.1 (ht.2.trans h1)).2
  have ePt : ∀ t ∈ Set.uIcc 0 dy, P t = 1 / (m0 c - c.S / c.yint * t) ^ 2 := by
    intro t ht
    rw [Set.uIcc_of_le h0] at ht
    have := hP t ht.1 ht.2
    rw [pMargF_ok h (ht.2.trans h1) true false fun _ => ht.1] at this
    simp only [Except.ok.injEq, Option.some.injEq] at this
    rw [← this, inConv, hq]
    simp only [Bool.false_eq_true, if_false]
    congr 2
    unfold m0
    field_simp
    ring
  rw [intervalIntegral.integral_congr (g := fun t => 1 / (m0 c - c.S / c.yint * t) ^ 2) ePt]
  have deriv : ∀ t ∈ Set.uIcc 0 dy, HasDerivAt (fun t => c.yint / c.S * (1 / (m0 c - c.S / c.yint * t))) (1 / (m0 c - c.S / c.yint * t) ^ 2) t := by
    intro t ht
    have hp := (pos t ht).ne'
    have d1 : HasDerivAt (fun t => m0 c - c.S / c.yint * t) (-(c.S / c.yint)) t := by
      simpa using ((hasDerivAt_id t).const_mul (c.S / c.yint)).const_sub (m0 c)
    have d2 := (d1.inv hp).const_mul (c.yint / c.S)
    refine HasDerivAt.congr_deriv (f := fun t => c.yint / c.S * (1 / (m0 c - c.S / c.yint * t))) ?_ (f' := c.yint / c.S * (-(-(c.S / c.yint)) / (m0 c - c.S / c.yint * t) ^ 2)) ?_
    · simp only [one_div]
      exact d2
    · generalize m0 c - c.S / c.yint * t = n at hp
      field_simp
  rw [intervalIntegral.integral_eq_sub_of_hasDerivAt deriv]
  · rw [e]
    simp only [mul_zero, sub_zero]
    ring
  · apply ContinuousOn.intervalIntegrable
    apply ContinuousOn.div continuousOn_const (by fun_prop)
    intro t ht
    exact pow_ne_zero _ (pos t ht).ne'

/-- **C164 violated**: an order with a single price releases nothing before this price and everything after it, but at the price itself the calculation, for the order and for
the whole list, ends in a division by zero. -/
theorem C164_one_price_violated :
    let c : UICurve ℝ := ⟨CarbonPair.ethUsdc, "USDC".toList, 1, 0, 100, 50⟩
    Sound c ∧ bookDy [c] 2 = .ok 0 ∧ bookDy [c] (1 / 2) = .ok 50 ∧ bookDy [c] 1 = .error .zeroDiv := by
  have hq : CarbonPair.ethUsdc.hasQuote ['U', 'S', 'D', 'C'] = true := by decide +kernel
  refine ⟨by constructor <;> norm_num, ?_, ?_, ?_⟩
  · simp [bookDy, dyfrompF, yfrompF, rawPrice, hq, paRaw, pbRaw, failWith]
  · simp [bookDy, dyfrompF, yfrompF, rawPrice, hq, paRaw, pbRaw, failWith]
    norm_num
  · simp [bookDy, dyfrompF, yfrompF, rawPrice, paRaw, pbRaw, failWith, pySqrt, pyDiv]
    norm_num

/-! ## Examples -/

/-- Two orders selling the base token. -/
noncomputable def twoAsks : List (UICurve ℝ) :=
  [⟨CarbonPair.ethUsdc, "ETH".toList, 1 / 2, 1 / 2, 10, 10⟩, ⟨CarbonPair.ethUsdc, "ETH".toList, 1 / 3, 1 / 3, 10, 5⟩]

theorem twoAsks_side : Side false twoAsks := by
  have hq : CarbonPair.ethUsdc.hasQuote "ETH".toList = false := by decide +kernel
  intro c hc
  simp only [twoAsks, List.mem_cons, List.not_mem_nil, or_false] at hc
  rcases hc with rfl | rfl <;> exact ⟨by constructor <;> norm_num, by norm_num, hq⟩

/-- At the price 4 the first order is sold out, and the second sells a part. -/
example : bookDy twoAsks 4 = .ok 10 := by
  have s4 : Real.sqrt (1 / 4) = 1 / 2 := by
    rw [show (1 / 4 : ℝ) = (1 / 2) ^ 2 by norm_num]; exact Real.sqrt_sq (by norm_num)
  rw [bookDy_eq twoAsks_side (by norm_num)]
  have e : raw false 4 = 1 / 4 := rfl
  rw [e]
  simp only [twoAsks, List.map_cons, List.map_nil, List.sum_cons, List.sum_nil, release, mAt, m0, s4]
  norm_num

example : Side true [realCurve] := by
  intro c hc
  rw [List.mem_singleton] at hc
  subst hc
  exact ⟨realCurve_sound, by norm_num [realCurve], by simp only [realCurve]; decide +kernel⟩

end Carbon.UICurve
