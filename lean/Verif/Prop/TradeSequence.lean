import Verif.Prop.Trade

/-!
# C158: trading with an encoded order in several parts

The quotes of `benchmark/core/trade/impl.py` are of an order at one moment. Here they are taken one after another, each from the order as the trades
before it left it.
-/

namespace Carbon.Prop.Trade

open Carbon Carbon.Bench Carbon.Spec

/-! ## The exact curve -/

theorem curveOut_eq {x y z a b : ℚ} (hz : 0 < z) : curveOut x y z a b = x * (a * y + b * z) ^ 2 / (a * x * (a * y + b * z) + z ^ 2) := by
  unfold curveOut
  split_ifs with h
  · rw [h]
    field_simp
    ring
  · rfl

theorem curveIn_eq {d y z a b : ℚ} (hz : 0 < z) (hN : 0 < a * y + b * z) :
    curveIn d y z a b = d * z ^ 2 / ((a * y + b * z) * (a * y + b * z - a * d)) := by
  unfold curveIn
  split_ifs with h
  · rw [h] at hN ⊢
    have hb : 0 < b := by
      rw [zero_mul, zero_add] at hN
      exact pos_of_mul_pos_left hN hz.le
    field_simp
    ring
  · rfl

/-- Whatever is bought for a payment is less than the whole curve. -/
theorem curveOut_lt {x y z a b : ℚ} (hz : 0 < z) (ha : 0 ≤ a) (hx : 0 ≤ x) (hN : 0 < a * y + b * z) : a * curveOut x y z a b < a * y + b * z := by
  rw [curveOut_eq hz, ← mul_div_assoc, div_lt_iff₀ (by positivity)]
  nlinarith [mul_pos hN (pow_pos hz 2)]

theorem curve_adjoint {x d y z a b : ℚ} (hz : 0 < z) (ha : 0 ≤ a) (hx : 0 ≤ x) (hN : 0 < a * y + b * z) (hd : a * d < a * y + b * z) :
    d ≤ curveOut x y z a b ↔ curveIn d y z a b ≤ x := by
  rw [curveOut_eq hz, curveIn_eq hz hN]
  have h1 : 0 < a * x * (a * y + b * z) + z ^ 2 := by positivity
  have h2 : 0 < (a * y + b * z) * (a * y + b * z - a * d) := mul_pos hN (by linarith)
  rw [le_div_iff₀ h1, div_le_iff₀ h2]
  constructor <;> intro h <;> nlinarith

theorem curveIn_add {d e y z a b : ℚ} (hz : 0 < z) (hN : 0 < a * y + b * z) (hd : a * d < a * y + b * z)
    (he : a * e < a * (y - d) + b * z) : curveIn (d + e) y z a b = curveIn d y z a b + curveIn e (y - d) z a b := by
  have hN' : 0 < a * (y - d) + b * z := by linarith
  rw [curveIn_eq hz hN, curveIn_eq hz hN, curveIn_eq hz hN']
  have h1 : a * y + b * z - a * d ≠ 0 := by linarith
  have h2 : a * (y - d) + b * z - a * e ≠ 0 := by linarith
  have h3 : a * y + b * z - a * (d + e) ≠ 0 := by intro h; apply h2; linarith
  have e1 : a * (y - d) + b * z = a * y + b * z - a * d := by ring
  have e2 : a * y + b * z - a * (d + e) = a * y + b * z - a * d - a * e := by ring
  rw [e1] at h2 ⊢
  rw [e2] at h3 ⊢
  generalize a * y + b * z = N at *
  have hN0 := hN.ne'
  rw [div_add_div _ _ (mul_ne_zero hN0 h1) (mul_ne_zero h1 h2), div_eq_div_iff (mul_ne_zero hN0 h3) (mul_ne_zero (mul_ne_zero hN0 h1) (mul_ne_zero h1 h2))]
  ring

theorem curveOut_add {x w y z a b : ℚ} (hz : 0 < z) (ha : 0 ≤ a) (hx : 0 ≤ x) (hw : 0 ≤ w) (hN : 0 < a * y + b * z) :
    curveOut (x + w) y z a b = curveOut x y z a b + curveOut w (y - curveOut x y z a b) z a b := by
  have e1 : a * (y - curveOut x y z a b) + b * z = (a * y + b * z) * z ^ 2 / (a * x * (a * y + b * z) + z ^ 2) := by
    have : 0 < a * x * (a * y + b * z) + z ^ 2 := by positivity
    rw [curveOut_eq hz]
    field_simp
    ring
  rw [curveOut_eq hz (x := w), e1, curveOut_eq hz, curveOut_eq hz]
  generalize a * y + b * z = N at *
  have h1 : 0 < a * x * N + z ^ 2 := by positivity
  have h2 : 0 < a * (x + w) * N + z ^ 2 := by positivity
  have h3 : a * w * (N * z ^ 2 / (a * x * N + z ^ 2)) + z ^ 2 = z ^ 2 * (a * (x + w) * N + z ^ 2) / (a * x * N + z ^ 2) := by
    field_simp
    ring
  rw [h3]
  field_simp
  ring

theorem curveOut_mono_order {x y y' z a b : ℚ} (hz : 0 < z) (ha : 0 ≤ a) (hx : 0 ≤ x) (hN : 0 < a * y + b * z) (hy : y ≤ y') :
    curveOut x y z a b ≤ curveOut x y' z a b := by
  have hN' : a * y + b * z ≤ a * y' + b * z := by nlinarith
  rw [curveOut_eq hz, curveOut_eq hz]
  generalize a * y + b * z = N at *
  generalize a * y' + b * z = M at *
  have hM : 0 < M := by linarith
  rw [div_le_div_iff₀ (by positivity) (by positivity)]
  have h1 : 0 ≤ x * (a * x * (N * M)) * (M - N) := by
    have := sub_nonneg.mpr hN'
    positivity
  have h2 : 0 ≤ x * z ^ 2 * ((M - N) * (M + N)) := by
    have := sub_nonneg.mpr hN'
    positivity
  nlinarith

theorem curveOut_nonneg {x y z a b : ℚ} (hz : 0 < z) (ha : 0 ≤ a) (hx : 0 ≤ x) (hN : 0 < a * y + b * z) : 0 ≤ curveOut x y z a b := by
  rw [curveOut_eq hz]
  positivity

/-! ## Trades one after another -/

/-- A request to an order: to take a payment, or to give an amount. -/
inductive Ask where
  | pay (x : ℤ)
  | take (d : ℤ)

/-- What is paid and what is given, by the quotes of the order (benchmark/core/trade/impl.py:115-119). -/
def Ask.quote (o : EncOrder) : Ask → ℤ × ℤ
  | pay x => (x, tradeBySourceAmount x o)
  | take d => (tradeByTargetAmount d o, d)

/-- The order after an amount has been given: the holdings are less, capacity and rates stay, so that the marginal rate falls as `decodeOrder` reads it
(benchmark/core/trade/impl.py:48-58). The benchmark itself quotes only; this is what a contract does with the quote. -/
def settled (o : EncOrder) (given : ℤ) : EncOrder := { o with y := o.y - given }

/-- Requests one after another: what is paid and given in total, and the order at the end. -/
def serve : EncOrder → List Ask → ℤ × ℤ × EncOrder
  | o, [] => (0, 0, o)
  | o, r :: l =>
    let q := r.quote o
    let t := serve (settled o q.2) l
    (q.1 + t.1, q.2 + t.2.1, t.2.2)

/-- Every request is for a non-negative amount, is for no more than the order holds at the time, and is not refused by the largest number. -/
def Valid : EncOrder → List Ask → Prop
  | _, [] => True
  | o, r :: l => (0 ≤ (r.quote o).1 ∧ 0 ≤ (r.quote o).2 ∧ (r.quote o).2 ≤ o.y ∧ (∀ d, r = .take d → (r.quote o).1 < 2 ^ 128 - 1)) ∧
    Valid (settled o (r.quote o).2) l

/-- A well-formed order that can give something. -/
structure Sound (o : EncOrder) : Prop where
  y : 0 ≤ o.y
  z : 0 < o.z
  live : 0 < wordValue o.A * o.y + wordValue o.B * o.z

theorem Sound.zq {o : EncOrder} (h : Sound o) : (0 : ℚ) < o.z := by exact_mod_cast h.z

theorem settled_y (o : EncOrder) (d : ℤ) : ((settled o d).y : ℚ) = o.y - d := by
  show ((o.y - d : ℤ) : ℚ) = _
  push_cast
  ring

theorem Sound.settled {o : EncOrder} (h : Sound o) {d : ℤ} (h2 : d ≤ o.y) (h3 : wordValue o.A * d < wordValue o.A * o.y + wordValue o.B * o.z) :
    Sound (settled o d) := by
  refine ⟨show 0 ≤ o.y - d by omega, h.z, ?_⟩
  rw [settled_y]
  show 0 < wordValue o.A * ((o.y : ℚ) - d) + wordValue o.B * o.z
  linarith

/-- A single quote is within the curve. -/
theorem quote_ok {o : EncOrder} (h : Sound o) (r : Ask) (h1 : 0 ≤ (r.quote o).1) (h4 : ∀ d, r = .take d → (r.quote o).1 < 2 ^ 128 - 1) :
    wordValue o.A * ((r.quote o).2 : ℤ) < wordValue o.A * o.y + wordValue o.B * o.z ∧
      curveIn (r.quote o).2 o.y o.z (wordValue o.A) (wordValue o.B) ≤ (r.quote o).1 := by
  have ha := wordValue_nonneg o.A
  cases r with
  | pay x =>
    have hx : (0 : ℚ) ≤ x := by exact_mod_cast h1
    have h5 := C03_payout_le_curve x o h1 h.y h.z.le
    have h6 := curveOut_lt h.zq ha hx h.live
    have h7 : wordValue o.A * (tradeBySourceAmount x o : ℚ) < wordValue o.A * o.y + wordValue o.B * o.z :=
      lt_of_le_of_lt (mul_le_mul_of_nonneg_left h5 ha) h6
    exact ⟨h7, (curve_adjoint h.zq ha hx h.live h7).mp h5⟩
  | take d =>
    obtain ⟨h5, h6, h7⟩ := C04_cost_ge_curve d o (h4 d rfl)
    refine ⟨?_, h5⟩
    by_cases h0 : wordValue o.A = 0
    · show wordValue o.A * (d : ℚ) < _
      rw [h0, zero_mul]
      have := h.live
      rwa [h0] at this
    · exact (h7 h0).2

theorem serve_key : ∀ (l : List Ask) (o : EncOrder), Sound o → Valid o l →
    wordValue o.A * ((serve o l).2.1 : ℤ) < wordValue o.A * o.y + wordValue o.B * o.z ∧
    curveIn (serve o l).2.1 o.y o.z (wordValue o.A) (wordValue o.B) ≤ (serve o l).1 ∧ 0 ≤ (serve o l).1 ∧
    (serve o l).2.2 = settled o (serve o l).2.1 ∧ 0 ≤ (serve o l).2.1 ∧ (serve o l).2.1 ≤ o.y := by
  intro l
  induction l with
  | nil =>
    intro o h _
    refine ⟨by simpa [serve] using h.live, ?_, le_rfl, by simp [serve, settled], le_rfl, h.y⟩
    rw [curveIn_eq h.zq h.live]
    simp [serve]
  | cons r l ih =>
    intro o h hv
    obtain ⟨⟨v1, v2, v3, v4⟩, v5⟩ := hv
    obtain ⟨q1, q2⟩ := quote_ok h r v1 v4
    obtain ⟨i1, i2, i3, i4, i5, i6⟩ := ih _ (h.settled v3 q1) v5
    rw [settled_y] at i1 i2
    have e := curveIn_add h.zq h.live q1 (e := (serve (settled o (r.quote o).2) l).2.1) i1
    have e1 : (serve o (r :: l)).2.1 = (r.quote o).2 + (serve (settled o (r.quote o).2) l).2.1 := rfl
    have e2 : (serve o (r :: l)).1 = (r.quote o).1 + (serve (settled o (r.quote o).2) l).1 := rfl
    have e3 : (serve o (r :: l)).2.2 = (serve (settled o (r.quote o).2) l).2.2 := rfl
    rw [e1, e2, e3]
    push_cast
    refine ⟨?_, ?_, add_nonneg v1 i3, ?_, add_nonneg v2 i5, ?_⟩
    · have : wordValue o.A * ((serve (settled o (r.quote o).2) l).2.1 : ℚ) < wordValue o.A * ((o.y : ℚ) - (r.quote o).2) + wordValue o.B * o.z := i1
      linarith
    · rw [e]
      exact add_le_add q2 i2
    · rw [i4]
      unfold settled
      dsimp only
      congr 1
      ring
    · have : (serve (settled o (r.quote o).2) l).2.1 ≤ o.y - (r.quote o).2 := i6
      omega

/-- **C158** However a trader splits their trades with an order into payments and purchases, in total they pay at least what the exact curve charges for
what they get, and get at most what the exact curve gives for what they pay; the order gives what it loses. -/
theorem C158_never_better (o : EncOrder) (h : Sound o) (l : List Ask) (hv : Valid o l) :
    curveIn (serve o l).2.1 o.y o.z (wordValue o.A) (wordValue o.B) ≤ (serve o l).1 ∧
    ((serve o l).2.1 : ℚ) ≤ curveOut (serve o l).1 o.y o.z (wordValue o.A) (wordValue o.B) ∧
    (serve o l).2.2 = settled o (serve o l).2.1 ∧ 0 ≤ (serve o l).2.1 ∧ (serve o l).2.1 ≤ o.y := by
  obtain ⟨h1, h2, h3, h4, h5, h6⟩ := serve_key l o h hv
  exact ⟨h2, (curve_adjoint h.zq (wordValue_nonneg _) (by exact_mod_cast h3) h.live h1).mpr h2, h4, h5, h6⟩

/-- **C158** If the numbers of the purchase at once fit, it costs no more than the parts. -/
theorem C158_at_once_target (o : EncOrder) (h : Sound o) (ha : wordValue o.A ≠ 0) (l : List Ask) (hv : Valid o l) (hf : TargetFits (serve o l).2.1 o) :
    tradeByTargetAmount (serve o l).2.1 o ≤ (serve o l).1 := by
  obtain ⟨h1, _, _, h4, _⟩ := C158_never_better o h l hv
  rw [C06_target_exact _ o h4 h.y h.z.le ha hf]
  exact (min_le_left _ _).trans (Int.ceil_le.mpr h1)

/-- **C158** If the numbers of the payment at once fit, it brings no less than the parts. -/
theorem C158_at_once_source (o : EncOrder) (h : Sound o) (ha : wordValue o.A ≠ 0) (l : List Ask) (hv : Valid o l) (hp : 0 ≤ (serve o l).1)
    (hf : SourceFits (serve o l).1 o) (hout : curveOut (serve o l).1 o.y o.z (wordValue o.A) (wordValue o.B) < 2 ^ 128) :
    (serve o l).2.1 ≤ tradeBySourceAmount (serve o l).1 o := by
  obtain ⟨_, h2, _⟩ := C158_never_better o h l hv
  rw [C06_source_exact _ o hp h.y h.z.le ha hf, if_pos (by rw [Int.floor_lt]; exact_mod_cast hout)]
  exact Int.le_floor.mpr h2

/-- **C158** Splitting a purchase costs at most four units for each part more than the exact curve; the purchase at once costs at least the curve. -/
theorem C158_parts_target (o : EncOrder) (h : Sound o) (ha : wordValue o.A ≠ 0) (ds : List ℤ) (hd : ∀ d ∈ ds, d ≤ 2 ^ 128)
    (hv : Valid o (ds.map .take)) :
    ((serve o (ds.map .take)).1 : ℚ) ≤ curveIn ds.sum o.y o.z (wordValue o.A) (wordValue o.B) + 4 * ds.length ∧
    (tradeByTargetAmount ds.sum o < 2 ^ 128 - 1 → (serve o (ds.map .take)).1 ≤ tradeByTargetAmount ds.sum o + 4 * ds.length) := by
  have tot : ∀ (ds : List ℤ) (o : EncOrder), (serve o (ds.map .take)).2.1 = ds.sum := by
    intro ds
    induction ds with
    | nil => intro o; rfl
    | cons d ds ih =>
      intro o
      show d + (serve (settled o d) (ds.map .take)).2.1 = _
      rw [ih, List.sum_cons]
  have key : ∀ (ds : List ℤ) (o : EncOrder), Sound o → wordValue o.A ≠ 0 → (∀ d ∈ ds, d ≤ 2 ^ 128) → Valid o (ds.map .take) →
      ((serve o (ds.map .take)).1 : ℚ) ≤ curveIn ds.sum o.y o.z (wordValue o.A) (wordValue o.B) + 4 * ds.length := by
    intro ds
    induction ds with
    | nil =>
      intro o h _ _ _
      rw [curveIn_eq h.zq h.live]
      simp [serve]
    | cons d ds ih =>
      intro o h ha hd hv
      have hv0 := hv
      obtain ⟨⟨v1, v2, v3, v4⟩, v5⟩ := hv
      obtain ⟨q1, q2⟩ := quote_ok h (.take d) v1 v4
      have hs := h.settled v3 q1
      have hlast := ih _ hs ha (fun e he => hd e (List.mem_cons_of_mem _ he)) v5
      have h1 := C56_target_accuracy d o ha (hd d List.mem_cons_self) (v4 d rfl)
      have hN : wordValue o.A * ((ds.sum : ℤ) : ℚ) < wordValue o.A * ((o.y : ℚ) - d) + wordValue o.B * o.z := by
        have i1 : wordValue o.A * ((serve (settled o d) (ds.map .take)).2.1 : ℚ) < wordValue o.A * ((settled o d).y : ℚ) + wordValue o.B * o.z :=
          (serve_key _ _ hs v5).1
        rw [tot, settled_y] at i1
        exact i1
      rw [settled_y] at hlast
      have e := curveIn_add h.zq h.live q1 (e := (ds.sum : ℤ)) hN
      show ((tradeByTargetAmount d o + (serve (settled o d) (ds.map .take)).1 : ℤ) : ℚ) ≤ _
      rw [List.sum_cons, List.length_cons]
      push_cast
      have e' : curveIn ((d : ℚ) + (ds.sum : ℤ)) o.y o.z (wordValue o.A) (wordValue o.B) = _ := e
      rw [e']
      have hl : (((serve (settled o d) (ds.map .take)).1 : ℤ) : ℚ) ≤ curveIn ((ds.sum : ℤ) : ℚ) ((o.y : ℚ) - d) o.z (wordValue o.A) (wordValue o.B) +
        4 * ds.length := hlast
      have e5 : ((Ask.take d).quote o).2 = d := rfl
      rw [e5]
      linarith
  have h1 := key ds o h ha hd hv
  refine ⟨h1, fun hlt => ?_⟩
  have h2 := (C04_cost_ge_curve ds.sum o hlt).1
  have : ((serve o (ds.map .take)).1 : ℚ) ≤ tradeByTargetAmount ds.sum o + 4 * ds.length := by linarith
  exact_mod_cast this

/-- **C158** Splitting a payment brings, if the numbers of the payment at once fit, at most one unit less for every further part. -/
theorem C158_parts_source (o : EncOrder) (h : Sound o) (ha : wordValue o.A ≠ 0) (xs : List ℤ) (hne : xs ≠ []) (hx : ∀ x ∈ xs, 0 ≤ x)
    (hv : Valid o (xs.map .pay)) (hf : SourceFits xs.sum o) (hout : curveOut xs.sum o.y o.z (wordValue o.A) (wordValue o.B) < 2 ^ 128) :
    tradeBySourceAmount xs.sum o ≤ (serve o (xs.map .pay)).2.1 + (xs.length - 1) := by
  have key : ∀ (xs : List ℤ) (o : EncOrder), Sound o → wordValue o.A ≠ 0 → (∀ x ∈ xs, 0 ≤ x) → Valid o (xs.map .pay) → SourceFits xs.sum o →
      curveOut xs.sum o.y o.z (wordValue o.A) (wordValue o.B) < 2 ^ 128 →
      curveOut xs.sum o.y o.z (wordValue o.A) (wordValue o.B) ≤ (serve o (xs.map .pay)).2.1 + xs.length ∧
      (xs ≠ [] → curveOut xs.sum o.y o.z (wordValue o.A) (wordValue o.B) < (serve o (xs.map .pay)).2.1 + xs.length) := by
    intro xs
    induction xs with
    | nil =>
      intro o h _ _ _ _ _
      rw [curveOut_eq h.zq]
      simp [serve]
    | cons x xs ih =>
      intro o h ha hx hv hf hout
      obtain ⟨⟨v1, v2, v3, v4⟩, v5⟩ := hv
      have hx0 : (0 : ℚ) ≤ x := by exact_mod_cast hx x List.mem_cons_self
      have hX0 : (0 : ℚ) ≤ (xs.sum : ℤ) := by
        exact_mod_cast List.sum_nonneg fun e he => hx e (List.mem_cons_of_mem _ he)
      have ha0 := wordValue_nonneg o.A
      obtain ⟨q1, q2⟩ := quote_ok h (.pay x) v1 v4
      have hs := h.settled v3 q1
      have hN := h.live
      have hNs := hs.live
      rw [settled_y] at hNs
      rw [List.sum_cons] at hf hout
      push_cast at hout
      obtain ⟨f1, f2, f3⟩ := hf
      push_cast at f1 f2
      have hadd := curveOut_add h.zq ha0 hx0 hX0 hN
      have hlt := curveOut_lt h.zq ha0 hx0 hN
      have hNc : 0 < wordValue o.A * ((o.y : ℚ) - curveOut x o.y o.z (wordValue o.A) (wordValue o.B)) + wordValue o.B * o.z := by linarith
      have hfirst : curveOut x o.y o.z (wordValue o.A) (wordValue o.B) < 2 ^ 128 := by
        have := curveOut_nonneg (y := o.y - curveOut x o.y o.z (wordValue o.A) (wordValue o.B)) h.zq ha0 hX0 hNc
        linarith
      have hq : tradeBySourceAmount x o = ⌊curveOut x o.y o.z (wordValue o.A) (wordValue o.B)⌋ := by
        rw [C06_source_exact x o (hx x List.mem_cons_self) h.y h.z.le ha ⟨?_, ?_, f3⟩, if_pos (by rw [Int.floor_lt]; exact_mod_cast hfirst)]
        · have := h.zq
          positivity
        · refine le_trans (mul_le_mul_of_nonneg_right ?_ (by norm_num)) f2
          have := mul_nonneg (mul_nonneg ha0 hX0) hN.le
          nlinarith
      have hfl : ((tradeBySourceAmount x o : ℤ) : ℚ) ≤ curveOut x o.y o.z (wordValue o.A) (wordValue o.B) := by
        rw [hq]
        exact Int.floor_le _
      have hfl' : curveOut x o.y o.z (wordValue o.A) (wordValue o.B) < (tradeBySourceAmount x o : ℤ) + 1 := by
        rw [hq]
        exact Int.lt_floor_add_one _
      have hd0 : (0 : ℚ) ≤ (tradeBySourceAmount x o : ℤ) := by exact_mod_cast (C05_range x o).1.1
      have e5 : ((Ask.pay x).quote o).2 = tradeBySourceAmount x o := rfl
      rw [e5] at hs hNs v5
      have hNs' : 0 < wordValue o.A * ((o.y : ℚ) - (tradeBySourceAmount x o : ℤ)) + wordValue o.B * o.z := hNs
      have hle : wordValue o.A * ((o.y : ℚ) - (tradeBySourceAmount x o : ℤ)) + wordValue o.B * o.z ≤ wordValue o.A * o.y + wordValue o.B * o.z := by
        nlinarith
      have hrest : curveOut xs.sum ((o.y : ℚ) - (tradeBySourceAmount x o : ℤ)) o.z (wordValue o.A) (wordValue o.B) < 2 ^ 128 := by
        have h1 := curveOut_mono_order (x := (xs.sum : ℤ)) h.zq ha0 hX0 hNs' (show (o.y : ℚ) - (tradeBySourceAmount x o : ℤ) ≤ o.y by linarith)
        have h2 := curveOut_add h.zq ha0 hX0 hx0 hN
        have h3 := curveOut_lt h.zq ha0 hX0 hN
        have h4 := curveOut_nonneg (b := wordValue o.B) (x := (x : ℚ)) (y := o.y - curveOut (xs.sum : ℤ) o.y o.z (wordValue o.A) (wordValue o.B)) h.zq ha0 hx0 (by linarith)
        rw [add_comm] at h2
        linarith
      obtain ⟨i1, _⟩ := ih _ hs ha (fun e he => hx e (List.mem_cons_of_mem _ he)) v5 (by
        refine ⟨?_, ?_, ?_⟩
        · rw [settled_y]
          have := h.zq
          show 0 < wordValue o.A * ((xs.sum : ℤ) : ℚ) * (wordValue o.A * ((o.y : ℚ) - (tradeBySourceAmount x o : ℤ)) + wordValue o.B * o.z) + (o.z : ℚ) ^ 2
          positivity
        · rw [settled_y]
          show (wordValue o.A * ((xs.sum : ℤ) : ℚ) * (wordValue o.A * ((o.y : ℚ) - (tradeBySourceAmount x o : ℤ)) + wordValue o.B * o.z) + (o.z : ℚ) ^ 2) * 2 ^ 96 ≤ _
          refine le_trans (mul_le_mul_of_nonneg_right ?_ (by norm_num)) f2
          have h1 := mul_nonneg (mul_nonneg ha0 hx0) hN.le
          have h2 := mul_le_mul_of_nonneg_left hle (mul_nonneg ha0 hX0)
          nlinarith
        · rw [settled_y]
          show (wordValue o.A * ((o.y : ℚ) - (tradeBySourceAmount x o : ℤ)) + wordValue o.B * o.z) * 2 ^ 96 ≤ _
          exact le_trans (mul_le_mul_of_nonneg_right hle (by norm_num)) f3) (by
        rw [settled_y]
        exact hrest)
      rw [settled_y] at i1
      have i2 : curveOut xs.sum ((o.y : ℚ) - (tradeBySourceAmount x o : ℤ)) o.z (wordValue o.A) (wordValue o.B) ≤
        ((serve (settled o (tradeBySourceAmount x o)) (xs.map .pay)).2.1 : ℤ) + xs.length := i1
      have i3 := curveOut_mono_order (x := (xs.sum : ℤ)) h.zq ha0 hX0 hNc
        (show (o.y : ℚ) - curveOut x o.y o.z (wordValue o.A) (wordValue o.B) ≤ o.y - (tradeBySourceAmount x o : ℤ) by linarith)
      have e1 : (serve o ((x :: xs).map .pay)).2.1 = tradeBySourceAmount x o + (serve (settled o (tradeBySourceAmount x o)) (xs.map .pay)).2.1 := rfl
      rw [e1, List.sum_cons, List.length_cons]
      push_cast
      rw [hadd]
      have : curveOut x o.y o.z (wordValue o.A) (wordValue o.B) + curveOut ((xs.sum : ℤ) : ℚ) ((o.y : ℚ) - curveOut x o.y o.z (wordValue o.A) (wordValue o.B)) o.z
          (wordValue o.A) (wordValue o.B) < (tradeBySourceAmount x o : ℤ) + ((serve (settled o (tradeBySourceAmount x o)) (xs.map .pay)).2.1 : ℤ) + (xs.length + 1) := by
        linarith
      exact ⟨this.le, fun _ => this⟩
  have h1 := (key xs o h ha hx hv hf hout).2 hne
  have h2 := C03_payout_le_curve xs.sum o (List.sum_nonneg hx) h.y h.z.le
  have h3 : ((tradeBySourceAmount xs.sum o : ℤ) : ℚ) < ((serve o (xs.map .pay)).2.1 : ℤ) + xs.length := by linarith
  have : tradeBySourceAmount xs.sum o < (serve o (xs.map .pay)).2.1 + xs.length := by exact_mod_cast h3
  omega

/-! ## Instances -/

theorem sample_words : wordValue sampleOrder.A = 1 ∧ wordValue sampleOrder.B = 1 := by
  have : sampleOrder.A % 2 ^ 48 = 2 ^ 47 ∧ sampleOrder.A / 2 ^ 48 = 1 := by decide
  have h2 : sampleOrder.B % 2 ^ 48 = 2 ^ 47 ∧ sampleOrder.B / 2 ^ 48 = 1 := by decide
  unfold wordValue
  rw [this.1, this.2, h2.1, h2.2]
  norm_num

theorem sample_sound : Sound sampleOrder := by
  refine ⟨by decide, by decide, ?_⟩
  rw [sample_words.1, sample_words.2]
  norm_num [sampleOrder]

/-- A payment, a purchase, and another payment. -/
def mixed : List Ask := [.pay (10 ^ 18), .take (3 * 10 ^ 18 + 7), .pay 12345678901234567]

theorem mixed_valid : Valid sampleOrder mixed := by
  refine ⟨⟨by decide, by decide, by decide, fun d hd => by cases hd⟩, ⟨by decide, by decide, by decide, fun d _ => by decide⟩,
    ⟨by decide, by decide, by decide, fun d hd => by cases hd⟩, trivial⟩

theorem mixed_total : (serve sampleOrder mixed).1 = 2379528377927255060 ∧ (serve sampleOrder mixed).2.1 = 5260065290620462155 := by decide

/-- `C158_never_better`, `C158_at_once_target`, `C158_at_once_source`. -/
example : tradeByTargetAmount 5260065290620462155 sampleOrder ≤ 2379528377927255060 ∧
    5260065290620462155 ≤ tradeBySourceAmount 2379528377927255060 sampleOrder := by
  have ha : wordValue sampleOrder.A ≠ 0 := by rw [sample_words.1]; norm_num
  have h1 := C158_at_once_target sampleOrder sample_sound ha mixed mixed_valid
  have h2 := C158_at_once_source sampleOrder sample_sound ha mixed mixed_valid
  rw [mixed_total.1, mixed_total.2] at h1
  rw [mixed_total.1, mixed_total.2] at h2
  refine ⟨h1 ?_, h2 (by norm_num) ?_ ?_⟩
  · unfold TargetFits
    rw [sample_words.1, sample_words.2]
    norm_num [sampleOrder]
  · unfold SourceFits
    rw [sample_words.1, sample_words.2]
    norm_num [sampleOrder]
  · rw [sample_words.1, sample_words.2]
    norm_num [sampleOrder, curveOut]

/-- `C158_parts_target`: three purchases. -/
example : (serve sampleOrder ([10 ^ 18, 5, 10 ^ 19].map .take)).1 ≤ tradeByTargetAmount (10 ^ 18 + (5 + (10 ^ 19 + 0))) sampleOrder + 4 * 3 :=
  (C158_parts_target sampleOrder sample_sound (by rw [sample_words.1]; norm_num) [10 ^ 18, 5, 10 ^ 19] (by simp)
    ⟨⟨by decide, by decide, by decide, fun d _ => by decide⟩, ⟨by decide, by decide, by decide, fun d _ => by decide⟩,
      ⟨by decide, by decide, by decide, fun d _ => by decide⟩, trivial⟩).2 (by decide)

/-- `C158_parts_source`: two payments. -/
example : tradeBySourceAmount (10 ^ 18 + (7 + 0)) sampleOrder ≤ (serve sampleOrder ([10 ^ 18, 7].map .pay)).2.1 + (2 - 1) :=
  C158_parts_source sampleOrder sample_sound (by rw [sample_words.1]; norm_num) [10 ^ 18, 7] (by simp) (by simp)
    ⟨⟨by decide, by decide, by decide, fun d hd => by cases hd⟩, ⟨by decide, by decide, by decide, fun d hd => by cases hd⟩, trivial⟩
    (by
      unfold SourceFits
      rw [sample_words.1, sample_words.2]
      norm_num [sampleOrder]) (by
      rw [sample_words.1, sample_words.2]
      norm_num [sampleOrder, curveOut])

end Carbon.Prop.Trade
