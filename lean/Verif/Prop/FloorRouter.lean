import Verif.Carbon.FloorRouter
import Verif.Prop.FastRouter
import Mathlib.Tactic.Positivity
import Mathlib.Tactic.FieldSimp

/-!
# C126, C127: the fast router on integers, and reading orders from files
-/

namespace Carbon.Prop.FloorRouter

open Carbon Carbon.FastRouter

/-- A whole number. -/
def Whole (q : ℚ) : Prop := ∃ n : ℤ, q = n

theorem Whole.add {a b : ℚ} (ha : Whole a) (hb : Whole b) : Whole (a + b) := by
  obtain ⟨m, rfl⟩ := ha
  obtain ⟨n, rfl⟩ := hb
  exact ⟨m + n, by push_cast; rfl⟩

theorem Whole.sub {a b : ℚ} (ha : Whole a) (hb : Whole b) : Whole (a - b) := by
  obtain ⟨m, rfl⟩ := ha
  obtain ⟨n, rfl⟩ := hb
  exact ⟨m - n, by push_cast; rfl⟩

theorem Whole.mul {a b : ℚ} (ha : Whole a) (hb : Whole b) : Whole (a * b) := by
  obtain ⟨m, rfl⟩ := ha
  obtain ⟨n, rfl⟩ := hb
  exact ⟨m * n, by push_cast; rfl⟩

theorem Whole.min {a b : ℚ} (ha : Whole a) (hb : Whole b) : Whole (min a b) := by
  rcases min_choice a b with h | h <;> rw [h] <;> assumption

theorem whole_one : Whole Floor.one := ⟨2 ^ 32, by unfold Floor.one; norm_num⟩

theorem one_pos : 0 < Floor.one := by unfold Floor.one; norm_num

/-- An order with integer parameters. -/
structure Integral (c : Curve ℚ) : Prop where
  hB : Whole c.B
  hS : Whole c.S
  hz : Whole c.yint
  hy : Whole c.y

/-- The order that the integer parameters stand for. -/
def real (c : Curve ℚ) : Curve ℚ := ⟨c.B / 2 ^ 32, c.S / 2 ^ 32, c.yint, c.plow, c.phigh, c.y, c.adjN⟩

theorem trunc_le {q : ℚ} (h : 0 ≤ q) : Floor.trunc q ≤ q ∧ q < Floor.trunc q + 1 ∧ 0 ≤ Floor.trunc q ∧ Whole (Floor.trunc q) := by
  unfold Floor.trunc
  rw [if_pos h]
  exact ⟨Int.floor_le q, Int.lt_floor_add_one q, by exact_mod_cast Int.floor_nonneg.2 h, _, rfl⟩

theorem whole_lt {a b : ℚ} (ha : Whole a) (hb : Whole b) (h : a < b + 1) : a ≤ b := by
  obtain ⟨m, rfl⟩ := ha
  obtain ⟨n, rfl⟩ := hb
  have : m < n + 1 := by exact_mod_cast h
  exact_mod_cast Int.lt_add_one_iff.1 this

theorem whole_pos {a : ℚ} (ha : Whole a) (h : 0 < a) : 1 ≤ a := by
  obtain ⟨m, rfl⟩ := ha
  have : 0 < m := by exact_mod_cast h
  exact_mod_cast this

/-- Division with rounding up, on integers. -/
theorem ceil_div {n w : ℚ} (hn : Whole n) (hw : Whole w) (h0 : 0 ≤ n) (hp : 0 < w) :
    ∃ r, Floor.intDiv (n + w - 1) w = .ok r ∧ Whole r ∧ n / w ≤ r ∧ r < n / w + 1 ∧ 0 ≤ r := by
  have h1 := whole_pos hw hp
  unfold Floor.intDiv
  rw [if_neg hp.ne']
  have hq : 0 ≤ (n + w - 1) / w := by
    apply div_nonneg _ hp.le
    linarith
  obtain ⟨t1, t2, t3, t4⟩ := trunc_le hq
  refine ⟨_, rfl, t4, ?_, ?_, t3⟩
  · rw [div_lt_iff₀ hp] at t2
    rw [div_le_iff₀ hp]
    have := whole_lt (a := n) (b := Floor.trunc ((n + w - 1) / w) * w) hn (t4.mul hw) (by linarith)
    exact this
  · rw [le_div_iff₀ hp] at t1
    have : Floor.trunc ((n + w - 1) / w) * w < (n / w + 1) * w := by
      rw [add_mul, div_mul_cancel₀ _ hp.ne']
      linarith
    exact lt_of_mul_lt_mul_right this hp.le

section
variable {c : Curve ℚ}

theorem real_m (c : Curve ℚ) : (real c).S * (real c).y + (real c).B * (real c).yint = (c.y * c.S + c.yint * c.B) / 2 ^ 32 := by
  unfold real
  dsimp only
  ring

theorem m_whole (hi : Integral c) : Whole (c.y * c.S + c.yint * c.B) := (hi.hy.mul hi.hS).add (hi.hz.mul hi.hB)

theorem m_pos (hs : Sane (real c)) : 0 < c.y * c.S + c.yint * c.B := by
  have := hs.m_pos
  rw [real_m] at this
  have h2 : (0 : ℚ) < 2 ^ 32 := by norm_num
  exact (div_pos_iff_of_pos_right h2).1 this

theorem m_pos' (hs : Sane (real c)) {d : ℚ} (hd : d ≤ c.y) : 0 < c.y * c.S + c.yint * c.B - d * c.S := by
  have := hs.m_pos' (d := d) hd
  rw [real_m] at this
  have h2 : (0 : ℚ) < 2 ^ 32 := by norm_num
  have e : (c.y * c.S + c.yint * c.B) / 2 ^ 32 - (real c).S * d = (c.y * c.S + c.yint * c.B - d * c.S) / 2 ^ 32 := by
    unfold real
    dsimp only
    ring
  rw [e] at this
  exact (div_pos_iff_of_pos_right h2).1 this

theorem cost_real (c : Curve ℚ) (d : ℚ) : cost (real c) d = d * (c.yint * Floor.one) * (c.yint * Floor.one) /
    ((c.y * c.S + c.yint * c.B) * (c.y * c.S + c.yint * c.B - d * c.S)) := by
  unfold cost
  rw [real_m]
  have e : (c.y * c.S + c.yint * c.B) / 2 ^ 32 - (real c).S * d = (c.y * c.S + c.yint * c.B - d * c.S) / 2 ^ 32 := by
    unfold real
    dsimp only
    ring
  rw [e]
  unfold Floor.one real
  dsimp only
  generalize c.y * c.S + c.yint * c.B = m
  rw [div_mul_div_comm, div_div_eq_mul_div]
  congr 1
  ring

theorem payout_real (hs : Sane (real c)) {x : ℚ} (hx : 0 ≤ x) : payout (real c) x =
    (c.y * c.S + c.yint * c.B) * ((c.y * c.S + c.yint * c.B) * x / Floor.one) /
      ((c.y * c.S + c.yint * c.B) * x / Floor.one * c.S + c.yint * c.yint * Floor.one) := by
  have hm := m_pos hs
  have hS : 0 ≤ c.S := by
    have h1 : 0 ≤ c.S / 2 ^ 32 := hs.hS
    have h2 : (0 : ℚ) < 2 ^ 32 := by norm_num
    have := (div_nonneg_iff.1 h1)
    rcases this with h | h
    · exact h.1
    · exact absurd h.2 (not_le.2 h2)
  have hz : 0 < c.yint := hs.hz
  unfold payout
  rw [real_m]
  unfold Floor.one real
  dsimp only
  generalize c.y * c.S + c.yint * c.B = m at *
  have h1 : c.S / 2 ^ 32 * x * (m / 2 ^ 32) + c.yint ^ 2 ≠ 0 := by positivity
  have h2 : m * x / 2 ^ 32 * c.S + c.yint * c.yint * 2 ^ 32 ≠ 0 := by positivity
  rw [div_eq_div_iff h1 h2]
  ring

theorem real_S (hs : Sane (real c)) : 0 ≤ c.S := by
  have h1 : 0 ≤ c.S / 2 ^ 32 := hs.hS
  have h2 : (0 : ℚ) < 2 ^ 32 := by norm_num
  have := (div_nonneg_iff.1 h1)
  rcases this with h | h
  · exact h.1
  · exact absurd h.2 (not_le.2 h2)

theorem amtBySrc_spec (hi : Integral c) (hs : Sane (real c)) {d : ℚ} (hd : Whole d) (h0 : 0 ≤ d) (hy : d ≤ c.y) :
    ∃ r, Floor.amtBySrc c d = .ok r ∧ Whole r ∧ cost (real c) d ≤ r ∧ r < cost (real c) d + 1 ∧ 0 ≤ r := by
  have hm := m_pos hs
  have hm' := m_pos' hs hy
  have hz : 0 < c.yint := hs.hz
  have hw := (m_whole hi).mul ((m_whole hi).sub (hd.mul hi.hS))
  have hn := (hd.mul (hi.hz.mul whole_one)).mul (hi.hz.mul whole_one)
  have h1 := one_pos
  rw [cost_real]
  unfold Floor.amtBySrc Floor.mulDivC
  exact ceil_div hn hw (by positivity) (mul_pos hm hm')

theorem amtByTarget_spec (hi : Integral c) (hs : Sane (real c)) {x : ℚ} (h0 : 0 ≤ x) :
    ∃ r, Floor.amtByTarget c x = .ok r ∧ Whole r ∧ 0 ≤ r ∧ r ≤ payout (real c) x ∧
      payout (real c) x < r + 1 + (c.y * c.S + c.yint * c.B) / (c.yint ^ 2 * 2 ^ 32) := by
  have hm := m_pos hs
  have hS := real_S hs
  have hz : 0 < c.yint := hs.hz
  rw [payout_real hs h0]
  unfold Floor.amtByTarget Floor.mulDivF
  dsimp only
  generalize hM : c.y * c.S + c.yint * c.B = m at *
  have ho := one_pos
  have hq : 0 ≤ m * x / Floor.one := by positivity
  have e1 : Floor.intDiv (m * x) Floor.one = .ok (Floor.trunc (m * x / Floor.one)) := by
    unfold Floor.intDiv
    rw [if_neg ho.ne']
  rw [e1, Py.ok_bind]
  obtain ⟨t1, t2, t3, t4⟩ := trunc_le hq
  generalize Floor.trunc (m * x / Floor.one) = t at *
  generalize m * x / Floor.one = u at *
  have hd : 0 < t * c.S + c.yint * c.yint * Floor.one := by positivity
  have hd' : 0 < u * c.S + c.yint * c.yint * Floor.one := by positivity
  have e2 : Floor.intDiv (m * t) (t * c.S + c.yint * c.yint * Floor.one) = .ok (Floor.trunc (m * t / (t * c.S + c.yint * c.yint * Floor.one))) := by
    unfold Floor.intDiv
    rw [if_neg hd.ne']
  rw [e2]
  have hq2 : 0 ≤ m * t / (t * c.S + c.yint * c.yint * Floor.one) := by positivity
  obtain ⟨s1, s2, s3, s4⟩ := trunc_le hq2
  refine ⟨_, rfl, s4, s3, s1.trans ?_, ?_⟩
  · rw [div_le_div_iff₀ hd hd']
    have : 0 ≤ m * (c.yint * c.yint * Floor.one) * (u - t) := mul_nonneg (by positivity) (by linarith)
    nlinarith
  · have hdiff : m * u / (u * c.S + c.yint * c.yint * Floor.one) ≤ m * t / (t * c.S + c.yint * c.yint * Floor.one) + m / (c.yint ^ 2 * 2 ^ 32) := by
      have h3 : m / (c.yint ^ 2 * 2 ^ 32) = m / (c.yint * c.yint * Floor.one) := by
        unfold Floor.one
        ring_nf
      rw [h3]
      have hw : 0 < c.yint * c.yint * Floor.one := by positivity
      generalize c.yint * c.yint * Floor.one = w at *
      have hu : 0 ≤ u := t3.trans t1
      rw [div_add_div _ _ hd.ne' hw.ne', div_le_div_iff₀ hd' (mul_pos hd hw)]
      have k1 : w * w ≤ (t * c.S + w) * (u * c.S + w) :=
        mul_le_mul (by nlinarith [mul_nonneg t3 hS]) (by nlinarith [mul_nonneg hu hS]) hw.le hd.le
      have k2 : (u - t) * (w * w) ≤ 1 * (w * w) := mul_le_mul_of_nonneg_right (by linarith) (by positivity)
      have k3 : 0 ≤ m * ((t * c.S + w) * (u * c.S + w) - (u - t) * (w * w)) := mul_nonneg hm.le (by linarith)
      nlinarith
    linarith

/-- C126: what a source amount buys of one order on integers: integers; at most what the curve pays, and at most what the order holds; it falls
short of that by at most one and the root of the price divided by the capacity; the charge is the price of it on the curve rounded
up, which is not more than the source amount. -/
theorem C126_source (hi : Integral c) (hs : Sane (real c)) {x : ℚ} (hx : Whole x) (h0 : 0 ≤ x) :
    ∃ r, Floor.rateBySource x c = .ok r ∧ Whole r.input ∧ Whole r.output ∧ 0 ≤ r.output ∧ r.output ≤ min (payout (real c) x) c.y ∧
      min (payout (real c) x) c.y < r.output + 1 + (c.y * c.S + c.yint * c.B) / 2 ^ 32 / c.yint / c.yint ∧
      cost (real c) r.output ≤ r.input ∧ r.input < cost (real c) r.output + 1 ∧ 0 ≤ r.input ∧ r.input ≤ x := by
  obtain ⟨t, ht, w1, t0, t1, t2⟩ := amtByTarget_spec hi hs h0
  have hy : 0 ≤ c.y := hs.hy
  have hz : 0 < c.yint := hs.hz
  have hm := m_pos hs
  obtain ⟨i, hi', w2, i1, i2, i3⟩ := amtBySrc_spec hi hs (w1.min hi.hy) (le_min t0 hy) (min_le_right t c.y)
  refine ⟨⟨i, min t c.y⟩, ?_, w2, w1.min hi.hy, le_min t0 hy, min_le_min_right _ t1, ?_, i1, i2, i3, ?_⟩
  · unfold Floor.rateBySource
    rw [ht, Py.ok_bind]
    dsimp only
    rw [hi']
    rfl
  · have e : (c.y * c.S + c.yint * c.B) / 2 ^ 32 / c.yint / c.yint = (c.y * c.S + c.yint * c.B) / (c.yint ^ 2 * 2 ^ 32) := by
      rw [div_div, div_div]
      congr 1
      ring
    dsimp only
    rw [e]
    have hp : 0 < (c.y * c.S + c.yint * c.B) / (c.yint ^ 2 * 2 ^ 32) := by positivity
    rcases le_total t c.y with h | h
    · rw [min_eq_left h]
      exact lt_of_le_of_lt (min_le_left _ _) t2
    · rw [min_eq_right h]
      refine lt_of_le_of_lt (min_le_right _ _) ?_
      linarith
  · have hle : cost (real c) (min t c.y) ≤ x := by
      have hmin : min t c.y ≤ payout (real c) x := (min_le_left _ _).trans t1
      by_contra hc
      have hc := not_le.1 hc
      have := (payout_le_iff hs h0 (d := min t c.y) (min_le_right _ _)).2 hc.le
      have heq : payout (real c) x = min t c.y := le_antisymm this hmin
      rw [← heq, cost_payout hs h0] at hc
      exact lt_irrefl _ hc
    exact whole_lt w2 hx (by dsimp only at i2 ⊢; linarith)

/-- C126: what an amount of one order costs on integers: the price of it on the curve, rounded up. -/
theorem C126_target (hi : Integral c) (hs : Sane (real c)) {x : ℚ} (hx : Whole x) (h0 : 0 ≤ x) :
    ∃ r, Floor.rateByTarget x c = .ok r ∧ r.input = min x c.y ∧ Whole r.output ∧
      cost (real c) r.input ≤ r.output ∧ r.output < cost (real c) r.input + 1 ∧ 0 ≤ r.output := by
  have hy : 0 ≤ c.y := hs.hy
  obtain ⟨i, hi', w2, i1, i2, i3⟩ := amtBySrc_spec hi hs (hx.min hi.hy) (le_min h0 hy) (min_le_right x c.y)
  refine ⟨⟨min x c.y, i⟩, ?_, rfl, w2, i1, i2, i3⟩
  unfold Floor.rateByTarget
  dsimp only
  rw [hi']
  rfl

end

section
variable {orders : List (Curve ℚ)} {trade : ℚ → Curve ℚ → Py (FRate ℚ)}

theorem loop_whole {qs : List (FQuote ℚ)} (hq : ∀ q ∈ qs, Whole q.rate.input) {x : ℚ} (hx : Whole x) {acts : List (Action ℚ)}
    (h : loop trade orders x qs = .ok acts) : ∀ a ∈ acts, Whole a.input := by
  induction qs generalizing x acts with
  | nil => cases h; simp
  | cons q rest ih =>
    have hq1 := hq q (by simp)
    have ih' := fun {x : ℚ} (hx : Whole x) {acts} => ih (x := x) (acts := acts) (fun q h => hq q (List.mem_cons_of_mem _ h)) hx
    unfold loop at h
    split_ifs at h with h1 h2 h3 h4 h5
    · rw [Py.bind_eq_ok] at h
      obtain ⟨a, ha, he⟩ := h
      cases he
      intro b hb
      rcases List.mem_cons.1 hb with rfl | hb
      · exact hq1
      · exact ih' (hx.sub hq1) ha b hb
    · exact ih' hx h
    · cases h
      intro b hb
      rw [List.mem_singleton.1 hb]
      exact hq1
    · exact ih' hx h
    · rw [Py.bind_eq_ok] at h
      obtain ⟨o, _, h⟩ := h
      rw [Py.bind_eq_ok] at h
      obtain ⟨r, _, h⟩ := h
      cases h
      intro b hb
      rw [List.mem_singleton.1 hb]
      exact hx
    · exact ih' hx h

theorem fields_mem {l m : List (Action ℚ)} (h : l.map (fun a => (a.index, a.input, a.output)) =
    m.map (fun a => (a.index, a.input, a.output))) {a : Action ℚ} (ha : a ∈ l) :
    ∃ b ∈ m, b.index = a.index ∧ b.input = a.input ∧ b.output = a.output := by
  have : (a.index, a.input, a.output) ∈ m.map (fun a => (a.index, a.input, a.output)) := by
    rw [← h]; exact List.mem_map_of_mem ha
  obtain ⟨b, hb, e⟩ := List.mem_map.mp this
  simp only [Prod.mk.injEq] at e
  exact ⟨b, hb, e.1, e.2.1, e.2.2⟩

/-- The quote of an order, where there is one. -/
def quote (trade : ℚ → Curve ℚ → Py (FRate ℚ)) (x : ℚ) (o : Curve ℚ) : FRate ℚ :=
  match trade x o with
  | .ok r => r
  | .error _ => ⟨0, 0⟩

theorem quote_ok {x : ℚ} {o : Curve ℚ} {r : FRate ℚ} (h : trade x o = .ok r) : trade x o = .ok (quote trade x o) ∧ quote trade x o = r := by
  unfold quote
  rw [h]
  exact ⟨rfl, rfl⟩

/-- C126: a trade by target amount over a book of integer orders: whole numbers, each order is used at most once and gives at most what it holds, for at
least its price on the curve and less than one more, and together they give the requested amount or all there is. -/
theorem C126_match_target (hi : ∀ o ∈ orders, Integral o) (hs : ∀ o ∈ orders, Sane (real o)) {x : ℚ} (hw : Whole x) (hx : 0 < x)
    (qs : List (FQuote ℚ)) (hq : QuotesFor Floor.rateByTarget x orders qs) (acts : List (Action ℚ))
    (h : matchQuotes Floor.rateByTarget orders x qs = .ok acts) :
    (acts.map Action.index).Nodup ∧
    (∀ a ∈ acts, ∃ o, orders[a.index]? = some o ∧ Whole a.input ∧ Whole a.output ∧ 0 < a.input ∧ a.input ≤ o.y ∧
      cost (real o) a.input ≤ a.output ∧ a.output < cost (real o) a.input + 1) ∧
    (acts.map Action.input).sum = min x (orders.map Curve.y).sum := by
  have hspec : ∀ o ∈ orders, ∀ x, Whole x → 0 ≤ x → _ := fun o ho x hw hx => C126_target (hi o ho) (hs o ho) (x := x) hw hx
  have hf : ∀ o ∈ orders, Floor.rateByTarget x o = .ok (quote Floor.rateByTarget x o) := by
    intro o ho
    obtain ⟨r, hr, -⟩ := hspec o ho x hw hx.le
    exact (quote_ok hr).1
  have hin : ∀ o ∈ orders, (quote Floor.rateByTarget x o).input = min x o.y := by
    intro o ho
    obtain ⟨r, hr, e, -⟩ := hspec o ho x hw hx.le
    rw [(quote_ok hr).2, e]
  obtain ⟨l, hl, he, _⟩ := matchQuotes_loop h
  obtain ⟨s1, s2, s3⟩ := sum_of_fields he
  have hfair : ∀ q ∈ qs, Fair q := by
    intro q hm
    obtain ⟨o, ho, hr⟩ := qf_mem hf hq hm
    have hmo := List.mem_of_getElem? ho
    have hso := hs o hmo
    obtain ⟨r, hr', e, e1, e2, e3, e4⟩ := hspec o hmo x hw hx.le
    rw [Fair, hr, (quote_ok hr').2]
    refine ⟨by rw [e]; exact le_min hx.le hso.hy, fun h0 => lt_of_lt_of_le (cost_pos hso h0 ?_) e2⟩
    rw [e]
    exact min_le_right _ _
  have hwq : ∀ q ∈ qs, Whole q.rate.input := by
    intro q hm
    obtain ⟨o, ho, hr⟩ := qf_mem hf hq hm
    have hmo := List.mem_of_getElem? ho
    rw [hr, hin o hmo]
    exact hw.min (hi o hmo).hy
  refine ⟨by rw [s1]; exact (loop_index_sublist hl).nodup (qf_nodup hf hq), ?_, ?_⟩
  · intro a ha
    obtain ⟨b, hb, b1, b2, b3⟩ := fields_mem he ha
    have hwb := loop_whole hwq hw hl b hb
    obtain ⟨q, hm, e1, e2, e3⟩ := loop_origin hx hl b hb
    obtain ⟨o, ho, hr⟩ := qf_mem hf hq hm
    have hmo := List.mem_of_getElem? ho
    refine ⟨o, by rw [← b1, e1]; exact ho, ?_⟩
    rw [← b2, ← b3]
    refine ⟨hwb, ?_⟩
    rcases e3 with ⟨f1, f2⟩ | ⟨f1, _, f3, o', r, ho', htr, f5⟩
    · have hp := filter_pos e2
      obtain ⟨r, hr', e, e1, e2, e3, e4⟩ := hspec o hmo x hw hx.le
      rw [hr, (quote_ok hr').2] at f1 f2 hp
      rw [f1, f2]
      refine ⟨e1, hp.1, by rw [e]; exact min_le_right _ _, e2, e3⟩
    · rw [ho] at ho'; cases ho'
      rw [hr, hin o hmo] at f3
      have hle : b.input ≤ o.y := (f3.trans_le (min_le_right _ _)).le
      obtain ⟨r', hr', e, e1, e2, e3, e4⟩ := hspec o hmo b.input hwb f1.le
      rw [hr'] at htr
      cases htr
      rw [e, min_eq_left hle] at e2 e3
      rw [f5]
      exact ⟨e1, f1, hle, e2, e3⟩
  · rw [s2, loop_sum hfair hx hl, qf_sum hf hq, List.map_congr_left (g := fun o => min x o.y) hin]
    exact min_sum_min x hx.le Curve.y orders fun o ho => (hs o ho).hy

/-- C126: a trade by source amount over a book of integer orders: whole numbers, each order is used at most once, gives at most what it holds and at
most what its curve pays for what it takes, and together they take at most the source amount. -/
theorem C126_match_source (hi : ∀ o ∈ orders, Integral o) (hs : ∀ o ∈ orders, Sane (real o)) {x : ℚ} (hw : Whole x) (hx : 0 < x)
    (qs : List (FQuote ℚ)) (hq : QuotesFor Floor.rateBySource x orders qs) (acts : List (Action ℚ))
    (h : matchQuotes Floor.rateBySource orders x qs = .ok acts) :
    (acts.map Action.index).Nodup ∧
    (∀ a ∈ acts, ∃ o, orders[a.index]? = some o ∧ Whole a.input ∧ Whole a.output ∧ 0 < a.input ∧ 0 ≤ a.output ∧ a.output ≤ o.y ∧
      a.output ≤ payout (real o) a.input) ∧
    (acts.map Action.input).sum ≤ x := by
  have hspec : ∀ o ∈ orders, ∀ x, Whole x → 0 ≤ x → _ := fun o ho x hw hx => C126_source (hi o ho) (hs o ho) (x := x) hw hx
  have hf : ∀ o ∈ orders, Floor.rateBySource x o = .ok (quote Floor.rateBySource x o) := by
    intro o ho
    obtain ⟨r, hr, -⟩ := hspec o ho x hw hx.le
    exact (quote_ok hr).1
  obtain ⟨l, hl, he, _⟩ := matchQuotes_loop h
  obtain ⟨s1, s2, s3⟩ := sum_of_fields he
  have hfair : ∀ q ∈ qs, Fair q := by
    intro q hm
    obtain ⟨o, ho, hr⟩ := qf_mem hf hq hm
    have hmo := List.mem_of_getElem? ho
    obtain ⟨r, hr', e1, e2, e3, e4, e5, e6, e7, e8, e9⟩ := hspec o hmo x hw hx.le
    rw [Fair, hr, (quote_ok hr').2]
    refine ⟨e8, fun h0 => lt_of_le_of_ne e3 fun hc => ?_⟩
    rw [← hc] at e7
    have h1 := whole_pos e1 h0
    simp [cost] at e7
    linarith
  have hwq : ∀ q ∈ qs, Whole q.rate.input := by
    intro q hm
    obtain ⟨o, ho, hr⟩ := qf_mem hf hq hm
    have hmo := List.mem_of_getElem? ho
    obtain ⟨r, hr', e1, -⟩ := hspec o hmo x hw hx.le
    rw [hr, (quote_ok hr').2]
    exact e1
  refine ⟨by rw [s1]; exact (loop_index_sublist hl).nodup (qf_nodup hf hq), ?_, ?_⟩
  · intro a ha
    obtain ⟨b, hb, b1, b2, b3⟩ := fields_mem he ha
    have hwb := loop_whole hwq hw hl b hb
    obtain ⟨q, hm, e1, e2, e3⟩ := loop_origin hx hl b hb
    obtain ⟨o, ho, hr⟩ := qf_mem hf hq hm
    have hmo := List.mem_of_getElem? ho
    have hso := hs o hmo
    refine ⟨o, by rw [← b1, e1]; exact ho, ?_⟩
    rw [← b2, ← b3]
    refine ⟨hwb, ?_⟩
    rcases e3 with ⟨f1, f2⟩ | ⟨f1, _, f3, o', r, ho', htr, f5⟩
    · have hp := filter_pos e2
      obtain ⟨r, hr', e1, e2, e3, e4, e5, e6, e7, e8, e9⟩ := hspec o hmo x hw hx.le
      rw [hr, (quote_ok hr').2] at f1 f2 hp
      rw [f1, f2]
      have hle : r.output ≤ o.y := e4.trans (min_le_right _ _)
      refine ⟨e2, hp.1, e3, hle, ?_⟩
      by_contra hc
      have hc := not_le.1 hc
      have h1 : cost (real o) (payout (real o) r.input) < cost (real o) r.output := cost_lt_cost hso hc hle
      rw [cost_payout hso e8] at h1
      linarith
    · rw [ho] at ho'; cases ho'
      obtain ⟨r', hr', e1, e2, e3, e4, -⟩ := hspec o hmo b.input hwb f1.le
      rw [hr'] at htr
      cases htr
      rw [f5]
      exact ⟨e2, f1, e3, e4.trans (min_le_right _ _), e4.trans (min_le_left _ _)⟩
  · rw [s2, loop_sum hfair hx hl]
    exact min_le_left _ _

/-- C126: books of such orders can be traded with as long as an order gives something: no exception is raised. -/
theorem C126_total (hi : ∀ o ∈ orders, Integral o) (hs : ∀ o ∈ orders, Sane (real o)) (hne : ∃ o ∈ orders, 0 < o.y) {x : ℚ} (hw : Whole x)
    (hx : 0 < x) : ∃ qs acts, QuotesFor Floor.rateByTarget x orders qs ∧ Floor.matchByTarget orders x = .ok acts ∧
      matchQuotes Floor.rateByTarget orders x qs = .ok acts := by
  have hf : ∀ o ∈ orders, Floor.rateByTarget x o = .ok (quote Floor.rateByTarget x o) := by
    intro o ho
    obtain ⟨r, hr, -⟩ := C126_target (hi o ho) (hs o ho) hw hx.le
    exact (quote_ok hr).1
  unfold Floor.matchByTarget matchAmount
  rw [abs_of_pos hx, quotes_eq hf, Py.ok_bind]
  refine ⟨(orders.zipIdx.map fun p => (⟨p.2, quote Floor.rateByTarget x p.1⟩ : FQuote ℚ)).insertionSort fun a b => cmpMax a b ≤ 0, ?_⟩
  have hqf : QuotesFor Floor.rateByTarget x orders ((orders.zipIdx.map fun p => (⟨p.2, quote Floor.rateByTarget x p.1⟩ : FQuote ℚ)).insertionSort
      fun a b => cmpMax a b ≤ 0) := ⟨_, quotes_eq hf, List.perm_insertionSort _ _⟩
  generalize (orders.zipIdx.map fun p => (⟨p.2, quote Floor.rateByTarget x p.1⟩ : FQuote ℚ)).insertionSort (fun a b => cmpMax a b ≤ 0) = qs at *
  have hl : ∀ (qs : List (FQuote ℚ)), (∀ q ∈ qs, ∃ o, orders[q.index]? = some o) → (∀ q ∈ qs, Whole q.rate.input) → ∀ x : ℚ, Whole x → 0 < x →
      ∃ acts, loop Floor.rateByTarget orders x qs = .ok acts := by
    intro qs
    induction qs with
    | nil => intro _ _ x _ _; exact ⟨_, rfl⟩
    | cons q rest ih =>
      intro h1 h2 x hw hx
      have ih := ih (fun q h => h1 q (List.mem_cons_of_mem _ h)) fun q h => h2 q (List.mem_cons_of_mem _ h)
      unfold loop
      split_ifs with k1 k2 k3 k4 k5
      · obtain ⟨a, ha⟩ := ih (x - q.rate.input) (hw.sub (h2 q (by simp))) (by linarith)
        rw [ha]
        exact ⟨_, rfl⟩
      · exact ih x hw hx
      · exact ⟨_, rfl⟩
      · exact ih x hw hx
      · obtain ⟨o, ho⟩ := h1 q (by simp)
        have hmo := List.mem_of_getElem? ho
        obtain ⟨r, hr, -⟩ := C126_target (hi o hmo) (hs o hmo) hw hx.le
        simp only [lookup, ho, Py.ok_bind, hr]
        exact ⟨_, rfl⟩
      · exact ih x hw hx
  obtain ⟨acts, ha⟩ := hl qs (fun q hm => ⟨_, (qf_mem hf hqf hm).choose_spec.1⟩) (fun q hm => by
    obtain ⟨o, ho, hr⟩ := qf_mem hf hqf hm
    have hmo := List.mem_of_getElem? ho
    obtain ⟨r, hr', e, -⟩ := C126_target (hi o hmo) (hs o hmo) hw hx.le
    rw [hr, (quote_ok hr').2, e]
    exact hw.min (hi o hmo).hy) x hw hx
  have hfair : ∀ q ∈ qs, Fair q := by
    intro q hm
    obtain ⟨o, ho, hr⟩ := qf_mem hf hqf hm
    have hmo := List.mem_of_getElem? ho
    have hso := hs o hmo
    obtain ⟨r, hr', e, e1, e2, e3, e4⟩ := C126_target (hi o hmo) (hs o hmo) hw hx.le
    rw [Fair, hr, (quote_ok hr').2]
    refine ⟨by rw [e]; exact le_min hx.le hso.hy, fun h0 => lt_of_lt_of_le (cost_pos hso h0 ?_) e2⟩
    rw [e]
    exact min_le_right _ _
  have hsum := loop_sum hfair hx ha
  have hacts : acts ≠ [] := by
    rintro rfl
    have h1 : (qs.map fun q => q.rate.input).sum = (orders.map fun o => min x o.y).sum := by
      rw [qf_sum hf hqf]
      congr 1
      refine List.map_congr_left fun o ho => ?_
      obtain ⟨r, hr', e, -⟩ := C126_target (hi o ho) (hs o ho) hw hx.le
      rw [(quote_ok hr').2, e]
    rw [h1] at hsum
    obtain ⟨o, ho, hoy⟩ := hne
    have h2 : min x o.y ≤ (orders.map fun o => min x o.y).sum :=
      List.single_le_sum (by
        intro a ha
        obtain ⟨o', ho', rfl⟩ := List.mem_map.1 ha
        exact le_min hx.le (hs o' ho').hy) _ (List.mem_map_of_mem ho)
    have h3 : 0 < min x o.y := lt_min hx hoy
    have h4 : 0 < min x (orders.map fun o => min x o.y).sum := lt_min hx (lt_of_lt_of_le h3 h2)
    rw [← hsum] at h4
    simp at h4
  refine ⟨totals 0 0 acts, hqf, ?_⟩
  unfold matchQuotes
  rw [ha, Py.ok_bind]
  have : acts.isEmpty = false := by
    cases acts with
    | nil => exact absurd rfl hacts
    | cons a l => rfl
  rw [this]
  exact ⟨rfl, rfl⟩

end

/-- An order of 100 units at a price of nine. -/
def nine : Curve ℚ := ⟨3 * 2 ^ 32, 0, 100, 9, 9, 100, false⟩

/-- C126: the last order of a trade by source amount can take an amount and give nothing. -/
theorem C126_nothing_violated : ∃ (orders : List (Curve ℚ)) (x : ℚ) (acts : List (Action ℚ)), (∀ o ∈ orders, Integral o ∧ Sane (real o)) ∧
    Whole x ∧ 0 < x ∧ Floor.matchBySource orders x = .ok acts ∧ ∃ a ∈ acts, 0 < a.input ∧ a.output = 0 := by
  refine ⟨[⟨2 ^ 31, 0, 7, 1 / 4, 1 / 4, 7, false⟩, ⟨2 ^ 31, 0, 7, 1 / 4, 1 / 4, 7, false⟩], 30,
    [⟨0, 28, 7, 28, 7⟩, ⟨1, 2, 0, 30, -7⟩], ?_, ⟨30, rfl⟩, by norm_num, by decide +kernel, ?_⟩
  · intro o ho
    simp only [List.mem_cons, List.not_mem_nil, or_false, or_self] at ho
    subst ho
    refine ⟨⟨⟨2 ^ 31, by norm_num⟩, ⟨0, by norm_num⟩, ⟨7, by norm_num⟩, ⟨7, by norm_num⟩⟩, ⟨?_, ?_, ?_, ?_⟩⟩ <;> norm_num [real]
  · exact ⟨⟨1, 2, 0, 30, -7⟩, by simp, by norm_num, rfl⟩

example : Floor.rateBySource 10 nine = .ok ⟨10, 90⟩ ∧ Floor.rateByTarget 10 nine = .ok ⟨10, 2⟩ ∧ Floor.rateBySource 1000 nine = .ok ⟨12, 100⟩ := by
  refine ⟨?_, ?_, ?_⟩ <;> decide +kernel

/-! ## C127 -/

section
variable {K : Type} [Field K] [LinearOrder K] [PySqrt K] [FloorRing K]

theorem readLoop_eq (floor : Bool) (num : Nat) (acc : List (Curve K)) (file : List (Floor.Entry K)) (h : acc.length < num) :
    Floor.readLoop floor num acc file = ((file.take (num - acc.length)).mapM (Floor.entryOrder floor)).bind fun l => .ok (acc ++ l) := by
  induction file generalizing acc with
  | nil =>
    rw [List.take_nil]
    simp [Floor.readLoop, List.mapM_nil, pure, Except.pure, Except.bind]
  | cons e rest ih =>
    obtain ⟨k, hk⟩ : ∃ k, num - acc.length = k + 1 := ⟨num - acc.length - 1, by omega⟩
    rw [hk, List.take_succ_cons, List.mapM_cons, Floor.readLoop]
    cases he : Floor.entryOrder floor e with
    | error x => rfl
    | ok c =>
      rw [Py.ok_bind]
      dsimp only
      by_cases hl : (acc ++ [c]).length = num
      · rw [if_pos hl]
        have h0 : k = 0 := by
          simp at hl
          omega
        rw [h0, List.take_zero]
        simp [List.mapM_nil, pure, Except.pure, Except.bind, bind]
      · rw [if_neg hl]
        have hlt : (acc ++ [c]).length < num := by
          simp at hl ⊢
          omega
        rw [ih _ hlt]
        have e2 : num - (acc ++ [c]).length = k := by
          simp
          omega
        rw [e2]
        cases hm : List.mapM (Floor.entryOrder floor) (List.take k rest) with
        | error x => simp [bind, Except.bind]
        | ok l => simp [bind, Except.bind, pure, Except.pure]

theorem mapM_ok {α β : Type} {f : α → Py β} {l : List α} {r : List β} (h : l.mapM f = .ok r) :
    r.length = l.length ∧ ∀ (i : Nat) a, l[i]? = some a → ∃ b, r[i]? = some b ∧ f a = .ok b := by
  induction l generalizing r with
  | nil =>
    rw [List.mapM_nil] at h
    cases h
    simp
  | cons x l ih =>
    rw [List.mapM_cons, Py.bind_eq_ok] at h
    obtain ⟨y, hy, h⟩ := h
    rw [Py.bind_eq_ok] at h
    obtain ⟨t, ht, h⟩ := h
    cases h
    obtain ⟨h1, h2⟩ := ih ht
    refine ⟨by simp [h1], ?_⟩
    intro i a ha
    cases i with
    | zero =>
      rw [List.getElem?_cons_zero] at ha
      cases ha
      exact ⟨y, rfl, hy⟩
    | succ i =>
      rw [List.getElem?_cons_succ] at ha
      exact h2 i a ha

/-- C127: as many orders are read as requested, or ten, or as there are, in the order of the file; entries behind them are not looked at. -/
theorem C127_prefix_partial {floor : Bool} {num : Option Nat} (hn : num ≠ some 0) {file : List (Floor.Entry K)} {orders : List (Curve K)}
    (h : Floor.readJson floor num file = .ok orders) :
    orders.length = min (num.getD 10) file.length ∧
      (∀ (i : Nat) c, orders[i]? = some c → ∃ e, file[i]? = some e ∧ Floor.entryOrder floor e = .ok c) ∧
      ∀ more, (num.getD 10) ≤ file.length → Floor.readJson floor num (file ++ more) = .ok orders := by
  have hpos : 0 < num.getD 10 := by
    cases num with
    | none => simp
    | some n =>
      cases n with
      | zero => exact absurd rfl hn
      | succ n => simp
  unfold Floor.readJson at h ⊢
  have h' := h
  rw [readLoop_eq _ _ _ _ hpos] at h
  simp only [List.length_nil, Nat.sub_zero, List.nil_append] at h
  cases hm : List.mapM (Floor.entryOrder floor) (List.take (num.getD 10) file) with
  | error x =>
    rw [hm] at h
    cases h
  | ok l =>
    rw [hm] at h
    cases h
    obtain ⟨h1, h2⟩ := mapM_ok hm
    refine ⟨by rw [h1, List.length_take], ?_, ?_⟩
    · intro i c hc
      have hi : i < orders.length := (List.getElem?_eq_some_iff.1 hc).1
      rw [h1, List.length_take] at hi
      have hf : i < file.length := by omega
      obtain ⟨b, hb, he⟩ := h2 i file[i] (by rw [List.getElem?_take_of_lt (by omega)]; exact List.getElem?_eq_getElem hf)
      rw [hc] at hb
      cases hb
      exact ⟨_, List.getElem?_eq_getElem hf, he⟩
    · intro more hle
      rw [readLoop_eq _ _ _ _ hpos]
      simp only [List.length_nil, Nat.sub_zero, List.nil_append]
      rw [List.take_append_of_le_length hle, hm]
      rfl

/-- C127 fails for no orders: all are read. -/
theorem C127_none_violated (floor : Bool) (file : List (Floor.Entry K)) {orders : List (Curve K)}
    (h : file.mapM (Floor.entryOrder floor) = .ok orders) : Floor.readJson floor (some 0) file = .ok orders := by
  have key : ∀ (acc : List (Curve K)) (file : List (Floor.Entry K)) (orders : List (Curve K)), file.mapM (Floor.entryOrder floor) = .ok orders →
      Floor.readLoop floor 0 acc file = .ok (acc ++ orders) := by
    intro acc file
    induction file generalizing acc with
    | nil =>
      intro orders h
      rw [List.mapM_nil] at h
      cases h
      simp [Floor.readLoop]
    | cons e rest ih =>
      intro orders h
      rw [List.mapM_cons, Py.bind_eq_ok] at h
      obtain ⟨c, hc, h⟩ := h
      rw [Py.bind_eq_ok] at h
      obtain ⟨l, hl, h⟩ := h
      cases h
      unfold Floor.readLoop
      rw [hc, Py.ok_bind]
      dsimp only
      rw [if_neg (by simp), ih _ _ hl]
      simp
  have := key [] file orders h
  rwa [List.nil_append] at this

/-- C127: an order that is read has the parameters, the holdings and the capacity of the file, or the holdings as capacity, and the prices that are
the squares of the parameters; entries without parameters or holdings are rejected. -/
theorem C127_entry (e : Floor.Entry K) : (∀ c, Floor.entryOrder false e = .ok c → e.B = some c.B ∧ e.S = some c.S ∧ e.y = some c.y ∧
      c.yint = e.yint.getD c.y ∧ ((c.plow = c.B ^ 2 ∧ c.phigh = (c.S + c.B) ^ 2) ∨ (c.phigh = c.B ^ 2 ∧ c.plow = (c.S + c.B) ^ 2)) ∧ c.plow ≤ c.phigh) ∧
    (e.B = none ∨ e.S = none ∨ e.y = none → ∀ floor, Floor.entryOrder floor e = .error .assertion) := by
  constructor
  · intro c h
    unfold Floor.entryOrder Curve.init at h
    rw [Py.bind_eq_ok] at h
    obtain ⟨c', h, h'⟩ := h
    cases h'
    rw [Py.bind_eq_ok] at h
    obtain ⟨s, hs, h⟩ := h
    dsimp only at h
    cases hy : e.y with
    | none =>
      rw [hy] at h
      cases h
    | some y =>
      rw [hy] at h
      dsimp only at h
      rw [Py.bind_eq_ok] at h
      obtain ⟨z, hz, h⟩ := h
      cases h
      have hz' : z = e.yint.getD y := by
        unfold Curve.capacity at hz
        dsimp only at hz
        cases hyi : e.yint with
        | none =>
          rw [hyi] at hz
          cases hz
          rfl
        | some q =>
          rw [hyi] at hz
          cases hz
          rfl
      unfold Curve.shape at hs
      dsimp only at hs
      cases hB : e.B with
      | none =>
        rw [hB] at hs
        cases hs
      | some B =>
        cases hS : e.S with
        | none =>
          rw [hB, hS] at hs
          cases hs
        | some S =>
          rw [hB, hS] at hs
          simp only [Bool.false_eq_true, if_false, Py.ok_bind] at hs
          split_ifs at hs with hlt
          · cases hs
            exact ⟨rfl, rfl, rfl, hz', .inr ⟨by ring, rfl⟩, hlt.le⟩
          · cases hs
            exact ⟨rfl, rfl, rfl, hz', .inl ⟨by ring, rfl⟩, not_lt.1 hlt⟩
  · intro h floor
    unfold Floor.entryOrder Curve.init Curve.shape
    dsimp only
    rcases h with h | h | h
    · rw [h]
      rfl
    · rw [h]
      cases e.B <;> rfl
    · rw [h]
      cases e.B with
      | none => rfl
      | some B =>
        cases e.S with
        | none => rfl
        | some S =>
          simp only [Bool.false_eq_true, if_false, Py.ok_bind]
          split_ifs <;> rfl

/-- C127 fails for csv files: all of them are rejected, except empty ones. -/
theorem C127_csv_violated (rows : List (K × K × K)) (h : rows ≠ []) : ∃ e, Floor.readCsv rows = .error e := by
  match rows, h with
  | r :: rows, _ =>
    unfold Floor.readCsv
    rw [List.mapM_cons]
    have : ∃ e, Curve.init ({ plow := some r.1, phigh := some r.2.1, yint := some r.2.2 } : CurveArgs K) = .error e := by
      unfold Curve.init
      cases Curve.shape ({ plow := some r.1, phigh := some r.2.1, yint := some r.2.2 } : CurveArgs K) with
      | error e => exact ⟨e, rfl⟩
      | ok s => exact ⟨_, rfl⟩
    obtain ⟨e, he⟩ := this
    rw [he]
    exact ⟨e, rfl⟩

end

/-- C127: for integer operation the parameters are scaled by `2 ^ 32`, for orders with roots of prices that are whole numbers. -/
theorem C127_scaled_partial {e : Floor.Entry ℝ} {c : Curve ℝ} (h : Floor.entryOrder false e = .ok c) {l s : ℕ} (hl : c.B = l) (hs : c.S = s) :
    ∃ c', Floor.entryOrder true e = .ok c' ∧ c'.B = c.B * 2 ^ 32 ∧ c'.S = c.S * 2 ^ 32 ∧ c'.y = c.y ∧ c'.yint = c.yint ∧ c'.plow = c.plow ∧
      c'.phigh = c.phigh := by
  have hc := (C127_entry e).1 c h
  have e1 : Curve.init { B := e.B, S := e.S, yint := e.yint, y := e.y } = .ok c := by
    unfold Floor.entryOrder at h
    rw [Py.bind_eq_ok] at h
    obtain ⟨c', h1, h2⟩ := h
    cases h2
    exact h1
  have hle : (c.B : ℝ) ^ 2 ≤ (c.S + c.B) ^ 2 := by
    rw [hl, hs]
    have h1 : (0 : ℝ) ≤ l := Nat.cast_nonneg l
    have h2 : (0 : ℝ) ≤ s := Nat.cast_nonneg s
    nlinarith
  have hp : c.plow = (c.B : ℝ) ^ 2 ∧ c.phigh = (c.S + c.B) ^ 2 := by
    rcases hc.2.2.2.2.1 with h1 | h1
    · exact h1
    · have := hc.2.2.2.2.2
      rw [h1.1, h1.2] at this
      have := le_antisymm this hle
      exact ⟨by rw [h1.2, this], by rw [h1.1, this]⟩
  have r1 : Curve.sqrtE c.plow = .ok ((l : ℕ) : ℝ) := by
    unfold Curve.sqrtE
    rw [hp.1, hl, if_neg (not_lt.2 (by positivity))]
    congr 1
    exact Real.sqrt_sq (Nat.cast_nonneg l)
  have r2 : Curve.sqrtE c.phigh = .ok ((s + l : ℕ) : ℝ) := by
    unfold Curve.sqrtE
    rw [hp.2, hl, hs, if_neg (not_lt.2 (by positivity))]
    congr 1
    rw [Nat.cast_add]
    exact Real.sqrt_sq (by positivity)
  refine ⟨⟨(l : ℝ) * 2 ^ 32, ((s + l : ℕ) : ℝ) * 2 ^ 32 - (l : ℝ) * 2 ^ 32, c.yint, c.plow, c.phigh, c.y, false⟩, ?_, ?_, ?_, rfl, rfl, rfl, rfl⟩
  · unfold Floor.entryOrder
    rw [e1, Py.ok_bind, if_pos rfl]
    unfold Floor.scaled
    rw [r1, r2, Py.ok_bind, Py.ok_bind]
    simp only [Int.floor_natCast, Int.cast_natCast]
  · rw [hl]
  · rw [hs]
    push_cast
    ring

/-- C127 fails for other prices: their roots are cut to whole numbers before they are scaled. An order at prices below one is read as an order
without prices, which raises in every trade. -/
theorem C127_scaled_violated : ∃ (e : Floor.Entry ℚ) (c : Curve ℚ), Floor.entryOrder false e = .ok ⟨1 / 2, 1 / 4, 100, 1 / 4, 9 / 16, 100, false⟩ ∧
    Floor.entryOrder true e = .ok c ∧ c.B = 0 ∧ c.S = 0 ∧ ∀ x, Floor.rateByTarget x c = .error .zeroDiv := by
  refine ⟨{ B := some (1 / 2), S := some (1 / 4), y := some 100, yint := some 100 }, ⟨0, 0, 100, 1 / 4, 9 / 16, 100, false⟩, by decide +kernel,
    by decide +kernel, rfl, rfl, ?_⟩
  intro x
  unfold Floor.rateByTarget Floor.amtBySrc Floor.mulDivC Floor.intDiv
  norm_num

example : Floor.readJson false (some 1) [({ B := some 1, S := some 1, y := some 5 } : Floor.Entry ℚ), {}] = .ok [⟨1, 1, 5, 1, 4, 5, false⟩] ∧
    Floor.readJson true none [({ B := some 2, S := some 1, y := some 5, yint := some 7 } : Floor.Entry ℚ)] =
      .ok [⟨2 * 2 ^ 32, 2 ^ 32, 7, 4, 9, 5, false⟩] := by
  constructor <;> decide +kernel

end Carbon.Prop.FloorRouter
