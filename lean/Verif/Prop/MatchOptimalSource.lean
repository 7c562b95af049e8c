import Verif.Prop.MatchOptimal

/-!
# C170: by source amount, orders that are brought to one marginal rate pay out the most
-/

namespace Carbon.Prop.Match

open Carbon Carbon.Bench Carbon.Spec Carbon.Prop.Trade

/-! ### The curve, by source amount -/

/-- The exact payout for `q` units. -/
def payout (o : EncOrder) (q : ℚ) : ℚ := curveOut q o.y o.z (wordValue o.A) (wordValue o.B)

theorem left_zero (o : EncOrder) : left o 0 = wordValue o.A * o.y + wordValue o.B * o.z := by simp [left]

/-- The payout for `q` units reaches `x` units if and only if `q` units reach the price of `x` units. -/
theorem payout_iff (o : EncOrder) (ha : wordValue o.A ≠ 0) (hz : 0 < o.z) (h0 : 0 < left o 0) (q x : ℚ) (hq : 0 ≤ q) (hx : 0 < left o x) :
    x ≤ payout o q ↔ price o x ≤ q := by
  have hzq : (0 : ℚ) < o.z := by exact_mod_cast hz
  have hA : 0 ≤ wordValue o.A := wordValue_nonneg _
  unfold payout price curveOut curveIn
  rw [if_neg ha, if_neg ha]
  rw [left_zero] at h0
  unfold left at hx
  generalize wordValue o.A * o.y + wordValue o.B * o.z = n at *
  have hd : 0 < wordValue o.A * q * n + (o.z : ℚ) ^ 2 := by positivity
  rw [le_div_iff₀ hd, div_le_iff₀ (mul_pos h0 hx)]
  constructor <;> intro h <;> nlinarith

/-- What an order pays out leaves something on its curve. -/
theorem payout_left (o : EncOrder) (ha : wordValue o.A ≠ 0) (hz : 0 < o.z) (h0 : 0 < left o 0) (q x : ℚ) (hq : 0 ≤ q) (hx0 : 0 < x)
    (h : x ≤ payout o q) : 0 < left o x := by
  have hzq : (0 : ℚ) < o.z := by exact_mod_cast hz
  have hA : 0 ≤ wordValue o.A := wordValue_nonneg _
  unfold payout curveOut at h
  rw [if_neg ha] at h
  rw [left_zero] at h0
  unfold left
  generalize wordValue o.A * o.y + wordValue o.B * o.z = n at *
  have hd : 0 < wordValue o.A * q * n + (o.z : ℚ) ^ 2 := by positivity
  rw [le_div_iff₀ hd] at h
  by_contra hcon
  have h1 : q * n * (n - wordValue o.A * x) ≤ 0 := mul_nonpos_of_nonneg_of_nonpos (by positivity) (not_lt.1 hcon)
  have h2 : 0 < x * (o.z : ℚ) ^ 2 := by positivity
  nlinarith

theorem payout_mono (o : EncOrder) (ha : wordValue o.A ≠ 0) (hz : 0 < o.z) (h0 : 0 < left o 0) {p q : ℚ} (hp : 0 ≤ p) (h : p ≤ q) :
    payout o p ≤ payout o q := by
  have hpos : 0 ≤ payout o p := by
    unfold payout curveOut
    rw [if_neg ha]
    rw [left_zero] at h0
    have hA : 0 ≤ wordValue o.A := wordValue_nonneg _
    positivity
  rcases hpos.eq_or_lt with e | e
  · rw [← e]
    unfold payout curveOut
    rw [if_neg ha]
    rw [left_zero] at h0
    have hA : 0 ≤ wordValue o.A := wordValue_nonneg _
    have : 0 ≤ q := hp.trans h
    positivity
  · have hl := payout_left o ha hz h0 p _ hp e le_rfl
    rw [payout_iff o ha hz h0 q _ (hp.trans h) hl]
    exact ((payout_iff o ha hz h0 p _ hp hl).1 le_rfl).trans h

/-- C170: orders cleared at one rate, each paid what it charges for its share, give the most: whatever else is paid to the orders, if it is
together no more, they pay out at most the shares and, per order, one unit and what four units buy at the rate. -/
theorem C170_most_paid (l : ℚ) (hl : 0 < l) (book : List (EncOrder × ℤ × ℤ))
    (hb : ∀ p ∈ book, 0 < p.1.z ∧ 0 ≤ p.1.y ∧ p.1.y ≤ 2 ^ 128 ∧ wordValue p.1.A ≠ 0 ∧ 0 < left p.1 0 ∧ Quotes p.1 p.2.1 ∧ Cleared l p.1 p.2.1 ∧
      0 ≤ p.2.2 ∧ tradeBySourceAmount p.2.2 p.1 ≤ p.1.y)
    (hsum : (book.map fun p => p.2.2).sum ≤ (book.map fun p => charge p.1 p.2.1).sum) :
    (((book.map fun p => tradeBySourceAmount p.2.2 p.1).sum : ℤ) : ℚ) ≤
      ((book.map fun p => p.2.1).sum : ℤ) + book.length * (1 + 4 * l ^ 2) := by
  have hl2 : 0 < l ^ 2 := by positivity
  suffices h : (((book.map fun p => tradeBySourceAmount p.2.2 p.1).sum : ℤ) : ℚ) ≤
      ((book.map fun p => p.2.1).sum : ℤ) + book.length * (1 + 4 * l ^ 2) +
        l ^ 2 * ((((book.map fun p => p.2.2).sum : ℤ) : ℚ) - ((book.map fun p => charge p.1 p.2.1).sum : ℤ)) by
    have h1 : (((book.map fun p => p.2.2).sum : ℤ) : ℚ) - ((book.map fun p => charge p.1 p.2.1).sum : ℤ) ≤ 0 := by
      rw [sub_nonpos]; exact_mod_cast hsum
    have := mul_nonpos_of_nonneg_of_nonpos hl2.le h1
    linarith
  clear hsum
  induction book with
  | nil => simp
  | cons p t ih =>
    obtain ⟨h1, h2, h3, h4, h5, ⟨h6, h7, h8⟩, h9, h10, h11⟩ := hb p List.mem_cons_self
    have iht := ih fun q hq => hb q (List.mem_cons_of_mem _ hq)
    have c1 : (charge p.1 p.2.1 : ℚ) ≤ price p.1 p.2.1 + 4 := by
      unfold charge
      split
      · rename_i h; rw [h]; simp [price_zero]
      · rename_i h; exact C56_target_accuracy p.2.1 p.1 h4 (by omega) (h8 h)
    generalize hf : tradeBySourceAmount p.2.2 p.1 = f at *
    have hq0 : (0 : ℚ) ≤ p.2.2 := by exact_mod_cast h10
    have hf0 : 0 ≤ f := by rw [← hf]; exact (C05_range p.2.2 p.1).1.1
    have c3 : (f : ℚ) ≤ payout p.1 p.2.2 := by rw [← hf]; exact C03_payout_le_curve p.2.2 p.1 h10 h2 h1.le
    have c4 : f = 0 ∨ 0 < left p.1 f := by
      rcases hf0.eq_or_lt with e | e
      · exact Or.inl e.symm
      · exact Or.inr (payout_left p.1 h4 h1 h5 p.2.2 f hq0 (by exact_mod_cast e) c3)
    have c5 : price p.1 f ≤ p.2.2 := by
      rcases c4 with e | e
      · rw [e]; simpa [price_zero] using hq0
      · exact (payout_iff p.1 h4 h1 h5 p.2.2 f hq0 e).1 c3
    have b := cleared_bound l hl p.1 p.2.1 f h1 h4 h6 hf0 h11 c4 h9
    have b' : (f : ℚ) - p.2.1 - 1 ≤ l ^ 2 * (price p.1 f - price p.1 p.2.1) := by
      rw [← sub_div, div_le_iff₀ hl2] at b
      linarith
    have b2 : l ^ 2 * (price p.1 f - price p.1 p.2.1) ≤ l ^ 2 * (p.2.2 - charge p.1 p.2.1 + 4) :=
      mul_le_mul_of_nonneg_left (by linarith) hl2.le
    simp only [List.map_cons, List.sum_cons, List.length_cons, hf]
    push_cast
    nlinarith

/-- C170: in terms of what the orders pay out themselves. The second part of `book` is the payment of the match, the third what is paid
instead. -/
theorem C170_most_output (l e : ℚ) (hl : 0 < l) (book : List (EncOrder × ℤ × ℤ))
    (hb : ∀ p ∈ book, 0 < p.1.z ∧ 0 ≤ p.1.y ∧ p.1.y ≤ 2 ^ 128 ∧ wordValue p.1.A ≠ 0 ∧ 0 < left p.1 0 ∧ Quotes p.1 p.2.1 ∧ Cleared l p.1 p.2.1 ∧
      0 ≤ p.2.2 ∧ tradeBySourceAmount p.2.2 p.1 ≤ p.1.y)
    (hout : ∀ p ∈ book, p.1.y ≤ p.1.z ∧ 1 / (2 ^ 48 * (wordValue p.1.A + wordValue p.1.B)) ≤ e ∧
      (p.2.1 ≠ 0 → payout p.1 (charge p.1 p.2.1) ≤ p.1.y ∧ tradeBySourceAmount (charge p.1 p.2.1) p.1 ≠ 0))
    (hsum : (book.map fun p => p.2.2).sum ≤ (book.map fun p => charge p.1 p.2.1).sum) :
    (((book.map fun p => tradeBySourceAmount p.2.2 p.1).sum : ℤ) : ℚ) ≤
      (1 + e) * (((book.map fun p => tradeBySourceAmount (charge p.1 p.2.1) p.1).sum : ℤ) + 4 * book.length) +
        book.length * (1 + 4 * l ^ 2) := by
  have main := C170_most_paid l hl book hb hsum
  suffices h : (((book.map fun p => p.2.1).sum : ℤ) : ℚ) ≤
      (1 + e) * (((book.map fun p => tradeBySourceAmount (charge p.1 p.2.1) p.1).sum : ℤ) + 4 * book.length) by linarith
  clear main hsum
  induction book with
  | nil => simp
  | cons p t ih =>
    obtain ⟨h1, h2, h3, h4, h5, ⟨h6, h7, h8⟩, h9, h10, h11⟩ := hb p List.mem_cons_self
    obtain ⟨k1, k2, k3⟩ := hout p List.mem_cons_self
    have iht := ih (fun q hq => hb q (List.mem_cons_of_mem _ hq)) fun q hq => hout q (List.mem_cons_of_mem _ hq)
    have e0 : (0 : ℚ) ≤ 1 / (2 ^ 48 * (wordValue p.1.A + wordValue p.1.B)) := by
      have := wordValue_nonneg p.1.A
      have := wordValue_nonneg p.1.B
      positivity
    have hc0 : 0 ≤ tradeBySourceAmount (charge p.1 p.2.1) p.1 := (C05_range _ _).1.1
    have hc0q : (0 : ℚ) ≤ tradeBySourceAmount (charge p.1 p.2.1) p.1 := by exact_mod_cast hc0
    have key : (p.2.1 : ℚ) ≤ (1 + e) * (tradeBySourceAmount (charge p.1 p.2.1) p.1 + 4) := by
      by_cases hx : p.2.1 = 0
      · rw [hx]
        rw [hx] at hc0q
        push_cast
        have : 0 ≤ 1 + e := by linarith
        positivity
      · obtain ⟨k4, k5⟩ := k3 hx
        have c1 : charge p.1 p.2.1 = tradeByTargetAmount p.2.1 p.1 := by simp [charge, hx]
        obtain ⟨c2, _, c3⟩ := C04_cost_ge_curve p.2.1 p.1 (h8 hx)
        have c4 : 0 < left p.1 p.2.1 := by have := (c3 h4).2; unfold left; linarith
        have hcp : 0 ≤ charge p.1 p.2.1 := by rw [c1]; exact (C05_range p.2.1 p.1).2.1
        have c5 : (p.2.1 : ℚ) ≤ payout p.1 (charge p.1 p.2.1) :=
          (payout_iff p.1 h4 h1 h5 _ _ (by exact_mod_cast hcp) c4).2 (by rw [c1]; exact c2)
        have c6 := C56_source_accuracy (charge p.1 p.2.1) p.1 h2 k1 h4 k4 k5
        have c7 : ((tradeBySourceAmount (charge p.1 p.2.1) p.1 : ℚ) + 4) * (1 + 1 / (2 ^ 48 * (wordValue p.1.A + wordValue p.1.B))) ≤
            (tradeBySourceAmount (charge p.1 p.2.1) p.1 + 4) * (1 + e) := mul_le_mul_of_nonneg_left (by linarith) (by linarith)
        have c8 : (p.2.1 : ℚ) ≤ (tradeBySourceAmount (charge p.1 p.2.1) p.1 + 4) * (1 + 1 / (2 ^ 48 * (wordValue p.1.A + wordValue p.1.B))) :=
          c5.trans c6
        linarith
    simp only [List.map_cons, List.sum_cons, List.length_cons]
    push_cast
    linarith

/-! ### The search for the rate -/

/-- The numbers of an order stay within 256 bits, so that nothing is rescaled. -/
structure Fits (o : EncOrder) : Prop where
  z : 0 < o.z
  y : 0 ≤ o.y
  a : wordValue o.A ≠ 0
  fits : TargetFits 0 o

theorem Fits.pos {o : EncOrder} (h : Fits o) : 0 < left o 0 := by
  have := h.fits.1
  rw [left_zero]
  simpa using this

theorem price_mono {o : EncOrder} (h : Fits o) {x x' : ℚ} (hx : x ≤ x') (hl : 0 < left o x') : price o x ≤ price o x' := by
  have hl' : 0 < left o x := lt_of_lt_of_le hl (left_anti o hx)
  have e := price_diff o h.a x x' h.pos.ne' hl'.ne' hl.ne'
  have : 0 ≤ (x' - x) * (o.z : ℚ) ^ 2 / (left o x * left o x') := by
    have : 0 ≤ x' - x := sub_nonneg.2 hx
    positivity
  linarith

theorem Fits.at {o : EncOrder} (h : Fits o) {x : ℤ} (hx : 0 ≤ x) (hl : 0 < left o x) : TargetFits x o := by
  obtain ⟨h1, h2, h3, h4⟩ := h.fits
  have hA : 0 ≤ wordValue o.A := wordValue_nonneg _
  have hxq : (0 : ℚ) ≤ x := by exact_mod_cast hx
  have h0 := h.pos
  rw [left_zero] at h0
  unfold left at hl
  refine ⟨by linarith, h2, le_trans ?_ h3, h4⟩
  refine mul_le_mul_of_nonneg_right (mul_le_mul_of_nonneg_left ?_ h0.le) (by positivity)
  push_cast
  have := mul_nonneg hA hxq
  linarith

/-- An order charges no less for more. -/
theorem target_mono {o : EncOrder} (h : Fits o) {x x' : ℤ} (hx : 0 ≤ x) (hxx : x ≤ x') : tradeByTargetAmount x o ≤ tradeByTargetAmount x' o := by
  have hq : (x : ℚ) ≤ x' := by exact_mod_cast hxx
  by_cases hl : 0 < left o x'
  · rw [C06_target_exact x o hx h.y h.z.le h.a (h.at hx (lt_of_lt_of_le hl (left_anti o hq))),
      C06_target_exact x' o (hx.trans hxx) h.y h.z.le h.a (h.at (hx.trans hxx) hl)]
    exact min_le_min (Int.ceil_le_ceil (price_mono h hq hl)) le_rfl
  · have : ¬ tradeByTargetAmount x' o < 2 ^ 128 - 1 := by
      intro hcon
      have := ((C04_cost_ge_curve x' o hcon).2.2 h.a).2
      unfold left at hl
      linarith
    have := (C05_range x o).2.2
    omega

/-- What the match pays to an order at a limit. -/
def paid (o : EncOrder) (L : ℤ) : ℤ := (rateBySourceAmount (equalizeBySourceAmount o L) o).input

theorem rates_paid (l : List EncOrder) (hy : ∀ o ∈ l, 0 ≤ o.y) (L : ℤ) :
    ratesAt rateBySourceAmount equalizeBySourceAmount l L = l.map fun o => ⟨paid o L, tradeBySourceAmount (paid o L) o⟩ := by
  unfold ratesAt
  refine List.map_congr_left fun o ho => ?_
  have := (rateBySource_output o (hy o ho) (equalizeBySourceAmount o L)).2
  unfold paid
  rw [← this]

theorem total_paid (l : List EncOrder) (L : ℤ) :
    totalInput (ratesAt rateBySourceAmount equalizeBySourceAmount l L) = (l.map fun o => paid o L).sum := by
  unfold ratesAt totalInput
  rw [List.map_map]
  rfl

/-- An order that is brought to the limit `L` without being sold out: the limit is below its rate, and what it charges for its share does not
buy more than it holds. -/
structure Brought (L : ℤ) (o : EncOrder) : Prop where
  fits : Fits o
  above : L < getLimit o
  share : equalizeByTargetAmount o L ≤ o.y
  fill : payout o (equalizeBySourceAmount o L) ≤ o.y

theorem equalize_anti (o : EncOrder) (hz : 0 ≤ o.z) {L L' : ℤ} (h : L ≤ L') : equalizeByTargetAmount o L' ≤ equalizeByTargetAmount o L := by
  unfold equalizeByTargetAmount
  split
  · rename_i hA
    rw [Int.fdiv_eq_ediv_of_nonneg _ hA.le, Int.fdiv_eq_ediv_of_nonneg _ hA.le]
    refine Int.ediv_le_ediv hA ?_
    have := mul_le_mul_of_nonneg_left h hz
    nlinarith
  · exact le_rfl

theorem equalize_nonneg {o : EncOrder} (hf : Fits o) {M : ℤ} (h : M ≤ getLimit o) : 0 ≤ equalizeByTargetAmount o M := by
  have hz := hf.z
  unfold getLimit at h
  rw [if_pos hz, Int.fdiv_eq_ediv_of_nonneg _ hz.le] at h
  have h1 : M * o.z ≤ o.y * decodeFloat o.A + o.z * decodeFloat o.B := (Int.le_ediv_iff_mul_le hz).1 h
  unfold equalizeByTargetAmount
  split
  · rename_i hA
    rw [Int.fdiv_eq_ediv_of_nonneg _ hA.le]
    exact Int.ediv_nonneg (by nlinarith) hA.le
  · exact hf.y

theorem payout_cap {o : EncOrder} (hf : Fits o) {e : ℤ} (he : 0 ≤ e) (h : payout o e ≤ o.y) : tradeBySourceAmount e o ≤ o.y := by
  have := (C03_payout_le_curve e o he hf.y hf.z.le).trans h
  exact_mod_cast this

theorem reduceInput_ge (o : EncOrder) (n m : ℕ) (h : n ≤ m) (hn : tradeBySourceAmount n o ≤ o.y) : n ≤ reduceInput o m := by
  induction m with
  | zero => omega
  | succ m ih =>
    unfold reduceInput
    rcases Nat.lt_or_ge m n with h1 | h1
    · have : n = m + 1 := by omega
      subst this
      rw [if_neg (not_lt.2 (by exact_mod_cast hn))]
    · split
      · exact ih h1
      · omega

theorem equalize_paid_nonneg (o : EncOrder) (L : ℤ) : 0 ≤ equalizeBySourceAmount o L := (C05_range _ o).2.1

theorem Brought.paid {o : EncOrder} {L : ℤ} (h : Brought L o) : Match.paid o L = equalizeBySourceAmount o L := by
  unfold Match.paid rateBySourceAmount
  dsimp only
  rw [if_neg (not_lt.2 (payout_cap h.fits (equalize_paid_nonneg o L) h.fill))]

/-- At a lower limit an order is paid no less. -/
theorem Brought.below {o : EncOrder} {L M : ℤ} (h : Brought L o) (hM : M ≤ L) : Match.paid o L ≤ Match.paid o M := by
  rw [h.paid]
  have hx := equalize_nonneg h.fits h.above.le
  unfold Match.paid rateBySourceAmount
  dsimp only
  split
  · have h1 : equalizeBySourceAmount o L ≤ tradeByTargetAmount o.y o := target_mono h.fits hx h.share
    have h0 := equalize_paid_nonneg o L
    have hcap := payout_cap h.fits h0 h.fill
    obtain ⟨n, hn⟩ := Int.eq_ofNat_of_zero_le h0
    rw [hn] at h1 hcap ⊢
    have := reduceInput_ge o n (tradeByTargetAmount o.y o).toNat (by omega) hcap
    dsimp only
    exact_mod_cast this
  · exact target_mono h.fits hx (equalize_anti o h.fits.z.le hM)

/-- At a higher limit, up to its rate, an order is paid no more. -/
theorem Brought.above' {o : EncOrder} {L M : ℤ} (h : Brought L o) (hM : L ≤ M) (hM' : M ≤ getLimit o) : Match.paid o M ≤ Match.paid o L := by
  rw [h.paid]
  have h1 : equalizeBySourceAmount o M ≤ equalizeBySourceAmount o L :=
    target_mono h.fits (equalize_nonneg h.fits hM') (equalize_anti o h.fits.z.le hM)
  have h2 : payout o (equalizeBySourceAmount o M) ≤ o.y :=
    (payout_mono o h.fits.a h.fits.z h.fits.pos (by exact_mod_cast equalize_paid_nonneg o M) (by exact_mod_cast h1)).trans h.fill
  unfold Match.paid rateBySourceAmount
  dsimp only
  rw [if_neg (not_lt.2 (payout_cap h.fits (equalize_paid_nonneg o M) h2))]
  exact h1

theorem sum_eq_of_le {α : Type} (l : List α) (f g : α → ℤ) (h : ∀ a ∈ l, f a ≤ g a) (e : (l.map f).sum = (l.map g).sum) : ∀ a ∈ l, f a = g a := by
  induction l with
  | nil => simp
  | cons a t ih =>
    simp only [List.map_cons, List.sum_cons] at e
    have h1 := h a List.mem_cons_self
    have h2 : (t.map f).sum ≤ (t.map g).sum := List.sum_le_sum fun b hb => h b (List.mem_cons_of_mem _ hb)
    intro b hb
    rcases List.mem_cons.1 hb with rfl | hb
    · omega
    · exact ih (fun b hb => h b (List.mem_cons_of_mem _ hb)) (by omega) b hb

theorem paid_below {l : List EncOrder} {L M : ℤ} (hb : ∀ o ∈ l, Brought L o) (hM : M ≤ L) :
    (l.map fun o => paid o L).sum ≤ (l.map fun o => paid o M).sum :=
  List.sum_le_sum fun o ho => (hb o ho).below hM

theorem paid_above {l : List EncOrder} {L M : ℤ} (hb : ∀ o ∈ l, Brought L o) (hM : L ≤ M) (hM' : ∀ o ∈ l, M ≤ getLimit o) :
    (l.map fun o => paid o M).sum ≤ (l.map fun o => paid o L).sum :=
  List.sum_le_sum fun o ho => (hb o ho).above' hM (hM' o ho)

theorem bisect_hit_source (amount : ℤ) (l : List EncOrder) (L : ℤ) (hb : ∀ o ∈ l, Brought L o) (hL : (l.map fun o => paid o L).sum = amount)
    (fuel : ℕ) (lo hi : ℤ) (h1 : lo < L) (h2 : L < hi) (hhi : ∀ o ∈ l, hi ≤ getLimit o) (hfuel : hi - lo ≤ fuel) (rates : List Rate) (delta : ℤ) :
    bestBisect amount rateBySourceAmount equalizeBySourceAmount l fuel lo hi rates delta =
      (l.map fun o => ⟨paid o L, tradeBySourceAmount (paid o L) o⟩, 0) := by
  induction fuel generalizing lo hi rates delta with
  | zero => omega
  | succ n ih =>
    unfold bestBisect
    rw [if_pos (by omega)]
    dsimp only
    have hm : (lo + hi).fdiv 2 = (lo + hi) / 2 := Int.fdiv_eq_ediv_of_nonneg _ (by norm_num)
    rw [hm, total_paid]
    generalize hM : (lo + hi) / 2 = M
    have hMl : ∀ o ∈ l, M ≤ getLimit o := fun o ho => le_trans (by omega) (hhi o ho)
    by_cases hgt : (l.map fun o => paid o M).sum - amount > 0
    · rw [if_pos hgt]
      have : M < L := by
        by_contra hcon
        have := paid_above hb (not_lt.1 hcon) hMl
        omega
      exact ih M hi this h2 hhi (by omega) _ _
    · rw [if_neg hgt]
      by_cases hlt : (l.map fun o => paid o M).sum - amount < 0
      · rw [if_pos hlt]
        have : L < M := by
          by_contra hcon
          have := paid_below hb (not_lt.1 hcon)
          omega
        exact ih lo M h1 this hMl (by omega) _ _
      · rw [if_neg hlt]
        have he : (l.map fun o => paid o M).sum = (l.map fun o => paid o L).sum := by omega
        have hs : ∀ o ∈ l, paid o M = paid o L := by
          rcases le_total L M with hle | hle
          · exact sum_eq_of_le l _ _ (fun o ho => (hb o ho).above' hle (hMl o ho)) he
          · exact fun o ho => (sum_eq_of_le l _ _ (fun o ho => (hb o ho).below hle) he.symm o ho).symm
        rw [rates_paid l fun o ho => (hb o ho).fits.y]
        refine Prod.ext ?_ (by simp only; omega)
        exact List.map_congr_left fun o ho => by rw [hs o ho]

theorem scan_hit_source (amount : ℤ) (L : ℤ) (done todo rest : List EncOrder) (hne : rest ≠ []) (hb : ∀ o ∈ done ++ todo, Brought L o)
    (hsort : (done ++ todo).Pairwise fun o o' => getLimit o' ≤ getLimit o)
    (hL : ((done ++ todo).map fun o => paid o L).sum = amount) (hpos : ∀ o ∈ todo, 0 < paid o L) :
    ∃ o t, rest = o :: t ∧ (getLimit o ≤ L → bestScan amount rateBySourceAmount equalizeBySourceAmount done (todo ++ rest) =
      some (done ++ todo, getLimit o, ratesAt rateBySourceAmount equalizeBySourceAmount (done ++ todo) (getLimit o),
        ((done ++ todo).map fun o' => paid o' (getLimit o)).sum - amount)) := by
  obtain ⟨o, t, rfl⟩ := List.exists_cons_of_ne_nil hne
  refine ⟨o, t, rfl, fun ho => ?_⟩
  induction todo generalizing done with
  | nil =>
    simp only [List.append_nil, List.nil_append] at *
    unfold bestScan
    dsimp only
    rw [total_paid]
    have := paid_below hb ho
    rw [if_pos (by omega)]
  | cons a u ih =>
    simp only [List.cons_append]
    unfold bestScan
    dsimp only
    rw [total_paid]
    have hbd : ∀ x ∈ done, Brought L x := fun x hx => hb x (List.mem_append_left _ hx)
    have hba : Brought L a := hb a (by simp)
    have h1 := paid_above hbd hba.above.le fun x hx => (List.pairwise_append.1 hsort).2.2 x hx a List.mem_cons_self
    have h2 : 0 < paid a L := hpos a List.mem_cons_self
    have h3 : 0 ≤ (u.map fun o => paid o L).sum :=
      List.sum_nonneg fun x hx => by
        obtain ⟨o', ho', rfl⟩ := List.mem_map.1 hx
        exact (hpos o' (List.mem_cons_of_mem _ ho')).le
    have h4 : (done.map fun o => paid o L).sum + (paid a L + (u.map fun o => paid o L).sum) = amount := by
      rw [← hL]; simp
    rw [if_neg (by omega)]
    have := ih (done ++ [a]) (by simpa using hb) (by simpa using hsort) (by simpa using hL) (fun x hx => hpos x (List.mem_cons_of_mem _ hx))
    simp only [List.append_assoc, List.cons_append, List.nil_append] at this
    rw [this]

/-- C170: the best match by source finds the rate at which the orders are cleared, if there is one. Let `L` be a limit to which the first orders,
which come in the order of their rates, are brought by payments that sum to the amount, and let the orders that follow be below it. Then these are
the payments of the match. -/
theorem C170_finds_rate (amount L : ℤ) (hL0 : 0 < L) (d r : List EncOrder) (hne : d ≠ []) (hb : ∀ o ∈ d, Brought L o)
    (hsort : d.Pairwise fun o o' => getLimit o' ≤ getLimit o) (hL : (d.map fun o => equalizeBySourceAmount o L).sum = amount)
    (hpos : ∀ o ∈ d, 0 < equalizeBySourceAmount o L) (hr : ∀ o ∈ r, getLimit o < L) :
    matchBestRates amount (d ++ r) rateBySourceAmount equalizeBySourceAmount =
      .ok (d.map fun o => ⟨equalizeBySourceAmount o L, tradeBySourceAmount (equalizeBySourceAmount o L) o⟩) := by
  have epaid : ∀ o ∈ d, paid o L = equalizeBySourceAmount o L := fun o ho => (hb o ho).paid
  have hL : (d.map fun o => paid o L).sum = amount := by rw [List.map_congr_left epaid, hL]
  have hpos : ∀ o ∈ d, 0 < paid o L := fun o ho => by rw [epaid o ho]; exact hpos o ho
  have egoal : (d.map fun o => (⟨equalizeBySourceAmount o L, tradeBySourceAmount (equalizeBySourceAmount o L) o⟩ : Rate)) =
      d.map fun o => ⟨paid o L, tradeBySourceAmount (paid o L) o⟩ := List.map_congr_left fun o ho => by rw [epaid o ho]
  rw [egoal]
  clear egoal epaid
  obtain ⟨a, u, rfl⟩ := List.exists_cons_of_ne_nil hne
  obtain ⟨o, t, hrest, hscan⟩ := scan_hit_source amount L [a] u (r ++ [sentinel]) (by simp) (by simpa using hb) (by simpa using hsort)
    (by simpa using hL) (fun o ho => hpos o (List.mem_cons_of_mem _ ho))
  have ho : getLimit o < L := by
    cases r with
    | nil =>
      have : sentinel = o := by simpa using (List.cons.inj hrest).1
      rw [← this]
      exact hL0
    | cons b v =>
      have : b = o := (List.cons.inj hrest).1
      rw [← this]
      exact hr b List.mem_cons_self
  have hscan := hscan ho.le
  simp only [List.cons_append, List.nil_append] at hscan
  unfold matchBestRates
  simp only [List.cons_append, List.append_assoc]
  rw [hscan]
  dsimp only
  have hll : lastLimit (a :: u) = getLimit ((a :: u).getLast (by simp)) := by
    unfold lastLimit
    rw [List.getLast?_eq_some_getLast (by simp)]
  have hlast : L < lastLimit (a :: u) := by
    rw [hll]
    exact (hb _ (List.getLast_mem (by simp))).above
  have hmin : ∀ o ∈ a :: u, lastLimit (a :: u) ≤ getLimit o := by
    intro x hx
    rw [hll]
    have hsplit := List.dropLast_append_getLast (l := a :: u) (by simp)
    rw [← hsplit] at hsort hx
    rcases List.mem_append.1 hx with hx | hx
    · exact (List.pairwise_append.1 hsort).2.2 x hx _ (by simp)
    · rw [List.mem_singleton.1 hx]
  have hge := paid_below hb ho.le
  have hz0 : ∀ e : List Rate, (if (0 : ℤ) > 0 then ((bestReduce rateBySourceAmount ((a :: u).zip e).reverse 0).reverse).map Prod.snd
      else if (0 : ℤ) < 0 then (bestIncrease rateBySourceAmount ((a :: u).zip e) 0).map Prod.snd else e) = e := fun e => by simp
  by_cases hgt : ((a :: u).map fun o' => paid o' (getLimit o)).sum - amount > 0
  · rw [if_pos hgt, bisect_hit_source amount (a :: u) L hb hL _ _ _ ho hlast hmin (by omega)]
    dsimp only
    rw [hz0]
  · rw [if_neg hgt]
    have he : ((a :: u).map fun o' => paid o' L).sum = ((a :: u).map fun o' => paid o' (getLimit o)).sum := by omega
    have h0 : ((a :: u).map fun o' => paid o' (getLimit o)).sum - amount = 0 := by omega
    have hs := sum_eq_of_le (a :: u) _ _ (fun x hx => (hb x hx).below ho.le) he
    simp only [h0]
    rw [hz0, rates_paid (a :: u) fun x hx => (hb x hx).fits.y]
    exact congrArg Except.ok (List.map_congr_left fun x hx => by rw [hs x hx])

theorem mapM_length {orders : List EncOrder} {quotes : List Quote} {s : List EncOrder}
    (hq : quotes.mapM (fun q => lookup orders q.id) = .ok s) : quotes.length = s.length := by
  induction quotes generalizing s with
  | nil => cases hq; rfl
  | cons q t ih =>
    rw [List.mapM_cons, Py.bind_eq_ok] at hq
    obtain ⟨a, _, hq⟩ := hq
    rw [Py.bind_eq_ok] at hq
    obtain ⟨b, hb, hq⟩ := hq
    cases hq
    simp [ih hb]

/-- C170: the best match by source, with the default filter, where there is a clearing rate. The orders `d` that can be brought to the limit `L`
are quoted first and in the order of their rates, the orders `r` below the limit follow; the payments that bring `d` to the limit sum to the
amount. Then the match makes these payments, the amount in full, and no other payments `g` of at most the amount, for which the orders hold enough,
buy more than is stated. `e` bounds the relative step of the stored rates. -/
theorem C170_best_match (amount L : ℤ) (hL0 : 0 < L) (e : ℚ) (orders : List EncOrder) (quotes : List Quote) (d r : List EncOrder)
    (hq : quotes.mapM (fun q => lookup orders q.id) = .ok (d ++ r)) (hne : d ≠ []) (hb : ∀ o ∈ d, Brought L o)
    (hsort : d.Pairwise fun o o' => getLimit o' ≤ getLimit o) (hL : (d.map fun o => equalizeBySourceAmount o L).sum = amount)
    (hpos : ∀ o ∈ d, 0 < equalizeByTargetAmount o L ∧ equalizeBySourceAmount o L < 2 ^ 128 - 1 ∧
      0 < tradeBySourceAmount (equalizeBySourceAmount o L) o)
    (hr : ∀ o ∈ r, Fits o ∧ getLimit o < L)
    (hbook : ∀ o ∈ d ++ r, o.y ≤ 2 ^ 128 ∧ o.y ≤ o.z ∧ 1 / (2 ^ 48 * (wordValue o.A + wordValue o.B)) ≤ e) :
    ∃ acts, matchBest amount orders quotes defaultFilter rateBySourceAmount equalizeBySourceAmount = .ok acts ∧
      (acts.map Action.input).sum = amount ∧
      ∀ g : List ℤ, g.length = (d ++ r).length → (∀ p ∈ (d ++ r).zip g, 0 ≤ p.2 ∧ tradeBySourceAmount p.2 p.1 ≤ p.1.y) → g.sum ≤ amount →
        (((((d ++ r).zip g).map fun p => tradeBySourceAmount p.2 p.1).sum : ℤ) : ℚ) ≤
          (1 + e) * (((acts.map Action.output).sum : ℤ) + 4 * (d ++ r).length) + (d ++ r).length * (1 + 4 * (L / 2 ^ 48 : ℚ) ^ 2) := by
  have hpay : ∀ o ∈ d, 0 < equalizeBySourceAmount o L := fun o ho =>
    target_quote_pos _ o (hpos o ho).1 (hb o ho).fits.z
  have hrates := C170_finds_rate amount L hL0 d r hne hb hsort hL hpay fun o ho => (hr o ho).2
  have hlen : d.length ≤ quotes.length := by rw [mapM_length hq]; simp
  have hall : ∀ p ∈ quotes.zip (d.map fun o => (⟨equalizeBySourceAmount o L, tradeBySourceAmount (equalizeBySourceAmount o L) o⟩ : Rate)),
      defaultFilter p.2 = true := by
    intro p hp
    obtain ⟨o, ho, he⟩ := List.mem_map.1 (List.of_mem_zip hp).2
    rw [← he]
    simp [defaultFilter, hpay o ho, (hpos o ho).2.2]
  refine ⟨_, by unfold matchBest; rw [hq]; simp only [Py.ok_bind, hrates]; rfl, ?_, ?_⟩
  · rw [List.filter_eq_self.2 hall, List.map_map]
    have e : (Action.input ∘ fun p : Quote × Rate => (⟨p.1.id, p.2.input, p.2.output⟩ : Action)) = Rate.input ∘ Prod.snd := rfl
    rw [e, ← List.map_map, List.map_snd_zip (by simpa using hlen), List.map_map, ← hL]
    rfl
  · intro g hg hgq hgs
    rw [List.filter_eq_self.2 hall, List.map_map]
    have e' : (Action.output ∘ fun p : Quote × Rate => (⟨p.1.id, p.2.input, p.2.output⟩ : Action)) = Rate.output ∘ Prod.snd := rfl
    rw [e', ← List.map_map, List.map_snd_zip (by simpa using hlen), List.map_map]
    have hlq : (0 : ℚ) < L / 2 ^ 48 := div_pos (by exact_mod_cast hL0) (by positivity)
    let take : EncOrder → ℤ := fun o => if L < getLimit o then equalizeByTargetAmount o L else 0
    have htd : ∀ o ∈ d, take o = equalizeByTargetAmount o L := fun o ho => if_pos (hb o ho).above
    have htr : ∀ o ∈ r, take o = 0 := fun o ho => if_neg (not_lt.2 (hr o ho).2.le)
    have hcd : ∀ o ∈ d, charge o (take o) = equalizeBySourceAmount o L := fun o ho => by
      have := (hpos o ho).1
      rw [htd o ho]
      simp [charge, this.ne', equalizeBySourceAmount]
    have hcr : ∀ o ∈ r, charge o (take o) = 0 := fun o ho => by simp [charge, htr o ho]
    have main := C170_most_output (L / 2 ^ 48) e hlq (((d ++ r).zip g).map fun p => (p.1, take p.1, p.2)) ?_ ?_ ?_
    · simp only [List.map_map, List.length_map] at main
      have e2 : ((d ++ r).zip g).length = (d ++ r).length := by simp [List.length_zip, hg]
      have e1 : (((d ++ r).zip g).map ((fun p : EncOrder × ℤ × ℤ => tradeBySourceAmount (charge p.1 p.2.1) p.1) ∘
          fun p => (p.1, take p.1, p.2))).sum =
          (d.map (Rate.output ∘ fun o => (⟨equalizeBySourceAmount o L, tradeBySourceAmount (equalizeBySourceAmount o L) o⟩ : Rate))).sum := by
        have : ((fun p : EncOrder × ℤ × ℤ => tradeBySourceAmount (charge p.1 p.2.1) p.1) ∘ fun p : EncOrder × ℤ => (p.1, take p.1, p.2)) =
            (fun o => tradeBySourceAmount (charge o (take o)) o) ∘ Prod.fst := rfl
        rw [this, ← List.map_map, List.map_fst_zip (by omega), List.map_append, List.sum_append]
        have hrz : (r.map fun o => tradeBySourceAmount (charge o (take o)) o).sum = 0 := by
          refine List.sum_eq_zero fun x hx => ?_
          obtain ⟨o, ho, rfl⟩ := List.mem_map.1 hx
          rw [hcr o ho]
          exact C05_nonpositive_source 0 o le_rfl
        rw [hrz, add_zero]
        refine congrArg List.sum (List.map_congr_left fun o ho => ?_)
        rw [hcd o ho]
        rfl
      rw [e1, e2] at main
      exact main
    · intro p hp
      obtain ⟨⟨o, x⟩, hm, rfl⟩ := List.mem_map.1 hp
      have ho := (List.of_mem_zip hm).1
      obtain ⟨k1, k2, k3⟩ := hbook o ho
      rcases List.mem_append.1 ho with hod | hor
      · have hf := (hb o hod).fits
        refine ⟨hf.z, hf.y, k1, hf.a, hf.pos, ?_, ?_, hgq _ hm⟩
        · simp only [htd o hod]
          exact ⟨(hpos o hod).1.le, (hb o hod).share, fun _ => (hpos o hod).2.1⟩
        · simp only [htd o hod]
          have := share_cleared o L hf.a
          unfold share at this
          rwa [min_eq_left (hb o hod).share] at this
      · have hf := (hr o hor).1
        refine ⟨hf.z, hf.y, k1, hf.a, hf.pos, ?_, ?_, hgq _ hm⟩
        · simp only [htr o hor]
          exact ⟨le_rfl, hf.y, fun h => absurd rfl h⟩
        · simp only [htr o hor]
          exact below_cleared o L hf.z (hr o hor).2
    · intro p hp
      obtain ⟨⟨o, x⟩, hm, rfl⟩ := List.mem_map.1 hp
      have ho := (List.of_mem_zip hm).1
      obtain ⟨k1, k2, k3⟩ := hbook o ho
      refine ⟨k2, k3, fun hx => ?_⟩
      rcases List.mem_append.1 ho with hod | hor
      · simp only [hcd o hod]
        exact ⟨(hb o hod).fill, (hpos o hod).2.2.ne'⟩
      · exact absurd (htr o hor) hx
    · simp only [List.map_map]
      have e1 : ((fun p : EncOrder × ℤ × ℤ => charge p.1 p.2.1) ∘ fun p : EncOrder × ℤ => (p.1, take p.1, p.2)) =
          (fun o => charge o (take o)) ∘ Prod.fst := rfl
      have e2 : ((fun p : EncOrder × ℤ × ℤ => p.2.2) ∘ fun p : EncOrder × ℤ => (p.1, take p.1, p.2)) = Prod.snd := rfl
      rw [e1, e2, ← List.map_map, List.map_fst_zip (by omega), List.map_snd_zip (by omega), List.map_append, List.sum_append]
      have hrz : (r.map fun o => charge o (take o)).sum = 0 := List.sum_eq_zero fun x hx => by
        obtain ⟨o, ho, rfl⟩ := List.mem_map.1 hx
        exact hcr o ho
      rw [hrz, add_zero, List.map_congr_left hcd, hL]
      exact hgs

/-! ### Non-vacuity -/

/-- The quotes of the book of `C162` for 188 units. -/
def clearQuotes : List Quote :=
  [⟨0, rateBySourceAmount 188 clearBook[0]⟩, ⟨1, rateBySourceAmount 188 clearBook[1]⟩, ⟨2, rateBySourceAmount 188 clearBook[2]⟩]

theorem clear_fits : ∀ o ∈ clearBook, Fits o := by
  have h : ∀ o ∈ clearBook, 0 < o.z ∧ 0 ≤ o.y ∧ wordValue o.A ≠ 0 ∧
      (wordValue o.A * (0 : ℤ) < wordValue o.A * o.y + wordValue o.B * o.z ∧ (o.z : ℚ) ^ 2 * 2 ^ 96 ≤ 2 ^ 256 - 1 ∧
      (wordValue o.A * o.y + wordValue o.B * o.z) * (wordValue o.A * o.y + wordValue o.B * o.z - wordValue o.A * (0 : ℤ)) * 2 ^ 96 ≤ 2 ^ 256 - 1 ∧
      (wordValue o.A * o.y + wordValue o.B * o.z) * 2 ^ 96 ≤ 2 ^ 256 - 1) := by decide +kernel
  exact fun o ho => ⟨(h o ho).1, (h o ho).2.1, (h o ho).2.2.1, (h o ho).2.2.2⟩

theorem clear_brought : ∀ o ∈ clearBook.take 2, Brought (15 * 2 ^ 44) o := by
  have h : ∀ o ∈ clearBook.take 2, (15 * 2 ^ 44 : ℤ) < getLimit o ∧ equalizeByTargetAmount o (15 * 2 ^ 44) ≤ o.y ∧
      payout o (equalizeBySourceAmount o (15 * 2 ^ 44)) ≤ o.y := by decide +kernel
  exact fun o ho => ⟨clear_fits o (List.mem_of_mem_take ho), (h o ho).1, (h o ho).2.1, (h o ho).2.2⟩

/-- The hypotheses of `C170_best_match` for 188 units; the match pays 134 and 54 units and buys 175. -/
example : matchBest 188 clearBook clearQuotes defaultFilter rateBySourceAmount equalizeBySourceAmount = .ok [⟨0, 134, 125⟩, ⟨1, 54, 50⟩] ∧
    ∀ g : List ℤ, g.length = 3 → (∀ p ∈ clearBook.zip g, 0 ≤ p.2 ∧ tradeBySourceAmount p.2 p.1 ≤ p.1.y) → g.sum ≤ 188 →
      ((((clearBook.zip g).map fun p => tradeBySourceAmount p.2 p.1).sum : ℤ) : ℚ) ≤
        (1 + 1 / 2 ^ 47) * (175 + 4 * 3) + 3 * (1 + 4 * (15 / 16) ^ 2) := by
  have hm : matchBest 188 clearBook clearQuotes defaultFilter rateBySourceAmount equalizeBySourceAmount = .ok [⟨0, 134, 125⟩, ⟨1, 54, 50⟩] := by
    decide +kernel
  obtain ⟨acts, h1, _, h3⟩ := C170_best_match 188 (15 * 2 ^ 44) (by norm_num) (1 / 2 ^ 47) clearBook clearQuotes (clearBook.take 2) (clearBook.drop 2)
    (by decide +kernel) (by decide +kernel) clear_brought (by decide +kernel) (by decide +kernel) (by decide +kernel)
    (fun o ho => ⟨clear_fits o (List.mem_of_mem_drop ho), by revert o; decide +kernel⟩) (by decide +kernel)
  refine ⟨hm, fun g g1 g2 g3 => ?_⟩
  rw [hm] at h1
  cases h1
  have := h3 g g1 (by simpa using g2) g3
  have e : (((15 * 2 ^ 44 : ℤ) : ℚ) / 2 ^ 48) = 15 / 16 := by norm_num
  rw [e] at this
  simpa [clearBook] using this

end Carbon.Prop.Match
