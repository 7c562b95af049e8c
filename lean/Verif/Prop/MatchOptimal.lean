import Verif.Prop.MatchCompare

/-!
# C162: orders that are brought to one marginal rate are matched at the least cost
-/

namespace Carbon.Prop.Match

open Carbon Carbon.Bench Carbon.Spec Carbon.Prop.Trade

/-! ### The curve -/

/-- The square root of the marginal rate of an order, times its capacity, after `x` units have been taken. -/
def left (o : EncOrder) (x : ℚ) : ℚ := wordValue o.A * o.y + wordValue o.B * o.z - wordValue o.A * x

/-- The exact price of `x` units. -/
def price (o : EncOrder) (x : ℚ) : ℚ := curveIn x o.y o.z (wordValue o.A) (wordValue o.B)

/-- What `f` units cost more than `x` units. -/
theorem price_diff (o : EncOrder) (ha : wordValue o.A ≠ 0) (x f : ℚ) (h0 : left o 0 ≠ 0) (hx : left o x ≠ 0) (hf : left o f ≠ 0) :
    price o f - price o x = (f - x) * (o.z : ℚ) ^ 2 / (left o x * left o f) := by
  unfold price curveIn
  rw [if_neg ha, if_neg ha]
  have h0' : wordValue o.A * o.y + wordValue o.B * o.z ≠ 0 := by simpa [left] using h0
  change f * (o.z : ℚ) ^ 2 / ((wordValue o.A * o.y + wordValue o.B * o.z) * left o f) -
    x * (o.z : ℚ) ^ 2 / ((wordValue o.A * o.y + wordValue o.B * o.z) * left o x) = _
  rw [div_sub_div _ _ (mul_ne_zero h0' hf) (mul_ne_zero h0' hx), div_eq_div_iff (by positivity) (mul_ne_zero hx hf)]
  simp only [left]
  ring

/-- An order cleared at the square root `l` of a rate by taking `x` units: the marginal rate has not fallen below the rate, and the order is
sold out or would with the next unit; or nothing was taken as the marginal rate is below already. -/
def Cleared (l : ℚ) (o : EncOrder) (x : ℤ) : Prop :=
  (l * o.z ≤ left o x ∧ x ≤ o.y ∧ (x = o.y ∨ left o (x + 1) ≤ l * o.z)) ∨ (x = 0 ∧ left o 0 ≤ l * o.z)

theorem left_anti (o : EncOrder) {x f : ℚ} (h : x ≤ f) : left o f ≤ left o x := by
  have := mul_le_mul_of_nonneg_left h (wordValue_nonneg o.A)
  unfold left
  linarith

theorem cleared_bound (l : ℚ) (hl : 0 < l) (o : EncOrder) (x f : ℤ) (hz : 0 < o.z) (ha : wordValue o.A ≠ 0) (hx : 0 ≤ x) (hf0 : 0 ≤ f)
    (hfy : f ≤ o.y) (hf' : f = 0 ∨ 0 < left o f) (hc : Cleared l o x) :
    (f - x : ℚ) / l ^ 2 - 1 / l ^ 2 ≤ price o f - price o x := by
  by_cases hff : f = 0 ∧ x = 0
  · obtain ⟨rfl, rfl⟩ := hff
    have : 0 ≤ 1 / l ^ 2 := by positivity
    simp only [sub_self, zero_div]
    linarith
  have hzq : (0 : ℚ) < o.z := by exact_mod_cast hz
  have hxq : (0 : ℚ) ≤ x := by exact_mod_cast hx
  have hfq : (0 : ℚ) ≤ f := by exact_mod_cast hf0
  have hl2 : 0 < l ^ 2 := by positivity
  have hlz : 0 < l * o.z := by positivity
  have hf : 0 < left o f := by
    rcases hf' with rfl | h
    · rcases hc with ⟨h1, _, _⟩ | ⟨h1, _⟩
      · exact lt_of_lt_of_le hlz (h1.trans (left_anti o (by simpa using hxq)))
      · exact absurd ⟨rfl, h1⟩ hff
    · exact h
  have h0 : 0 < left o 0 := lt_of_lt_of_le hf (left_anti o hfq)
  have key : ∀ u v : ℚ, l * o.z ≤ u → l * o.z ≤ v → ∀ d : ℚ, d ≤ 0 → d / l ^ 2 ≤ d * (o.z : ℚ) ^ 2 / (u * v) := by
    intro u v hu hv d hd
    have huv : (l * o.z) * (l * o.z) ≤ u * v := mul_le_mul hu hv hlz.le (hlz.le.trans hu)
    have : 0 < u * v := lt_of_lt_of_le (by positivity) huv
    rw [div_le_div_iff₀ hl2 this]
    nlinarith [mul_le_mul_of_nonpos_left huv hd]
  have key' : ∀ u v : ℚ, 0 < u → 0 < v → u ≤ l * o.z → v ≤ l * o.z → ∀ d : ℚ, 0 ≤ d → d / l ^ 2 ≤ d * (o.z : ℚ) ^ 2 / (u * v) := by
    intro u v hu0 hv0 hu hv d hd
    have huv : u * v ≤ (l * o.z) * (l * o.z) := mul_le_mul hu hv hv0.le hlz.le
    rw [div_le_div_iff₀ hl2 (mul_pos hu0 hv0)]
    nlinarith [mul_le_mul_of_nonneg_left huv hd]
  have hone : 0 ≤ 1 / l ^ 2 := by positivity
  rcases hc with ⟨h1, h2, h3⟩ | ⟨rfl, h1⟩
  · have hx0 : 0 < left o x := lt_of_lt_of_le hlz h1
    by_cases hfx : f ≤ x
    · have hfxq : (f : ℚ) ≤ x := by exact_mod_cast hfx
      rw [price_diff o ha x f h0.ne' hx0.ne' hf.ne']
      have := key (left o x) (left o f) h1 (h1.trans (left_anti o hfxq)) (f - x) (by linarith)
      linarith
    · have hne : x ≠ o.y := by omega
      have h3 : left o (x + 1) ≤ l * o.z := h3.resolve_left hne
      have hfx1 : ((x : ℚ) + 1) ≤ f := by exact_mod_cast (by omega : x + 1 ≤ f)
      have hw : 0 < left o (x + 1) := lt_of_lt_of_le hf (left_anti o hfx1)
      have e1 := price_diff o ha (x + 1) f h0.ne' hw.ne' hf.ne'
      have e2 := price_diff o ha x (x + 1) h0.ne' hx0.ne' hw.ne'
      have b1 := key' (left o (x + 1)) (left o f) hw hf h3 ((left_anti o hfx1).trans h3) (f - (x + 1)) (by linarith)
      have b2 : 0 ≤ ((x : ℚ) + 1 - x) * (o.z : ℚ) ^ 2 / (left o x * left o (x + 1)) := by
        have : (x : ℚ) + 1 - x = 1 := by ring
        rw [this]; positivity
      have b3 : ((f : ℚ) - (x + 1)) / l ^ 2 = (f - x : ℚ) / l ^ 2 - 1 / l ^ 2 := by ring
      linarith
  · have hf' : left o f ≤ l * o.z := (left_anti o hfq).trans h1
    have e := price_diff o ha 0 f h0.ne' h0.ne' hf.ne'
    have b := key' (left o 0) (left o f) h0 hf h1 hf' (f - 0) (by linarith)
    simp only [Int.cast_zero] at *
    linarith

/-- What is charged for an amount taken from an order; nothing if nothing is taken. -/
def charge (o : EncOrder) (x : ℤ) : ℤ := if x = 0 then 0 else tradeByTargetAmount x o

/-- An amount that an order can give and quotes a charge for. -/
def Quotes (o : EncOrder) (x : ℤ) : Prop := 0 ≤ x ∧ x ≤ o.y ∧ (x ≠ 0 → tradeByTargetAmount x o < 2 ^ 128 - 1)

theorem price_zero (o : EncOrder) : price o 0 = 0 := by
  unfold price curveIn
  split <;> simp

/-- C162: orders cleared at one rate are matched at the least cost: whatever other amounts are taken from the orders, if they are together no
less and the orders quote them, the orders charge at most four units and the price of one unit per order less for them. -/
theorem C162_least_cost (l : ℚ) (hl : 0 < l) (book : List (EncOrder × ℤ × ℤ))
    (hb : ∀ p ∈ book, 0 < p.1.z ∧ p.1.y ≤ 2 ^ 128 ∧ wordValue p.1.A ≠ 0 ∧ Quotes p.1 p.2.1 ∧ Cleared l p.1 p.2.1 ∧ Quotes p.1 p.2.2)
    (hsum : (book.map fun p => p.2.1).sum ≤ (book.map fun p => p.2.2).sum) :
    (((book.map fun p => charge p.1 p.2.1).sum : ℤ) : ℚ) ≤
      ((book.map fun p => charge p.1 p.2.2).sum : ℤ) + book.length * (4 + 1 / l ^ 2) := by
  have hl2 : 0 < l ^ 2 := by positivity
  suffices h : (((book.map fun p => charge p.1 p.2.1).sum : ℤ) : ℚ) +
      ((((book.map fun p => p.2.2).sum : ℤ) : ℚ) - ((book.map fun p => p.2.1).sum : ℤ)) / l ^ 2 ≤
      ((book.map fun p => charge p.1 p.2.2).sum : ℤ) + book.length * (4 + 1 / l ^ 2) by
    have : 0 ≤ ((((book.map fun p => p.2.2).sum : ℤ) : ℚ) - ((book.map fun p => p.2.1).sum : ℤ)) / l ^ 2 := by
      refine div_nonneg (sub_nonneg.2 ?_) hl2.le
      exact_mod_cast hsum
    linarith
  clear hsum
  induction book with
  | nil => simp
  | cons p t ih =>
    obtain ⟨h1, h2, h3, ⟨h4, h5, h7⟩, h6, h8, h9, h10⟩ := hb p List.mem_cons_self
    have iht := ih fun q hq => hb q (List.mem_cons_of_mem _ hq)
    have c1 : (charge p.1 p.2.1 : ℚ) ≤ price p.1 p.2.1 + 4 := by
      unfold charge
      split
      · rename_i h; rw [h]; simp [price_zero]
      · rename_i h; exact C56_target_accuracy p.2.1 p.1 h3 (by omega) (h7 h)
    have c2 : price p.1 p.2.2 ≤ (charge p.1 p.2.2 : ℚ) ∧ (p.2.2 = 0 ∨ 0 < left p.1 p.2.2) := by
      unfold charge
      split
      · rename_i h; rw [h]; simp [price_zero]
      · rename_i h
        obtain ⟨c2, _, c3⟩ := C04_cost_ge_curve p.2.2 p.1 (h10 h)
        exact ⟨c2, Or.inr (by have := (c3 h3).2; unfold left; linarith)⟩
    have b := cleared_bound l hl p.1 p.2.1 p.2.2 h1 h3 h4 h8 h9 c2.2 h6
    have c2 := c2.1
    simp only [List.map_cons, List.sum_cons, List.length_cons]
    push_cast
    have e : ((p.2.2 : ℚ) + ((t.map fun p => p.2.2).sum : ℤ) - (p.2.1 + ((t.map fun p => p.2.1).sum : ℤ))) / l ^ 2 =
        (p.2.2 - p.2.1 : ℚ) / l ^ 2 + ((((t.map fun p => p.2.2).sum : ℤ) : ℚ) - ((t.map fun p => p.2.1).sum : ℤ)) / l ^ 2 := by ring
    rw [e]
    linarith

/-! ### The search for the rate -/

/-- The share of an order at a limit. -/
def share (o : EncOrder) (L : ℤ) : ℤ := min (equalizeByTargetAmount o L) o.y

theorem rates_share (l : List EncOrder) (L : ℤ) :
    ratesAt rateByTargetAmount equalizeByTargetAmount l L = l.map fun o => ⟨share o L, tradeByTargetAmount (share o L) o⟩ := rfl

theorem total_share (l : List EncOrder) (L : ℤ) :
    totalInput (ratesAt rateByTargetAmount equalizeByTargetAmount l L) = (l.map fun o => share o L).sum := by
  rw [rates_share]
  unfold totalInput
  rw [List.map_map]
  rfl

theorem share_anti (o : EncOrder) (hz : 0 ≤ o.z) {L L' : ℤ} (h : L ≤ L') : share o L' ≤ share o L := by
  unfold share equalizeByTargetAmount
  split
  · rename_i hA
    refine min_le_min ?_ le_rfl
    rw [Int.fdiv_eq_ediv_of_nonneg _ hA.le, Int.fdiv_eq_ediv_of_nonneg _ hA.le]
    refine Int.ediv_le_ediv hA ?_
    have := mul_le_mul_of_nonneg_left h hz
    nlinarith
  · exact le_rfl

theorem shares_anti (l : List EncOrder) (hz : ∀ o ∈ l, 0 ≤ o.z) {L L' : ℤ} (h : L ≤ L') :
    (l.map fun o => share o L').sum ≤ (l.map fun o => share o L).sum :=
  List.sum_le_sum fun o ho => share_anti o (hz o ho) h

/-- Limits with the same total give the same shares. -/
theorem shares_eq (l : List EncOrder) (hz : ∀ o ∈ l, 0 ≤ o.z) {L L' : ℤ}
    (h : (l.map fun o => share o L).sum = (l.map fun o => share o L').sum) : ∀ o ∈ l, share o L = share o L' := by
  revert h
  suffices main : ∀ {L L' : ℤ}, L ≤ L' → (l.map fun o => share o L).sum = (l.map fun o => share o L').sum → ∀ o ∈ l, share o L = share o L' by
    intro h
    rcases le_total L L' with hL | hL
    · exact main hL h
    · exact fun o ho => (main hL h.symm o ho).symm
  clear L L'
  · intro L L' hL h
    induction l with
    | nil => simp
    | cons a t ih =>
      simp only [List.map_cons, List.sum_cons] at h
      have h1 := share_anti a (hz a List.mem_cons_self) hL
      have h2 := shares_anti t (fun o ho => hz o (List.mem_cons_of_mem _ ho)) hL
      intro o ho
      rcases List.mem_cons.1 ho with rfl | ho
      · omega
      · exact ih (fun o ho => hz o (List.mem_cons_of_mem _ ho)) (by omega) o ho

theorem bisect_hit (amount : ℤ) (l : List EncOrder) (hz : ∀ o ∈ l, 0 ≤ o.z) (L : ℤ) (hL : (l.map fun o => share o L).sum = amount)
    (fuel : ℕ) (lo hi : ℤ) (h1 : lo < L) (h2 : L < hi) (hfuel : hi - lo ≤ fuel) (rates : List Rate) (delta : ℤ) :
    bestBisect amount rateByTargetAmount equalizeByTargetAmount l fuel lo hi rates delta =
      (l.map fun o => ⟨share o L, tradeByTargetAmount (share o L) o⟩, 0) := by
  induction fuel generalizing lo hi rates delta with
  | zero => omega
  | succ n ih =>
    unfold bestBisect
    rw [if_pos (by omega)]
    dsimp only
    have hm : (lo + hi).fdiv 2 = (lo + hi) / 2 := Int.fdiv_eq_ediv_of_nonneg _ (by norm_num)
    rw [hm, total_share]
    generalize hM : (lo + hi) / 2 = M
    by_cases hgt : (l.map fun o => share o M).sum - amount > 0
    · rw [if_pos hgt]
      have : M < L := by
        by_contra hcon
        have := shares_anti l hz (not_lt.1 hcon)
        omega
      exact ih M hi this h2 (by omega) _ _
    · rw [if_neg hgt]
      by_cases hlt : (l.map fun o => share o M).sum - amount < 0
      · rw [if_pos hlt]
        have : L < M := by
          by_contra hcon
          have := shares_anti l hz (not_lt.1 hcon)
          omega
        exact ih lo M h1 this (by omega) _ _
      · rw [if_neg hlt]
        have he : (l.map fun o => share o M).sum = (l.map fun o => share o L).sum := by omega
        have hs := shares_eq l hz he
        rw [rates_share]
        refine Prod.ext ?_ (by simp only; omega)
        exact List.map_congr_left fun o ho => by rw [hs o ho]

/-- The scan goes on to the last of the orders that are needed at the limit. -/
theorem scan_hit (amount : ℤ) (L : ℤ) (done todo rest : List EncOrder) (hne : rest ≠ []) (hz : ∀ o ∈ done ++ todo, 0 ≤ o.z)
    (hL : ((done ++ todo).map fun o => share o L).sum = amount) (hpos : ∀ o ∈ todo, 0 < share o L) (hlim : ∀ o ∈ todo, L ≤ getLimit o) :
    ∃ o t, rest = o :: t ∧ (getLimit o ≤ L → bestScan amount rateByTargetAmount equalizeByTargetAmount done (todo ++ rest) =
      some (done ++ todo, getLimit o, ratesAt rateByTargetAmount equalizeByTargetAmount (done ++ todo) (getLimit o),
        ((done ++ todo).map fun o' => share o' (getLimit o)).sum - amount)) := by
  obtain ⟨o, t, rfl⟩ := List.exists_cons_of_ne_nil hne
  refine ⟨o, t, rfl, fun ho => ?_⟩
  induction todo generalizing done with
  | nil =>
    simp only [List.append_nil, List.nil_append] at *
    unfold bestScan
    dsimp only
    rw [total_share]
    have := shares_anti done hz ho
    rw [if_pos (by omega)]
  | cons a u ih =>
    simp only [List.cons_append]
    unfold bestScan
    dsimp only
    rw [total_share]
    have hzd : ∀ x ∈ done, 0 ≤ x.z := fun x hx => hz x (List.mem_append_left _ hx)
    have h1 := shares_anti done hzd (hlim a List.mem_cons_self)
    have h2 : 0 < share a L := hpos a List.mem_cons_self
    have h3 : 0 ≤ (u.map fun o => share o L).sum :=
      List.sum_nonneg fun x hx => by
        obtain ⟨o', ho', rfl⟩ := List.mem_map.1 hx
        exact (hpos o' (List.mem_cons_of_mem _ ho')).le
    have h4 : (done.map fun o => share o L).sum + (share a L + (u.map fun o => share o L).sum) = amount := by
      rw [← hL]; simp
    rw [if_neg (by omega)]
    have := ih (done ++ [a]) (by simpa using hz) (by simpa using hL) (fun x hx => hpos x (List.mem_cons_of_mem _ hx))
      (fun x hx => hlim x (List.mem_cons_of_mem _ hx))
    simp only [List.append_assoc, List.cons_append, List.nil_append] at this
    rw [this]

/-- C162: the best match by target finds the rate at which the orders are cleared, if there is one. Let `L` be a limit at which the orders
above it, which come first, have shares that sum to the amount, and let the orders that follow be below it. Then these are the shares of the
match. -/
theorem C162_finds_rate (amount L : ℤ) (hL0 : 0 < L) (d r : List EncOrder) (hne : d ≠ []) (hz : ∀ o ∈ d, 0 ≤ o.z)
    (hL : (d.map fun o => share o L).sum = amount) (hpos : ∀ o ∈ d, 0 < share o L) (hd : ∀ o ∈ d, L < getLimit o)
    (hr : ∀ o ∈ r, getLimit o < L) :
    matchBestRates amount (d ++ r) rateByTargetAmount equalizeByTargetAmount =
      .ok (d.map fun o => ⟨share o L, tradeByTargetAmount (share o L) o⟩) := by
  obtain ⟨a, u, rfl⟩ := List.exists_cons_of_ne_nil hne
  obtain ⟨o, t, hrest, hscan⟩ := scan_hit amount L [a] u (r ++ [sentinel]) (by simp) (by simpa using hz) (by simpa using hL)
    (fun o ho => hpos o (List.mem_cons_of_mem _ ho)) (fun o ho => (hd o (List.mem_cons_of_mem _ ho)).le)
  have ho : getLimit o < L := by
    cases r with
    | nil =>
      have : sentinel = o := by simpa using (List.cons.inj hrest).1
      rw [← this]
      exact hL0
    | cons b v =>
      have : b = o := (List.cons.inj hrest).1
      rw [← this]
      exact hr b List.mem_cons_self
  have hscan := hscan ho.le
  simp only [List.cons_append, List.nil_append] at hscan
  unfold matchBestRates
  simp only [List.cons_append, List.append_assoc]
  rw [hscan]
  dsimp only
  have hlast : L < lastLimit (a :: u) := by
    unfold lastLimit
    have hm := List.getLast_mem (l := a :: u) (by simp)
    rw [List.getLast?_eq_some_getLast (by simp)]
    exact hd _ hm
  have hge := shares_anti (a :: u) hz ho.le
  have hz0 : ∀ e : List Rate, (if (0 : ℤ) > 0 then ((bestReduce rateByTargetAmount ((a :: u).zip e).reverse 0).reverse).map Prod.snd
      else if (0 : ℤ) < 0 then (bestIncrease rateByTargetAmount ((a :: u).zip e) 0).map Prod.snd else e) = e := fun e => by simp
  by_cases hgt : ((a :: u).map fun o' => share o' (getLimit o)).sum - amount > 0
  · rw [if_pos hgt, bisect_hit amount (a :: u) hz L hL _ _ _ ho hlast (by omega)]
    dsimp only
    rw [hz0]
  · rw [if_neg hgt]
    have he : ((a :: u).map fun o' => share o' (getLimit o)).sum = ((a :: u).map fun o' => share o' L).sum := by omega
    have h0 : ((a :: u).map fun o' => share o' (getLimit o)).sum - amount = 0 := by omega
    have hs := shares_eq (a :: u) hz he
    simp only [h0]
    rw [hz0, rates_share]
    congr 1
    exact List.map_congr_left fun o ho => by rw [hs o ho]

/-- Shares clear the orders at the limit. -/
theorem share_cleared (o : EncOrder) (L : ℤ) (ha : wordValue o.A ≠ 0) :
    Cleared (L / 2 ^ 48) o (share o L) := by
  have hA : (0 : ℤ) < decodeFloat o.A := by
    have : (decodeFloat o.A : ℤ) ≠ 0 := fun h => ha (wordValue_eq_zero.2 h)
    omega
  have hAq : (0 : ℚ) < (decodeFloat o.A : ℤ) := by exact_mod_cast hA
  left
  have hle : share o L ≤ equalizeByTargetAmount o L := min_le_left _ _
  have hE : equalizeByTargetAmount o L = (o.y * decodeFloat o.A + o.z * (decodeFloat o.B - L)) / (decodeFloat o.A : ℤ) := by
    unfold equalizeByTargetAmount
    rw [if_pos hA, Int.fdiv_eq_ediv_of_nonneg _ hA.le]
  have hl : ∀ x : ℚ, left o x = ((decodeFloat o.A : ℤ) * (o.y : ℚ) + (decodeFloat o.B : ℤ) * o.z - (decodeFloat o.A : ℤ) * x) / 2 ^ 48 := by
    intro x
    unfold left
    rw [wordValue_eq, wordValue_eq]
    ring
  refine ⟨?_, min_le_right _ _, ?_⟩
  · rw [hl]
    have h1 : share o L * decodeFloat o.A ≤ o.y * decodeFloat o.A + o.z * (decodeFloat o.B - L) := by
      rw [← Int.le_ediv_iff_mul_le hA, ← hE]
      exact hle
    have h1q : (share o L : ℚ) * (decodeFloat o.A : ℤ) ≤ o.y * (decodeFloat o.A : ℤ) + o.z * ((decodeFloat o.B : ℤ) - L) := by exact_mod_cast h1
    rw [div_mul_eq_mul_div, div_le_div_iff_of_pos_right (by positivity)]
    nlinarith
  · by_cases hy : share o L = o.y
    · exact Or.inl hy
    · right
      have hs' : share o L = equalizeByTargetAmount o L := by unfold share at hy ⊢; omega
      have h2 : o.y * decodeFloat o.A + o.z * (decodeFloat o.B - L) < (share o L + 1) * decodeFloat o.A := by
        rw [hs', hE]
        have := Int.lt_ediv_add_one_mul_self (o.y * decodeFloat o.A + o.z * (decodeFloat o.B - L)) hA
        exact this
      have h2q : (o.y : ℚ) * (decodeFloat o.A : ℤ) + o.z * ((decodeFloat o.B : ℤ) - L) < (share o L + 1) * (decodeFloat o.A : ℤ) := by exact_mod_cast h2
      rw [hl, div_mul_eq_mul_div, div_le_div_iff_of_pos_right (by positivity)]
      nlinarith

/-- An order with a limit below `L` is cleared by taking nothing. -/
theorem below_cleared (o : EncOrder) (L : ℤ) (hz : 0 < o.z) (h : getLimit o < L) : Cleared (L / 2 ^ 48) o 0 := by
  right
  refine ⟨rfl, ?_⟩
  unfold getLimit at h
  rw [if_pos hz, Int.fdiv_eq_ediv_of_nonneg _ hz.le] at h
  have h1 : o.y * decodeFloat o.A + o.z * decodeFloat o.B < L * o.z := Int.lt_mul_of_ediv_lt hz h
  have h1q : (o.y : ℚ) * (decodeFloat o.A : ℤ) + o.z * (decodeFloat o.B : ℤ) < L * o.z := by exact_mod_cast h1
  unfold left
  rw [wordValue_eq, wordValue_eq, div_mul_eq_mul_div, div_mul_eq_mul_div, div_mul_eq_mul_div, ← add_div, mul_zero, zero_div, sub_zero,
    div_mul_eq_mul_div, div_le_div_iff_of_pos_right (by positivity)]
  linarith

/-- C162: the best match by target, with the default filter, where there is a clearing rate. The quotes come in any order in which the orders
`d` above the limit `L` are before the orders `r` below it; the shares of `d` sum to the amount. Then the match takes these shares, the amount
in full, and any other way `g` to take no less from the orders is charged at most four units and the price of a unit per order less. -/
theorem C162_best_match (amount L : ℤ) (hL0 : 0 < L) (orders : List EncOrder) (quotes : List Quote) (d r : List EncOrder)
    (hq : quotes.mapM (fun q => lookup orders q.id) = .ok (d ++ r)) (hne : d ≠ [])
    (hz : ∀ o ∈ d ++ r, 0 < o.z ∧ 0 ≤ o.y ∧ o.y ≤ 2 ^ 128 ∧ wordValue o.A ≠ 0)
    (hL : (d.map fun o => share o L).sum = amount) (hpos : ∀ o ∈ d, 0 < share o L ∧ tradeByTargetAmount (share o L) o < 2 ^ 128 - 1)
    (hd : ∀ o ∈ d, L < getLimit o) (hr : ∀ o ∈ r, getLimit o < L) :
    ∃ acts, matchBest amount orders quotes defaultFilter rateByTargetAmount equalizeByTargetAmount = .ok acts ∧
      (acts.map Action.input).sum = amount ∧
      ∀ g : List ℤ, g.length = (d ++ r).length → (∀ p ∈ (d ++ r).zip g, Quotes p.1 p.2) → amount ≤ g.sum →
        (((acts.map Action.output).sum : ℤ) : ℚ) ≤
          ((((d ++ r).zip g).map fun p => charge p.1 p.2).sum : ℤ) + (d ++ r).length * (4 + 1 / (L / 2 ^ 48 : ℚ) ^ 2) := by
  have hrates := C162_finds_rate amount L hL0 d r hne (fun o ho => (hz o (List.mem_append_left _ ho)).1.le) hL (fun o ho => (hpos o ho).1) hd hr
  have hlen : d.length ≤ quotes.length := by
    have : quotes.length = (d ++ r).length := by
      clear hrates hz hL hpos hd hr hne
      generalize d ++ r = s at hq
      induction quotes generalizing s with
      | nil => cases hq; rfl
      | cons q t ih =>
        rw [List.mapM_cons] at hq
        rw [Py.bind_eq_ok] at hq
        obtain ⟨a, _, hq⟩ := hq
        rw [Py.bind_eq_ok] at hq
        obtain ⟨b, hb, hq⟩ := hq
        cases hq
        simp [ih _ hb]
    rw [this]; simp
  have hall : ∀ p ∈ quotes.zip (d.map fun o => (⟨share o L, tradeByTargetAmount (share o L) o⟩ : Rate)), defaultFilter p.2 = true := by
    intro p hp
    obtain ⟨o, ho, he⟩ := List.mem_map.1 (List.of_mem_zip hp).2
    rw [← he]
    simp [defaultFilter, (hpos o ho).1, target_quote_pos _ o (hpos o ho).1 (hz o (List.mem_append_left _ ho)).1]
  refine ⟨_, by unfold matchBest; rw [hq]; simp only [Py.ok_bind, hrates]; rfl, ?_, ?_⟩
  · rw [List.filter_eq_self.2 hall, List.map_map]
    have e : (Action.input ∘ fun p : Quote × Rate => (⟨p.1.id, p.2.input, p.2.output⟩ : Action)) = Rate.input ∘ Prod.snd := rfl
    rw [e, ← List.map_map, List.map_snd_zip (by simpa using hlen), List.map_map, ← hL]
    rfl
  · intro g hg hgq hgs
    rw [List.filter_eq_self.2 hall, List.map_map]
    have e : (Action.output ∘ fun p : Quote × Rate => (⟨p.1.id, p.2.input, p.2.output⟩ : Action)) = Rate.output ∘ Prod.snd := rfl
    rw [e, ← List.map_map, List.map_snd_zip (by simpa using hlen), List.map_map]
    have hlq : (0 : ℚ) < L / 2 ^ 48 := div_pos (by exact_mod_cast hL0) (by positivity)
    -- all orders with the amount of the match and the other amount
    let take : EncOrder → ℤ := fun o => if L < getLimit o then share o L else 0
    have htd : ∀ o ∈ d, take o = share o L := fun o ho => if_pos (hd o ho)
    have htr : ∀ o ∈ r, take o = 0 := fun o ho => if_neg (not_lt.2 (hr o ho).le)
    have main := C162_least_cost (L / 2 ^ 48) hlq (((d ++ r).zip g).map fun p => (p.1, take p.1, p.2)) ?_ ?_
    · simp only [List.map_map, List.length_map] at main
      have e1 : (((d ++ r).zip g).map ((fun p : EncOrder × ℤ × ℤ => charge p.1 p.2.1) ∘ fun p => (p.1, take p.1, p.2))).sum =
          (d.map (Rate.output ∘ fun o => (⟨share o L, tradeByTargetAmount (share o L) o⟩ : Rate))).sum := by
        have : ((fun p : EncOrder × ℤ × ℤ => charge p.1 p.2.1) ∘ fun p : EncOrder × ℤ => (p.1, take p.1, p.2)) =
            (fun o => charge o (take o)) ∘ Prod.fst := rfl
        rw [this, ← List.map_map, List.map_fst_zip (by omega), List.map_append, List.sum_append]
        have hrz : (r.map fun o => charge o (take o)).sum = 0 := by
          refine List.sum_eq_zero fun x hx => ?_
          obtain ⟨o, ho, rfl⟩ := List.mem_map.1 hx
          simp [charge, htr o ho]
        rw [hrz, add_zero]
        congr 1
        refine List.map_congr_left fun o ho => ?_
        have := (hpos o ho).1
        simp [charge, htd o ho, this.ne']
      rw [e1] at main
      have e2 : ((d ++ r).zip g).length = (d ++ r).length := by simp [List.length_zip, hg]
      rw [e2] at main
      exact main
    · intro p hp
      obtain ⟨⟨o, x⟩, hm, rfl⟩ := List.mem_map.1 hp
      have ho := (List.of_mem_zip hm).1
      obtain ⟨h1, h2, h3, h4⟩ := hz o ho
      refine ⟨h1, h3, h4, ?_, ?_, hgq _ hm⟩
      · rcases List.mem_append.1 ho with hod | hor
        · simp only [htd o hod]
          exact ⟨(hpos o hod).1.le, min_le_right _ _, fun _ => (hpos o hod).2⟩
        · simp only [htr o hor]
          exact ⟨le_rfl, h2, fun h => absurd rfl h⟩
      · rcases List.mem_append.1 ho with hod | hor
        · simp only [htd o hod]
          exact share_cleared o L h4
        · simp only [htr o hor]
          exact below_cleared o L h1 (hr o hor)
    · simp only [List.map_map]
      have e1 : ((fun p : EncOrder × ℤ × ℤ => p.2.1) ∘ fun p : EncOrder × ℤ => (p.1, take p.1, p.2)) = take ∘ Prod.fst := rfl
      have e2 : ((fun p : EncOrder × ℤ × ℤ => p.2.2) ∘ fun p : EncOrder × ℤ => (p.1, take p.1, p.2)) = Prod.snd := rfl
      rw [e1, e2, ← List.map_map, List.map_fst_zip (by omega), List.map_snd_zip (by omega), List.map_append, List.sum_append]
      have hrz : (r.map take).sum = 0 := List.sum_eq_zero fun x hx => by
        obtain ⟨o, ho, rfl⟩ := List.mem_map.1 hx
        exact htr o ho
      rw [hrz, add_zero, List.map_congr_left htd, hL]
      exact hgs

/-! ### Non-vacuity -/

/-- Two orders above the limit 15 · 2^44 and one below it. -/
def clearBook : List EncOrder :=
  [⟨1000, 1000, encodeFloat (2 ^ 47), encodeFloat (2 ^ 47)⟩, ⟨600, 800, encodeFloat (2 ^ 48), encodeFloat (2 ^ 46)⟩,
   ⟨500, 500, encodeFloat (2 ^ 46), encodeFloat (2 ^ 47)⟩]

/-- The hypotheses of `C162_best_match` for 175 units, and what the match takes. -/
example : matchBest 175 clearBook [⟨0, rateByTargetAmount 175 clearBook[0]⟩, ⟨1, rateByTargetAmount 175 clearBook[1]⟩, ⟨2, rateByTargetAmount 175 clearBook[2]⟩]
      defaultFilter rateByTargetAmount equalizeByTargetAmount = .ok [⟨0, 125, 134⟩, ⟨1, 50, 54⟩] ∧
    [(0 : ℕ), 1, 2].mapM (fun i => lookup clearBook i) = .ok (clearBook.take 2 ++ clearBook.drop 2) ∧
    ((clearBook.take 2).map fun o => share o (15 * 2 ^ 44)) = [125, 50] ∧
    (∀ o ∈ clearBook.take 2, 0 < share o (15 * 2 ^ 44) ∧ tradeByTargetAmount (share o (15 * 2 ^ 44)) o < 2 ^ 128 - 1 ∧
      (15 * 2 ^ 44 : ℤ) < getLimit o) ∧
    (∀ o ∈ clearBook.drop 2, getLimit o < (15 * 2 ^ 44 : ℤ)) := by
  decide +kernel

example : (∀ o ∈ clearBook, 0 < o.z ∧ 0 ≤ o.y ∧ o.y ≤ 2 ^ 128) ∧ (∀ o ∈ clearBook, decodeFloat o.A ≠ 0) := by
  decide +kernel

end Carbon.Prop.Match
