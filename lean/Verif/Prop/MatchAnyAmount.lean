import Verif.Prop.MatchOptimal

/-!
# C172: the best match by target for every amount
-/

namespace Carbon.Prop.Match

open Carbon Carbon.Bench Carbon.Spec Carbon.Prop.Trade

/-! ### Steps of the limit -/

/-- What the orders give at a limit. -/
def given (l : List EncOrder) (L : ℤ) : ℤ := (l.map fun o => share o L).sum

/-- The units by which one step of the limit moves an order, and one more. -/
def step (o : EncOrder) : ℚ := o.z / decodeFloat o.A + 1

def steps (l : List EncOrder) : ℚ := (l.map step).sum

theorem given_append (a b : List EncOrder) (L : ℤ) : given (a ++ b) L = given a L + given b L := by simp [given]

theorem steps_append (a b : List EncOrder) : steps (a ++ b) = steps a + steps b := by simp [steps]

theorem equalize_eq (o : EncOrder) (ha : decodeFloat o.A ≠ 0) (L : ℤ) :
    equalizeByTargetAmount o L = (o.y * decodeFloat o.A + o.z * (decodeFloat o.B - L)) / (decodeFloat o.A : ℤ) := by
  have hA : (0 : ℤ) < decodeFloat o.A := by omega
  unfold equalizeByTargetAmount
  rw [if_pos hA, Int.fdiv_eq_ediv_of_nonneg _ hA.le]

theorem limit_eq (o : EncOrder) (hz : 0 < o.z) : getLimit o = (o.y * decodeFloat o.A + o.z * decodeFloat o.B) / o.z := by
  unfold getLimit
  rw [if_pos hz, Int.fdiv_eq_ediv_of_nonneg _ hz.le]

theorem share_step (o : EncOrder) (hz : 0 < o.z) (ha : decodeFloat o.A ≠ 0) (L : ℤ) : (share o L : ℚ) ≤ share o (L + 1) + step o := by
  have hA : (0 : ℤ) < decodeFloat o.A := by omega
  have hAq : (0 : ℚ) < (decodeFloat o.A : ℕ) := by exact_mod_cast hA
  have hzq : (0 : ℚ) < o.z := by exact_mod_cast hz
  have h : (equalizeByTargetAmount o L : ℚ) ≤ equalizeByTargetAmount o (L + 1) + step o := by
    rw [equalize_eq o ha, equalize_eq o ha]
    generalize hM : o.y * (decodeFloat o.A : ℤ) + o.z * (decodeFloat o.B - L) = M
    have : o.y * (decodeFloat o.A : ℤ) + o.z * (decodeFloat o.B - (L + 1)) = M - o.z := by rw [← hM]; ring
    rw [this]
    have h1 : M / (decodeFloat o.A : ℤ) * decodeFloat o.A ≤ M := Int.ediv_mul_le _ hA.ne'
    have h2 := Int.lt_ediv_add_one_mul_self (M - o.z) hA
    have h1q : ((M / (decodeFloat o.A : ℤ) : ℤ) : ℚ) * (decodeFloat o.A : ℕ) ≤ M := by exact_mod_cast h1
    have h2q : (M : ℚ) - o.z < (((M - o.z) / (decodeFloat o.A : ℤ) : ℤ) + 1) * (decodeFloat o.A : ℕ) := by exact_mod_cast h2
    unfold step
    rw [← mul_le_mul_iff_left₀ hAq, add_mul, add_mul, div_mul_cancel₀ _ hAq.ne']
    nlinarith
  have hs : 0 < step o := by unfold step; positivity
  unfold share
  have e : ∀ a b y : ℤ, (a : ℚ) ≤ b + step o → ((min a y : ℤ) : ℚ) ≤ (min b y : ℤ) + step o := by
    intro a b y hab
    rcases le_total b y with hb | hb
    · rw [min_eq_left hb]
      exact (show ((min a y : ℤ) : ℚ) ≤ a by exact_mod_cast min_le_left a y).trans hab
    · rw [min_eq_right hb]
      have : ((min a y : ℤ) : ℚ) ≤ y := by exact_mod_cast min_le_right a y
      linarith
  exact e _ _ _ h

theorem given_step (l : List EncOrder) (h : ∀ o ∈ l, 0 < o.z ∧ decodeFloat o.A ≠ 0) (L : ℤ) : (given l L : ℚ) ≤ given l (L + 1) + steps l := by
  induction l with
  | nil => simp [given, steps]
  | cons o t ih =>
    have h1 := share_step o (h o List.mem_cons_self).1 (h o List.mem_cons_self).2 L
    have h2 := ih fun o ho => h o (List.mem_cons_of_mem _ ho)
    simp only [given, steps, List.map_cons, List.sum_cons] at h2 ⊢
    push_cast
    linarith

/-- At its own limit an order gives at most a step. -/
theorem share_own (o : EncOrder) (hz : 0 < o.z) (ha : decodeFloat o.A ≠ 0) : (share o (getLimit o) : ℚ) ≤ step o := by
  have hA : (0 : ℤ) < decodeFloat o.A := by omega
  have hAq : (0 : ℚ) < (decodeFloat o.A : ℕ) := by exact_mod_cast hA
  have h0 : (share o (getLimit o) : ℚ) ≤ equalizeByTargetAmount o (getLimit o) := by exact_mod_cast min_le_left _ _
  refine h0.trans ?_
  rw [equalize_eq o ha, limit_eq o hz]
  generalize hN : o.y * (decodeFloat o.A : ℤ) + o.z * decodeFloat o.B = N
  have e : o.y * (decodeFloat o.A : ℤ) + o.z * (decodeFloat o.B - N / o.z) = N - o.z * (N / o.z) := by rw [← hN]; ring
  rw [e]
  have h1 : N - o.z * (N / o.z) ≤ o.z := by
    have := Int.lt_ediv_add_one_mul_self N hz
    nlinarith
  have h2 : (N - o.z * (N / o.z)) / (decodeFloat o.A : ℤ) * decodeFloat o.A ≤ o.z := (Int.ediv_mul_le _ hA.ne').trans h1
  have h2q : (((N - o.z * (N / o.z)) / (decodeFloat o.A : ℤ) : ℤ) : ℚ) * (decodeFloat o.A : ℕ) ≤ o.z := by exact_mod_cast h2
  unfold step
  rw [← mul_le_mul_iff_left₀ hAq, add_mul, div_mul_cancel₀ _ hAq.ne']
  linarith

theorem steps_nonneg (l : List EncOrder) (h : ∀ o ∈ l, 0 < o.z) : 0 ≤ steps l := by
  refine List.sum_nonneg fun x hx => ?_
  obtain ⟨o, ho, rfl⟩ := List.mem_map.1 hx
  have : (0 : ℚ) < o.z := by exact_mod_cast h o ho
  unfold step
  positivity

/-- Below the lowest rate an order is sold out. -/
theorem share_sold (o : EncOrder) (hz : 0 < o.z) (ha : decodeFloat o.A ≠ 0) {L : ℤ} (h : L ≤ decodeFloat o.B) : share o L = o.y := by
  have hA : (0 : ℤ) < decodeFloat o.A := by omega
  unfold share
  rw [equalize_eq o ha]
  refine min_eq_right ?_
  rw [Int.le_ediv_iff_mul_le hA]
  have : 0 ≤ o.z * ((decodeFloat o.B : ℤ) - L) := mul_nonneg hz.le (by omega)
  omega

/-- Above its own limit an order gives something or nothing, but not less. -/
theorem share_nonneg (o : EncOrder) (hz : 0 < o.z) (hy : 0 ≤ o.y) (ha : decodeFloat o.A ≠ 0) {L : ℤ} (h : L ≤ getLimit o) : 0 ≤ share o L := by
  have hA : (0 : ℤ) < decodeFloat o.A := by omega
  unfold share
  refine le_min ?_ hy
  rw [equalize_eq o ha]
  refine Int.ediv_nonneg ?_ hA.le
  rw [limit_eq o hz, Int.le_ediv_iff_mul_le hz] at h
  nlinarith

theorem low_le_limit (o : EncOrder) (hz : 0 < o.z) (hy : 0 ≤ o.y) : (decodeFloat o.B : ℤ) ≤ getLimit o := by
  rw [limit_eq o hz, Int.le_ediv_iff_mul_le hz]
  have : 0 ≤ o.y * (decodeFloat o.A : ℤ) := by positivity
  nlinarith

/-! ### The search -/

theorem scan_any (amount : ℤ) (done todo : List EncOrder) (hne : todo ≠ []) :
    ∃ pre o post, todo = pre ++ o :: post ∧
      bestScan amount rateByTargetAmount equalizeByTargetAmount done todo = some (done ++ pre, getLimit o,
        ratesAt rateByTargetAmount equalizeByTargetAmount (done ++ pre) (getLimit o), given (done ++ pre) (getLimit o) - amount) ∧
      (amount ≤ given (done ++ pre) (getLimit o) ∨ post = []) ∧
      (pre = [] ∨ ∃ i l, pre = i ++ [l] ∧ given (done ++ i) (getLimit l) < amount) := by
  induction todo generalizing done with
  | nil => exact absurd rfl hne
  | cons o rest ih =>
    unfold bestScan
    dsimp only
    rw [total_share]
    by_cases h : (done.map fun o' => share o' (getLimit o)).sum - amount ≥ 0
    · rw [if_pos h]
      exact ⟨[], o, rest, by simp, by simp [given], .inl (by simp only [given, List.append_nil]; omega), .inl rfl⟩
    · rw [if_neg h]
      rcases rest with _ | ⟨o', rest'⟩
      · exact ⟨[], o, [], by simp, by simp [bestScan, given], .inr rfl, .inl rfl⟩
      · obtain ⟨pre, q, post, h1, h2, h3, h4⟩ := ih (done ++ [o]) (by simp)
        refine ⟨o :: pre, q, post, by simp [h1], ?_, by simpa using h3, .inr ?_⟩
        · rw [h2]
          simp
        · rcases h4 with rfl | ⟨i, l, rfl, h5⟩
          · exact ⟨[], o, rfl, by simp only [given, List.append_nil]; omega⟩
          · exact ⟨o :: i, l, rfl, by simpa using h5⟩

theorem bisect_any (amount : ℤ) (l : List EncOrder) (H : ℤ) (fuel : ℕ) (lo hi c : ℤ)
    (hfuel : hi - lo ≤ fuel) (hle : lo ≤ hi) (hlo : amount < given l lo) (hhi : given l hi < amount ∨ hi = H)
    (hc : c = lo ∨ c = hi ∧ given l hi < amount) :
    ∃ L, lo ≤ L ∧ L ≤ hi ∧ bestBisect amount rateByTargetAmount equalizeByTargetAmount l fuel lo hi
        (ratesAt rateByTargetAmount equalizeByTargetAmount l c) (given l c - amount) =
          (ratesAt rateByTargetAmount equalizeByTargetAmount l L, given l L - amount) ∧
      (given l L = amount ∨ (amount < given l L ∧ (given l (L + 1) < amount ∨ H ≤ L + 1)) ∨ (given l L < amount ∧ amount < given l (L - 1))) := by
  induction fuel generalizing lo hi c with
  | zero =>
    refine ⟨c, ?_, ?_, rfl, ?_⟩
    · rcases hc with h | h <;> omega
    · rcases hc with h | h <;> omega
    · have : lo = hi := by omega
      subst this
      rcases hhi with h | h
      · omega
      · rcases hc with rfl | ⟨rfl, h⟩
        · exact .inr (.inl ⟨hlo, .inr (by omega)⟩)
        · omega
  | succ n ih =>
    unfold bestBisect
    by_cases hlt : lo + 1 < hi
    · rw [if_pos hlt]
      dsimp only
      have hm : (lo + hi).fdiv 2 = (lo + hi) / 2 := Int.fdiv_eq_ediv_of_nonneg _ (by norm_num)
      rw [hm, total_share]
      generalize hM : (lo + hi) / 2 = M
      rw [show (l.map fun o => share o M).sum = given l M from rfl]
      by_cases hgt : given l M - amount > 0
      · rw [if_pos hgt]
        obtain ⟨L, h1, h2, h3, h4⟩ := ih M hi M (by omega) (by omega) (by omega) hhi (.inl rfl)
        exact ⟨L, by omega, h2, h3, h4⟩
      · rw [if_neg hgt]
        by_cases hl : given l M - amount < 0
        · rw [if_pos hl]
          obtain ⟨L, h1, h2, h3, h4⟩ := ih lo M M (by omega) (by omega) hlo (.inl (by omega)) (.inr ⟨rfl, by omega⟩)
          exact ⟨L, h1, by omega, h3, h4⟩
        · rw [if_neg hl]
          exact ⟨M, by omega, by omega, rfl, .inl (by omega)⟩
    · rw [if_neg hlt]
      refine ⟨c, ?_, ?_, rfl, ?_⟩
      · rcases hc with h | h <;> omega
      · rcases hc with h | h <;> omega
      · rcases hc with rfl | ⟨rfl, h⟩
        · refine .inr (.inl ⟨hlo, ?_⟩)
          rcases hhi with h | h
          · have : c ≠ hi := by rintro rfl; omega
            have : hi = c + 1 := by omega
            exact .inl (this ▸ h)
          · exact .inr (by omega)
        · have : c ≠ lo := by rintro rfl; omega
          have : c - 1 = lo := by omega
          exact .inr (.inr ⟨h, this ▸ hlo⟩)

/-! ### The corrections -/

/-- An order's quote for an amount. -/
def quoteFor (p : EncOrder × ℤ) : Rate := ⟨p.2, tradeByTargetAmount p.2 p.1⟩

theorem rates_quotes (l : List EncOrder) (L : ℤ) :
    ratesAt rateByTargetAmount equalizeByTargetAmount l L = (l.zip (l.map fun o => share o L)).map quoteFor := by
  rw [rates_share]
  induction l with
  | nil => rfl
  | cons o t ih => simp only [List.map_cons, List.zip_cons_cons]; rw [ih]; rfl

theorem rate_quote (o : EncOrder) {x : ℤ} (h : x ≤ o.y) : rateByTargetAmount x o = quoteFor (o, x) := by
  unfold rateByTargetAmount quoteFor
  simp [min_eq_left h]

/-- The surplus is taken from the last order. -/
theorem reduce_last (l : List EncOrder) (q : EncOrder) (L e : ℤ) (he : 0 < e) :
    ((bestReduce rateByTargetAmount ((l ++ [q]).zip (ratesAt rateByTargetAmount equalizeByTargetAmount (l ++ [q]) L)).reverse e).reverse).map Prod.snd =
      ((l ++ [q]).zip ((l.map fun o => share o L) ++ [share q L - e])).map quoteFor := by
  have h1 : (l ++ [q]).zip (ratesAt rateByTargetAmount equalizeByTargetAmount (l ++ [q]) L) =
      l.zip (ratesAt rateByTargetAmount equalizeByTargetAmount l L) ++ [(q, quoteFor (q, share q L))] := by
    unfold ratesAt
    rw [List.map_append, List.zip_append (by simp)]
    rfl
  have h2 : (l ++ [q]).zip ((l.map fun o => share o L) ++ [share q L - e]) = l.zip (l.map fun o => share o L) ++ [(q, share q L - e)] := by
    rw [List.zip_append (by simp)]
    rfl
  rw [h1, h2, List.reverse_append, List.map_append, ← rates_quotes]
  simp only [List.reverse_cons, List.reverse_nil, List.nil_append, List.cons_append]
  unfold bestReduce
  have hq : rateByTargetAmount (share q L - e) q = quoteFor (q, share q L - e) := rate_quote q (by have : share q L ≤ q.y := min_le_right _ _; omega)
  have hi : (quoteFor (q, share q L)).input = share q L := rfl
  have hi' : (quoteFor (q, share q L - e)).input = share q L - e := rfl
  simp only [hi, hq, hi']
  rw [if_pos (by omega)]
  simp only [List.reverse_cons, List.reverse_reverse, List.map_append, List.map_cons, List.map_nil]
  rw [List.map_snd_zip (by simp [ratesAt])]

/-- Filling the orders up, one after the other. -/
def fillUp : ℤ → List (EncOrder × ℤ) → List ℤ
  | _, [] => []
  | e, (o, x) :: t => min (x + e) o.y :: fillUp (e - (min (x + e) o.y - x)) t

theorem fillUp_length (e : ℤ) (l : List (EncOrder × ℤ)) : (fillUp e l).length = l.length := by
  induction l generalizing e with
  | nil => rfl
  | cons p t ih => obtain ⟨o, x⟩ := p; simp [fillUp, ih]

theorem increase_fill (l : List (EncOrder × ℤ)) (e : ℤ) (he : 0 ≤ e) (hl : ∀ p ∈ l, p.2 ≤ p.1.y) :
    (bestIncrease rateByTargetAmount (l.map fun p => (p.1, quoteFor p)) (-e)).map Prod.snd = ((l.map Prod.fst).zip (fillUp e l)).map quoteFor := by
  induction l generalizing e with
  | nil => rfl
  | cons p t ih =>
    obtain ⟨o, x⟩ := p
    have hx : x ≤ o.y := hl (o, x) List.mem_cons_self
    simp only [List.map_cons, fillUp, List.zip_cons_cons]
    unfold bestIncrease
    have hi : (quoteFor (o, x)).input = x := rfl
    have hr : rateByTargetAmount (x - -e) o = quoteFor (o, min (x + e) o.y) := by
      unfold rateByTargetAmount quoteFor
      simp [sub_neg_eq_add]
    simp only [hi, hr]
    have hi' : (quoteFor (o, min (x + e) o.y)).input = min (x + e) o.y := rfl
    rw [hi', if_neg (by have := min_le_left (x + e) o.y; omega)]
    simp only [List.map_cons]
    have := ih (e - (min (x + e) o.y - x)) (by have := min_le_left (x + e) o.y; omega) fun p hp => hl p (List.mem_cons_of_mem _ hp)
    rw [show -e + (min (x + e) o.y - x) = -(e - (min (x + e) o.y - x)) by ring, this]

theorem fill_bounds (l : List (EncOrder × ℤ)) (e : ℤ) (he : 0 ≤ e) (hl : ∀ p ∈ l, p.2 ≤ p.1.y) :
    ∀ p ∈ l.zip (fillUp e l), p.1.2 ≤ p.2 ∧ p.2 ≤ p.1.1.y := by
  induction l generalizing e with
  | nil => simp
  | cons p t ih =>
    obtain ⟨o, x⟩ := p
    have hx : x ≤ o.y := hl (o, x) List.mem_cons_self
    intro q hq
    simp only [fillUp, List.zip_cons_cons, List.mem_cons] at hq
    rcases hq with rfl | hq
    · exact ⟨le_min (show x ≤ x + e by omega) hx, min_le_right _ _⟩
    · exact ih _ (by have := min_le_left (x + e) o.y; omega) (fun p hp => hl p (List.mem_cons_of_mem _ hp)) q hq

theorem fill_sum (l : List (EncOrder × ℤ)) (e : ℤ) (he : 0 ≤ e) (hl : ∀ p ∈ l, p.2 ≤ p.1.y)
    (hcap : (l.map Prod.snd).sum + e ≤ (l.map fun p => p.1.y).sum) : (fillUp e l).sum = (l.map Prod.snd).sum + e := by
  induction l generalizing e with
  | nil => simp at hcap; simp [fillUp]; omega
  | cons p t ih =>
    obtain ⟨o, x⟩ := p
    have hx : x ≤ o.y := hl (o, x) List.mem_cons_self
    simp only [List.map_cons, List.sum_cons] at hcap
    simp only [fillUp, List.map_cons, List.sum_cons]
    have ht : (t.map Prod.snd).sum ≤ (t.map fun p => p.1.y).sum := List.sum_le_sum fun p hp => hl p (List.mem_cons_of_mem _ hp)
    rcases le_total (x + e) o.y with h | h
    · rw [min_eq_left h, ih _ (by omega) (fun p hp => hl p (List.mem_cons_of_mem _ hp)) (by omega)]
      ring
    · rw [min_eq_right h, ih _ (by omega) (fun p hp => hl p (List.mem_cons_of_mem _ hp)) (by omega)]
      ring

/-- An order with a price range. -/
structure Ranged (o : EncOrder) : Prop where
  capacity : 0 < o.z
  liquidity : 0 ≤ o.y
  small : o.y ≤ 2 ^ 128
  range : decodeFloat o.A ≠ 0

/-- What the match takes: the orders are those above a limit, whose shares at the limit are corrected in one direction, by less than two steps. -/
structure Taken (amount : ℤ) (d : List EncOrder) (L : ℤ) (xs : List ℤ) : Prop where
  length : xs.length = d.length
  sum : xs.sum = amount
  small : |(given d L : ℚ) - amount| ≤ 2 * steps d
  direction : (∀ p ∈ d.zip xs, p.2 ≤ share p.1 L) ∨ (∀ p ∈ d.zip xs, share p.1 L ≤ p.2 ∧ p.2 ≤ p.1.y)

theorem taken_exact {amount : ℤ} {d : List EncOrder} {L : ℤ} (hd : ∀ o ∈ d, 0 < o.z) (h : given d L = amount) :
    Taken amount d L (d.map fun o => share o L) := by
  refine ⟨by simp, h, ?_, .inl ?_⟩
  · have := steps_nonneg d hd
    rw [h, sub_self, abs_zero]
    linarith
  · intro p hp
    obtain ⟨i, hi, rfl⟩ := List.mem_iff_getElem.1 hp
    simp

theorem search (amount : ℤ) (hpos : 0 < amount) (s : List EncOrder) (hne : s ≠ []) (hs : ∀ o ∈ s, Ranged o)
    (hsort : s.Pairwise fun a b => getLimit b ≤ getLimit a) (hcap : amount ≤ held s) :
    ∃ d r L xs, s = d ++ r ∧ 0 ≤ L ∧ (∀ o ∈ d, L ≤ getLimit o) ∧ (∀ o ∈ r, getLimit o ≤ L) ∧ Taken amount d L xs ∧
      matchBestRates amount s rateByTargetAmount equalizeByTargetAmount = .ok ((d.zip xs).map quoteFor) := by
  obtain ⟨a, u, rfl⟩ := List.exists_cons_of_ne_nil hne
  obtain ⟨pre, o, post, h1, h2, h3, h4⟩ := scan_any amount [a] (u ++ [sentinel]) (by simp)
  -- the orders that follow
  obtain ⟨r, hr1, hr2⟩ : ∃ r, u = pre ++ r ∧ ((r = [] ∧ o = sentinel ∧ post = []) ∨ ∃ t, r = o :: t ∧ post ≠ []) := by
    rcases List.eq_nil_or_concat post with rfl | ⟨q, t, rfl⟩
    · have h := List.append_inj' h1 rfl
      exact ⟨[], by simpa using h.1, .inl ⟨rfl, by simpa using h.2.symm, rfl⟩⟩
    · have h1' : u ++ [sentinel] = (pre ++ o :: q) ++ [t] := by simpa using h1
      have h := List.append_inj' h1' rfl
      exact ⟨o :: q, h.1, .inr ⟨q, rfl, by simp⟩⟩
  subst hr1
  clear h1
  generalize hD : [a] ++ pre = D at h2 h3
  have hs1 : a :: (pre ++ r) = D ++ r := by rw [← hD]; simp
  rw [hs1] at hs hsort hcap ⊢
  obtain ⟨init, last, hil, hinit⟩ : ∃ init last, D = init ++ [last] ∧ given init (getLimit last) < amount := by
    rcases h4 with rfl | ⟨i, l, rfl, h5⟩
    · exact ⟨[], a, by rw [← hD]; rfl, by simpa [given] using hpos⟩
    · exact ⟨[a] ++ i, l, by rw [← hD]; simp, h5⟩
  have hsd : ∀ x ∈ D, Ranged x := fun x hx => hs x (List.mem_append_left _ hx)
  have hzd : ∀ x ∈ D, 0 < x.z := fun x hx => (hsd x hx).capacity
  have hlimD : ∀ x ∈ D, getLimit last ≤ getLimit x := by
    intro x hx
    have := (List.pairwise_append.1 hsort).1
    rw [hil] at this hx
    rcases List.mem_append.1 hx with h | h
    · exact (List.pairwise_append.1 this).2.2 x h last (by simp)
    · rw [List.mem_singleton.1 h]
  have hlim0 : ∀ x ∈ D ++ r, 0 ≤ getLimit x := fun x hx => by
    have := low_le_limit x (hs x hx).capacity (hs x hx).liquidity
    omega
  have hlast : last ∈ D := by rw [hil]; simp
  -- the limit of the scan
  have ho : 0 ≤ getLimit o ∧ getLimit o ≤ getLimit last ∧ (∀ x ∈ r, getLimit x ≤ getLimit o) ∧ amount ≤ given D (getLimit o) := by
    rcases hr2 with ⟨rfl, rfl, -⟩ | ⟨t, rfl, hp⟩
    · have e0 : getLimit sentinel = 0 := rfl
      rw [e0]
      refine ⟨le_rfl, hlim0 last (by simp [hlast]), by simp, ?_⟩
      rw [List.append_nil] at hcap
      have : given D 0 = held D := by
        unfold given held
        refine congrArg _ (List.map_congr_left fun x hx => ?_)
        exact share_sold x (hzd x hx) (hsd x hx).range (by positivity)
      omega
    · refine ⟨hlim0 o (by simp), ?_, ?_, h3.resolve_right hp⟩
      · exact (List.pairwise_append.1 hsort).2.2 last hlast o List.mem_cons_self
      · intro x hx
        rcases List.mem_cons.1 hx with rfl | hx
        · exact le_rfl
        · exact (List.pairwise_cons.1 (List.pairwise_append.1 hsort).2.1).1 x hx
  obtain ⟨o1, o2, o3, o4⟩ := ho
  have hstep : ∀ M, (given D M : ℚ) ≤ given D (M + 1) + steps D := given_step D fun x hx => ⟨hzd x hx, (hsd x hx).range⟩
  have hst := steps_nonneg D hzd
  -- the rates before the correction
  have hll : lastLimit D = getLimit last := by
    unfold lastLimit
    rw [hil]
    simp
  have hmb : matchBestRates amount (D ++ r) rateByTargetAmount equalizeByTargetAmount =
      (let (rates, delta) := if given D (getLimit o) - amount > 0 then
          bestBisect amount rateByTargetAmount equalizeByTargetAmount D (getLimit last - getLimit o).toNat (getLimit o) (getLimit last)
            (ratesAt rateByTargetAmount equalizeByTargetAmount D (getLimit o)) (given D (getLimit o) - amount)
        else (ratesAt rateByTargetAmount equalizeByTargetAmount D (getLimit o), given D (getLimit o) - amount)
      .ok <| if delta > 0 then ((bestReduce rateByTargetAmount (D.zip rates).reverse delta).reverse).map Prod.snd
        else if delta < 0 then (bestIncrease rateByTargetAmount (D.zip rates) delta).map Prod.snd else rates) := by
    unfold matchBestRates
    rw [← hs1]
    simp only [List.cons_append]
    rw [h2]
    dsimp only
    rw [hll]
  obtain ⟨L, l1, l2, l3, l4⟩ : ∃ L, getLimit o ≤ L ∧ L ≤ getLimit last ∧
      (if given D (getLimit o) - amount > 0 then
          bestBisect amount rateByTargetAmount equalizeByTargetAmount D (getLimit last - getLimit o).toNat (getLimit o) (getLimit last)
            (ratesAt rateByTargetAmount equalizeByTargetAmount D (getLimit o)) (given D (getLimit o) - amount)
        else (ratesAt rateByTargetAmount equalizeByTargetAmount D (getLimit o), given D (getLimit o) - amount)) =
        (ratesAt rateByTargetAmount equalizeByTargetAmount D L, given D L - amount) ∧
      (given D L = amount ∨ (amount < given D L ∧ (given D (L + 1) < amount ∨ getLimit last ≤ L + 1)) ∨
        (given D L < amount ∧ amount < given D (L - 1))) := by
    by_cases hgt : given D (getLimit o) - amount > 0
    · rw [if_pos hgt]
      exact bisect_any amount D (getLimit last) _ _ _ _ (by omega) o2 (by omega) (.inr rfl) (.inl rfl)
    · rw [if_neg hgt]
      exact ⟨getLimit o, le_rfl, o2, rfl, .inl (by omega)⟩
  rw [l3] at hmb
  dsimp only at hmb
  have hfin : ∀ xs, Taken amount D L xs → matchBestRates amount (D ++ r) rateByTargetAmount equalizeByTargetAmount = .ok ((D.zip xs).map quoteFor) →
      ∃ d r' L xs, D ++ r = d ++ r' ∧ 0 ≤ L ∧ (∀ o ∈ d, L ≤ getLimit o) ∧ (∀ o ∈ r', getLimit o ≤ L) ∧ Taken amount d L xs ∧
      matchBestRates amount (D ++ r) rateByTargetAmount equalizeByTargetAmount = .ok ((d.zip xs).map quoteFor) := fun xs ht hm =>
    ⟨D, r, L, xs, rfl, by omega, fun x hx => l2.trans (hlimD x hx), fun x hx => (o3 x hx).trans l1, ht, hm⟩
  rcases l4 with he | ⟨hgt, hb⟩ | ⟨hlt, hb⟩
  · refine hfin _ (taken_exact hzd he) ?_
    rw [hmb, he, sub_self, if_neg (lt_irrefl _), if_neg (lt_irrefl _), rates_quotes]
  · refine hfin ((init.map fun x => share x L) ++ [share last L - (given D L - amount)]) ⟨?_, ?_, ?_, .inl ?_⟩ ?_
    · rw [hil]; simp
    · have : given D L = (init.map fun x => share x L).sum + share last L := by rw [hil, given_append]; simp [given]
      simp only [List.sum_append, List.sum_singleton]
      omega
    · have h0 : (0 : ℚ) ≤ (given D L : ℚ) - amount := by
        rw [sub_nonneg]; exact_mod_cast hgt.le
      rw [abs_of_nonneg h0]
      rcases hb with hb | hb
      · have h5 := hstep L
        have h6 : (given D (L + 1) : ℚ) ≤ amount := by exact_mod_cast hb.le
        linarith
      · -- the order's own limit was the upper bound
        have hz' : ∀ x ∈ D, 0 ≤ x.z := fun x hx => (hzd x hx).le
        have h5 : given D L ≤ given D (getLimit last - 1) := shares_anti D hz' (by omega)
        have h6 := hstep (getLimit last - 1)
        rw [sub_add_cancel] at h6
        have h7 : given D (getLimit last) = given init (getLimit last) + share last (getLimit last) := by rw [hil, given_append]; simp [given]
        have h8 := share_own last (hzd last hlast) (hsd last hlast).range
        have h9 : step last ≤ steps D := by
          rw [hil, steps_append]
          have := steps_nonneg init fun x hx => hzd x (by rw [hil]; simp [hx])
          simp only [steps, List.map_cons, List.map_nil, List.sum_singleton] at this ⊢
          linarith
        have h5q : (given D L : ℚ) ≤ given D (getLimit last - 1) := by exact_mod_cast h5
        have h7q : (given D (getLimit last) : ℚ) = given init (getLimit last) + share last (getLimit last) := by exact_mod_cast h7
        have h10 : (given init (getLimit last) : ℚ) ≤ amount := by exact_mod_cast hinit.le
        linarith
    · intro p hp
      have e : D.zip ((init.map fun x => share x L) ++ [share last L - (given D L - amount)]) =
          init.zip (init.map fun x => share x L) ++ [(last, share last L - (given D L - amount))] := by
        rw [hil, List.zip_append (by simp)]; rfl
      rw [e] at hp
      rcases List.mem_append.1 hp with hp | hp
      · obtain ⟨i, hi, rfl⟩ := List.mem_iff_getElem.1 hp
        simp
      · rw [List.mem_singleton.1 hp]
        dsimp only
        omega
    · rw [hmb, if_pos (by omega)]
      have := reduce_last init last L (given D L - amount) (by omega)
      rw [← hil] at this
      rw [this]
  · have hmap : D.map (fun x => (x, share x L)) = D.zip (D.map fun x => share x L) := by
      clear * -
      induction D with
      | nil => rfl
      | cons x t ih => simp [ih]
    have hle : ∀ p ∈ D.map (fun x => (x, share x L)), p.2 ≤ p.1.y := by
      intro p hp
      obtain ⟨x, -, rfl⟩ := List.mem_map.1 hp
      exact min_le_right _ _
    have hcapD : given D (L - 1) ≤ held D := by
      unfold given held
      exact List.sum_le_sum fun x _ => min_le_right _ _
    have hsnd : ((D.map fun x => (x, share x L)).map Prod.snd).sum = given D L := by
      rw [List.map_map]; rfl
    have hys : ((D.map fun x => (x, share x L)).map fun p => p.1.y).sum = held D := by
      rw [List.map_map]; rfl
    have hfst : (D.map fun x => (x, share x L)).map Prod.fst = D := by
      rw [List.map_map]; exact List.map_id _
    refine hfin (fillUp (amount - given D L) (D.map fun x => (x, share x L))) ⟨?_, ?_, ?_, .inr ?_⟩ ?_
    · rw [fillUp_length, List.length_map]
    · rw [fill_sum _ _ (by omega) hle (by rw [hsnd, hys]; omega), hsnd]
      ring
    · have h0 : (given D L : ℚ) - amount ≤ 0 := by
        rw [sub_nonpos]; exact_mod_cast hlt.le
      rw [abs_of_nonpos h0]
      have h5 := hstep (L - 1)
      rw [sub_add_cancel] at h5
      have h6 : (amount : ℚ) ≤ given D (L - 1) := by exact_mod_cast hb.le
      linarith
    · intro p hp
      have := fill_bounds (D.map fun x => (x, share x L)) (amount - given D L) (by omega) hle
      generalize fillUp (amount - given D L) (D.map fun x => (x, share x L)) = f at this hp
      rw [List.zip_map_left] at this
      exact this _ (List.mem_map.2 ⟨p, hp, rfl⟩)
    · rw [hmb, if_neg (by omega), if_pos (by omega)]
      have := increase_fill (D.map fun x => (x, share x L)) (amount - given D L) (by omega) hle
      rw [hfst, List.map_map, show -(amount - given D L) = given D L - amount by ring] at this
      rw [← this, rates_share]
      congr 2
      congr 1
      clear * -
      induction D with
      | nil => rfl
      | cons x t ih => simp only [List.map_cons, List.zip_cons_cons]; rw [← ih]; rfl

/-- The limit can be taken not to be below the lowest rate of the orders. -/
theorem search_low (amount b : ℤ) (hpos : 0 < amount) (s : List EncOrder) (hs : ∀ o ∈ s, Ranged o ∧ b ≤ decodeFloat o.B)
    (hsort : s.Pairwise fun a b => getLimit b ≤ getLimit a) (hcap : amount ≤ held s) :
    ∃ d r L xs, s = d ++ r ∧ b ≤ L ∧ (∀ o ∈ d, L ≤ getLimit o) ∧ (∀ o ∈ r, getLimit o ≤ L) ∧ Taken amount d L xs ∧
      matchBestRates amount s rateByTargetAmount equalizeByTargetAmount = .ok ((d.zip xs).map quoteFor) := by
  have hne : s ≠ [] := by
    rintro rfl
    simp [held] at hcap
    omega
  obtain ⟨d, r, L, xs, rfl, h1, h2, h3, h4, h5⟩ := search amount hpos s hne (fun o ho => (hs o ho).1) hsort hcap
  by_cases hL : b ≤ L
  · exact ⟨d, r, L, xs, rfl, hL, h2, h3, h4, h5⟩
  have hlow : ∀ o ∈ d ++ r, b ≤ getLimit o := fun o ho => (hs o ho).2.trans (low_le_limit o (hs o ho).1.capacity (hs o ho).1.liquidity)
  have he : ∀ o ∈ d, share o L = share o b := fun o ho => by
    have h := hs o (List.mem_append_left _ ho)
    rw [share_sold o h.1.capacity h.1.range h.2, share_sold o h.1.capacity h.1.range (by omega)]
  have hg : given d L = given d b := by
    unfold given
    rw [List.map_congr_left he]
  refine ⟨d, r, b, xs, rfl, le_rfl, fun o ho => hlow o (List.mem_append_left _ ho), fun o ho => ?_, ⟨h4.length, h4.sum, ?_, ?_⟩, h5⟩
  · have := hlow o (List.mem_append_right _ ho)
    have := h3 o ho
    omega
  · rw [← hg]; exact h4.small
  · refine h4.direction.imp (fun h p hp => ?_) fun h p hp => ?_
    · rw [← he p.1 (List.of_mem_zip hp).1]; exact h p hp
    · rw [← he p.1 (List.of_mem_zip hp).1]; exact h p hp

/-! ### The cost of the amounts -/

/-- What is charged for an amount near the one that clears the order, compared with any other amount. -/
theorem order_bound (l β : ℚ) (hβ : 0 < β) (hl : β ≤ l) (o : EncOrder) (x x' f : ℤ) (hz : 0 < o.z) (hy : o.y ≤ 2 ^ 128) (ha : wordValue o.A ≠ 0)
    (hB : β ≤ wordValue o.B) (hx : 0 ≤ x) (hxy : x ≤ o.y) (hc : Cleared l o x) (hx' : Quotes o x') (hf : Quotes o f) :
    (charge o x' : ℚ) ≤ charge o f + (x - f) / l ^ 2 + max (0 : ℚ) (x' - x) / β ^ 2 + (4 + 1 / l ^ 2) := by
  obtain ⟨a1, a2, a3⟩ := hx'
  obtain ⟨b1, b2, b3⟩ := hf
  have hl0 : 0 < l := hβ.trans_le hl
  have hzq : (0 : ℚ) < o.z := by exact_mod_cast hz
  have hA := wordValue_nonneg o.A
  have c1 : (charge o x' : ℚ) ≤ price o x' + 4 := by
    unfold charge
    split
    · rename_i h; rw [h]; simp [price_zero]
    · rename_i h; exact C56_target_accuracy x' o ha (by omega) (a3 h)
  have c2 : price o f ≤ (charge o f : ℚ) ∧ (f = 0 ∨ 0 < left o f) := by
    unfold charge
    split
    · rename_i h; rw [h]; simp [price_zero]
    · rename_i h
      obtain ⟨c2, _, c3⟩ := C04_cost_ge_curve f o (b3 h)
      exact ⟨c2, Or.inr (by have := (c3 ha).2; unfold left; linarith)⟩
  have c3 := cleared_bound l hl0 o x f hz ha hx b1 b2 c2.2 hc
  have hleft : ∀ w : ℤ, w ≤ o.y → β * o.z ≤ left o w := fun w hw => by
    have h1 : (w : ℚ) ≤ o.y := by exact_mod_cast hw
    have h2 := mul_le_mul_of_nonneg_left h1 hA
    have h3 := mul_le_mul_of_nonneg_right hB hzq.le
    unfold left
    linarith
  have hβz : 0 < β * o.z := by positivity
  have e1 := hleft x hxy
  have e2 := hleft x' a2
  have e0 : 0 < left o 0 := lt_of_lt_of_le hβz (e1.trans (left_anti o (by exact_mod_cast hx)))
  have c4 : price o x' - price o x ≤ max (0 : ℚ) (x' - x) / β ^ 2 := by
    have hp : 0 < left o x * left o x' := mul_pos (hβz.trans_le e1) (hβz.trans_le e2)
    rw [price_diff o ha x x' e0.ne' (hβz.trans_le e1).ne' (hβz.trans_le e2).ne']
    rcases le_total x' x with h | h
    · have hq : (x' : ℚ) - x ≤ 0 := by rw [sub_nonpos]; exact_mod_cast h
      rw [max_eq_left hq, zero_div]
      exact div_nonpos_of_nonpos_of_nonneg (mul_nonpos_of_nonpos_of_nonneg hq (by positivity)) hp.le
    · have hq : 0 ≤ (x' : ℚ) - x := by rw [sub_nonneg]; exact_mod_cast h
      rw [max_eq_right hq, div_le_div_iff₀ hp (by positivity)]
      have := mul_le_mul e1 e2 hβz.le (hβz.le.trans e1)
      nlinarith [mul_le_mul_of_nonneg_left this hq]
  have e : ((x : ℚ) - f) / l ^ 2 = -((f - x) / l ^ 2) := by ring
  rw [e]
  linarith [c2.1]

theorem book_bound (l β : ℚ) (hβ : 0 < β) (hl : β ≤ l) (clear : EncOrder → ℤ) (book : List (EncOrder × ℤ × ℤ))
    (hb : ∀ p ∈ book, Ranged p.1 ∧ β ≤ wordValue p.1.B ∧ 0 ≤ clear p.1 ∧ clear p.1 ≤ p.1.y ∧ Cleared l p.1 (clear p.1) ∧
      Quotes p.1 p.2.1 ∧ Quotes p.1 p.2.2) :
    (((book.map fun p => charge p.1 p.2.1).sum : ℤ) : ℚ) ≤ ((book.map fun p => charge p.1 p.2.2).sum : ℤ) +
      (((book.map fun p => clear p.1).sum : ℤ) - ((book.map fun p => p.2.2).sum : ℤ)) / l ^ 2 +
      ((book.map fun p => max 0 (p.2.1 - clear p.1)).sum : ℤ) / β ^ 2 + book.length * (4 + 1 / l ^ 2) := by
  induction book with
  | nil => simp
  | cons p t ih =>
    obtain ⟨h1, h2, h3, h4, h5, h6, h7⟩ := hb p List.mem_cons_self
    have iht := ih fun q hq => hb q (List.mem_cons_of_mem _ hq)
    have b := order_bound l β hβ hl p.1 (clear p.1) p.2.1 p.2.2 h1.capacity h1.small (fun h => h1.range (by exact_mod_cast wordValue_eq_zero.1 h))
      h2 h3 h4 h5 h6 h7
    simp only [List.map_cons, List.sum_cons, List.length_cons]
    push_cast at iht b ⊢
    have e1 : ∀ u v w y : ℚ, (u + v - (w + y)) / l ^ 2 = (u - w) / l ^ 2 + (v - y) / l ^ 2 := fun u v w y => by ring
    rw [e1, add_div]
    linarith

theorem zip_fst {a c e : Type} : ∀ (l : List a) (m : List c) (n : List e), m.length = l.length → n.length = l.length →
    (l.zip (m.zip n)).map (fun p => (p.1, p.2.1)) = l.zip m
  | [], _, _, _, _ => by simp
  | x :: l, y :: m, w :: n, h1, h2 => by
    simp only [List.zip_cons_cons, List.map_cons]
    rw [zip_fst l m n (by simpa using h1) (by simpa using h2)]
  | _ :: _, [], _, h1, _ => by simp at h1
  | _ :: _, _ :: _, [], _, h2 => by simp at h2

theorem zip_snd {a c e : Type} : ∀ (l : List a) (m : List c) (n : List e), m.length = l.length → n.length = l.length →
    (l.zip (m.zip n)).map (fun p => (p.1, p.2.2)) = l.zip n
  | [], _, _, _, _ => by simp
  | x :: l, y :: m, w :: n, h1, h2 => by
    simp only [List.zip_cons_cons, List.map_cons]
    rw [zip_snd l m n (by simpa using h1) (by simpa using h2)]
  | _ :: _, [], _, h1, _ => by simp at h1
  | _ :: _, _ :: _, [], _, h2 => by simp at h2

theorem clear_le_steps (L : ℤ) (r : List EncOrder) (hr : ∀ o ∈ r, Ranged o ∧ getLimit o ≤ L) :
    (((r.map fun o => if L ≤ getLimit o then share o L else 0).sum : ℤ) : ℚ) ≤ steps r := by
  induction r with
  | nil => simp [steps]
  | cons o t ih =>
    have iht := ih fun q hq => hr q (List.mem_cons_of_mem _ hq)
    obtain ⟨h1, h2⟩ := hr o List.mem_cons_self
    simp only [List.map_cons, List.sum_cons, steps] at iht ⊢
    push_cast at iht ⊢
    refine add_le_add ?_ (by simpa using iht)
    split
    · rename_i h
      rw [le_antisymm h h2]
      exact share_own o h1.capacity h1.range
    · have : (0 : ℚ) ≤ step o := by
        have := h1.capacity
        have hz : (0 : ℚ) < o.z := by exact_mod_cast this
        unfold step
        positivity
      simpa using this

/-- The amounts of the search compared with any others. -/
theorem taken_cost (amount b L : ℤ) (hb : 0 < b) (hL : b ≤ L) (d r : List EncOrder) (xs g : List ℤ)
    (hs : ∀ o ∈ d ++ r, Ranged o ∧ b ≤ decodeFloat o.B) (hd : ∀ o ∈ d, L ≤ getLimit o) (hr : ∀ o ∈ r, getLimit o ≤ L)
    (ht : Taken amount d L xs) (hx : ∀ p ∈ d.zip xs, Quotes p.1 p.2) (hg : g.length = (d ++ r).length)
    (hgq : ∀ p ∈ (d ++ r).zip g, Quotes p.1 p.2) (hgs : amount ≤ g.sum) :
    ((((d.zip xs).map fun p => charge p.1 p.2).sum : ℤ) : ℚ) ≤ ((((d ++ r).zip g).map fun p => charge p.1 p.2).sum : ℤ) +
      (d ++ r).length * (4 + 1 / (b / 2 ^ 48 : ℚ) ^ 2) + 2 * steps (d ++ r) / (b / 2 ^ 48 : ℚ) ^ 2 := by
  have hbq : (0 : ℚ) < b := by exact_mod_cast hb
  have hβ : (0 : ℚ) < b / 2 ^ 48 := by positivity
  have hl : (b / 2 ^ 48 : ℚ) ≤ L / 2 ^ 48 := by
    rw [div_le_div_iff_of_pos_right (by positivity)]
    exact_mod_cast hL
  generalize hβe : (b / 2 ^ 48 : ℚ) = β at *
  let clear : EncOrder → ℤ := fun o => if L ≤ getLimit o then share o L else 0
  have hcd : ∀ o ∈ d, clear o = share o L := fun o ho => if_pos (hd o ho)
  have hc0 : ∀ o ∈ d ++ r, 0 ≤ clear o := fun o ho => by
    have h := (hs o ho).1
    by_cases hlim : L ≤ getLimit o
    · rw [show clear o = share o L from if_pos hlim]
      exact share_nonneg o h.capacity h.liquidity h.range hlim
    · rw [show clear o = 0 from if_neg hlim]
  let xs' := xs ++ List.replicate r.length (0 : ℤ)
  have hxl : xs'.length = (d ++ r).length := by simp [xs', ht.length]
  have hzip : (d ++ r).zip xs' = d.zip xs ++ r.zip (List.replicate r.length 0) := List.zip_append ht.length.symm
  have hrz : ∀ p ∈ r.zip (List.replicate r.length (0 : ℤ)), p.1 ∈ r ∧ p.2 = 0 := fun p hp =>
    ⟨(List.of_mem_zip hp).1, List.eq_of_mem_replicate (List.of_mem_zip hp).2⟩
  have hxq : ∀ p ∈ (d ++ r).zip xs', Quotes p.1 p.2 := fun p hp => by
    rw [hzip] at hp
    rcases List.mem_append.1 hp with hp | hp
    · exact hx p hp
    · obtain ⟨h1, h2⟩ := hrz p hp
      rw [h2]
      exact ⟨le_rfl, (hs p.1 (List.mem_append_right _ h1)).1.liquidity, fun h => absurd rfl h⟩
  have main := book_bound (L / 2 ^ 48) β hβ hl clear ((d ++ r).zip (xs'.zip g)) ?_
  · have z1 := zip_fst (d ++ r) xs' g hxl hg
    have z2 := zip_snd (d ++ r) xs' g hxl hg
    have m1 : ∀ {γ : Type} (h : EncOrder × ℤ → γ), ((d ++ r).zip (xs'.zip g)).map (fun p => h (p.1, p.2.1)) = ((d ++ r).zip xs').map h := fun h => by
      rw [← z1, List.map_map]; rfl
    have m2 : ∀ {γ : Type} (h : EncOrder × ℤ → γ), ((d ++ r).zip (xs'.zip g)).map (fun p => h (p.1, p.2.2)) = ((d ++ r).zip g).map h := fun h => by
      rw [← z2, List.map_map]; rfl
    rw [m1 fun p => charge p.1 p.2, m2 fun p => charge p.1 p.2, m1 fun p => clear p.1, m2 fun p => p.2, m1 fun p => max 0 (p.2 - clear p.1)] at main
    have e1 : (((d ++ r).zip xs').map fun p => charge p.1 p.2).sum = ((d.zip xs).map fun p => charge p.1 p.2).sum := by
      rw [hzip, List.map_append, List.sum_append]
      have : ((r.zip (List.replicate r.length (0 : ℤ))).map fun p => charge p.1 p.2).sum = 0 := List.sum_eq_zero fun y hy => by
        obtain ⟨p, hp, rfl⟩ := List.mem_map.1 hy
        simp [charge, (hrz p hp).2]
      omega
    have e2 : (((d ++ r).zip xs').map fun p => clear p.1).sum = given d L + (r.map clear).sum := by
      have : ((d ++ r).zip xs').map (fun p => clear p.1) = (d ++ r).map clear := by
        rw [← List.map_fst_zip (l₁ := d ++ r) (l₂ := xs') (by omega), List.map_map]
        simp only [List.map_fst_zip (l₁ := d ++ r) (l₂ := xs') (by omega)]
        rfl
      rw [this, List.map_append, List.sum_append, List.map_congr_left hcd]
      rfl
    have e3 : (((d ++ r).zip g).map fun p => p.2).sum = g.sum := by
      have := List.map_snd_zip (l₁ := d ++ r) (l₂ := g) (by omega)
      exact congrArg _ this
    have e4 : ((d ++ r).zip (xs'.zip g)).length = (d ++ r).length := by simp [List.length_zip, hg, ht.length, xs']
    have e5 : (((d ++ r).zip xs').map fun p => max 0 (p.2 - clear p.1)).sum = ((d.zip xs).map fun p => max 0 (p.2 - share p.1 L)).sum := by
      rw [hzip, List.map_append, List.sum_append]
      have : ((r.zip (List.replicate r.length (0 : ℤ))).map fun p => max 0 (p.2 - clear p.1)).sum = 0 := List.sum_eq_zero fun y hy => by
        obtain ⟨p, hp, rfl⟩ := List.mem_map.1 hy
        obtain ⟨h1, h2⟩ := hrz p hp
        have := hc0 p.1 (List.mem_append_right _ h1)
        simp only [h2]
        omega
      rw [this, add_zero]
      exact congrArg _ (List.map_congr_left fun p hp => by rw [hcd p.1 (List.of_mem_zip hp).1])
    rw [e1, e2, e3, e4, e5] at main
    have hcs := clear_le_steps L r fun o ho => ⟨(hs o (List.mem_append_right _ ho)).1, hr o ho⟩
    have hst := steps_nonneg r fun o ho => (hs o (List.mem_append_right _ ho)).1.capacity
    have hsd := steps_nonneg d fun o ho => (hs o (List.mem_append_left _ ho)).1.capacity
    change (((r.map clear).sum : ℤ) : ℚ) ≤ _ at hcs
    have hgq' : (amount : ℚ) ≤ g.sum := by exact_mod_cast hgs
    have hl0 : (0 : ℚ) < L / 2 ^ 48 := hβ.trans_le hl
    generalize (L / 2 ^ 48 : ℚ) = l at *
    have hinv : 1 / l ^ 2 ≤ 1 / β ^ 2 := one_div_le_one_div_of_le (by positivity) (by gcongr)
    have hiv0 : 0 < 1 / l ^ 2 := by positivity
    have hn : ((d ++ r).length : ℚ) * (4 + 1 / l ^ 2) ≤ (d ++ r).length * (4 + 1 / β ^ 2) :=
      mul_le_mul_of_nonneg_left (by linarith) (by positivity)
    rw [steps_append]
    push_cast at main
    rw [div_eq_mul_one_div _ (l ^ 2), div_eq_mul_one_div _ (β ^ 2)] at main
    rw [div_eq_mul_one_div (2 * _) (β ^ 2)]
    have hsm := abs_le.1 ht.small
    suffices hk : ((given d L : ℚ) + (r.map clear).sum - g.sum) * (1 / l ^ 2) +
        (((d.zip xs).map fun p => max 0 (p.2 - share p.1 L)).sum : ℤ) * (1 / β ^ 2) ≤ 2 * (steps d + steps r) * (1 / β ^ 2) by
      linarith
    rcases ht.direction with hdir | hdir
    · have : ((d.zip xs).map fun p => max 0 (p.2 - share p.1 L)).sum = 0 := List.sum_eq_zero fun y hy => by
        obtain ⟨p, hp, rfl⟩ := List.mem_map.1 hy
        have := hdir p hp
        omega
      rw [this]
      have h1 : (given d L : ℚ) + (r.map clear).sum - g.sum ≤ 2 * (steps d + steps r) := by linarith [hsm.2]
      have h2 := mul_le_mul_of_nonneg_right h1 hiv0.le
      have h3 : 2 * (steps d + steps r) * (1 / l ^ 2) ≤ 2 * (steps d + steps r) * (1 / β ^ 2) := mul_le_mul_of_nonneg_left hinv (by linarith)
      simp only [Int.cast_zero, zero_mul, add_zero]
      linarith
    · have hsum : ((d.zip xs).map fun p => max 0 (p.2 - share p.1 L)).sum = amount - given d L := by
        have h1 : (d.zip xs).map (fun p => max 0 (p.2 - share p.1 L)) = (d.zip xs).map fun p => p.2 - share p.1 L :=
          List.map_congr_left fun p hp => max_eq_right (by have := (hdir p hp).1; omega)
        rw [h1, ← ht.sum]
        have hlen := ht.length
        clear * - hlen
        induction d generalizing xs with
        | nil => cases xs <;> simp_all [given]
        | cons o t ih =>
          cases xs with
          | nil => simp at hlen
          | cons y u =>
            have := ih u (by simpa using hlen)
            simp only [given, List.zip_cons_cons, List.map_cons, List.sum_cons] at this ⊢
            omega
      rw [hsum]
      push_cast
      have k1 : ((given d L : ℚ) + (r.map clear).sum - g.sum) * (1 / l ^ 2) ≤ ((given d L : ℚ) - amount + steps r) * (1 / l ^ 2) :=
        mul_le_mul_of_nonneg_right (by linarith) hiv0.le
      have hamt : (given d L : ℚ) ≤ amount := by
        have h0 : 0 ≤ ((d.zip xs).map fun p => max 0 (p.2 - share p.1 L)).sum := List.sum_nonneg fun y hy => by
          obtain ⟨p, hp, rfl⟩ := List.mem_map.1 hy
          exact le_max_left _ _
        rw [hsum] at h0
        exact_mod_cast (by omega : given d L ≤ amount)
      have k2 : steps r * (1 / l ^ 2) ≤ steps r * (1 / β ^ 2) := mul_le_mul_of_nonneg_left hinv hst
      have k3 : ((given d L : ℚ) - amount) * (1 / l ^ 2) ≤ 0 := mul_nonpos_of_nonpos_of_nonneg (by linarith) hiv0.le
      have k4 : ((amount : ℚ) - given d L) * (1 / β ^ 2) ≤ 2 * steps d * (1 / β ^ 2) :=
        mul_le_mul_of_nonneg_right (by linarith [hsm.1]) (by positivity)
      have k5 : 0 ≤ steps r * (1 / β ^ 2) := mul_nonneg hst (by positivity)
      nlinarith
  · intro p hp
    obtain ⟨o, x', f⟩ := p
    have ho := (List.of_mem_zip hp).1
    obtain ⟨h1, h2⟩ := hs o ho
    have ha : wordValue o.A ≠ 0 := fun h => h1.range (by exact_mod_cast wordValue_eq_zero.1 h)
    refine ⟨h1, ?_, hc0 o ho, ?_, ?_, ?_, ?_⟩
    · dsimp only
      rw [← hβe, wordValue_eq, div_le_div_iff_of_pos_right (by positivity)]
      exact_mod_cast h2
    · dsimp only [clear]
      split
      · exact min_le_right _ _
      · exact h1.liquidity
    · dsimp only [clear]
      split
      · exact share_cleared o L ha
      · exact below_cleared o L h1.capacity (by omega)
    · refine hxq (o, x') ?_
      rw [← zip_fst (d ++ r) xs' g hxl hg]
      exact List.mem_map.2 ⟨_, hp, rfl⟩
    · refine hgq (o, f) ?_
      rw [← zip_snd (d ++ r) xs' g hxl hg]
      exact List.mem_map.2 ⟨_, hp, rfl⟩

/-- C172: the best match by target, with the default filter, for every amount that the orders hold. The quotes come in descending order of the
limits of the orders, and the correction of the rounding is charged no negative amount and leaves no order without a quote. Then the match
takes the amount in full, and any other way `g` to take no less from the orders is charged at most four units, the price of a unit per order
and the price of two steps of the limit less, where `b` is the lowest rate. -/
theorem C172_best_match (amount b : ℤ) (hpos : 0 < amount) (hb : 0 < b) (orders : List EncOrder) (quotes : List Quote) (s : List EncOrder)
    (hq : quotes.mapM (fun q => lookup orders q.id) = .ok s) (hs : ∀ o ∈ s, Ranged o ∧ b ≤ decodeFloat o.B)
    (hsort : s.Pairwise fun a b => getLimit b ≤ getLimit a) (hcap : amount ≤ held s) (all : List Action)
    (hall : matchBest amount orders quotes (fun _ => true) rateByTargetAmount equalizeByTargetAmount = .ok all)
    (hneg : ∀ a ∈ all, 0 ≤ a.input ∧ a.output < 2 ^ 128 - 1) :
    ∃ acts, matchBest amount orders quotes defaultFilter rateByTargetAmount equalizeByTargetAmount = .ok acts ∧
      (acts.map Action.input).sum = amount ∧
      ∀ g : List ℤ, g.length = s.length → (∀ p ∈ s.zip g, Quotes p.1 p.2) → amount ≤ g.sum →
        (((acts.map Action.output).sum : ℤ) : ℚ) ≤ (((s.zip g).map fun p => charge p.1 p.2).sum : ℤ) +
          s.length * (4 + 1 / (b / 2 ^ 48 : ℚ) ^ 2) + 2 * steps s / (b / 2 ^ 48 : ℚ) ^ 2 := by
  obtain ⟨d, r, L, xs, rfl, h1, h2, h3, h4, h5⟩ := search_low amount b hpos s hs hsort hcap
  have hlen : d.length ≤ quotes.length := by
    have : quotes.length = (d ++ r).length := by
      clear * - hq
      generalize d ++ r = s at hq
      induction quotes generalizing s with
      | nil => cases hq; rfl
      | cons q t ih =>
        rw [List.mapM_cons] at hq
        rw [Py.bind_eq_ok] at hq
        obtain ⟨a, _, hq⟩ := hq
        rw [Py.bind_eq_ok] at hq
        obtain ⟨b, hb, hq⟩ := hq
        cases hq
        simp [ih _ hb]
    rw [this]; simp
  -- the amounts of the unfiltered match
  have hxq : ∀ p ∈ d.zip xs, Quotes p.1 p.2 := by
    unfold matchBest at hall
    rw [hq] at hall
    simp only [Py.ok_bind, h5] at hall
    have hall := Except.ok.inj hall
    have hmem : ∀ p ∈ d.zip xs, ∃ a ∈ all, a.input = p.2 ∧ a.output = tradeByTargetAmount p.2 p.1 := by
      intro p hp
      have hz : (quotes.zip ((d.zip xs).map quoteFor)).map Prod.snd = (d.zip xs).map quoteFor :=
        List.map_snd_zip (by simp only [List.length_map, List.length_zip]; omega)
      have : quoteFor p ∈ (quotes.zip ((d.zip xs).map quoteFor)).map Prod.snd := by
        rw [hz]; exact List.mem_map.2 ⟨p, hp, rfl⟩
      obtain ⟨w, hw, he⟩ := List.mem_map.1 this
      refine ⟨⟨w.1.id, w.2.input, w.2.output⟩, ?_, ?_, ?_⟩
      · rw [← hall]
        exact List.mem_map.2 ⟨w, List.mem_filter.2 ⟨hw, rfl⟩, rfl⟩
      · rw [he]; rfl
      · rw [he]; rfl
    intro p hp
    obtain ⟨a, ha, e1, e2⟩ := hmem p hp
    have h := hneg a ha
    rw [e1, e2] at h
    refine ⟨h.1, ?_, fun _ => h.2⟩
    rcases h4.direction with hdir | hdir
    · exact (hdir p hp).trans (min_le_right _ _)
    · exact (hdir p hp).2
  -- what the filter leaves
  have hfil : ∀ (qs : List Quote) (l : List (EncOrder × ℤ)), l.length ≤ qs.length → (∀ p ∈ l, 0 < p.1.z ∧ 0 ≤ p.2) →
      (((((qs.zip (l.map quoteFor)).filter fun p => defaultFilter p.2).map fun p => (⟨p.1.id, p.2.input, p.2.output⟩ : Action)).map Action.input).sum =
        (l.map Prod.snd).sum ∧
      ((((qs.zip (l.map quoteFor)).filter fun p => defaultFilter p.2).map fun p => (⟨p.1.id, p.2.input, p.2.output⟩ : Action)).map Action.output).sum =
        (l.map fun p => charge p.1 p.2).sum) := by
    intro qs l
    induction l generalizing qs with
    | nil => intro _ _; simp
    | cons p t ih =>
      intro hle hp
      cases qs with
      | nil => simp at hle
      | cons q u =>
        obtain ⟨i1, i2⟩ := ih u (by simpa using hle) fun w hw => hp w (List.mem_cons_of_mem _ hw)
        obtain ⟨p1, p2⟩ := hp p List.mem_cons_self
        simp only [List.map_cons, List.zip_cons_cons, List.sum_cons]
        by_cases hx : p.2 = 0
        · have hf : defaultFilter (quoteFor p) = false := by simp [defaultFilter, quoteFor, hx]
          rw [List.filter_cons_of_neg (by simp [hf]), i1, i2]
          simp [hx, charge]
        · have hx0 : 0 < p.2 := by omega
          have hf : defaultFilter (quoteFor p) = true := by
            simp [defaultFilter, quoteFor, hx0, target_quote_pos _ p.1 hx0 p1]
          rw [List.filter_cons_of_pos (by simpa using hf)]
          simp only [List.map_cons, List.sum_cons, i1, i2]
          simp [quoteFor, charge, hx]
  obtain ⟨f1, f2⟩ := hfil quotes (d.zip xs) (by rw [List.length_zip]; omega) fun p hp =>
    ⟨(hs p.1 (List.mem_append_left _ (List.of_mem_zip hp).1)).1.capacity, (hxq p hp).1⟩
  refine ⟨_, by unfold matchBest; rw [hq]; simp only [Py.ok_bind, h5]; rfl, ?_, ?_⟩
  · rw [f1, List.map_snd_zip (by rw [h4.length]), h4.sum]
  · intro g hg hgq hgs
    rw [f2]
    exact taken_cost amount b L hb h1 d r xs g hs h2 h3 h4 hxq hg hgq hgs

/-! ### The order of the quotes -/

/-- Three orders with the roots 10/16, 5.25/16 and 9/16 of the marginal rates; the last is steep. -/
def steepBook : List EncOrder :=
  [⟨3 * 10 ^ 6, 3 * 10 ^ 6, encodeFloat (9 * 2 ^ 44), encodeFloat (2 ^ 44)⟩, ⟨3 * 10 ^ 6, 3 * 10 ^ 6, encodeFloat (2 ^ 42), encodeFloat (5 * 2 ^ 44)⟩,
   ⟨10 ^ 6, 10 ^ 6, encodeFloat (8 * 2 ^ 44), encodeFloat (2 ^ 44)⟩]

/-- C172: the order of the quotes is needed, and sorting them by their rates for the amount does not ensure it. The third order has a better
marginal rate than the second but a worse quote for a million units, and is not reached: the match pays 3657143 units for what the first and
the third order give for 3461313. -/
theorem C172_order_needed :
    matchBestByTarget (10 ^ 6) steepBook defaultFilter = .ok [⟨0, 10 ^ 6, 3657143⟩] ∧
    (∀ p ∈ steepBook.zip [818182, 0, 181818], Quotes p.1 p.2) ∧ ([818182, 0, 181818] : List ℤ).sum = 10 ^ 6 ∧
    ((steepBook.zip [818182, 0, 181818]).map fun p => charge p.1 p.2).sum = 3461313 := by
  refine ⟨?_, ?_, by norm_num, by decide +kernel⟩
  · have h : sortedQuotes (10 ^ 6) steepBook rateByTargetAmount sortByMaxRate = quotesOf (10 ^ 6) steepBook rateByTargetAmount := by
      unfold sortedQuotes
      rw [List.mergeSort_of_pairwise]
      decide +kernel
    unfold matchBestByTarget
    rw [h]
    decide +kernel
  · have h : ∀ p ∈ steepBook.zip [818182, 0, 181818], 0 ≤ p.2 ∧ p.2 ≤ p.1.y ∧ (p.2 ≠ 0 → tradeByTargetAmount p.2 p.1 < 2 ^ 128 - 1) := by
      decide +kernel
    exact h

/-! ### Non-vacuity -/

/-- The hypotheses of `C172_best_match` for 176 units, and what the match takes. -/
example : matchBest 176 clearBook [⟨0, rateByTargetAmount 176 clearBook[0]⟩, ⟨1, rateByTargetAmount 176 clearBook[1]⟩, ⟨2, rateByTargetAmount 176 clearBook[2]⟩]
      (fun _ => true) rateByTargetAmount equalizeByTargetAmount = .ok [⟨0, 126, 135⟩, ⟨1, 50, 54⟩] ∧
    [(0 : ℕ), 1, 2].mapM (fun i => lookup clearBook i) = .ok clearBook ∧
    (∀ o ∈ clearBook, 0 < o.z ∧ 0 ≤ o.y ∧ o.y ≤ 2 ^ 128 ∧ decodeFloat o.A ≠ 0 ∧ 2 ^ 46 ≤ decodeFloat o.B) ∧
    (clearBook.Pairwise fun a b => getLimit b ≤ getLimit a) ∧ (176 : ℤ) ≤ held clearBook := by
  decide +kernel

end Carbon.Prop.Match
