import Verif.Prop.Match
import Verif.Prop.MatchBest

/-!
# C161: the best match against the fast one
-/

namespace Carbon.Prop.Match

open Carbon Carbon.Bench Carbon.Spec Carbon.Prop.Trade

/-! ### One order -/

/-- A way of quoting an order that never takes more than it is offered, and that quotes the same again for what it takes. -/
structure Settles (trade : ℤ → EncOrder → Rate) (o : EncOrder) : Prop where
  capped : ∀ x, (trade x o).input ≤ x
  again : ∀ x, trade (trade x o).input o = trade x o

theorem settles_target (o : EncOrder) : Settles rateByTargetAmount o :=
  ⟨target_capped o, fun x => by unfold rateByTargetAmount; simp⟩

theorem settles_source (o : EncOrder) (hy : 0 ≤ o.y) (hz : 0 < o.z) (ha : wordValue o.A ≠ 0)
    (hb : wordValue o.B ≠ 0) (hfit : TargetFits o.y o) : Settles rateBySourceAmount o := by
  refine ⟨source_capped o hy hz ha hb hfit, fun x => ?_⟩
  obtain ⟨h1, h2⟩ := rateBySource_output o hy x
  generalize rateBySourceAmount x o = r at *
  unfold rateBySourceAmount
  rw [← h2]
  simp only [gt_iff_lt, not_lt.2 h1, if_false]

theorem fast_single (amount : ℤ) (o : EncOrder) (filter) (trade) (h : Settles trade o) :
    matchFast amount [o] [⟨0, trade amount o⟩] filter trade =
      .ok (if filter (trade amount o) then [⟨0, (trade amount o).input, (trade amount o).output⟩] else []) := by
  have hc := h.capped amount
  unfold matchFast
  dsimp only
  by_cases h1 : amount > (trade amount o).input
  · rw [if_pos h1]
    by_cases hf : filter (trade amount o) = true
    · simp [hf, matchFast]
    · simp [hf, matchFast]
  · rw [if_neg h1, if_pos (by omega)]
    by_cases hf : filter (trade amount o) = true <;> simp [hf]

theorem bisect_single (amount : ℤ) (trade equalize) (o : EncOrder) (fuel : ℕ) (lo hi e : ℤ) :
    ∃ e', bestBisect amount trade equalize [o] fuel lo hi [trade e o] ((trade e o).input - amount) =
      ([trade e' o], (trade e' o).input - amount) := by
  induction fuel generalizing lo hi e with
  | zero => exact ⟨e, rfl⟩
  | succ n ih =>
    unfold bestBisect
    split
    · dsimp only
      have ht : ∀ L, totalInput (ratesAt trade equalize [o] L) - amount = (trade (equalize o L) o).input - amount := by
        intro L; simp [totalInput, ratesAt]
      rw [ht]
      have hr : ∀ L, ratesAt trade equalize [o] L = [trade (equalize o L) o] := fun _ => rfl
      rw [hr]
      split
      · exact ih _ _ _
      · split
        · exact ih _ _ _
        · exact ⟨_, rfl⟩
    · exact ⟨e, rfl⟩

theorem best_single (amount : ℤ) (o : EncOrder) (trade equalize) (h : Settles trade o) :
    matchBestRates amount [o] trade equalize = .ok [trade amount o] := by
  have hend : ∀ e, (if (trade e o).input - amount > 0 then
        ((bestReduce trade ([o].zip [trade e o]).reverse ((trade e o).input - amount)).reverse).map Prod.snd
      else if (trade e o).input - amount < 0 then (bestIncrease trade ([o].zip [trade e o]) ((trade e o).input - amount)).map Prod.snd
      else [trade e o]) = [trade amount o] := by
    intro e
    have hc := h.capped amount
    have ha : (trade e o).input - ((trade e o).input - amount) = amount := by omega
    by_cases h1 : (trade e o).input - amount > 0
    · rw [if_pos h1]
      simp only [List.zip_cons_cons, List.zip_nil_right, List.reverse_cons, List.reverse_nil, List.nil_append, bestReduce, ha]
      split <;> rfl
    · rw [if_neg h1]
      by_cases h2 : (trade e o).input - amount < 0
      · rw [if_pos h2]
        simp only [List.zip_cons_cons, List.zip_nil_right, bestIncrease, ha]
        rw [if_neg (by omega)]
        rfl
      · rw [if_neg h2]
        have h3 : (trade e o).input = amount := by omega
        have := h.again e
        rw [h3] at this
        rw [this]
  have hs : bestScan amount trade equalize [o] [sentinel] =
      some ([o], getLimit sentinel, [trade (equalize o (getLimit sentinel)) o],
        (trade (equalize o (getLimit sentinel)) o).input - amount) := by
    have ht : totalInput (ratesAt trade equalize [o] (getLimit sentinel)) = (trade (equalize o (getLimit sentinel)) o).input := by
      simp [totalInput, ratesAt]
    unfold bestScan
    dsimp only
    rw [ht]
    split
    · rfl
    · simp only [bestScan]
      rfl
  unfold matchBestRates
  simp only [List.cons_append, List.nil_append]
  rw [hs]
  dsimp only
  generalize hE : equalize o (getLimit sentinel) = e
  by_cases h1 : (trade e o).input - amount > 0
  · rw [if_pos h1]
    obtain ⟨e', he'⟩ := bisect_single amount trade equalize o (lastLimit [o] - getLimit sentinel).toNat (getLimit sentinel) (lastLimit [o]) e
    rw [he']
    dsimp only
    rw [hend e']
  · rw [if_neg h1]
    dsimp only
    rw [hend e]

theorem sorted_single (amount : ℤ) (o : EncOrder) (trade sort) :
    sortedQuotes amount [o] trade sort = [⟨0, trade amount o⟩] := by
  unfold sortedQuotes quotesOf
  simp

/-- C161: with one order the fast and the best match by target are the order's quote, for every filter and amount. -/
theorem C161_single_target (amount : ℤ) (o : EncOrder) (filter : Rate → Bool) :
    let r := rateByTargetAmount amount o
    let acts := if filter r then [(⟨0, r.input, r.output⟩ : Action)] else []
    matchFastByTarget amount [o] filter = .ok acts ∧ matchBestByTarget amount [o] filter = .ok acts := by
  refine ⟨?_, ?_⟩
  · unfold matchFastByTarget
    rw [sorted_single, fast_single _ _ _ _ (settles_target o)]
  · unfold matchBestByTarget matchBest
    rw [sorted_single]
    simp only [List.mapM_cons, List.mapM_nil, lookup, List.getElem?_cons_zero]
    simp only [Py.ok_bind, pure, Except.pure]
    rw [best_single _ _ _ _ (settles_target o)]
    simp only [Py.ok_bind, List.zip_cons_cons, List.zip_nil_right, List.filter_cons, List.filter_nil]
    split <;> rfl

/-- C161: and so are those by source, for an order in the unscaled regime. -/
theorem C161_single_source (amount : ℤ) (o : EncOrder) (filter : Rate → Bool) (hy : 0 ≤ o.y) (hz : 0 < o.z) (ha : wordValue o.A ≠ 0)
    (hb : wordValue o.B ≠ 0) (hfit : TargetFits o.y o) :
    let r := rateBySourceAmount amount o
    let acts := if filter r then [(⟨0, r.input, r.output⟩ : Action)] else []
    matchFastBySource amount [o] filter = .ok acts ∧ matchBestBySource amount [o] filter = .ok acts := by
  have hs := settles_source o hy hz ha hb hfit
  refine ⟨?_, ?_⟩
  · unfold matchFastBySource
    rw [sorted_single, fast_single _ _ _ _ hs]
  · unfold matchBestBySource matchBest
    rw [sorted_single]
    simp only [List.mapM_cons, List.mapM_nil, lookup, List.getElem?_cons_zero]
    simp only [Py.ok_bind, pure, Except.pure]
    rw [best_single _ _ _ _ hs]
    simp only [Py.ok_bind, List.zip_cons_cons, List.zip_nil_right, List.filter_cons, List.filter_nil]
    split <;> rfl

/-! ### Constant rates -/

/-- An order that quotes one rate throughout. -/
def Flat (o : EncOrder) : Prop := decodeFloat o.A = 0 ∧ 0 ≤ o.y ∧ 0 < o.z

/-- Taking an amount from the orders one after the other. -/
def fill (a : ℤ) : List EncOrder → List Rate
  | [] => []
  | o :: t => if a ≤ o.y then [⟨a, tradeByTargetAmount a o⟩] else ⟨o.y, tradeByTargetAmount o.y o⟩ :: fill (a - o.y) t

/-- An order sold out. -/
def full (o : EncOrder) : Rate := ⟨o.y, tradeByTargetAmount o.y o⟩

/-- What the orders hold. -/
def held (l : List EncOrder) : ℤ := (l.map EncOrder.y).sum

theorem fast_flat (orders : List EncOrder) (f : Quote → EncOrder) (amount0 a : ℤ) (quotes : List Quote) (ha : 0 < a) (hle : a ≤ amount0)
    (hf : ∀ q ∈ quotes, orders[q.id]? = some (f q) ∧ 0 ≤ (f q).y ∧ 0 < (f q).z ∧ q.rate = rateByTargetAmount amount0 (f q)) :
    matchFast a orders quotes defaultFilter rateByTargetAmount =
      .ok (((quotes.zip (fill a (quotes.map f))).filter fun p => defaultFilter p.2).map fun p => ⟨p.1.id, p.2.input, p.2.output⟩) := by
  induction quotes generalizing a with
  | nil => rfl
  | cons q t ih =>
    obtain ⟨h1, h2, h3, h4⟩ := hf q List.mem_cons_self
    have ht := fun q' hq' => hf q' (List.mem_cons_of_mem _ hq')
    have hin : q.rate.input = min amount0 (f q).y := by rw [h4]; rfl
    have hout : q.rate.output = tradeByTargetAmount (min amount0 (f q).y) (f q) := by rw [h4]; rfl
    have hpos : defaultFilter ⟨a, tradeByTargetAmount a (f q)⟩ = true := by
      simp [defaultFilter, ha, target_quote_pos a (f q) ha h3]
    unfold matchFast
    rw [List.map_cons, fill]
    by_cases hy : a ≤ (f q).y
    · rw [if_neg (by rw [hin]; omega), if_pos hy]
      by_cases he : a = q.rate.input
      · have hr : q.rate = ⟨a, tradeByTargetAmount a (f q)⟩ := by
          have : min amount0 (f q).y = a := by omega
          rw [h4]; unfold rateByTargetAmount; simp only [this]
        rw [if_pos he, hr, if_pos hpos]
        simp [hpos]
      · rw [if_neg he]
        have hl : lookup orders q.id = .ok (f q) := by unfold lookup; rw [h1]
        rw [hl]
        simp only [Py.ok_bind]
        have hr : (rateByTargetAmount a (f q)).output = tradeByTargetAmount a (f q) := by
          unfold rateByTargetAmount; simp only [min_eq_left hy]
        rw [hr, if_pos hpos]
        simp [hpos]
    · have hm : min amount0 (f q).y = (f q).y := by omega
      have hr : q.rate = ⟨(f q).y, tradeByTargetAmount (f q).y (f q)⟩ := by
        rw [h4]; unfold rateByTargetAmount; simp only [hm]
      rw [if_pos (by rw [hin]; omega), if_neg hy, hr]
      by_cases hz : 0 < (f q).y
      · have hp : defaultFilter ⟨(f q).y, tradeByTargetAmount (f q).y (f q)⟩ = true := by
          simp [defaultFilter, hz, target_quote_pos _ (f q) hz h3]
        rw [if_pos hp, ih (a - (f q).y) (by omega) (by omega) ht]
        simp [hp]
      · have hz0 : (f q).y = 0 := by omega
        have hp : defaultFilter ⟨(f q).y, tradeByTargetAmount (f q).y (f q)⟩ = false := by
          simp [defaultFilter, hz]
        rw [if_neg (by rw [hp]; simp), ih a ha hle ht]
        have hp' : defaultFilter ⟨0, tradeByTargetAmount 0 (f q)⟩ = false := by simp [defaultFilter]
        simp only [List.zip_cons_cons, List.filter_cons, hz0, sub_zero, hp']
        simp

theorem ratesAt_flat (l : List EncOrder) (h : ∀ o ∈ l, decodeFloat o.A = 0) (L : ℤ) :
    ratesAt rateByTargetAmount equalizeByTargetAmount l L = l.map full := by
  unfold ratesAt
  refine List.map_congr_left fun o ho => ?_
  simp [equalizeByTargetAmount, h o ho, rateByTargetAmount, full]

theorem total_full (l : List EncOrder) : totalInput (l.map full) = held l := by
  unfold totalInput held
  rw [List.map_map]
  rfl

theorem bisect_flat (amount : ℤ) (l : List EncOrder) (h : ∀ o ∈ l, decodeFloat o.A = 0) (fuel : ℕ) (lo hi : ℤ) :
    bestBisect amount rateByTargetAmount equalizeByTargetAmount l fuel lo hi (l.map full) (held l - amount) =
      (l.map full, held l - amount) := by
  induction fuel generalizing lo hi with
  | zero => rfl
  | succ n ih =>
    unfold bestBisect
    dsimp only
    rw [ratesAt_flat l h, total_full]
    split
    · split
      · exact ih _ _
      · split
        · exact ih _ _
        · rfl
    · rfl

/-- The orders that are needed to hold the amount. -/
def needed (amount : ℤ) : List EncOrder → List EncOrder → List EncOrder
  | done, [] => done
  | done, o :: t => if held done ≥ amount then done else needed amount (done ++ [o]) t

theorem scan_flat (amount : ℤ) (done todo : List EncOrder) (hd : ∀ o ∈ done, decodeFloat o.A = 0) (ht : ∀ o ∈ todo, decodeFloat o.A = 0) :
    ∃ L, bestScan amount rateByTargetAmount equalizeByTargetAmount done (todo ++ [sentinel]) =
      some (needed amount done todo, L, (needed amount done todo).map full, held (needed amount done todo) - amount) := by
  induction todo generalizing done with
  | nil =>
    refine ⟨getLimit sentinel, ?_⟩
    simp only [List.nil_append, bestScan, ratesAt_flat done hd, total_full, needed]
    split <;> rfl
  | cons o t ih =>
    simp only [List.cons_append]
    unfold bestScan needed
    dsimp only
    rw [ratesAt_flat done hd, total_full]
    by_cases h : held done ≥ amount
    · rw [if_pos (by omega), if_pos h]
      exact ⟨_, rfl⟩
    · rw [if_neg (by omega), if_neg h]
      obtain ⟨L, hL⟩ := ih (done ++ [o])
        (fun x hx => by
          rcases List.mem_append.1 hx with hx | hx
          · exact hd x hx
          · rw [List.mem_singleton.1 hx]; exact ht o List.mem_cons_self)
        (fun x hx => ht x (List.mem_cons_of_mem _ hx))
      rw [hL]
      exact ⟨L, rfl⟩

theorem held_append (a b : List EncOrder) : held (a ++ b) = held a + held b := by simp [held]

/-- The scan stops at the first order with which the amount is held, and the amount is then distributed as `fill` does. -/
theorem needed_fill (amount : ℤ) (init : List EncOrder) (last : EncOrder) (todo : List EncOrder) (h : held init < amount) :
    ∃ init' last', needed amount (init ++ [last]) todo = init' ++ [last'] ∧ held init' < amount ∧
      (∀ o, o ∈ init' ++ [last'] → o ∈ init ++ [last] ++ todo) ∧
      init.map full ++ fill (amount - held init) (last :: todo) =
        init'.map full ++ (if amount - held init' ≤ last'.y then [⟨amount - held init', tradeByTargetAmount (amount - held init') last'⟩]
          else [full last']) := by
  induction todo generalizing init last with
  | nil =>
    refine ⟨init, last, rfl, h, fun o ho => by simpa using ho, ?_⟩
    simp only [fill]
    split <;> rfl
  | cons o t ih =>
    unfold needed
    by_cases hs : held (init ++ [last]) ≥ amount
    · rw [if_pos hs]
      refine ⟨init, last, rfl, h, fun x hx => List.mem_append_left _ hx, ?_⟩
      rw [held_append] at hs
      have : amount - held init ≤ last.y := by simp [held] at hs ⊢; omega
      simp only [fill, this, if_true]
    · rw [if_neg hs]
      obtain ⟨i', l', h1, h2, h3, h4⟩ := ih (init ++ [last]) o (not_le.1 hs)
      refine ⟨i', l', h1, h2, fun x hx => by simpa using h3 x hx, ?_⟩
      rw [← h4]
      rw [held_append] at hs
      have hl : held [last] = last.y := by simp [held]
      have : ¬ amount - held init ≤ last.y := by omega
      rw [fill, if_neg this, held_append, hl, List.map_append, sub_sub]
      simp [full]

theorem increase_flat (l : List EncOrder) (d : ℤ) (hd : d < 0) :
    bestIncrease rateByTargetAmount (l.zip (l.map full)) d = l.zip (l.map full) := by
  induction l with
  | nil => rfl
  | cons o t ih =>
    have : rateByTargetAmount ((full o).input - d) o = full o := by
      unfold rateByTargetAmount full
      have : min (o.y - d) o.y = o.y := by omega
      simp only [this]
    simp only [List.map_cons, List.zip_cons_cons, bestIncrease, this, sub_self, add_zero]
    rw [if_neg (by omega), ih]

theorem best_flat (amount : ℤ) (ha : 0 < amount) (s : List EncOrder) (hs : s ≠ []) (hf : ∀ o ∈ s, decodeFloat o.A = 0) :
    matchBestRates amount s rateByTargetAmount equalizeByTargetAmount = .ok (fill amount s) := by
  obtain ⟨o, t, rfl⟩ := List.exists_cons_of_ne_nil hs
  obtain ⟨L, hL⟩ := scan_flat amount [o] t (fun x hx => hf x (by simp at hx; simp [hx])) (fun x hx => hf x (List.mem_cons_of_mem _ hx))
  obtain ⟨i, l, h1, h2, h3, h4⟩ := needed_fill amount [] o t (by simpa [held] using ha)
  simp only [List.nil_append, List.map_nil, held, List.sum_nil, sub_zero] at h1 h3 h4
  change fill amount (o :: t) = i.map full ++ (if amount - held i ≤ l.y then [⟨amount - held i, tradeByTargetAmount (amount - held i) l⟩]
    else [full l]) at h4
  have hmem : ∀ x ∈ i ++ [l], decodeFloat x.A = 0 := fun x hx => hf x (by simpa using h3 x hx)
  unfold matchBestRates
  simp only [List.cons_append]
  rw [hL]
  dsimp only
  rw [h1, bisect_flat amount _ hmem]
  simp only [ite_self]
  have hh : held (i ++ [l]) = held i + l.y := by rw [held_append]; simp [held]
  congr 1
  rw [h4]
  by_cases hgt : held (i ++ [l]) - amount > 0
  · rw [if_pos hgt, if_pos (by omega)]
    have hz : (i ++ [l]).zip ((i ++ [l]).map full) = i.zip (i.map full) ++ [(l, full l)] := by
      rw [List.map_append, List.zip_append (by simp)]
      rfl
    rw [hz, List.reverse_append]
    simp only [List.reverse_cons, List.reverse_nil, List.nil_append, List.cons_append]
    have hr : rateByTargetAmount ((full l).input - (held (i ++ [l]) - amount)) l =
        ⟨amount - held i, tradeByTargetAmount (amount - held i) l⟩ := by
      have : min ((full l).input - (held (i ++ [l]) - amount)) l.y = amount - held i := by
        rw [hh]; simp only [full]; omega
      unfold rateByTargetAmount
      simp only [this]
    simp only [bestReduce, hr]
    rw [if_pos (by rw [hh]; simp only [full]; omega)]
    simp only [List.reverse_cons, List.reverse_reverse, List.map_append, List.map_cons, List.map_nil]
    rw [List.map_snd_zip (by simp)]
  · rw [if_neg hgt]
    by_cases hlt : held (i ++ [l]) - amount < 0
    · rw [if_pos hlt, if_neg (by omega), increase_flat _ _ hlt, List.map_snd_zip (by simp)]
      simp
    · rw [if_neg hlt, if_pos (by omega)]
      have : amount - held i = l.y := by omega
      rw [this]
      simp [full]

/-- C161: for orders that each quote one rate throughout, the best match by target is the fast one, for every positive amount and every book
that is not empty. -/
theorem C161_constant_target (amount : ℤ) (ha : 0 < amount) (orders : List EncOrder) (hne : orders ≠ [])
    (hf : ∀ o ∈ orders, Flat o) :
    matchBestByTarget amount orders defaultFilter = matchFastByTarget amount orders defaultFilter := by
  unfold matchBestByTarget matchFastByTarget
  have hq := sortedQuotes_quotesFor amount orders rateByTargetAmount sortByMaxRate
  generalize sortedQuotes amount orders rateByTargetAmount sortByMaxRate = quotes at hq
  have hm : ∀ q ∈ quotes, orders[q.id]? = some (orders.getD q.id sentinel) ∧ q.rate = rateByTargetAmount amount (orders.getD q.id sentinel) := by
    intro q h
    obtain ⟨o, h1, h2⟩ := hq.mem h
    have : orders.getD q.id sentinel = o := by rw [List.getD_eq_getElem?_getD, h1]; rfl
    rw [this]
    exact ⟨h1, h2⟩
  have hfl : ∀ q ∈ quotes, Flat (orders.getD q.id sentinel) := fun q h => hf _ (List.mem_of_getElem? (hm q h).1)
  rw [fast_flat orders (fun q => orders.getD q.id sentinel) amount amount quotes ha le_rfl
    (fun q h => ⟨(hm q h).1, (hfl q h).2.1, (hfl q h).2.2, (hm q h).2⟩)]
  unfold matchBest
  rw [mapM_lookup orders quotes (fun q => orders.getD q.id sentinel) (fun q h => (hm q h).1)]
  simp only [Py.ok_bind]
  have hqne : quotes ≠ [] := by
    intro h
    rw [h] at hq
    have := hq.length_eq
    simp at this
    exact hne (List.length_eq_zero_iff.1 this.symm)
  rw [best_flat amount ha _ (by simpa using hqne) (fun o ho => by
    obtain ⟨q, h, rfl⟩ := List.mem_map.1 ho
    exact (hfl q h).1)]
  rfl

/-! ### Where the best match is worse -/

/-- An order of a million units from rate 4 to 1, one of a million units from rate 1/64 to 1/256, and one of ten units from just below
rate 4 down to next to nothing. -/
def dustBook : List EncOrder :=
  [⟨1000000, 1000000, encodeFloat (2 ^ 48), encodeFloat (2 ^ 48)⟩,
   ⟨1000000, 1000000, encodeFloat (2 ^ 44), encodeFloat (2 ^ 44)⟩,
   ⟨10, 10, encodeFloat (2 ^ 49 - 2 ^ 30), encodeFloat 1⟩]

/-- Their quotes for 600000 units. -/
def dustQuotes : List Quote := [⟨0, ⟨500000, 1000000⟩⟩, ⟨1, ⟨600000, 9331⟩⟩, ⟨2, ⟨600000, 9⟩⟩]

theorem dust_sorted : sortedQuotes 600000 dustBook rateBySourceAmount sortByMinRate = dustQuotes := by
  have h : quotesOf 600000 dustBook rateBySourceAmount = dustQuotes := by decide +kernel
  unfold sortedQuotes
  rw [h, List.mergeSort_of_pairwise]
  unfold dustQuotes
  simp [sortByMinRate]

/-- C161: the order of ten units keeps the best match by source from using the first order: it pays out 9334 units for 600000, where the
fast match pays out 1001561 for the same, and where it would itself without the order of ten units. -/
theorem C161_dust_violated :
    matchFastBySource 600000 dustBook defaultFilter = .ok [⟨0, 500000, 1000000⟩, ⟨1, 100000, 1561⟩] ∧
    matchBestBySource 600000 dustBook defaultFilter = .ok [⟨0, 1, 3⟩, ⟨1, 599999, 9331⟩] ∧
    matchBest 600000 (dustBook.take 2) (dustQuotes.take 2) defaultFilter rateBySourceAmount equalizeBySourceAmount =
      .ok [⟨0, 500000, 1000000⟩, ⟨1, 100000, 1561⟩] := by
  refine ⟨?_, ?_, ?_⟩
  · unfold matchFastBySource; rw [dust_sorted]; decide +kernel
  · unfold matchBestBySource; rw [dust_sorted]; decide +kernel
  · decide +kernel

/-- Two equal orders of a thousand units. -/
def twinBook : List EncOrder :=
  [⟨1000, 1000, encodeFloat (2 ^ 46), encodeFloat (5 * 2 ^ 45)⟩, ⟨1000, 1000, encodeFloat (2 ^ 46), encodeFloat (5 * 2 ^ 45)⟩]

/-- C161: by target the best match divides a small amount between two equal orders and pays the rounding twice. -/
theorem C161_rounding_violated :
    matchFastByTarget 2 twinBook defaultFilter = .ok [⟨0, 2, 3⟩] ∧
    matchBestByTarget 2 twinBook defaultFilter = .ok [⟨0, 1, 2⟩, ⟨1, 1, 2⟩] := by
  have h : sortedQuotes 2 twinBook rateByTargetAmount sortByMaxRate = [⟨0, ⟨2, 3⟩⟩, ⟨1, ⟨2, 3⟩⟩] := by
    have h : quotesOf 2 twinBook rateByTargetAmount = [⟨0, ⟨2, 3⟩⟩, ⟨1, ⟨2, 3⟩⟩] := by decide +kernel
    unfold sortedQuotes
    rw [h, List.mergeSort_of_pairwise]
    simp [sortByMaxRate, sortByMinRate]
  refine ⟨?_, ?_⟩
  · unfold matchFastByTarget; rw [h]; decide +kernel
  · unfold matchBestByTarget; rw [h]; decide +kernel

/-- C161: an empty book has a fast match, with no actions, but the best match raises for it. -/
theorem C161_empty_violated (amount : ℤ) (filter : Rate → Bool) :
    matchFastByTarget amount [] filter = .ok [] ∧ matchFastBySource amount [] filter = .ok [] ∧
    matchBestByTarget amount [] filter = .error (.custom "UnboundLocalError") ∧
    matchBestBySource amount [] filter = .error (.custom "UnboundLocalError") := by
  have hs : ∀ trade sort, sortedQuotes amount [] trade sort = [] := fun _ _ => by simp [sortedQuotes, quotesOf]
  refine ⟨?_, ?_, ?_, ?_⟩
  · unfold matchFastByTarget; rw [hs]; rfl
  · unfold matchFastBySource; rw [hs]; rfl
  · unfold matchBestByTarget; rw [hs]; rfl
  · unfold matchBestBySource; rw [hs]; rfl

/-- Two orders of one rate each, matched in part. -/
def flatBook : List EncOrder := [⟨1000, 1000, encodeFloat 0, encodeFloat (2 ^ 47)⟩, ⟨500, 500, encodeFloat 0, encodeFloat (2 ^ 48)⟩]

example : (∀ o ∈ flatBook, Flat o) ∧ flatBook ≠ [] ∧ fill 700 flatBook.reverse = [⟨500, 500⟩, ⟨200, 800⟩] := by
  refine ⟨?_, by decide, by decide +kernel⟩
  unfold flatBook Flat
  decide +kernel

end Carbon.Prop.Match
