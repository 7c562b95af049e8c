import Verif.Bench.MatchBestLemmas

/-!
# Properties of the best matcher (C11, C59)
-/

namespace Carbon.Prop.Match

open Carbon Carbon.Bench Carbon.Spec Carbon.Prop.Trade

theorem mapM_lookup (orders : List EncOrder) (quotes : List Quote) (f : Quote → EncOrder)
    (h : ∀ q ∈ quotes, orders[q.id]? = some (f q)) :
    quotes.mapM (fun q => lookup orders q.id) = .ok (quotes.map f) := by
  induction quotes with
  | nil => rfl
  | cons q t ih =>
    rw [List.mapM_cons, ih fun q hq => h q (List.mem_cons_of_mem _ hq)]
    unfold lookup
    rw [h q (List.mem_cons_self)]
    rfl

theorem zip_fst_sublist {α β : Type} (a : List α) (b : List β) : ((a.zip b).map Prod.fst).Sublist a := by
  induction a generalizing b with
  | nil => simp
  | cons x t ih =>
    cases b with
    | nil => simp
    | cons y u => simpa using (ih u).cons_cons x

/-- Actions of the best matcher come from quotes of the orders themselves. -/
theorem best_origin (amount amount0 : ℤ) (orders quotes filter trade equalize)
    (hq : QuotesFor amount0 orders trade quotes) (hne : orders ≠ []) :
    ∃ rates, matchBest amount orders quotes filter trade equalize =
        .ok (((quotes.zip rates).filter fun p => filter p.2).map fun p => ⟨p.1.id, p.2.input, p.2.output⟩) ∧
      rates.length ≤ quotes.length ∧
      (∀ p ∈ quotes.zip rates, ∃ o x, orders[p.1.id]? = some o ∧ p.2 = trade x o) ∧
      ((∀ o ∈ orders, ∀ x, (trade x o).input ≤ x) → totalInput rates ≤ amount) := by
  have hm := fun q (h : q ∈ quotes) => hq.mem h
  let f : Quote → EncOrder := fun q => (orders[q.id]?).getD sentinel
  have hf : ∀ q ∈ quotes, orders[q.id]? = some (f q) := by
    intro q h
    obtain ⟨o, ho, _⟩ := hm q h
    simp [f, ho]
  have hqne : quotes ≠ [] := by
    intro h
    have := hq.length_eq
    rw [h] at this
    simp only [List.length_nil, List.length_map, List.length_zipIdx] at this
    exact hne (List.length_eq_zero_iff.1 this.symm)
  obtain ⟨rates, hr, done, post, hdp, hlen, hqd, htot⟩ :=
    matchBestRates_spec (amount := amount) (trade := trade) (equalize := equalize) (quotes.map f)
      (by simpa using hqne)
  refine ⟨rates, ?_, ?_, ?_, ?_⟩
  · unfold matchBest
    rw [mapM_lookup orders quotes f hf]
    simp only [Py.ok_bind]
    rw [hr]
    rfl
  · have := congrArg List.length hdp
    simp only [List.length_map, List.length_append] at this
    omega
  · intro p hp
    have h1 : (f p.1, p.2) ∈ (quotes.map f).zip rates := by
      rw [List.zip_map_left]
      exact List.mem_map.2 ⟨p, hp, rfl⟩
    have h2 : (quotes.map f).zip rates = done.zip rates := by
      rw [hdp]
      have := List.zip_append (l₁ := done) (r₁ := post) (l₂ := rates) (r₂ := []) hlen.symm
      simpa using this
    rw [h2] at h1
    obtain ⟨x, hx⟩ := hqd _ h1
    exact ⟨f p.1, x, hf _ (List.of_mem_zip hp).1, hx⟩
  · intro hcap
    apply htot
    intro o ho
    obtain ⟨q, hq', rfl⟩ := List.mem_map.1 ho
    exact hcap _ (List.mem_of_getElem? (hf q hq'))

/-! ## C59: the best match respects the book -/

/-- **C59** Best match: every action concerns a different order of the book and passes the filter. -/
theorem C59_each_order_once (amount amount0 : ℤ) (orders quotes filter trade equalize) (acts : List Action)
    (hq : QuotesFor amount0 orders trade quotes) (hne : orders ≠ [])
    (h : matchBest amount orders quotes filter trade equalize = .ok acts) :
    (acts.map Action.id).Nodup ∧ (∀ a ∈ acts, a.id < orders.length ∧ filter ⟨a.input, a.output⟩ = true) := by
  obtain ⟨rates, hr, hlen, hor, _⟩ := best_origin amount amount0 orders quotes filter trade equalize hq hne
  rw [hr] at h
  cases h
  constructor
  · rw [List.map_map]
    have e : (Action.id ∘ fun p : Quote × Rate => (⟨p.1.id, p.2.input, p.2.output⟩ : Action)) =
      Quote.id ∘ Prod.fst := rfl
    rw [e, ← List.map_map]
    have hs : (((quotes.zip rates).filter fun p => filter p.2).map Prod.fst).Sublist quotes := by
      refine ((List.filter_sublist (p := fun p : Quote × Rate => filter p.2)).map Prod.fst).trans ?_
      exact zip_fst_sublist _ _
    exact (hs.map Quote.id).nodup hq.nodup
  · intro a ha
    obtain ⟨p, hp, rfl⟩ := List.mem_map.1 ha
    obtain ⟨hp1, hp2⟩ := List.mem_filter.1 hp
    obtain ⟨o, x, ho, _⟩ := hor p hp1
    exact ⟨(List.getElem?_eq_some_iff.1 ho).1, hp2⟩

/-- **C59** Best match by source: each action pays out exactly the order's own quote for its input, and no more than the
order holds. -/
theorem C59_source (amount : ℤ) (orders quotes filter) (acts : List Action)
    (hy : ∀ o ∈ orders, 0 ≤ o.y) (hne : orders ≠ [])
    (hq : QuotesFor amount orders rateBySourceAmount quotes)
    (h : matchBest amount orders quotes filter rateBySourceAmount equalizeBySourceAmount = .ok acts) :
    ∀ a ∈ acts, ∃ o, orders[a.id]? = some o ∧ a.output ≤ o.y ∧ a.output = tradeBySourceAmount a.input o := by
  obtain ⟨rates, hr, _, hor, _⟩ := best_origin amount amount orders quotes filter _ equalizeBySourceAmount hq hne
  rw [hr] at h
  cases h
  intro a ha
  obtain ⟨p, hp, rfl⟩ := List.mem_map.1 ha
  obtain ⟨hp1, _⟩ := List.mem_filter.1 hp
  obtain ⟨o, x, ho, hx⟩ := hor p hp1
  have := rateBySource_output o (hy o (List.mem_of_getElem? ho)) x
  rw [← hx] at this
  exact ⟨o, ho, this⟩

/-- **C59** Best match by target: each action takes no more than the order holds, at the order's own quote. -/
theorem C59_target (amount : ℤ) (orders quotes filter) (acts : List Action) (hne : orders ≠ [])
    (hq : QuotesFor amount orders rateByTargetAmount quotes)
    (h : matchBest amount orders quotes filter rateByTargetAmount equalizeByTargetAmount = .ok acts) :
    ∀ a ∈ acts, ∃ o, orders[a.id]? = some o ∧ a.input ≤ o.y ∧ a.output = tradeByTargetAmount a.input o := by
  obtain ⟨rates, hr, _, hor, _⟩ := best_origin amount amount orders quotes filter _ equalizeByTargetAmount hq hne
  rw [hr] at h
  cases h
  intro a ha
  obtain ⟨p, hp, rfl⟩ := List.mem_map.1 ha
  obtain ⟨hp1, _⟩ := List.mem_filter.1 hp
  obtain ⟨o, x, ho, hx⟩ := hor p hp1
  refine ⟨o, ho, ?_⟩
  rw [hx]
  exact ⟨min_le_right _ _, rfl⟩

/-! ## C11: the best match and the requested amount

The full claim — the inputs of the actions sum to at most the requested amount — is false, see
`C11_violated`.  What holds is the claim for the amounts before filtering. -/

/-- Sum over a filtered list of pairs with non-negative dropped inputs. -/
theorem filtered_sum_le (l : List (Quote × Rate)) (flt : Rate → Bool)
    (h : ∀ p ∈ l, flt p.2 = false → 0 ≤ p.2.input) :
    (((l.filter fun p => flt p.2).map fun p => p.2.input).sum) ≤ (l.map fun p => p.2.input).sum := by
  induction l with
  | nil => simp
  | cons p t ih =>
    have iht := ih fun q hq => h q (List.mem_cons_of_mem _ hq)
    rw [List.filter_cons]
    split
    · simp only [List.map_cons, List.sum_cons]; omega
    · rename_i hf
      have := h p (List.mem_cons_self) (by simpa using hf)
      simp only [List.map_cons, List.sum_cons]; omega

/-- **C11 (partial)** If the filter drops no action with a negative input — in particular with a filter that drops
nothing — then the inputs sum to at most the requested amount, for any quotation rule that never takes more input than offered.
Missing for the full claim: the code can produce a negative input that the default filter then drops. -/
theorem C11_generic_partial (amount amount0 : ℤ) (orders quotes filter trade equalize)
    (hq : QuotesFor amount0 orders trade quotes) (hne : orders ≠ [])
    (hcap : ∀ o ∈ orders, ∀ x, (trade x o).input ≤ x)
    (all acts : List Action)
    (hall : matchBest amount orders quotes (fun _ => true) trade equalize = .ok all)
    (hneg : ∀ a ∈ all, filter ⟨a.input, a.output⟩ = false → 0 ≤ a.input)
    (h : matchBest amount orders quotes filter trade equalize = .ok acts) :
    (acts.map Action.input).sum ≤ amount := by
  obtain ⟨rates, hr, hlen, _, htot⟩ := best_origin amount amount0 orders quotes filter trade equalize hq hne
  obtain ⟨rates', hr', hlen', _, htot'⟩ :=
    best_origin amount amount0 orders quotes (fun _ => true) trade equalize hq hne
  -- both runs compute the same rates
  have hsame : ∃ rates, matchBest amount orders quotes filter trade equalize =
        .ok (((quotes.zip rates).filter fun p => filter p.2).map fun p => ⟨p.1.id, p.2.input, p.2.output⟩) ∧
      matchBest amount orders quotes (fun _ => true) trade equalize =
        .ok (((quotes.zip rates).filter fun _ => true).map fun p => ⟨p.1.id, p.2.input, p.2.output⟩) ∧
      rates.length ≤ quotes.length ∧ totalInput rates ≤ amount := by
    clear hr hlen htot hr' hlen' htot'
    have hm := fun q (h : q ∈ quotes) => hq.mem h
    let f : Quote → EncOrder := fun q => (orders[q.id]?).getD sentinel
    have hf : ∀ q ∈ quotes, orders[q.id]? = some (f q) := by
      intro q h
      obtain ⟨o, ho, _⟩ := hm q h
      simp [f, ho]
    have hqne : quotes ≠ [] := by
      intro h
      have := hq.length_eq
      rw [h] at this
      simp only [List.length_nil, List.length_map, List.length_zipIdx] at this
      exact hne (List.length_eq_zero_iff.1 this.symm)
    obtain ⟨rates, hr, done, post, hdp, hlen, _, htot⟩ :=
      matchBestRates_spec (amount := amount) (trade := trade) (equalize := equalize) (quotes.map f)
        (by simpa using hqne)
    refine ⟨rates, ?_, ?_, ?_, ?_⟩
    · unfold matchBest
      rw [mapM_lookup orders quotes f hf]
      simp only [Py.ok_bind]
      rw [hr]; rfl
    · unfold matchBest
      rw [mapM_lookup orders quotes f hf]
      simp only [Py.ok_bind]
      rw [hr]; rfl
    · have := congrArg List.length hdp
      simp only [List.length_map, List.length_append] at this
      omega
    · apply htot
      intro o ho
      obtain ⟨q, hq', rfl⟩ := List.mem_map.1 ho
      exact hcap _ (List.mem_of_getElem? (hf q hq'))
  obtain ⟨rates, e1, e2, hl, ht⟩ := hsame
  rw [e1] at h
  rw [e2] at hall
  cases h
  cases hall
  rw [List.map_map]
  have e : (Action.input ∘ fun p : Quote × Rate => (⟨p.1.id, p.2.input, p.2.output⟩ : Action)) =
    fun p => p.2.input := rfl
  rw [e]
  refine (filtered_sum_le _ filter ?_).trans ?_
  · intro p hp hf
    have : (⟨p.1.id, p.2.input, p.2.output⟩ : Action) ∈
      ((quotes.zip rates).filter fun _ => true).map fun p => (⟨p.1.id, p.2.input, p.2.output⟩ : Action) :=
      List.mem_map.2 ⟨p, by simpa using hp, rfl⟩
    exact hneg _ this hf
  · have : ((quotes.zip rates).map fun p => p.2.input) = rates.map Rate.input := by
      have e : (fun p : Quote × Rate => p.2.input) = Rate.input ∘ Prod.snd := rfl
      rw [e, ← List.map_map, List.map_snd_zip hl]
    rw [this]; exact ht

/-- A quote by target never takes more than was asked for. -/
theorem target_capped (o : EncOrder) (x : ℤ) : (rateByTargetAmount x o).input ≤ x := min_le_left _ _

/-- A quote by source never takes more than was offered, for orders in the unscaled regime. -/
theorem source_capped (o : EncOrder) (hy : 0 ≤ o.y) (hz : 0 < o.z) (ha : wordValue o.A ≠ 0)
    (hb : wordValue o.B ≠ 0) (hfit : TargetFits o.y o) (x : ℤ) : (rateBySourceAmount x o).input ≤ x := by
  unfold rateBySourceAmount
  dsimp only
  split
  · rename_i hgt
    have hred := (reduceInput_spec o hy (tradeByTargetAmount o.y o).toNat).2
    have hr0 := (C05_range o.y o).2.1
    suffices tradeByTargetAmount o.y o ≤ x by
      have : ((tradeByTargetAmount o.y o).toNat : ℤ) = tradeByTargetAmount o.y o := Int.toNat_of_nonneg hr0
      dsimp only
      omega
    have hx : 0 < x := by
      by_contra hcon
      have := C05_nonpositive_source x o (by omega)
      omega
    have h1 := C03_payout_le_curve x o hx.le hy hz.le
    rw [C06_target_exact o.y o hy hy hz.le ha hfit]
    refine (min_le_left _ _).trans (Int.ceil_le.2 ?_)
    have hapos : 0 < wordValue o.A := lt_of_le_of_ne (wordValue_nonneg _) (Ne.symm ha)
    have hbpos : 0 < wordValue o.B := lt_of_le_of_ne (wordValue_nonneg _) (Ne.symm hb)
    have hyq : (0:ℚ) ≤ o.y := by exact_mod_cast hy
    have hzq : (0:ℚ) < o.z := by exact_mod_cast hz
    refine (curve_galois hapos (by exact_mod_cast hx.le) hzq (by positivity) hfit.1).1 (le_trans ?_ h1)
    exact_mod_cast hgt.le
  · exact le_rfl

/-- **C11 (partial)** By target, with any filter: at most the requested amount unless a negative input is filtered out. -/
theorem C11_target_partial (amount : ℤ) (orders quotes filter)
    (hq : QuotesFor amount orders rateByTargetAmount quotes) (hne : orders ≠ []) (all acts : List Action)
    (hall : matchBest amount orders quotes (fun _ => true) rateByTargetAmount equalizeByTargetAmount = .ok all)
    (hneg : ∀ a ∈ all, filter ⟨a.input, a.output⟩ = false → 0 ≤ a.input)
    (h : matchBest amount orders quotes filter rateByTargetAmount equalizeByTargetAmount = .ok acts) :
    (acts.map Action.input).sum ≤ amount :=
  C11_generic_partial amount amount orders quotes filter _ _ hq hne (fun _ _ x => target_capped _ x) all acts hall hneg h

/-- **C11 (partial)** By source, for orders in the unscaled regime: at most the requested amount unless a negative input
is filtered out. -/
theorem C11_source_partial (amount : ℤ) (orders quotes filter)
    (hfit : ∀ o ∈ orders, 0 ≤ o.y ∧ 0 < o.z ∧ wordValue o.A ≠ 0 ∧ wordValue o.B ≠ 0 ∧ TargetFits o.y o)
    (hq : QuotesFor amount orders rateBySourceAmount quotes) (hne : orders ≠ []) (all acts : List Action)
    (hall : matchBest amount orders quotes (fun _ => true) rateBySourceAmount equalizeBySourceAmount = .ok all)
    (hneg : ∀ a ∈ all, filter ⟨a.input, a.output⟩ = false → 0 ≤ a.input)
    (h : matchBest amount orders quotes filter rateBySourceAmount equalizeBySourceAmount = .ok acts) :
    (acts.map Action.input).sum ≤ amount :=
  C11_generic_partial amount amount orders quotes filter _ _ hq hne
    (fun o ho x => by
      obtain ⟨h1, h2, h3, h4, h5⟩ := hfit o ho
      exact source_capped o h1 h2 h3 h4 h5 x) all acts hall hneg h

/-- A normal book: the partial theorems' hypotheses hold, all amounts are positive and add up exactly. -/
example : matchBest 1200 book bookQuotes (fun _ => true) rateByTargetAmount equalizeByTargetAmount =
      .ok [⟨0, 885, 558⟩, ⟨1, 315, 258⟩] ∧ QuotesFor 1200 book rateByTargetAmount bookQuotes := by
  constructor
  · decide +kernel
  · have : (book.zipIdx.map fun p => (⟨p.2, rateByTargetAmount 1200 p.1⟩ : Quote)) = bookQuotes := by decide +kernel
    unfold QuotesFor; rw [this]

/-- A large order and a tiny one at the same price: 10^24 and 1000 units, square root price range 1 to 1 + 2^-10. -/
def badBook : List EncOrder :=
  [⟨10 ^ 24, 10 ^ 24, encodeFloat (2 ^ 38), encodeFloat (2 ^ 48)⟩,
   ⟨1000, 1000, encodeFloat (2 ^ 38), encodeFloat (2 ^ 48)⟩]

/-- Their quotes for 10^11 units of target token, in the order in which the sort puts them. -/
def badQuotes : List Quote :=
  [⟨0, rateByTargetAmount (10 ^ 11) badBook[0]⟩, ⟨1, rateByTargetAmount (10 ^ 11) badBook[1]⟩]

/-- **C11 is violated by the code**: on this book a request for 10^11 units is matched with an action of
3637978807091 units, thirty-six times the request.  One step of the price limit is worth more than the request, the correction
loop then assigns a negative amount to the tiny order, and the default filter drops it. -/
theorem C11_violated :
    QuotesFor (10 ^ 11) badBook rateByTargetAmount badQuotes ∧
    matchBest (10 ^ 11) badBook badQuotes defaultFilter rateByTargetAmount equalizeByTargetAmount =
      .ok [⟨0, 3637978807091, 3630883774539⟩] := by
  constructor
  · exact List.Perm.refl _
  · decide +kernel

/-- The sort indeed leaves the two quotes in this order, so the violation happens through `execute`'s own route. -/
theorem C11_violated_end_to_end :
    matchBestByTarget (10 ^ 11) badBook defaultFilter = .ok [⟨0, 3637978807091, 3630883774539⟩] := by
  have h : sortedQuotes (10 ^ 11) badBook rateByTargetAmount sortByMaxRate = badQuotes := by
    have h2 : sortByMaxRate badQuotes[0] badQuotes[1] ≤ 0 := by decide +kernel
    unfold sortedQuotes
    have : quotesOf (10 ^ 11) badBook rateByTargetAmount = [badQuotes[0], badQuotes[1]] := rfl
    rw [this]
    rw [List.mergeSort_of_pairwise]
    · rfl
    · simpa using h2
  unfold matchBestByTarget
  rw [h]
  exact C11_violated.2

end Carbon.Prop.Match
