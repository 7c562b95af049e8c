import Verif.Bench.Match
import Verif.Prop.Trade
import Mathlib.Algebra.BigOperators.Group.List.Basic
import Mathlib.Algebra.Order.BigOperators.Group.List

/-!
# Properties of the matchers (C08 – C11, C58, C59)

The theorems about `matchFast` hold for every list of quotes that is a rearrangement of the quotes of the
orders, so in particular for whatever order the sort produces.
-/

namespace Carbon.Prop.Match

open Carbon Carbon.Bench Carbon.Spec Carbon.Prop.Trade

/-- What it means for `quotes` to be the quotes of the book in some order. -/
def QuotesFor (amount : ℤ) (orders : List EncOrder) (trade : ℤ → EncOrder → Rate) (quotes : List Quote) : Prop :=
  quotes.Perm (orders.zipIdx.map fun p => ⟨p.2, trade amount p.1⟩)

theorem sortedQuotes_quotesFor (amount orders trade sort) :
    QuotesFor amount orders trade (sortedQuotes amount orders trade sort) :=
  List.mergeSort_perm _ _

theorem QuotesFor.mem {amount orders trade quotes} (h : QuotesFor amount orders trade quotes) {q : Quote}
    (hq : q ∈ quotes) : ∃ o, orders[q.id]? = some o ∧ q.rate = trade amount o := by
  have := h.mem_iff.1 hq
  simp only [List.mem_map, Prod.exists] at this
  obtain ⟨o, i, hm, rfl⟩ := this
  exact ⟨o, by simpa using List.mk_mem_zipIdx_iff_getElem?.1 hm, rfl⟩

theorem QuotesFor.nodup {amount orders trade quotes} (h : QuotesFor amount orders trade quotes) :
    (quotes.map Quote.id).Nodup := by
  have h1 := h.map Quote.id
  rw [h1.nodup_iff, List.map_map]
  have : (Quote.id ∘ fun p : EncOrder × ℕ => (⟨p.2, trade amount p.1⟩ : Quote)) = Prod.snd := rfl
  rw [this, List.zipIdx_map_snd]
  exact List.nodup_range'

/-! ## C08 -/

/-- **C08** Fast matching never fails on a book's own quotes. -/
theorem C08_total (amount : ℤ) (orders quotes filter trade) (amount0 : ℤ)
    (h : QuotesFor amount0 orders trade quotes) :
    ∃ acts, matchFast amount orders quotes filter trade = .ok acts := by
  have hm : ∀ q ∈ quotes, ∃ o, orders[q.id]? = some o := fun q hq => (h.mem hq).imp fun _ h => h.1
  clear h
  induction quotes generalizing amount with
  | nil => exact ⟨[], rfl⟩
  | cons q rest ih =>
    have ih' := fun a => ih a (fun q hq => hm q (List.mem_cons_of_mem _ hq))
    unfold matchFast
    split
    · split
      · obtain ⟨acts, ha⟩ := ih' (amount - q.rate.input)
        rw [ha]; exact ⟨_, rfl⟩
      · exact ih' amount
    · split
      · split <;> exact ⟨_, rfl⟩
      · obtain ⟨o, ho⟩ := hm q (List.mem_cons_self)
        unfold lookup
        rw [ho]
        simp only [Py.ok_bind]
        split <;> exact ⟨_, rfl⟩

/-- **C08** The inputs of the actions sum to at most the requested amount, for any trade function, any
quotes and any filter. -/
theorem C08_total_input_le (amount : ℤ) (hpos : 0 ≤ amount) (orders quotes filter trade) (acts : List Action)
    (h : matchFast amount orders quotes filter trade = .ok acts) :
    (acts.map Action.input).sum ≤ amount := by
  induction quotes generalizing amount acts with
  | nil => cases h; simpa using hpos
  | cons q rest ih =>
    unfold matchFast at h
    split at h
    · rename_i hgt
      split at h
      · rw [Py.bind_eq_ok] at h
        obtain ⟨acts', h', he⟩ := h
        cases he
        have := ih _ (by omega) _ h'
        simp only [List.map_cons, List.sum_cons]
        omega
      · exact ih _ hpos _ h
    · split at h
      · rename_i heq
        split at h
        · cases h; simpa using heq.symm.le
        · cases h; simpa using hpos
      · rw [Py.bind_eq_ok] at h
        obtain ⟨o, _, h⟩ := h
        dsimp only at h
        split at h
        · cases h; simp
        · cases h; simpa using hpos

theorem acts_ids_sublist (amount : ℤ) (orders quotes filter trade) (acts : List Action)
    (h : matchFast amount orders quotes filter trade = .ok acts) :
    (acts.map Action.id).Sublist (quotes.map Quote.id) := by
  induction quotes generalizing amount acts with
  | nil => cases h; simp
  | cons q rest ih =>
    unfold matchFast at h
    split at h
    · split at h
      · rw [Py.bind_eq_ok] at h
        obtain ⟨acts', h', he⟩ := h
        cases he
        exact (ih _ _ h').cons_cons _
      · exact (ih _ _ h).cons _
    · split at h
      · split at h
        · cases h; simp
        · cases h; simp
      · rw [Py.bind_eq_ok] at h
        obtain ⟨o, _, h⟩ := h
        dsimp only at h
        split at h
        · cases h; simp
        · cases h; simp

/-- **C08** Every order is used at most once, and only orders of the book are used. -/
theorem C08_each_order_once (amount amount0 : ℤ) (orders quotes filter trade) (acts : List Action)
    (hq : QuotesFor amount0 orders trade quotes)
    (h : matchFast amount orders quotes filter trade = .ok acts) :
    (acts.map Action.id).Nodup ∧ ∀ a ∈ acts, a.id < orders.length := by
  have hs := acts_ids_sublist _ _ _ _ _ _ h
  refine ⟨hs.nodup hq.nodup, fun a ha => ?_⟩
  have := hs.subset (List.mem_map_of_mem ha)
  rw [List.mem_map] at this
  obtain ⟨q, hq', he⟩ := this
  obtain ⟨o, ho, _⟩ := hq.mem hq'
  rw [← he]
  exact (List.getElem?_eq_some_iff.1 ho).1

/-- **C08** Every action passes the caller's filter. -/
theorem C08_filtered (amount : ℤ) (orders quotes filter trade) (acts : List Action)
    (h : matchFast amount orders quotes filter trade = .ok acts) :
    ∀ a ∈ acts, filter ⟨a.input, a.output⟩ = true := by
  induction quotes generalizing amount acts with
  | nil => cases h; simp
  | cons q rest ih =>
    unfold matchFast at h
    split at h
    · split at h
      · rename_i hf
        rw [Py.bind_eq_ok] at h
        obtain ⟨acts', h', he⟩ := h
        cases he
        intro a ha
        rcases List.mem_cons.1 ha with rfl | ha
        · exact hf
        · exact ih _ _ h' a ha
      · exact ih _ _ h
    · split at h
      · split at h
        · rename_i hf; cases h; intro a ha; rw [List.mem_singleton] at ha; subst ha; exact hf
        · cases h; simp
      · rw [Py.bind_eq_ok] at h
        obtain ⟨o, _, h⟩ := h
        dsimp only at h
        split at h
        · rename_i hf; cases h; intro a ha; rw [List.mem_singleton] at ha; subst ha; exact hf
        · cases h; simp

/-! ## C09: nobody is overdrawn -/

theorem reduceInput_spec (o : EncOrder) (hy : 0 ≤ o.y) (n : ℕ) :
    tradeBySourceAmount (reduceInput o n : ℕ) o ≤ o.y ∧ reduceInput o n ≤ n := by
  induction n with
  | zero =>
    simp only [reduceInput, le_refl, and_true]
    rw [C05_nonpositive_source _ _ (by simp)]
    exact hy
  | succ n ih =>
    unfold reduceInput
    split
    · exact ⟨ih.1, ih.2.trans (by omega)⟩
    · rename_i h
      exact ⟨not_lt.1 h, le_rfl⟩

theorem rateBySource_output (o : EncOrder) (hy : 0 ≤ o.y) (x : ℤ) :
    (rateBySourceAmount x o).output ≤ o.y ∧
    (rateBySourceAmount x o).output = tradeBySourceAmount (rateBySourceAmount x o).input o := by
  unfold rateBySourceAmount
  simp only
  split
  · exact ⟨(reduceInput_spec o hy _).1, rfl⟩
  · rename_i h
    exact ⟨not_lt.1 h, rfl⟩

/-- Origin of an action: an unchanged quote, or the partial fill that ends the match. -/
theorem action_origin (amount amount0 : ℤ) (orders quotes filter trade) (acts : List Action)
    (hq : QuotesFor amount0 orders trade quotes)
    (h : matchFast amount orders quotes filter trade = .ok acts) (a : Action) (ha : a ∈ acts) :
    ∃ o, orders[a.id]? = some o ∧
      ((a.input = (trade amount0 o).input ∧ a.output = (trade amount0 o).output) ∨
       (a.input < (trade amount0 o).input ∧ a.output = (trade a.input o).output)) := by
  have hm : ∀ q ∈ quotes, ∃ o, orders[q.id]? = some o ∧ q.rate = trade amount0 o := fun q h => hq.mem h
  clear hq
  induction quotes generalizing amount acts with
  | nil => cases h; simp at ha
  | cons q rest ih =>
    have hm' : ∀ q ∈ rest, ∃ o, orders[q.id]? = some o ∧ q.rate = trade amount0 o :=
      fun q hq => hm q (List.mem_cons_of_mem _ hq)
    obtain ⟨o, ho, hr⟩ := hm q (List.mem_cons_self)
    unfold matchFast at h
    split at h
    · split at h
      · rw [Py.bind_eq_ok] at h
        obtain ⟨acts', h', he⟩ := h
        cases he
        rcases List.mem_cons.1 ha with rfl | ha
        · exact ⟨o, ho, Or.inl (by rw [hr]; exact ⟨rfl, rfl⟩)⟩
        · exact ih _ _ h' ha hm'
      · exact ih _ _ h ha hm'
    · split at h
      · split at h
        · cases h; rw [List.mem_singleton] at ha; subst ha
          exact ⟨o, ho, Or.inl (by rw [hr]; exact ⟨rfl, rfl⟩)⟩
        · cases h; simp at ha
      · rw [Py.bind_eq_ok] at h
        obtain ⟨o', ho', h⟩ := h
        unfold lookup at ho'
        rw [ho] at ho'
        cases ho'
        dsimp only at h
        split at h
        · cases h; rw [List.mem_singleton] at ha; subst ha
          refine ⟨o, ho, Or.inr ⟨?_, rfl⟩⟩
          simp only
          rw [← hr]; omega
        · cases h; simp at ha

/-- **C09** Fast match by source: no action pays out more than its order holds. -/
theorem C09_source (amount : ℤ) (orders quotes filter) (acts : List Action)
    (hy : ∀ o ∈ orders, 0 ≤ o.y)
    (hq : QuotesFor amount orders rateBySourceAmount quotes)
    (h : matchFast amount orders quotes filter rateBySourceAmount = .ok acts) :
    ∀ a ∈ acts, ∃ o, orders[a.id]? = some o ∧ a.output ≤ o.y := by
  intro a ha
  obtain ⟨o, ho, hor⟩ := action_origin _ _ _ _ _ _ _ hq h a ha
  have hoy := hy o (List.mem_of_getElem? ho)
  refine ⟨o, ho, ?_⟩
  rcases hor with ⟨_, h2⟩ | ⟨_, h2⟩
  · rw [h2]; exact (rateBySource_output o hoy _).1
  · rw [h2]; exact (rateBySource_output o hoy _).1

/-- **C09** Fast match by target: no action asks an order for more than it holds. -/
theorem C09_target (amount : ℤ) (orders quotes filter) (acts : List Action)
    (hq : QuotesFor amount orders rateByTargetAmount quotes)
    (h : matchFast amount orders quotes filter rateByTargetAmount = .ok acts) :
    ∀ a ∈ acts, ∃ o, orders[a.id]? = some o ∧ a.input ≤ o.y := by
  intro a ha
  obtain ⟨o, ho, hor⟩ := action_origin _ _ _ _ _ _ _ hq h a ha
  refine ⟨o, ho, ?_⟩
  rcases hor with ⟨h1, _⟩ | ⟨h1, _⟩
  · rw [h1]; exact min_le_right _ _
  · exact h1.le.trans (min_le_right _ _)

/-! ## C58: the amounts of an action are what the order itself quotes -/

/-- **C58** Fast match by target: the source amount of each action is exactly what the order charges for its target amount. -/
theorem C58_target (amount : ℤ) (orders quotes filter) (acts : List Action)
    (hq : QuotesFor amount orders rateByTargetAmount quotes)
    (h : matchFast amount orders quotes filter rateByTargetAmount = .ok acts) :
    ∀ a ∈ acts, ∃ o, orders[a.id]? = some o ∧ a.output = tradeByTargetAmount a.input o := by
  intro a ha
  obtain ⟨o, ho, hor⟩ := action_origin _ _ _ _ _ _ _ hq h a ha
  refine ⟨o, ho, ?_⟩
  rcases hor with ⟨h1, h2⟩ | ⟨h1, h2⟩
  · rw [h2, h1]; rfl
  · rw [h2]
    have h3 : a.input ≤ o.y := h1.le.trans (min_le_right _ _)
    simp only [rateByTargetAmount, min_eq_left h3]

/-- **C58** Fast match by source: each action pays the order's own quote, unless this exceeds the holdings. Missing: in that case the
order pays a quote for a smaller input than the one charged (`C58_source_violated`). -/
theorem C58_source_partial (amount : ℤ) (orders quotes filter) (acts : List Action)
    (hy : ∀ o ∈ orders, 0 ≤ o.y)
    (hq : QuotesFor amount orders rateBySourceAmount quotes)
    (h : matchFast amount orders quotes filter rateBySourceAmount = .ok acts) :
    ∀ a ∈ acts, ∃ o, orders[a.id]? = some o ∧
      (tradeBySourceAmount a.input o ≤ o.y → a.output = tradeBySourceAmount a.input o) := by
  intro a ha
  obtain ⟨o, ho, hor⟩ := action_origin _ _ _ _ _ _ _ hq h a ha
  have hoy := hy o (List.mem_of_getElem? ho)
  refine ⟨o, ho, fun hle => ?_⟩
  rcases hor with ⟨h1, h2⟩ | ⟨_, h2⟩
  · rw [h2, h1]; exact (rateBySource_output o hoy _).2
  · rw [h2]
    unfold rateBySourceAmount
    simp only [if_neg (not_lt.2 hle)]

/-! ## C10: completeness of the match by target -/

/-- Selling something from a non-empty order is never free. -/
theorem target_quote_pos (d : ℤ) (o : EncOrder) (hd : 0 < d) (hz : 0 < o.z) : 0 < tradeByTargetAmount d o := by
  by_contra hcon
  have h0 := (C05_range d o).2.1
  have heq : tradeByTargetAmount d o = 0 := by omega
  obtain ⟨h1, h2, h3⟩ := C04_cost_ge_curve d o (by rw [heq]; norm_num)
  rw [heq] at h1
  have hdq : (0:ℚ) < d := by exact_mod_cast hd
  have hzq : (0:ℚ) < o.z := by exact_mod_cast hz
  have : 0 < curveIn d o.y o.z (wordValue o.A) (wordValue o.B) := by
    unfold curveIn
    split
    · rename_i ha
      have := h2 ha
      positivity
    · rename_i ha
      obtain ⟨_, h5⟩ := h3 ha
      have hApos : 0 < wordValue o.A := lt_of_le_of_ne (wordValue_nonneg _) (Ne.symm ha)
      have h6 : 0 < wordValue o.A * o.y + wordValue o.B * o.z := lt_trans (by positivity) h5
      exact div_pos (by positivity) (mul_pos h6 (by linarith))
  simp only [Int.cast_zero] at h1
  linarith

theorem fill_aux (orders : List EncOrder) (amount0 : ℤ) (quotes : List Quote) (acts : List Action) (amount : ℤ)
    (hpos : 0 < amount) (hle : amount ≤ amount0)
    (hm : ∀ q ∈ quotes, ∃ o, orders[q.id]? = some o ∧ q.rate = rateByTargetAmount amount0 o ∧ 0 ≤ o.y ∧
      (0 < o.y → 0 < o.z))
    (h : matchFast amount orders quotes defaultFilter rateByTargetAmount = .ok acts) :
    (acts.map Action.input).sum = min amount ((quotes.map fun q => q.rate.input).sum) := by
  induction quotes generalizing amount acts with
  | nil => cases h; simp [hpos.le]
  | cons q rest ih =>
    have hm' := fun q hq => hm q (List.mem_cons_of_mem _ hq)
    obtain ⟨o, ho, hr, hy, hz⟩ := hm q (List.mem_cons_self)
    have hin : q.rate.input = min amount0 o.y := by rw [hr]; rfl
    have hnn : 0 ≤ (rest.map fun q => q.rate.input).sum := by
      apply List.sum_nonneg
      intro x hx
      rw [List.mem_map] at hx
      obtain ⟨q', hq', rfl⟩ := hx
      obtain ⟨o', _, hr', hy', _⟩ := hm' q' hq'
      rw [hr']
      exact le_min (hpos.le.trans hle) hy'
    have hfil : 0 < q.rate.input → defaultFilter q.rate = true := by
      intro hp
      have h1 : 0 < q.rate.output := by
        rw [hr]
        exact target_quote_pos _ _ (by rw [hr] at hp; exact hp)
          (hz (lt_of_lt_of_le hp (by rw [hin]; exact min_le_right _ _)))
      simp [defaultFilter, hp, h1]
    simp only [List.map_cons, List.sum_cons]
    unfold matchFast at h
    split at h
    · rename_i hgt
      split at h
      · rename_i hf
        rw [Py.bind_eq_ok] at h
        obtain ⟨acts', h', he⟩ := h
        cases he
        have hpos' : 0 < q.rate.input := by
          simp only [defaultFilter, Bool.and_eq_true, decide_eq_true_eq] at hf; exact hf.1
        have := ih acts' _ (by omega) (by omega) hm' h'
        simp only [List.map_cons, List.sum_cons, this]
        omega
      · rename_i hf
        have h0 : q.rate.input = 0 := by
          have : ¬ 0 < q.rate.input := fun hp => hf (hfil hp)
          have : 0 ≤ q.rate.input := by rw [hin]; exact le_min (hpos.le.trans hle) hy
          omega
        rw [ih acts _ hpos hle hm' h, h0, zero_add]
    · rename_i hng
      split at h
      · rename_i heq
        rw [if_pos (hfil (by omega))] at h
        cases h
        simp only [List.map_cons, List.map_nil, List.sum_cons, List.sum_nil]
        omega
      · rename_i hne
        rw [Py.bind_eq_ok] at h
        obtain ⟨o', ho', h⟩ := h
        unfold lookup at ho'
        rw [ho] at ho'
        cases ho'
        dsimp only at h
        have hlt : amount < q.rate.input := by omega
        have hfil2 : defaultFilter ⟨amount, (rateByTargetAmount amount o).output⟩ = true := by
          have hyo : amount < o.y := lt_of_lt_of_le hlt (by rw [hin]; exact min_le_right _ _)
          have h1 : 0 < (rateByTargetAmount amount o).output :=
            target_quote_pos _ _ (lt_min hpos (by omega)) (hz (by omega))
          simp [defaultFilter, hpos, h1]
        rw [if_pos hfil2] at h
        cases h
        simp only [List.map_cons, List.map_nil, List.sum_cons, List.sum_nil]
        omega

/-- Capping every element does not change the capped sum. -/
theorem min_sum_min (m : ℤ) (hm : 0 ≤ m) (l : List ℤ) (hl : ∀ y ∈ l, 0 ≤ y) :
    min m ((l.map (min m)).sum) = min m l.sum := by
  induction l with
  | nil => simp
  | cons y t ih =>
    have hy := hl y (List.mem_cons_self)
    have ht := ih fun z hz => hl z (List.mem_cons_of_mem _ hz)
    have hnn : 0 ≤ t.sum := List.sum_nonneg fun z hz => hl z (List.mem_cons_of_mem _ hz)
    have hnn2 : 0 ≤ (t.map (min m)).sum := by
      apply List.sum_nonneg
      intro x hx
      rw [List.mem_map] at hx
      obtain ⟨z, hz, rfl⟩ := hx
      exact le_min hm (hl z (List.mem_cons_of_mem _ hz))
    simp only [List.map_cons, List.sum_cons]
    omega

/-- **C10** Fast match by target with the default filter: the request is filled completely, or the whole book is used up. -/
theorem C10_fill (amount : ℤ) (hpos : 0 < amount) (orders quotes) (acts : List Action)
    (hy : ∀ o ∈ orders, 0 ≤ o.y ∧ o.y ≤ o.z)
    (hq : QuotesFor amount orders rateByTargetAmount quotes)
    (h : matchFast amount orders quotes defaultFilter rateByTargetAmount = .ok acts) :
    (acts.map Action.input).sum = min amount ((orders.map EncOrder.y).sum) := by
  rw [fill_aux orders amount quotes acts amount hpos le_rfl ?_ h]
  · have hp := (hq.map fun q => q.rate.input).sum_eq
    rw [hp, List.map_map]
    have e : (orders.zipIdx.map ((fun q : Quote => q.rate.input) ∘
        fun p : EncOrder × ℕ => (⟨p.2, rateByTargetAmount amount p.1⟩ : Quote))) =
        (orders.map EncOrder.y).map (min amount) := by
      rw [List.map_map]
      have : (fun q : Quote => q.rate.input) ∘
        (fun p : EncOrder × ℕ => (⟨p.2, rateByTargetAmount amount p.1⟩ : Quote)) =
        (min amount ∘ EncOrder.y) ∘ Prod.fst := rfl
      rw [this, ← List.map_map, List.zipIdx_map_fst]
    rw [e]
    apply min_sum_min _ hpos.le
    intro y hy'
    rw [List.mem_map] at hy'
    obtain ⟨o, ho, rfl⟩ := hy'
    exact (hy o ho).1
  · intro q hq'
    obtain ⟨o, ho, hr⟩ := hq.mem hq'
    have := hy o (List.mem_of_getElem? ho)
    exact ⟨o, ho, hr, this.1, fun h => by omega⟩

/-- A book of two orders for the examples. -/
def book : List EncOrder :=
  [⟨1000, 1000, encodeFloat (2 ^ 47), encodeFloat (2 ^ 48)⟩, ⟨500, 800, encodeFloat (2 ^ 46), encodeFloat (2 ^ 48)⟩]

/-- The quotes of the book for a purchase of 1200, best price first. -/
def bookQuotes : List Quote := [⟨0, 1000, 667⟩, ⟨1, 500, 433⟩]

example : QuotesFor 1200 book rateByTargetAmount bookQuotes :=
  by
    have : (book.zipIdx.map fun p => (⟨p.2, rateByTargetAmount 1200 p.1⟩ : Quote)) = bookQuotes := by decide +kernel
    unfold QuotesFor; rw [this]
/-- All of the first order and 200 of the second: C08, C09, C10, C58 apply to this match. -/
example : matchFast 1200 book bookQuotes defaultFilter rateByTargetAmount =
    .ok [⟨0, 1000, 667⟩, ⟨1, 200, 159⟩] := by decide +kernel
example : ∀ o ∈ book, 0 ≤ o.y ∧ o.y ≤ o.z := by decide
/-- By source, 900 units: the first order is bought out, the rest goes to the second. -/
example : matchFast 900 book [⟨0, 667, 1000⟩, ⟨1, 433, 500⟩] defaultFilter rateBySourceAmount =
    .ok [⟨0, 667, 1000⟩, ⟨1, 233, 287⟩] := by decide +kernel

/-- A book of two orders with one price each: 1/4 and 2^48. -/
def largeBook : List EncOrder :=
  [⟨1000, 1000, encodeFloat 0, encodeFloat (2 ^ 47)⟩, ⟨2 ^ 50, 2 ^ 50, encodeFloat 0, encodeFloat (2 ^ 72)⟩]

/-- **C58** is violated by source: the quote of the second order for the whole amount overflows and counts as nothing for everything.
The remaining amount does not overflow, and all of it is charged although four units buy the same output. -/
theorem C58_source_violated : ∃ (amount : ℤ) (orders : List EncOrder) (quotes : List Quote) (acts : List Action),
    (∀ o ∈ orders, 0 ≤ o.y ∧ o.y ≤ o.z) ∧ QuotesFor amount orders rateBySourceAmount quotes ∧
    matchFast amount orders quotes defaultFilter rateBySourceAmount = .ok acts ∧
    ∃ a ∈ acts, ∃ o, orders[a.id]? = some o ∧ a.output < tradeBySourceAmount a.input o ∧ a.input = 2 ^ 80 - 3000 ∧
      a.output = tradeBySourceAmount 4 o := by
  refine ⟨2 ^ 80 + 1000, largeBook, [⟨0, 4000, 1000⟩, ⟨1, 2 ^ 80 + 1000, 0⟩], [⟨0, 4000, 1000⟩, ⟨1, 2 ^ 80 - 3000, 2 ^ 50⟩],
    by decide, ?_, by decide +kernel, ⟨1, 2 ^ 80 - 3000, 2 ^ 50⟩, by simp,
    ⟨2 ^ 50, 2 ^ 50, encodeFloat 0, encodeFloat (2 ^ 72)⟩, rfl, by decide +kernel, rfl, by decide +kernel⟩
  have : (largeBook.zipIdx.map fun p => (⟨p.2, rateBySourceAmount (2 ^ 80 + 1000) p.1⟩ : Quote)) =
      [⟨0, 4000, 1000⟩, ⟨1, 2 ^ 80 + 1000, 0⟩] := by decide +kernel
  unfold QuotesFor
  rw [this]

end Carbon.Prop.Match
