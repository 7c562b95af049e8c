import Verif.Prop.MatchOptimalSource

/-!
# C161 where the orders can be cleared at one rate: the best match is no worse than the fast one, up to rounding
-/

namespace Carbon.Prop.Match

open Carbon Carbon.Bench Carbon.Spec Carbon.Prop.Trade

/-- The actions of a fast match as amounts for all the quoted orders, nothing for those without an action. -/
theorem fast_vector (amount : ℤ) (orders : List EncOrder) (quotes : List Quote) (filter : Rate → Bool) (trade : ℤ → EncOrder → Rate)
    (acts : List Action) (s : List EncOrder) (hq : quotes.mapM (fun q => lookup orders q.id) = .ok s)
    (h : matchFast amount orders quotes filter trade = .ok acts) (P : EncOrder → ℤ → ℤ → Prop)
    (hP : ∀ a ∈ acts, ∀ o, orders[a.id]? = some o → P o a.input a.output) :
    ∃ g : List (ℤ × ℤ), g.length = s.length ∧ (g.map Prod.fst).sum = (acts.map Action.input).sum ∧
      (g.map Prod.snd).sum = (acts.map Action.output).sum ∧ ∀ p ∈ s.zip g, p.2 = (0, 0) ∨ P p.1 p.2.1 p.2.2 := by
  have zeros : ∀ t : List EncOrder, ∃ g : List (ℤ × ℤ), g.length = t.length ∧ (g.map Prod.fst).sum = 0 ∧ (g.map Prod.snd).sum = 0 ∧
      ∀ p ∈ t.zip g, p.2 = (0, 0) := by
    intro t
    refine ⟨List.replicate t.length (0, 0), by simp, by simp, by simp, fun p hp => ?_⟩
    exact List.eq_of_mem_replicate (List.of_mem_zip hp).2
  induction quotes generalizing amount acts s with
  | nil =>
    cases hq
    cases h
    exact ⟨[], rfl, rfl, rfl, by simp⟩
  | cons q t ih =>
    rw [List.mapM_cons, Py.bind_eq_ok] at hq
    obtain ⟨o, ho, hq⟩ := hq
    rw [Py.bind_eq_ok] at hq
    obtain ⟨u, hu, hq⟩ := hq
    cases hq
    have ho' : orders[q.id]? = some o := by
      unfold lookup at ho
      split at ho
      · cases ho; assumption
      · cases ho
    have skip : (∃ g : List (ℤ × ℤ), g.length = u.length ∧ (g.map Prod.fst).sum = (acts.map Action.input).sum ∧
        (g.map Prod.snd).sum = (acts.map Action.output).sum ∧ ∀ p ∈ u.zip g, p.2 = (0, 0) ∨ P p.1 p.2.1 p.2.2) →
        ∃ g : List (ℤ × ℤ), g.length = (o :: u).length ∧ (g.map Prod.fst).sum = (acts.map Action.input).sum ∧
        (g.map Prod.snd).sum = (acts.map Action.output).sum ∧ ∀ p ∈ (o :: u).zip g, p.2 = (0, 0) ∨ P p.1 p.2.1 p.2.2 := by
      rintro ⟨g, g1, g2, g3, g4⟩
      refine ⟨(0, 0) :: g, by simp [g1], by simpa using g2, by simpa using g3, fun p hp => ?_⟩
      rcases List.mem_cons.1 hp with rfl | hp
      · exact Or.inl rfl
      · exact g4 p hp
    have take : ∀ a acts', acts = a :: acts' → a.id = q.id →
        (∃ g : List (ℤ × ℤ), g.length = u.length ∧ (g.map Prod.fst).sum = (acts'.map Action.input).sum ∧
        (g.map Prod.snd).sum = (acts'.map Action.output).sum ∧ ∀ p ∈ u.zip g, p.2 = (0, 0) ∨ P p.1 p.2.1 p.2.2) →
        ∃ g : List (ℤ × ℤ), g.length = (o :: u).length ∧ (g.map Prod.fst).sum = (acts.map Action.input).sum ∧
        (g.map Prod.snd).sum = (acts.map Action.output).sum ∧ ∀ p ∈ (o :: u).zip g, p.2 = (0, 0) ∨ P p.1 p.2.1 p.2.2 := by
      rintro a acts' rfl hid ⟨g, g1, g2, g3, g4⟩
      refine ⟨(a.input, a.output) :: g, by simp [g1], by simp [g2], by simp [g3], fun p hp => ?_⟩
      rcases List.mem_cons.1 hp with rfl | hp
      · exact Or.inr (hP a List.mem_cons_self o (by rw [hid]; exact ho'))
      · exact g4 p hp
    have nil : acts = [] → ∃ g : List (ℤ × ℤ), g.length = (o :: u).length ∧ (g.map Prod.fst).sum = (acts.map Action.input).sum ∧
        (g.map Prod.snd).sum = (acts.map Action.output).sum ∧ ∀ p ∈ (o :: u).zip g, p.2 = (0, 0) ∨ P p.1 p.2.1 p.2.2 := by
      rintro rfl
      obtain ⟨g, g1, g2, g3, g4⟩ := zeros (o :: u)
      exact ⟨g, g1, g2, g3, fun p hp => Or.inl (g4 p hp)⟩
    have end' : ∃ g : List (ℤ × ℤ), g.length = u.length ∧ (g.map Prod.fst).sum = (([] : List Action).map Action.input).sum ∧
        (g.map Prod.snd).sum = (([] : List Action).map Action.output).sum ∧ ∀ p ∈ u.zip g, p.2 = (0, 0) ∨ P p.1 p.2.1 p.2.2 := by
      obtain ⟨g, g1, g2, g3, g4⟩ := zeros u
      exact ⟨g, g1, g2, g3, fun p hp => Or.inl (g4 p hp)⟩
    unfold matchFast at h
    split at h
    · split at h
      · rw [Py.bind_eq_ok] at h
        obtain ⟨acts', h', he⟩ := h
        cases he
        exact take _ acts' rfl rfl (ih _ _ _ hu h' fun a ha => hP a (List.mem_cons_of_mem _ ha))
      · exact skip (ih _ _ _ hu h hP)
    · split at h
      · split at h
        · cases h; exact take _ [] rfl rfl end'
        · cases h; exact nil rfl
      · rw [ho] at h
        simp only [Py.ok_bind] at h
        split at h
        · cases h; exact take _ [] rfl rfl end'
        · cases h; exact nil rfl

/-- The quoted orders are the orders of the book. -/
theorem quoted_perm {amount : ℤ} {orders : List EncOrder} {trade : ℤ → EncOrder → Rate} {quotes : List Quote} {s : List EncOrder}
    (h : QuotesFor amount orders trade quotes) (hq : quotes.mapM (fun q => lookup orders q.id) = .ok s) : s.Perm orders := by
  have e : s.map some = quotes.map fun q => orders[q.id]? := by
    clear h
    induction quotes generalizing s with
    | nil => cases hq; rfl
    | cons q t ih =>
      rw [List.mapM_cons, Py.bind_eq_ok] at hq
      obtain ⟨o, ho, hq⟩ := hq
      rw [Py.bind_eq_ok] at hq
      obtain ⟨u, hu, hq⟩ := hq
      cases hq
      have ho' : orders[q.id]? = some o := by
        unfold lookup at ho
        split at ho
        · cases ho; assumption
        · cases ho
      simp only [List.map_cons, ih hu, ho']
  have e2 : (orders.zipIdx.map fun p => (⟨p.2, trade amount p.1⟩ : Quote)).map (fun q => orders[q.id]?) = orders.map some := by
    rw [List.map_map]
    have : (orders.zipIdx.map ((fun q : Quote => orders[q.id]?) ∘ fun p => (⟨p.2, trade amount p.1⟩ : Quote))) =
        orders.zipIdx.map (some ∘ Prod.fst) := by
      refine List.map_congr_left fun p hp => ?_
      simpa using List.mk_mem_zipIdx_iff_getElem?.1 hp
    rw [this, ← List.map_map]
    simp
  have h2 := h.map fun q => orders[q.id]?
  rw [e2, ← e] at h2
  exact (List.map_perm_map_iff (Option.some_injective _)).1 h2

theorem zip_fst_snd {α : Type} (s : List α) (g : List (ℤ × ℤ)) (hl : g.length = s.length) (F : α → ℤ → ℤ)
    (h : ∀ p ∈ s.zip g, F p.1 p.2.1 = p.2.2) : ((s.zip (g.map Prod.fst)).map fun p => F p.1 p.2).sum = (g.map Prod.snd).sum := by
  rw [List.zip_map_right, List.map_map]
  have e : (s.zip g).map ((fun p : α × ℤ => F p.1 p.2) ∘ Prod.map id Prod.fst) = (s.zip g).map (Prod.snd ∘ Prod.snd) :=
    List.map_congr_left fun p hp => h p hp
  rw [e, ← List.map_map, List.map_snd_zip (by omega)]

/-- C161: by target, where there is a clearing rate (see `C162_best_match`): the best match takes the amount in full, and the fast match, if its
quotes are real ones, takes the same amount and charges at most four units and the price of a unit per order less. -/
theorem C161_clearing_target (amount L : ℤ) (hL0 : 0 < L) (orders : List EncOrder) (quotes : List Quote) (d r : List EncOrder)
    (hquotes : QuotesFor amount orders rateByTargetAmount quotes)
    (hq : quotes.mapM (fun q => lookup orders q.id) = .ok (d ++ r)) (hne : d ≠ [])
    (hz : ∀ o ∈ orders, 0 ≤ o.y ∧ o.y ≤ o.z) (hz' : ∀ o ∈ d ++ r, 0 < o.z ∧ o.y ≤ 2 ^ 128 ∧ wordValue o.A ≠ 0)
    (hL : (d.map fun o => share o L).sum = amount) (hpos : ∀ o ∈ d, 0 < share o L ∧ tradeByTargetAmount (share o L) o < 2 ^ 128 - 1)
    (hd : ∀ o ∈ d, L < getLimit o) (hr : ∀ o ∈ r, getLimit o < L) :
    ∃ best fast, matchBest amount orders quotes defaultFilter rateByTargetAmount equalizeByTargetAmount = .ok best ∧
      matchFast amount orders quotes defaultFilter rateByTargetAmount = .ok fast ∧
      (best.map Action.input).sum = amount ∧ (fast.map Action.input).sum = amount ∧
      ((∀ a ∈ fast, a.output < 2 ^ 128 - 1) → (((best.map Action.output).sum : ℤ) : ℚ) ≤
        ((fast.map Action.output).sum : ℤ) + (d ++ r).length * (4 + 1 / (L / 2 ^ 48 : ℚ) ^ 2)) := by
  have hperm := quoted_perm hquotes hq
  obtain ⟨fast, hfast⟩ := C08_total amount orders quotes defaultFilter rateByTargetAmount amount hquotes
  obtain ⟨best, h1, h2, h3⟩ := C162_best_match amount L hL0 orders quotes d r hq hne
    (fun o ho => ⟨(hz' o ho).1, (hz o (hperm.subset ho)).1, (hz' o ho).2⟩) hL hpos hd hr
  have hamt : 0 < amount := by
    obtain ⟨a, u, rfl⟩ := List.exists_cons_of_ne_nil hne
    rw [← hL]
    simp only [List.map_cons, List.sum_cons]
    have := (hpos a List.mem_cons_self).1
    have : 0 ≤ (u.map fun o => share o L).sum := List.sum_nonneg fun x hx => by
      obtain ⟨o, ho, rfl⟩ := List.mem_map.1 hx
      exact (hpos o (List.mem_cons_of_mem _ ho)).1.le
    omega
  have hfill := C10_fill amount hamt orders quotes fast hz hquotes hfast
  have hheld : amount ≤ (orders.map EncOrder.y).sum := by
    rw [← (hperm.map EncOrder.y).sum_eq, List.map_append, List.sum_append, ← hL]
    have e1 : (d.map fun o => share o L).sum ≤ (d.map EncOrder.y).sum := List.sum_le_sum fun o _ => min_le_right _ _
    have e2 : 0 ≤ (r.map EncOrder.y).sum := List.sum_nonneg fun x hx => by
      obtain ⟨o, ho, rfl⟩ := List.mem_map.1 hx
      exact (hz o (hperm.subset (List.mem_append_right _ ho))).1
    omega
  rw [min_eq_left hheld] at hfill
  refine ⟨best, fast, h1, hfast, h2, hfill, fun hreal => ?_⟩
  have hP : ∀ a ∈ fast, ∀ o, orders[a.id]? = some o →
      (fun o i f => 0 < i ∧ i ≤ o.y ∧ f = tradeByTargetAmount i o ∧ f < 2 ^ 128 - 1) o a.input a.output := by
    intro a ha o ho
    obtain ⟨o1, k1, k2⟩ := C09_target amount orders quotes defaultFilter fast hquotes hfast a ha
    obtain ⟨o2, k3, k4⟩ := C58_target amount orders quotes defaultFilter fast hquotes hfast a ha
    have k5 := C08_filtered amount orders quotes defaultFilter rateByTargetAmount fast hfast a ha
    rw [ho] at k1 k3
    cases k1
    cases k3
    simp only [defaultFilter, Bool.and_eq_true, decide_eq_true_eq] at k5
    exact ⟨k5.1, k2, k4, hreal a ha⟩
  obtain ⟨g, g1, g2, g3, g4⟩ := fast_vector amount orders quotes defaultFilter rateByTargetAmount fast (d ++ r) hq hfast
    (fun o i f => 0 < i ∧ i ≤ o.y ∧ f = tradeByTargetAmount i o ∧ f < 2 ^ 128 - 1) hP
  have hF : ∀ p ∈ (d ++ r).zip g, charge p.1 p.2.1 = p.2.2 := by
    intro p hp
    rcases g4 p hp with h | h
    · rw [h]; rfl
    · unfold charge; rw [if_neg (by omega)]; exact h.2.2.1.symm
  have hmain := h3 (g.map Prod.fst) (by simpa using g1) ?_ (by rw [g2, hfill])
  · rw [zip_fst_snd _ g g1 charge hF, g3] at hmain
    exact hmain
  · intro p hp
    rw [List.zip_map_right] at hp
    obtain ⟨p', hp', rfl⟩ := List.mem_map.1 hp
    have hy := (hz p'.1 (hperm.subset (List.of_mem_zip hp').1)).1
    rcases g4 p' hp' with h | h
    · simp only [Prod.map, id, h]
      exact ⟨le_rfl, hy, fun h => absurd rfl h⟩
    · simp only [Prod.map, id]
      exact ⟨h.1.le, h.2.1, fun _ => by rw [← h.2.2.1]; exact h.2.2.2⟩

/-- C161: by source, where there is a clearing rate (see `C170_best_match`): the best match pays the amount in full, and the fast match buys no
more for at most the amount, up to rounding. -/
theorem C161_clearing_source (amount L : ℤ) (hL0 : 0 < L) (e : ℚ) (orders : List EncOrder) (quotes : List Quote) (d r : List EncOrder)
    (hquotes : QuotesFor amount orders rateBySourceAmount quotes)
    (hq : quotes.mapM (fun q => lookup orders q.id) = .ok (d ++ r)) (hne : d ≠ []) (hb : ∀ o ∈ d, Brought L o)
    (hsort : d.Pairwise fun o o' => getLimit o' ≤ getLimit o) (hL : (d.map fun o => equalizeBySourceAmount o L).sum = amount)
    (hpos : ∀ o ∈ d, 0 < equalizeByTargetAmount o L ∧ equalizeBySourceAmount o L < 2 ^ 128 - 1 ∧
      0 < tradeBySourceAmount (equalizeBySourceAmount o L) o)
    (hr : ∀ o ∈ r, Fits o ∧ getLimit o < L)
    (hbook : ∀ o ∈ d ++ r, o.y ≤ 2 ^ 128 ∧ o.y ≤ o.z ∧ 1 / (2 ^ 48 * (wordValue o.A + wordValue o.B)) ≤ e)
    (hB : ∀ o ∈ d ++ r, wordValue o.B ≠ 0) :
    ∃ best fast, matchBest amount orders quotes defaultFilter rateBySourceAmount equalizeBySourceAmount = .ok best ∧
      matchFast amount orders quotes defaultFilter rateBySourceAmount = .ok fast ∧
      (best.map Action.input).sum = amount ∧ (fast.map Action.input).sum ≤ amount ∧
      (((fast.map Action.output).sum : ℤ) : ℚ) ≤
        (1 + e) * (((best.map Action.output).sum : ℤ) + 4 * (d ++ r).length) + (d ++ r).length * (1 + 4 * (L / 2 ^ 48 : ℚ) ^ 2) := by
  have hperm := quoted_perm hquotes hq
  obtain ⟨fast, hfast⟩ := C08_total amount orders quotes defaultFilter rateBySourceAmount amount hquotes
  obtain ⟨best, h1, h2, h3⟩ := C170_best_match amount L hL0 e orders quotes d r hq hne hb hsort hL hpos hr hbook
  have hfits : ∀ o ∈ d ++ r, Fits o := by
    intro o ho
    rcases List.mem_append.1 ho with ho | ho
    · exact (hb o ho).fits
    · exact (hr o ho).1
  have hamt : 0 ≤ amount := by
    rw [← hL]
    exact List.sum_nonneg fun x hx => by
      obtain ⟨o, ho, rfl⟩ := List.mem_map.1 hx
      exact equalize_paid_nonneg o L
  have htotal := C08_total_input_le amount hamt orders quotes defaultFilter rateBySourceAmount fast hfast
  refine ⟨best, fast, h1, hfast, h2, htotal, ?_⟩
  have hsettle : ∀ o ∈ d ++ r, Settles rateBySourceAmount o := by
    intro o ho
    have hf := hfits o ho
    refine settles_source o hf.y hf.z hf.a (hB o ho) (hf.at hf.y ?_)
    have hb0 : 0 < wordValue o.B := lt_of_le_of_ne (wordValue_nonneg _) (Ne.symm (hB o ho))
    have hz0 : (0 : ℚ) < o.z := by exact_mod_cast hf.z
    unfold left
    have := mul_pos hb0 hz0
    linarith
  -- each action pays the payout of an amount that is no larger than its own
  have hP : ∀ a ∈ fast, ∀ o, orders[a.id]? = some o →
      (fun o i f => 0 < i ∧ f ≤ o.y ∧ ∃ x, 0 ≤ x ∧ x ≤ i ∧ f = tradeBySourceAmount x o) o a.input a.output := by
    intro a ha o ho
    have hm : o ∈ d ++ r := hperm.symm.subset (List.mem_of_getElem? ho)
    have hy := (hfits o hm).y
    obtain ⟨o1, k1, hor⟩ := action_origin amount amount orders quotes defaultFilter rateBySourceAmount fast hquotes hfast a ha
    have k5 := C08_filtered amount orders quotes defaultFilter rateBySourceAmount fast hfast a ha
    rw [ho] at k1
    cases k1
    simp only [defaultFilter, Bool.and_eq_true, decide_eq_true_eq] at k5
    rcases hor with ⟨h1, h2⟩ | ⟨_, h2⟩
    · obtain ⟨s1, s2⟩ := rateBySource_output o hy amount
      exact ⟨k5.1, by rw [h2]; exact s1, a.input, k5.1.le, le_rfl, by rw [h2, s2, h1]⟩
    · obtain ⟨s1, s2⟩ := rateBySource_output o hy a.input
      refine ⟨k5.1, by rw [h2]; exact s1, (rateBySourceAmount a.input o).input, ?_, (hsettle o hm).capped a.input, by rw [h2, s2]⟩
      by_contra hcon
      rw [h2, s2, C05_nonpositive_source _ _ (not_le.1 hcon).le] at k5
      exact absurd k5.2 (lt_irrefl _)
  obtain ⟨g, g1, g2, g3, g4⟩ := fast_vector amount orders quotes defaultFilter rateBySourceAmount fast (d ++ r) hq hfast
    (fun o i f => 0 < i ∧ f ≤ o.y ∧ ∃ x, 0 ≤ x ∧ x ≤ i ∧ f = tradeBySourceAmount x o) hP
  -- the amounts that are paid for
  have hx : ∀ (s : List EncOrder) (g : List (ℤ × ℤ)), g.length = s.length →
      (∀ p ∈ s.zip g, p.2 = (0, 0) ∨ 0 < p.2.1 ∧ p.2.2 ≤ p.1.y ∧ ∃ x, 0 ≤ x ∧ x ≤ p.2.1 ∧ p.2.2 = tradeBySourceAmount x p.1) →
      (∀ o ∈ s, 0 ≤ o.y) →
      ∃ v : List ℤ, v.length = s.length ∧ v.sum ≤ (g.map Prod.fst).sum ∧ (∀ p ∈ s.zip v, 0 ≤ p.2 ∧ tradeBySourceAmount p.2 p.1 ≤ p.1.y) ∧
        ((s.zip v).map fun p => tradeBySourceAmount p.2 p.1).sum = (g.map Prod.snd).sum := by
    intro s
    induction s with
    | nil =>
      intro g hg _ _
      have : g = [] := by simpa using hg
      subst this
      exact ⟨[], rfl, by simp, by simp, by simp⟩
    | cons o t ih =>
      intro g hg h hy
      obtain ⟨a, u, rfl⟩ : ∃ a u, g = a :: u := by
        cases g with
        | nil => simp at hg
        | cons a u => exact ⟨a, u, rfl⟩
      obtain ⟨v, v1, v2, v3, v4⟩ := ih u (by simpa using hg) (fun p hp => h p (List.mem_cons_of_mem _ hp)) fun o ho => hy o (List.mem_cons_of_mem _ ho)
      have hz : tradeBySourceAmount 0 o = 0 := C05_nonpositive_source 0 o le_rfl
      obtain ⟨x, x0, x1, x2, x3⟩ : ∃ x, 0 ≤ x ∧ x ≤ a.1 ∧ a.2 = tradeBySourceAmount x o ∧ a.2 ≤ o.y := by
        rcases h (o, a) (by simp) with h | ⟨_, h1, x, h2, h3, h4⟩
        · have h : a = (0, 0) := h
          refine ⟨0, le_rfl, by rw [h], by rw [h, hz], by rw [h]; exact hy o List.mem_cons_self⟩
        · exact ⟨x, h2, h3, h4, h1⟩
      refine ⟨x :: v, by simp [v1], by simp only [List.map_cons, List.sum_cons]; omega, fun p hp => ?_, ?_⟩
      · rcases List.mem_cons.1 hp with rfl | hp
        · exact ⟨x0, by simp only; omega⟩
        · exact v3 p hp
      · simp only [List.zip_cons_cons, List.map_cons, List.sum_cons, v4, ← x2]
  obtain ⟨v, v1, v2, v3, v4⟩ := hx (d ++ r) g g1 g4 fun o ho => (hfits o ho).y
  have hmain := h3 v v1 v3 (by omega)
  rw [v4, g3] at hmain
  exact hmain

/-! ### Non-vacuity -/

/-- The hypotheses of `C161_clearing_target` for 175 units. -/
example : ∃ best fast, matchBest 175 clearBook (quotesOf 175 clearBook rateByTargetAmount) defaultFilter rateByTargetAmount equalizeByTargetAmount = .ok best ∧
    matchFast 175 clearBook (quotesOf 175 clearBook rateByTargetAmount) defaultFilter rateByTargetAmount = .ok fast ∧
    (best.map Action.output).sum = 188 ∧ (fast.map Action.output).sum = 192 ∧ ∀ a ∈ fast, a.output < 2 ^ 128 - 1 := by
  obtain ⟨best, fast, h1, h2, _⟩ := C161_clearing_target 175 (15 * 2 ^ 44) (by norm_num) clearBook (quotesOf 175 clearBook rateByTargetAmount)
    (clearBook.take 2) (clearBook.drop 2) (List.Perm.refl _) (by decide +kernel) (by decide +kernel) (by decide +kernel)
    (fun o ho => ⟨(clear_fits o (by simpa using ho)).z, by revert o; decide +kernel, (clear_fits o (by simpa using ho)).a⟩) (by decide +kernel)
    (by decide +kernel) (by decide +kernel) (by decide +kernel)
  have e1 : matchBest 175 clearBook (quotesOf 175 clearBook rateByTargetAmount) defaultFilter rateByTargetAmount equalizeByTargetAmount =
      .ok [⟨0, 125, 134⟩, ⟨1, 50, 54⟩] := by decide +kernel
  have e2 : matchFast 175 clearBook (quotesOf 175 clearBook rateByTargetAmount) defaultFilter rateByTargetAmount = .ok [⟨0, 175, 192⟩] := by decide +kernel
  exact ⟨_, _, e1, e2, by decide, by decide, by decide⟩

/-- The hypotheses of `C161_clearing_source` for 188 units. -/
example : ∃ best fast, matchBest 188 clearBook clearQuotes defaultFilter rateBySourceAmount equalizeBySourceAmount = .ok best ∧
    matchFast 188 clearBook clearQuotes defaultFilter rateBySourceAmount = .ok fast ∧ (best.map Action.input).sum = 188 ∧
    (fast.map Action.input).sum ≤ 188 := by
  obtain ⟨best, fast, h1, h2, h3, h4, _⟩ := C161_clearing_source 188 (15 * 2 ^ 44) (by norm_num) (1 / 2 ^ 47) clearBook clearQuotes
    (clearBook.take 2) (clearBook.drop 2) (List.Perm.refl _) (by decide +kernel) (by decide +kernel) clear_brought (by decide +kernel)
    (by decide +kernel) (by decide +kernel) (fun o ho => ⟨clear_fits o (List.mem_of_mem_drop ho), by revert o; decide +kernel⟩) (by decide +kernel)
    (by decide +kernel)
  exact ⟨best, fast, h1, h2, h3, h4⟩

end Carbon.Prop.Match
