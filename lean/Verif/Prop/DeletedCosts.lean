import Verif.Prop.DeletedStrategy
import Verif.Prop.AddingOrderFast

/-! C179, with other strategies added before the deletion. -/

set_option linter.unusedSectionVars false

namespace Carbon.Sim

theorem trade_of_none {s : Sim ℝ} {p r : CarbonPair} {tkn : Str} {amt : ℝ} {byTarget : Bool} {a : TradeArgs ℝ}
    (hlp : a.limitPrice = none) (hla : a.limitAmt = none) (hr : p.reverse = .ok r)
    (hroute : route s.method ((s.applicable p r tkn a.usePositions).map fun e => e.2.curve) amt byTarget a.threshold
      a.supportPartial = .ok []) : ∃ e', s.trade p tkn amt byTarget a = (.error e', s) := by
  unfold trade plan limitOf
  rw [hla, hlp]
  dsimp only
  rw [Py.ok_bind, hr, Py.ok_bind]
  split_ifs
  · exact ⟨_, rfl⟩
  · rw [hroute]
    exact ⟨_, rfl⟩

/-- Two simulators that list the same curves for a sale, in the same order, answer it with the same amounts, or both refuse it. -/
theorem listed_sale {s s' : Sim ℝ} (h : Healthy s) (h' : Healthy s') (hL : Links s) (hL' : Links s') (hm : s'.method = s.method)
    {a : TradeArgs ℝ} (h0 : 0 ≤ a.amt) (hsp : s.method = .alpha → a.supportPartial = false)
    (hlp : a.limitPrice = none) (hla : a.limitAmt = none) (hip : a.inpair = true) {p r : CarbonPair} (hp : s.getPair a.pair = .ok p)
    (hp' : s'.getPair a.pair = .ok p) (hr : p.reverse = .ok r) (ht : p.hasToken a.tkn = true)
    (hu : a.usePositions = none) (hne : suppliers s p r a.tkn none ≠ [])
    (same : (suppliers s p r a.tkn none).map (·.curve) = (suppliers s' p r a.tkn none).map (·.curve)) :
    (∃ given paid, Succeeds s false a a.tkn (some given) (some paid) ∧ Succeeds s' false a a.tkn (some given) (some paid)) ∨
      (Refused s false a ∧ Refused s' false a) := by
  obtain ⟨c1, _, n1⟩ := suppliers_curves h p r a.tkn none
  obtain ⟨c2, _, n2⟩ := suppliers_curves h' p r a.tkn none
  have hne' : suppliers s' p r a.tkn none ≠ [] := by
    intro e
    rw [e, List.map_nil, List.map_eq_nil_iff] at same
    exact hne same
  have a1 : s.applicable p r a.tkn a.usePositions ≠ [] := by rw [hu]; exact fun e => hne (n1.mpr e)
  have a2 : s'.applicable p r a.tkn a.usePositions ≠ [] := by rw [hu]; exact fun e => hne' (n2.mpr e)
  have ec : (s'.applicable p r a.tkn a.usePositions).map (fun e => e.2.curve) = (s.applicable p r a.tkn a.usePositions).map fun e => e.2.curve := by
    rw [hu, ← c1, ← c2, same]
  have b1 := sells_of_app h h0 hp hr a1
  have b2 := sells_of_app h' h0 hp' hr a2
  have er : route s'.method ((s'.applicable p r a.tkn a.usePositions).map fun e => e.2.curve) (-a.amt) true a.threshold a.supportPartial =
      route s.method ((s.applicable p r a.tkn a.usePositions).map fun e => e.2.curve) (-a.amt) true a.threshold a.supportPartial := by rw [hm, ec]
  cases hroute : route s.method ((s.applicable p r a.tkn a.usePositions).map fun e => e.2.curve) (-a.amt) true a.threshold a.supportPartial with
  | error e =>
    obtain ⟨e1, t1⟩ := trade_of_error hlp hla hr hroute
    obtain ⟨e2, t2⟩ := trade_of_error hlp hla hr (er.trans hroute)
    exact Or.inr ⟨⟨e1, b1.trans t1⟩, ⟨e2, b2.trans t2⟩⟩
  | ok acts =>
    by_cases hn : acts = []
    · subst hn
      obtain ⟨e1, t1⟩ := trade_of_none hlp hla hr hroute
      obtain ⟨e2, t2⟩ := trade_of_none hlp hla hr (er.trans hroute)
      exact Or.inr ⟨⟨e1, b1.trans t1⟩, ⟨e2, b2.trans t2⟩⟩
    · left
      obtain ⟨recs, rec, s1, i1, i2, i3, i4, i5, i6, i7⟩ := trade_of_route h hL hlp hla hip hr (by simpa using h0) hsp ht hn hroute
      obtain ⟨recs', rec', s1', j1, j2, j3, j4, j5, j6, j7⟩ := trade_of_route h' hL' hlp hla hip hr (by simpa using h0) (by rw [hm]; exact hsp) ht hn
        (er.trans hroute)
      rw [hm] at j6 j7
      exact ⟨_, _, ⟨recs, rec, s1, b1.trans i1, i2, i3, i4, i5, by rintro v ⟨⟩; exact i6, by rintro v ⟨⟩; exact i7⟩,
        ⟨recs', rec', s1', b2.trans j1, j2, j3, j4, j5, by rintro v ⟨⟩; exact j6, by rintro v ⟨⟩; exact j7⟩⟩

/-- The same for a purchase. -/
theorem listed_purchase {s s' : Sim ℝ} (h : Healthy s) (h' : Healthy s') (hL : Links s) (hL' : Links s') (hm : s'.method = s.method)
    {a : TradeArgs ℝ} (h0 : 0 ≤ a.amt) (hsp : s.method = .alpha → a.supportPartial = false)
    (hlp : a.limitPrice = none) (hla : a.limitAmt = none) (hip : a.inpair = true) {p r : CarbonPair} (hp : s.getPair a.pair = .ok p)
    (hp' : s'.getPair a.pair = .ok p) (hr : p.reverse = .ok r) {t : Str} (ht : p.other a.tkn = some t)
    (hu : a.usePositions = none) (hne : suppliers s p r t none ≠ [])
    (same : (suppliers s p r t none).map (·.curve) = (suppliers s' p r t none).map (·.curve)) :
    (∃ given paid, Succeeds s true a t (some given) (some paid) ∧ Succeeds s' true a t (some given) (some paid)) ∨
      (Refused s true a ∧ Refused s' true a) := by
  obtain ⟨c1, _, n1⟩ := suppliers_curves h p r t none
  obtain ⟨c2, _, n2⟩ := suppliers_curves h' p r t none
  have htk : p.hasToken t = true := hasToken_of_other (other_other ht)
  have hne' : suppliers s' p r t none ≠ [] := by
    intro e
    rw [e, List.map_nil, List.map_eq_nil_iff] at same
    exact hne same
  have a1 : s.applicable p r t a.usePositions ≠ [] := by rw [hu]; exact fun e => hne (n1.mpr e)
  have a2 : s'.applicable p r t a.usePositions ≠ [] := by rw [hu]; exact fun e => hne' (n2.mpr e)
  have ec : (s'.applicable p r t a.usePositions).map (fun e => e.2.curve) = (s.applicable p r t a.usePositions).map fun e => e.2.curve := by
    rw [hu, ← c1, ← c2, same]
  have b1 := buys_of_app h h0 hp ht hr a1
  have b2 := buys_of_app h' h0 hp' ht hr a2
  have er : route s'.method ((s'.applicable p r t a.usePositions).map fun e => e.2.curve) a.amt false a.threshold a.supportPartial =
      route s.method ((s.applicable p r t a.usePositions).map fun e => e.2.curve) a.amt false a.threshold a.supportPartial := by rw [hm, ec]
  cases hroute : route s.method ((s.applicable p r t a.usePositions).map fun e => e.2.curve) a.amt false a.threshold a.supportPartial with
  | error e =>
    obtain ⟨e1, t1⟩ := trade_of_error hlp hla hr hroute
    obtain ⟨e2, t2⟩ := trade_of_error hlp hla hr (er.trans hroute)
    exact Or.inr ⟨⟨e1, b1.trans t1⟩, ⟨e2, b2.trans t2⟩⟩
  | ok acts =>
    by_cases hn : acts = []
    · subst hn
      obtain ⟨e1, t1⟩ := trade_of_none hlp hla hr hroute
      obtain ⟨e2, t2⟩ := trade_of_none hlp hla hr (er.trans hroute)
      exact Or.inr ⟨⟨e1, b1.trans t1⟩, ⟨e2, b2.trans t2⟩⟩
    · left
      obtain ⟨recs, rec, s1, i1, i2, i3, i4, i5, i6, i7⟩ := trade_of_route h hL hlp hla hip hr (by simpa using h0) hsp htk hn hroute
      obtain ⟨recs', rec', s1', j1, j2, j3, j4, j5, j6, j7⟩ := trade_of_route h' hL' hlp hla hip hr (by simpa using h0) (by rw [hm]; exact hsp) htk hn
        (er.trans hroute)
      rw [hm] at j6 j7
      exact ⟨_, _, ⟨recs, rec, s1, b1.trans i1, i2, i3, i4, i5, by rintro v ⟨⟩; exact i6, by rintro v ⟨⟩; exact i7⟩,
        ⟨recs', rec', s1', b2.trans j1, j2, j3, j4, j5, by rintro v ⟨⟩; exact j6, by rintro v ⟨⟩; exact j7⟩⟩

/-- Where the orders of added strategies are listed, and how they are numbered. -/
theorem run_appends (C : StrategyArgs ℝ → List (SOrder ℝ)) {pair : Option CarbonPair} (l : List (StrategyArgs ℝ))
    (hC : ∀ a ∈ l, ∃ o1 o2, C a = [numbered 0 0 o1, numbered 0 0 o2] ∧ Adds pair a o1 o2) (hs : ∀ a ∈ l, Sensible a) :
    ∀ s : Sim ℝ, s.pair = pair → Healthy s → ∃ rest, (run s (l.map Op.add)).orders = s.orders ++ rest ∧ (∀ e ∈ rest, s.nextId ≤ e.1) ∧
      rest.map (fun e => numbered 0 0 e.2) = l.flatMap C := by
  induction l with
  | nil => exact fun s _ _ => ⟨[], by simp [run], by simp, rfl⟩
  | cons a l ih =>
    intro s hp h
    obtain ⟨o1, o2, e, ha⟩ := hC a List.mem_cons_self
    have e1 := ha s h.ids hp
    have e2 : run s ((a :: l).map Op.add) = run (s.addStrategy a).2 (l.map Op.add) := rfl
    obtain ⟨rest, r1, r2, r3⟩ := ih (fun b hb => hC b (List.mem_cons_of_mem _ hb)) (fun b hb => hs b (List.mem_cons_of_mem _ hb)) (s.addStrategy a).2
      (by rw [e1]; exact hp) (addStrategy_healthy h a (hs a List.mem_cons_self))
    rw [e1] at r1 r2
    rw [e2, e1]
    refine ⟨_, r1.trans (List.append_assoc _ _ _), ?_, ?_⟩
    · intro x hx
      rcases List.mem_append.mp hx with hx | hx
      · simp only [List.mem_cons, List.not_mem_nil, or_false] at hx
        rcases hx with rfl | rfl <;> simp
      · have := r2 x hx
        dsimp only at this
        omega
    · rw [List.map_append, r3, List.flatMap_cons, e]
      simp [numbered]

/-- A book after two orders with these numbers were deleted from it. -/
theorem delete_between {u : Sim ℝ} {n : Nat} {d rest : List (Nat × SOrder ℝ)} {o1 o2 : SOrder ℝ}
    (ho : u.orders = d ++ ([(n, numbered n (n + 1) o1), (n + 1, numbered (n + 1) n o2)] ++ rest)) (hd : ∀ x ∈ d.map Prod.fst, x < n)
    (hr : ∀ e ∈ rest, n + 2 ≤ e.1) {k : Nat} (hk : k = n ∨ k = n + 1 ∧ n ≠ 0) :
    (u.deleteOrder k).2 = { u with orders := d ++ rest } ∧ ∀ o, Dict.get u.orders k = some o → o.linked ≠ 0 := by
  have n1 : n ∉ d.map Prod.fst := fun hm => lt_irrefl _ (hd _ hm)
  have n2 : n + 1 ∉ d.map Prod.fst := fun hm => by have := hd _ hm; omega
  have m1 : n ∉ rest.map Prod.fst := fun hm => by obtain ⟨e, he, rfl⟩ := List.mem_map.mp hm; have := hr e he; omega
  have m2 : n + 1 ∉ rest.map Prod.fst := fun hm => by obtain ⟨e, he, h⟩ := List.mem_map.mp hm; have := hr e he; omega
  have dc : ∀ (x y : Nat) (z : SOrder ℝ) (w : List (Nat × SOrder ℝ)), Dict.del ((x, z) :: w) y = if x = y then Dict.del w y else (x, z) :: Dict.del w y := by
    intro x y z w
    unfold Dict.del
    rw [List.filter_cons]
    by_cases e : x = y <;> simp [e]
  have gc : ∀ (x y : Nat) (z : SOrder ℝ) (w : List (Nat × SOrder ℝ)), Dict.get ((x, z) :: w) y = if x = y then some z else Dict.get w y := by
    intro x y z w
    unfold Dict.get
    rw [List.find?_cons]
    by_cases e : x = y
    · simp [e]
    · rw [if_neg e, show ((x, z).1 == y) = false from beq_false_of_ne e]
  rcases hk with rfl | ⟨rfl, h0⟩
  · have g : Dict.get u.orders k = some (numbered k (k + 1) o1) := by
      rw [ho, get_absent n1, List.cons_append, gc, if_pos rfl]
    refine ⟨?_, fun o h => by rw [g] at h; cases h; simp [numbered]⟩
    unfold deleteOrder
    rw [g]
    dsimp only [numbered]
    rw [if_neg (by omega), ho, del_append, del_absent n1, List.cons_append, dc, if_pos rfl, List.cons_append, dc, if_neg (by omega), List.nil_append,
      del_absent m1, get_absent n2, gc, if_pos rfl]
    dsimp only
    rw [del_append, del_absent n2, dc, if_pos rfl, del_absent m2]
  · have g : Dict.get u.orders (n + 1) = some (numbered (n + 1) n o2) := by
      rw [ho, get_absent n2, List.cons_append, gc, if_neg (by omega), List.cons_append, gc, if_pos rfl]
    refine ⟨?_, fun o h => by rw [g] at h; cases h; exact h0⟩
    unfold deleteOrder
    rw [g]
    dsimp only [numbered]
    rw [if_neg (by omega), ho, del_append, del_absent n2, List.cons_append, dc, if_neg (by omega), List.cons_append, dc, if_pos rfl, List.nil_append,
      del_absent m2, get_absent n1, gc, if_pos rfl]
    dsimp only
    rw [del_append, del_absent n1, dc, if_pos rfl, del_absent m1]

theorem run_future (ops : List (Op ℝ)) : ∀ s : Sim ℝ, s.excludeFuture = true → (run s ops).excludeFuture = true := by
  induction ops with
  | nil => exact fun s h => h
  | cons op ops ih => exact fun s h => ih _ (step_future s op h)

/-- **C179** Also if further strategies were added before the deletion: with each of the routers, sales and purchases from the orders of the simulator are
answered with the same amounts as if the deleted strategy had never been added, or both are refused. (The numbers of the later orders differ.) -/
theorem C179_between_partial (s : Sim ℝ) (hf : s.excludeFuture = true) (h : Healthy s) (hL : Links s) (b : StrategyArgs ℝ) (i j : Nat)
    (hb : (s.addStrategy b).1 = .ok (i, j)) (hsb : Sensible b) (l : List (StrategyArgs ℝ)) (hacc : ∀ c ∈ l, ∃ r, (s.addStrategy c).1 = .ok r)
    (hs : ∀ c ∈ l, Sensible c) (k : Nat) (hk : k = i ∨ k = j ∧ i ≠ 0) (a : TradeArgs ℝ) (h0 : 0 ≤ a.amt) (hu : a.usePositions = none)
    (hsp : s.method = .alpha → a.supportPartial = false) (hlp : a.limitPrice = none) (hla : a.limitAmt = none) (hip : a.inpair = true)
    (p r : CarbonPair) (hp : s.getPair a.pair = .ok p) (hr : p.reverse = .ok r) :
    let u := run s (l.map Op.add)
    let v := ((run (s.addStrategy b).2 (l.map Op.add)).deleteOrder k).2
    (p.hasToken a.tkn = true → suppliers u p r a.tkn none ≠ [] →
      (∃ given paid, Succeeds u false a a.tkn (some given) (some paid) ∧ Succeeds v false a a.tkn (some given) (some paid)) ∨
        (Refused u false a ∧ Refused v false a)) ∧
    ∀ t, p.other a.tkn = some t → suppliers u p r t none ≠ [] →
      (∃ given paid, Succeeds u true a t (some given) (some paid) ∧ Succeeds v true a t (some given) (some paid)) ∨
        (Refused u true a ∧ Refused v true a) := by
  intro u v
  classical
  obtain ⟨o1, o2, ha⟩ := accepted_adds ⟨_, hb⟩
  have e1 := ha s h.ids rfl
  have e := congrArg Prod.fst e1
  rw [hb] at e
  cases e
  have hex : ∀ b, ∃ c : List (SOrder ℝ), b ∈ l → ∃ o1 o2, c = [numbered 0 0 o1, numbered 0 0 o2] ∧ Adds s.pair b o1 o2 := by
    intro b
    by_cases hb : b ∈ l
    · obtain ⟨o1, o2, ho⟩ := accepted_adds (hacc b hb)
      exact ⟨_, fun _ => ⟨o1, o2, rfl, ho⟩⟩
    · exact ⟨[], fun h => absurd h hb⟩
  choose C hC using hex
  obtain ⟨u1, u2, u3, u4, u5⟩ := run_adds C l hC hs s rfl h hL
  have hh := addStrategy_healthy h b hsb
  have hl := addStrategy_links h.ids hL b (Or.inl ⟨_, hb⟩)
  have hpb : (s.addStrategy b).2.pair = s.pair := by rw [e1]
  obtain ⟨w1, w2, w3, w4, _⟩ := run_adds C l hC hs (s.addStrategy b).2 hpb hh hl
  obtain ⟨rest, r1, r2, r3⟩ := run_appends C l hC hs (s.addStrategy b).2 hpb hh
  have hfb : (s.addStrategy b).2.excludeFuture = true := by rw [e1]; exact hf
  have hfw := run_future (l.map Op.add) _ hfb
  obtain ⟨d1, d2⟩ := delete_between (u := run (s.addStrategy b).2 (l.map Op.add)) (n := s.nextId) (d := s.orders) (rest := rest) (o1 := o1) (o2 := o2)
    (by rw [r1, e1]; exact List.append_assoc _ _ _) h.ids.lt (fun x hx => by have := r2 x hx; rw [e1] at this; exact this) hk
  have hv : Healthy v := step_healthy hfw w3 (.delete k) (by trivial)
  have hLv : Links v := deleteOrder_links w4 k d2
  have hmv : v.method = u.method := by
    show ((run (s.addStrategy b).2 (l.map Op.add)).deleteOrder k).2.method = _
    rw [d1, u2]
    refine w2.trans ?_
    rw [e1]
  have pairs : ∀ s' : Sim ℝ, s'.pair = s.pair → ∀ x, s'.getPair x = s.getPair x := by
    intro s' e x
    unfold getPair
    rw [e]
  have hpv : v.pair = s.pair := by
    show ((run (s.addStrategy b).2 (l.map Op.add)).deleteOrder k).2.pair = _
    rw [d1]
    exact w1
  have hun : unnumbered v = unnumbered u := by
    show unnumbered ((run (s.addStrategy b).2 (l.map Op.add)).deleteOrder k).2 = _
    rw [d1, u5]
    unfold unnumbered
    dsimp only
    rw [List.map_append, r3]
  have same : ∀ t, (suppliers u p r t none).map (·.curve) = (suppliers v p r t none).map (·.curve) := by
    intro t
    rw [suppliers_unnumbered, suppliers_unnumbered, hun]
  have hsp' : u.method = .alpha → a.supportPartial = false := by rw [show u.method = s.method from u2]; exact hsp
  exact ⟨fun ht hne => listed_sale u3 hv u4 hLv hmv h0 hsp' hlp hla hip ((pairs u u1 _).trans hp) ((pairs v hpv _).trans hp) hr ht hu hne (same _),
    fun t ht hne => listed_purchase u3 hv u4 hLv hmv h0 hsp' hlp hla hip ((pairs u u1 _).trans hp) ((pairs v hpv _).trans hp) hr ht hu hne (same _)⟩

end Carbon.Sim
