import Verif.Prop.ExactListing
import Verif.Prop.TradeOutcome

/-!
# What a trade costs does not depend on the order in which the strategies were added (C178)
-/

set_option linter.unusedSectionVars false

namespace Carbon.ExactRouter

/-- A rearrangement takes positions to positions. -/
theorem perm_positions {α : Type} {l l' : List α} (h : l.Perm l') :
    ∃ σ : Nat → Nat, ((List.range l.length).map σ).Perm (List.range l'.length) ∧ ∀ i < l.length, l'[σ i]? = l[i]? := by
  induction h with
  | nil => exact ⟨id, by simp, by simp⟩
  | @cons a l l' _ ih =>
    obtain ⟨σ, h1, h2⟩ := ih
    refine ⟨fun i => match i with | 0 => 0 | i + 1 => σ i + 1, ?_, ?_⟩
    · rw [List.length_cons, List.length_cons, List.range_succ_eq_map, List.range_succ_eq_map, List.map_cons, List.map_map]
      have := (h1.map Nat.succ).cons 0
      rw [List.map_map] at this
      exact this
    · intro i hi
      cases i with
      | zero => rfl
      | succ i =>
        rw [List.getElem?_cons_succ, List.getElem?_cons_succ]
        exact h2 i (by simpa using hi)
  | swap a b l =>
    refine ⟨fun i => match i with | 0 => 1 | 1 => 0 | i + 2 => i + 2, ?_, ?_⟩
    · rw [List.length_cons, List.length_cons, List.length_cons, List.length_cons, List.range_succ_eq_map, List.range_succ_eq_map]
      simp only [List.map_cons, List.map_map]
      refine (List.Perm.swap _ _ _).trans ?_
      exact List.Perm.refl _
    · intro i hi
      match i with
      | 0 => rfl
      | 1 => rfl
      | i + 2 => rfl
  | @trans l1 l2 l3 p1 p2 ih1 ih2 =>
    obtain ⟨σ, h1, h2⟩ := ih1
    obtain ⟨τ, h3, h4⟩ := ih2
    refine ⟨fun i => τ (σ i), ?_, ?_⟩
    · have := (h1.map τ).trans h3
      rwa [List.map_map] at this
    · intro i hi
      have : σ i ∈ List.range l2.length := h1.subset (List.mem_map_of_mem (List.mem_range.mpr hi))
      rw [h4 _ (List.mem_range.mp this), h2 i hi]

theorem positions_all (cs : List (Curve ℝ)) : Positions cs [] (List.range cs.length) := ⟨List.nodup_nil, by simp, rfl⟩

theorem holdings_all (cs : List (Curve ℝ)) : total (List.range cs.length) (yAt cs) = (cs.map Curve.y).sum := Sim.total_range Curve.y

theorem executable_signs {cs : List (Curve ℝ)} (hg : ∀ c ∈ cs, c.Good) {acts : List (Action ℝ)} (h : Executable cs acts) :
    ∀ b ∈ acts, b.output < 0 ∧ 0 < b.input := by
  intro b hb
  obtain ⟨c, hc, hlo, hneg, hd⟩ := h.2.2 b hb
  have hgc := hg c (List.mem_of_getElem? hc)
  have := cost_anti hgc hlo hneg
  rw [cost_zero hgc, costOf_eq hd] at this
  exact ⟨hneg, this⟩

/-- A purchase from rearranged orders. -/
theorem perm_target {cs cs' : List (Curve ℝ)} (hp : cs.Perm cs') (hg : ∀ c ∈ cs, c.Good) {x : ℝ} (hx : x < 0) (hl : -x ≤ (cs.map Curve.y).sum)
    (sp sp' : Bool) : ∃ acts acts', matchExact cs x true [] sp = .ok acts ∧ matchExact cs' x true [] sp' = .ok acts' ∧
      Executable cs acts ∧ Executable cs' acts' ∧ (acts.map (·.output)).sum = x ∧ (acts'.map (·.output)).sum = x ∧
      (acts'.map (·.input)).sum = (acts.map (·.input)).sum := by
  obtain ⟨σ, h1, h2⟩ := perm_positions hp
  have hg' : ∀ c ∈ cs', c.Good := fun c hc => hg c (hp.symm.subset hc)
  have hl' : -x ≤ (cs'.map Curve.y).sum := by rw [← (hp.map Curve.y).sum_eq]; exact hl
  obtain ⟨acts, acts', e1, e2, _, e4⟩ := C177_listing_target cs cs' hg hg' [] [] _ _ (positions_all cs) (positions_all cs') σ h1
    (fun i hi => h2 i (List.mem_range.mp hi)) x hx (by rw [holdings_all]; exact hl) sp sp'
  obtain ⟨_, f1, f2, _, f4, _⟩ := C69_by_target cs hg [] _ (positions_all cs) x hx (by rw [holdings_all]; exact hl) sp
  obtain ⟨_, g1, g2, _, g4, _⟩ := C69_by_target cs' hg' [] _ (positions_all cs') x hx (by rw [holdings_all]; exact hl') sp'
  rw [e1] at f1
  rw [e2] at g1
  cases f1
  cases g1
  exact ⟨acts, acts', e1, e2, f2, g2, f4, g4, e4⟩

/-- A payment to rearranged orders. -/
theorem perm_source {cs cs' : List (Curve ℝ)} (hp : cs.Perm cs') (hg : ∀ c ∈ cs, c.Good) {x : ℝ} (hx : 0 < x) {cost : Curve ℝ → ℝ}
    (hcost : ∀ c ∈ cs, c.dxdy (-c.y) = .ok (cost c)) (hl : x ≤ (cs.map cost).sum)
    (sp sp' : Bool) : ∃ acts acts', matchExact cs x false [] sp = .ok acts ∧ matchExact cs' x false [] sp' = .ok acts' ∧
      Executable cs acts ∧ Executable cs' acts' ∧ (acts.map (·.input)).sum = x ∧ (acts'.map (·.input)).sum = x ∧
      (acts'.map (·.output)).sum = (acts.map (·.output)).sum := by
  obtain ⟨σ, h1, h2⟩ := perm_positions hp
  have hg' : ∀ c ∈ cs', c.Good := fun c hc => hg c (hp.symm.subset hc)
  have hcost' : ∀ c ∈ cs', c.dxdy (-c.y) = .ok (cost c) := fun c hc => hcost c (hp.symm.subset hc)
  have hl' : x ≤ (cs'.map cost).sum := by rw [← (hp.map cost).sum_eq]; exact hl
  have hq : ∀ ds : List (Curve ℝ), (∀ c ∈ ds, c.dxdy (-c.y) = .ok (cost c)) → ∀ (i : Nat) (c : Curve ℝ), ds[i]? = some c →
      c.dxdy (-c.y) = .ok ((fun i : Nat => ((ds[i]?).map cost).getD 0) i) := by
    intro ds h i c hc
    dsimp only
    rw [hc]
    exact h c (List.mem_of_getElem? hc)
  obtain ⟨acts, acts', e1, e2, _, e4⟩ := C177_listing_source cs cs' hg hg' [] [] _ _ (positions_all cs) (positions_all cs') σ h1
    (fun i hi => h2 i (List.mem_range.mp hi)) x hx _ (hq cs hcost) (by rw [Sim.total_range]; exact hl) sp sp'
  obtain ⟨_, f1, f2, _, f4, _⟩ := (C70_by_source cs hg [] _ (positions_all cs) x hx _ (hq cs hcost)).1 (by rw [Sim.total_range]; exact hl) sp
  obtain ⟨_, g1, g2, _, g4, _⟩ := (C70_by_source cs' hg' [] _ (positions_all cs') x hx _ (hq cs' hcost')).1 (by rw [Sim.total_range]; exact hl') sp'
  rw [e1] at f1
  rw [e2] at g1
  cases f1
  cases g1
  exact ⟨acts, acts', e1, e2, f2, g2, f4, g4, e4⟩

end Carbon.ExactRouter

namespace Carbon.Sim

/-! ## Trades of two simulators -/

theorem sale_of_acts {s : Sim ℝ} (h : Healthy s) (hL : Links s) (hm : s.method = .exact) {a : TradeArgs ℝ} (h0 : 0 < a.amt)
    (hlp : a.limitPrice = none) (hla : a.limitAmt = none) (hip : a.inpair = true) {p r : CarbonPair} (hp : s.getPair a.pair = .ok p)
    (hr : p.reverse = .ok r) (ht : p.hasToken a.tkn = true) {acts : List (Action ℝ)}
    (he : ExactRouter.matchExact ((suppliers s p r a.tkn a.usePositions).map (·.curve)) (-a.amt) true [] a.supportPartial = .ok acts)
    (hx : ExactRouter.Executable ((suppliers s p r a.tkn a.usePositions).map (·.curve)) acts) (ho : (acts.map (·.output)).sum = -a.amt) :
    Succeeds s false a a.tkn (some a.amt) (some (acts.map (·.input)).sum) := by
  have hc : (suppliers s p r a.tkn a.usePositions).map (·.curve) = (s.applicable p r a.tkn a.usePositions).map fun e => e.2.curve := by
    rw [suppliers_eq h.ids, List.map_map]
    rfl
  rw [hc] at he hx
  have hg : ∀ c ∈ (s.applicable p r a.tkn a.usePositions).map fun e => e.2.curve, c.Good := by
    intro c hc
    obtain ⟨e, he, rfl⟩ := List.mem_map.mp hc
    exact (app_good h he).1
  have hsgn := ExactRouter.executable_signs hg hx
  have hne : acts ≠ [] := by
    rintro rfl
    simp at ho
    linarith
  obtain ⟨recs, rec, s1, i1, i2, i3, i4, i5, i6, i7⟩ := trade_of_route h hL hlp hla hip hr (amt := -a.amt) (byTarget := true) (by simp [h0.le])
    (fun e => by rw [hm] at e; cases e) ht hne (by rw [hm]; exact he)
  refine ⟨recs, rec, s1, ?_, i2, i3, i4, i5, ?_, ?_⟩
  · rw [sells_of_app h h0.le hp hr, i1]
    intro e
    obtain ⟨b, hb⟩ := List.exists_mem_of_ne_nil _ hne
    obtain ⟨c, hc, _⟩ := hx.2.2 b hb
    rw [e] at hc
    simp at hc
  · rintro w hw
    cases hw
    rw [i6, hm]
    show (acts.map fun b => sold false b.input b.output).sum = _
    rw [neg_sum fun b hb => (hsgn b hb).1, ho, neg_neg]
  · rintro w hw
    cases hw
    rw [i7, hm]
    show (acts.map fun b => |b.input|).sum = _
    exact abs_sum fun b hb => (hsgn b hb).2.le

theorem purchase_of_acts {s : Sim ℝ} (h : Healthy s) (hL : Links s) (hm : s.method = .exact) {a : TradeArgs ℝ} (h0 : 0 < a.amt)
    (hlp : a.limitPrice = none) (hla : a.limitAmt = none) (hip : a.inpair = true) {p r : CarbonPair} (hp : s.getPair a.pair = .ok p)
    (hr : p.reverse = .ok r) {t : Str} (ht : p.other a.tkn = some t) {acts : List (Action ℝ)}
    (he : ExactRouter.matchExact ((suppliers s p r t a.usePositions).map (·.curve)) a.amt false [] a.supportPartial = .ok acts)
    (hx : ExactRouter.Executable ((suppliers s p r t a.usePositions).map (·.curve)) acts) (hi : (acts.map (·.input)).sum = a.amt) :
    Succeeds s true a t (some (-(acts.map (·.output)).sum)) (some a.amt) := by
  have hc : (suppliers s p r t a.usePositions).map (·.curve) = (s.applicable p r t a.usePositions).map fun e => e.2.curve := by
    rw [suppliers_eq h.ids, List.map_map]
    rfl
  rw [hc] at he hx
  have hg : ∀ c ∈ (s.applicable p r t a.usePositions).map fun e => e.2.curve, c.Good := by
    intro c hc
    obtain ⟨e, he, rfl⟩ := List.mem_map.mp hc
    exact (app_good h he).1
  have hsgn := ExactRouter.executable_signs hg hx
  have hne : acts ≠ [] := by
    rintro rfl
    simp at hi
    linarith
  obtain ⟨recs, rec, s1, i1, i2, i3, i4, i5, i6, i7⟩ := trade_of_route h hL hlp hla hip hr (amt := a.amt) (byTarget := false) (by simp [h0.le])
    (fun e => by rw [hm] at e; cases e) (hasToken_of_other (other_other ht)) hne (by rw [hm]; exact he)
  refine ⟨recs, rec, s1, ?_, i2, i3, i4, i5, ?_, ?_⟩
  · rw [buys_of_app h h0.le hp ht hr, i1]
    intro e
    obtain ⟨b, hb⟩ := List.exists_mem_of_ne_nil _ hne
    obtain ⟨c, hc, _⟩ := hx.2.2 b hb
    rw [e] at hc
    simp at hc
  · rintro w hw
    cases hw
    rw [i6, hm]
    show (acts.map fun b => sold false b.input b.output).sum = _
    exact neg_sum fun b hb => (hsgn b hb).1
  · rintro w hw
    cases hw
    rw [i7, hm]
    show (acts.map fun b => |b.input|).sum = _
    rw [abs_sum fun b hb => (hsgn b hb).2.le, hi]

theorem suppliers_good {s : Sim ℝ} (h : Healthy s) (p r : CarbonPair) (tkn : Str) (u : Option (List Nat)) :
    ∀ c ∈ (suppliers s p r tkn u).map (·.curve), c.Good := by
  intro c hc
  rw [suppliers_eq h.ids, List.map_map] at hc
  obtain ⟨e, he, rfl⟩ := List.mem_map.mp hc
  exact (app_good h he).1

/-- **C178** Two simulators with the exact router, of which the orders that can serve a sale are the same ones, in any order and under any numbers:
the sale succeeds in both and costs the same. -/
theorem C178_sale (s s' : Sim ℝ) (h : Healthy s) (h' : Healthy s') (hL : Links s) (hL' : Links s') (hm : s.method = .exact) (hm' : s'.method = .exact)
    (a a' : TradeArgs ℝ) (h0 : 0 < a.amt) (hamt : a'.amt = a.amt) (htkn : a'.tkn = a.tkn) (hlp : a.limitPrice = none) (hla : a.limitAmt = none)
    (hip : a.inpair = true) (hlp' : a'.limitPrice = none) (hla' : a'.limitAmt = none) (hip' : a'.inpair = true) (p r : CarbonPair)
    (hp : s.getPair a.pair = .ok p) (hp' : s'.getPair a'.pair = .ok p) (hr : p.reverse = .ok r) (ht : p.hasToken a.tkn = true)
    (same : ((suppliers s p r a.tkn a.usePositions).map (·.curve)).Perm ((suppliers s' p r a.tkn a'.usePositions).map (·.curve)))
    (hle : a.amt ≤ ((suppliers s p r a.tkn a.usePositions).map fun o => o.curve.y).sum) :
    ∃ paid, Succeeds s false a a.tkn (some a.amt) (some paid) ∧ Succeeds s' false a' a.tkn (some a.amt) (some paid) := by
  obtain ⟨acts, acts', e1, e2, x1, x2, o1, o2, hi⟩ := ExactRouter.perm_target same (suppliers_good h p r a.tkn a.usePositions)
    (x := -a.amt) (by linarith) (by rw [neg_neg, List.map_map]; exact hle) a.supportPartial a'.supportPartial
  refine ⟨_, sale_of_acts h hL hm h0 hlp hla hip hp hr ht e1 x1 o1, ?_⟩
  have := sale_of_acts h' hL' hm' (a := a') (by rw [hamt]; exact h0) hlp' hla' hip' hp' hr (by rw [htkn]; exact ht) (by rw [htkn, hamt]; exact e2)
    (by rw [htkn]; exact x2) (by rw [hamt]; exact o2)
  rwa [htkn, hamt, hi] at this

/-- **C178** The same for purchases; `cost` is what an order charges for all it holds. -/
theorem C178_purchase (s s' : Sim ℝ) (h : Healthy s) (h' : Healthy s') (hL : Links s) (hL' : Links s') (hm : s.method = .exact)
    (hm' : s'.method = .exact) (a a' : TradeArgs ℝ) (h0 : 0 < a.amt) (hamt : a'.amt = a.amt) (htkn : a'.tkn = a.tkn) (hlp : a.limitPrice = none)
    (hla : a.limitAmt = none) (hip : a.inpair = true) (hlp' : a'.limitPrice = none) (hla' : a'.limitAmt = none) (hip' : a'.inpair = true)
    (p r : CarbonPair) (hp : s.getPair a.pair = .ok p) (hp' : s'.getPair a'.pair = .ok p) (hr : p.reverse = .ok r) (t : Str)
    (ht : p.other a.tkn = some t)
    (same : ((suppliers s p r t a.usePositions).map (·.curve)).Perm ((suppliers s' p r t a'.usePositions).map (·.curve)))
    (cost : Curve ℝ → ℝ) (hcost : ∀ o ∈ suppliers s p r t a.usePositions, o.curve.dxdy (-o.curve.y) = .ok (cost o.curve))
    (hle : a.amt ≤ ((suppliers s p r t a.usePositions).map fun o => cost o.curve).sum) :
    ∃ given, Succeeds s true a t (some given) (some a.amt) ∧ Succeeds s' true a' t (some given) (some a.amt) := by
  obtain ⟨acts, acts', e1, e2, x1, x2, o1, o2, hi⟩ := ExactRouter.perm_source same (suppliers_good h p r t a.usePositions)
    (x := a.amt) h0 (cost := cost) (fun c hc => by obtain ⟨o, ho, rfl⟩ := List.mem_map.mp hc; exact hcost o ho)
    (by rw [List.map_map]; exact hle) a.supportPartial a'.supportPartial
  refine ⟨_, purchase_of_acts h hL hm h0 hlp hla hip hp hr ht e1 x1 o1, ?_⟩
  have := purchase_of_acts h' hL' hm' (a := a') (by rw [hamt]; exact h0) hlp' hla' hip' hp' hr (by rw [htkn]; exact ht) (by rw [hamt]; exact e2)
    x2 (by rw [hamt]; exact o2)
  rwa [hamt, hi] at this

/-! ## Adding strategies -/

section Adding
variable {K : Type} [Field K] [LinearOrder K] [IsStrictOrderedRing K] [PySqrt K]

/-- The order with these numbers. -/
def numbered (i j : Nat) (o : SOrder K) : SOrder K := { o with id := i, linked := j }

theorem buildOrder_numbered (pair : CarbonPair) (tkn : Str) (amt lo hi : K) (d : Bool) (i j : Nat) (pm y : Option K) :
    buildOrder pair tkn amt lo hi d i j pm y = (buildOrder pair tkn amt lo hi d 0 0 pm y).map (numbered i j) := by
  unfold buildOrder
  cases buildCurve amt lo hi pm y with
  | error e => rfl
  | ok c => rfl

theorem sellOrder_numbered (pair : CarbonPair) (tkn : Str) (amt plo phi : Option K) (i j : Nat) (pm y : Option K) :
    sellOrder pair tkn amt plo phi i j pm y = (sellOrder pair tkn amt plo phi 0 0 pm y).map (numbered i j) := by
  unfold sellOrder
  split_ifs with h
  · rfl
  · cases plo with
    | none =>
      cases phi with
      | none => exact buildOrder_numbered ..
      | some hi => rfl
    | some lo =>
      cases phi with
      | none => rfl
      | some hi =>
        dsimp only
        split_ifs
        · exact buildOrder_numbered ..
        · exact buildOrder_numbered ..

theorem strategyOrders_numbered (p : CarbonPair) (t : Str) (i j : Nat) (a : StrategyArgs K) :
    strategyOrders p t i j a = (strategyOrders p t 0 0 a).map fun r => (numbered i j r.1, r.2.map (numbered j i)) := by
  unfold strategyOrders
  cases p.convertPrice a.psellMarginal a.tkn with
  | error e => rfl
  | ok sm =>
  cases p.convertPrice a.psellStart a.tkn with
  | error e => rfl
  | ok ss =>
  cases p.convertPrice a.psellEnd a.tkn with
  | error e => rfl
  | ok se =>
  cases p.convertPrice a.pbuyStart t with
  | error e => rfl
  | ok bs =>
  cases p.convertPrice a.pbuyEnd t with
  | error e => rfl
  | ok be =>
  cases p.convertPrice a.pbuyMarginal t with
  | error e => rfl
  | ok bm =>
  simp only [Py.ok_bind]
  rw [sellOrder_numbered p a.tkn a.amtSell se ss i j, sellOrder_numbered p t a.amtBuy be bs j i]
  cases sellOrder p a.tkn a.amtSell se ss 0 0 sm a.yintSell with
  | error e => rfl
  | ok o => rfl

/-- A strategy that is accepted adds these two orders, to whatever simulator with this default pair. -/
def Adds (pair : Option CarbonPair) (a : StrategyArgs K) (o1 o2 : SOrder K) : Prop :=
  ∀ s : Sim K, Ids s → s.pair = pair → s.addStrategy a = (.ok (s.nextId, s.nextId + 1), 
    ({ s with nextId := s.nextId + 2, orders := s.orders ++ [(s.nextId, numbered s.nextId (s.nextId + 1) o1), (s.nextId + 1, numbered (s.nextId + 1) s.nextId o2)] } : Sim K))

theorem accepted_adds {s : Sim K} {a : StrategyArgs K} (h : ∃ r, (s.addStrategy a).1 = .ok r) : ∃ o1 o2, Adds s.pair a o1 o2 := by
  obtain ⟨res, h⟩ := h
  unfold addStrategy at h
  cases hpt : s.pairTokens a.pair a.tkn with
  | error e => rw [hpt] at h; cases h
  | ok pt =>
  obtain ⟨p, t⟩ := pt
  rw [hpt] at h
  dsimp only at h
  rw [strategyOrders_numbered] at h
  cases hso : strategyOrders p t 0 0 a with
  | error e => rw [hso] at h; cases h
  | ok r =>
  obtain ⟨o1, r2⟩ := r
  cases r2 with
  | error e => rw [hso] at h; cases h
  | ok o2 =>
  rw [hso] at h
  have hrep : ∃ v, (do let _ ← report o1; report o2) = Except.ok v := by
    cases hv : (do let _ ← report o1; report o2) with
    | ok v => exact ⟨v, rfl⟩
    | error e =>
      have : (do let _ ← report (numbered s.nextId (s.nextId + 1) o1); report (numbered (s.nextId + 1) s.nextId o2)) = Except.error e := hv
      simp only [Except.map] at h
      rw [this] at h
      cases h
  obtain ⟨v, hv⟩ := hrep
  refine ⟨o1, o2, fun s' hi hp => ?_⟩
  have hpt' : s'.pairTokens a.pair a.tkn = .ok (p, t) := by
    rw [← hpt]
    unfold pairTokens getPair
    rw [hp]
  have hv' : (do let _ ← report (numbered s'.nextId (s'.nextId + 1) o1); report (numbered (s'.nextId + 1) s'.nextId o2)) = Except.ok v := hv
  unfold addStrategy
  rw [hpt']
  dsimp only
  rw [strategyOrders_numbered, hso]
  simp only [Except.map]
  rw [hv']
  have n1 : s'.nextId ∉ s'.orders.map Prod.fst := hi.not_mem le_rfl
  have n2 : s'.nextId + 1 ∉ (s'.orders ++ [(s'.nextId, numbered s'.nextId (s'.nextId + 1) o1)]).map Prod.fst := by
    rw [List.map_append, List.mem_append, not_or]
    exact ⟨hi.not_mem (Nat.le_succ _), by simp⟩
  rw [Dict.set_of_not_mem _ n1, Dict.set_of_not_mem _ n2, List.append_assoc]
  rfl

end Adding

/-- The orders of a simulator without their numbers. -/
def unnumbered (s : Sim ℝ) : List (SOrder ℝ) := s.orders.map fun e => numbered 0 0 e.2

/-- A simulator after strategies were added that are accepted. -/
theorem run_adds (C : StrategyArgs ℝ → List (SOrder ℝ)) {pair : Option CarbonPair} (l : List (StrategyArgs ℝ))
    (hC : ∀ a ∈ l, ∃ o1 o2, C a = [numbered 0 0 o1, numbered 0 0 o2] ∧ Adds pair a o1 o2) (hs : ∀ a ∈ l, Sensible a) :
    ∀ s : Sim ℝ, s.pair = pair → Healthy s → Links s → (run s (l.map Op.add)).pair = pair ∧ (run s (l.map Op.add)).method = s.method ∧
      Healthy (run s (l.map Op.add)) ∧ Links (run s (l.map Op.add)) ∧ unnumbered (run s (l.map Op.add)) = unnumbered s ++ l.flatMap C := by
  induction l with
  | nil => exact fun s hp h hL => ⟨hp, rfl, h, hL, by simp [run]⟩
  | cons a l ih =>
    intro s hp h hL
    obtain ⟨o1, o2, e, ha⟩ := hC a List.mem_cons_self
    have e1 := ha s h.ids hp
    have e2 : run s ((a :: l).map Op.add) = run (s.addStrategy a).2 (l.map Op.add) := rfl
    rw [e2]
    have hh := addStrategy_healthy h a (hs a List.mem_cons_self)
    have hl := addStrategy_links h.ids hL a (Or.inl ⟨_, by rw [e1]⟩)
    have hp' : (s.addStrategy a).2.pair = pair := by rw [e1]; exact hp
    have hm' : (s.addStrategy a).2.method = s.method := by rw [e1]
    have hu : unnumbered (s.addStrategy a).2 = unnumbered s ++ C a := by
      rw [e1, e]
      unfold unnumbered
      simp [numbered]
    obtain ⟨i1, i2, i3, i4, i5⟩ := ih (fun b hb => hC b (List.mem_cons_of_mem _ hb)) (fun b hb => hs b (List.mem_cons_of_mem _ hb)) _ hp' hh hl
    exact ⟨i1, i2.trans hm', i3, i4, by rw [i5, hu, List.flatMap_cons, List.append_assoc]⟩

open Classical in
theorem suppliers_unnumbered (s : Sim ℝ) (p r : CarbonPair) (tkn : Str) : (suppliers s p r tkn none).map (·.curve) =
    ((unnumbered s).filter fun o => (o.pairName = p.pairIso ∨ o.pairName = r.pairIso) ∧ o.tkn = tkn ∧ o.disabled = false ∧ 0 < o.curve.y).map
      (·.curve) := by
  unfold suppliers unnumbered
  induction s.orders with
  | nil => rfl
  | cons e l ih =>
    simp only [List.map_cons, List.filter_cons]
    by_cases hc : (e.2.pairName = p.pairIso ∨ e.2.pairName = r.pairIso) ∧ e.2.tkn = tkn ∧ e.2.disabled = false ∧ 0 < e.2.curve.y
    · have h1 : ((e.2.pairName = p.pairIso ∨ e.2.pairName = r.pairIso) ∧ e.2.tkn = tkn ∧ e.2.disabled = false ∧ 0 < e.2.curve.y ∧
          ∀ l, (none : Option (List Nat)) = some l → e.2.id ∈ l) := ⟨hc.1, hc.2.1, hc.2.2.1, hc.2.2.2, by simp⟩
      have h2 : ((numbered 0 0 e.2).pairName = p.pairIso ∨ (numbered 0 0 e.2).pairName = r.pairIso) ∧ (numbered 0 0 e.2).tkn = tkn ∧
          (numbered 0 0 e.2).disabled = false ∧ 0 < (numbered 0 0 e.2).curve.y := hc
      rw [if_pos (decide_eq_true h1), if_pos (decide_eq_true h2), List.map_cons, List.map_cons, ih]
      rfl
    · have h1 : ¬((e.2.pairName = p.pairIso ∨ e.2.pairName = r.pairIso) ∧ e.2.tkn = tkn ∧ e.2.disabled = false ∧ 0 < e.2.curve.y ∧
          ∀ l, (none : Option (List Nat)) = some l → e.2.id ∈ l) := fun h => hc ⟨h.1, h.2.1, h.2.2.1, h.2.2.2.1⟩
      have h2 : ¬(((numbered 0 0 e.2).pairName = p.pairIso ∨ (numbered 0 0 e.2).pairName = r.pairIso) ∧ (numbered 0 0 e.2).tkn = tkn ∧
          (numbered 0 0 e.2).disabled = false ∧ 0 < (numbered 0 0 e.2).curve.y) := hc
      rw [if_neg (fun h => h1 (of_decide_eq_true h)), if_neg (fun h => h2 (of_decide_eq_true h)), ih]

/-- Two simulators to which the same strategies were added in different orders. -/
theorem added {s : Sim ℝ} (h : Healthy s) (hL : Links s) {l l' : List (StrategyArgs ℝ)} (hp : l.Perm l')
    (hacc : ∀ b ∈ l, ∃ r, (s.addStrategy b).1 = .ok r) (hs : ∀ b ∈ l, Sensible b) :
    (∀ m, m = l ∨ m = l' → (∀ x, (run s (m.map Op.add)).getPair x = s.getPair x) ∧ (run s (m.map Op.add)).method = s.method ∧
      Healthy (run s (m.map Op.add)) ∧ Links (run s (m.map Op.add))) ∧
    ∀ p r tkn, ((suppliers (run s (l.map Op.add)) p r tkn none).map (·.curve)).Perm ((suppliers (run s (l'.map Op.add)) p r tkn none).map (·.curve)) ∧
      ∃ cs, (suppliers (run s (l.map Op.add)) p r tkn none).map (·.curve) = (suppliers s p r tkn none).map (·.curve) ++ cs ∧ ∀ c ∈ cs, 0 < c.y := by
  have hex : ∀ b, ∃ c : List (SOrder ℝ), b ∈ l → ∃ o1 o2, c = [numbered 0 0 o1, numbered 0 0 o2] ∧ Adds s.pair b o1 o2 := by
    intro b
    by_cases hb : b ∈ l
    · obtain ⟨o1, o2, ho⟩ := accepted_adds (hacc b hb)
      exact ⟨_, fun _ => ⟨o1, o2, rfl, ho⟩⟩
    · exact ⟨[], fun h => absurd h hb⟩
  choose C hC using hex
  have run1 := run_adds C l hC hs s rfl h hL
  have run2 := run_adds C l' (fun b hb => hC b (hp.symm.subset hb)) (fun b hb => hs b (hp.symm.subset hb)) s rfl h hL
  have pairs : ∀ s' : Sim ℝ, s'.pair = s.pair → ∀ x, s'.getPair x = s.getPair x := by
    intro s' e x
    unfold getPair
    rw [e]
  refine ⟨?_, ?_⟩
  · rintro m (rfl | rfl)
    · exact ⟨pairs _ run1.1, run1.2.1, run1.2.2.1, run1.2.2.2.1⟩
    · exact ⟨pairs _ run2.1, run2.2.1, run2.2.2.1, run2.2.2.2.1⟩
  · intro p r tkn
    rw [suppliers_unnumbered, suppliers_unnumbered, suppliers_unnumbered, run1.2.2.2.2, run2.2.2.2.2]
    refine ⟨(((List.Perm.refl _).append (hp.flatMap_right C)).filter _).map _, _, by rw [List.filter_append, List.map_append], fun c hc => ?_⟩
    obtain ⟨o, ho, rfl⟩ := List.mem_map.mp hc
    exact (of_decide_eq_true (List.mem_filter.mp ho).2).2.2.2

/-- **C178** However strategies are ordered when they are added to a simulator with the exact router, a sale that the book can serve succeeds and costs
the same. -/
theorem C178_added_sale (s : Sim ℝ) (h : Healthy s) (hL : Links s) (hm : s.method = .exact) (l l' : List (StrategyArgs ℝ)) (hperm : l.Perm l')
    (hacc : ∀ b ∈ l, ∃ r, (s.addStrategy b).1 = .ok r) (hs : ∀ b ∈ l, Sensible b) (a : TradeArgs ℝ) (h0 : 0 < a.amt) (hu : a.usePositions = none)
    (hlp : a.limitPrice = none) (hla : a.limitAmt = none) (hip : a.inpair = true) (p r : CarbonPair) (hp : s.getPair a.pair = .ok p)
    (hr : p.reverse = .ok r) (ht : p.hasToken a.tkn = true)
    (hle : a.amt ≤ ((suppliers (run s (l.map Op.add)) p r a.tkn none).map fun o => o.curve.y).sum) :
    ∃ paid, Succeeds (run s (l.map Op.add)) false a a.tkn (some a.amt) (some paid) ∧
      Succeeds (run s (l'.map Op.add)) false a a.tkn (some a.amt) (some paid) := by
  obtain ⟨hr1, hr2⟩ := added h hL hperm hacc hs
  obtain ⟨p1, m1, h1, l1⟩ := hr1 l (Or.inl rfl)
  obtain ⟨p2, m2, h2, l2⟩ := hr1 l' (Or.inr rfl)
  exact C178_sale _ _ h1 h2 l1 l2 (m1.trans hm) (m2.trans hm) a a h0 rfl rfl hlp hla hip hlp hla hip p r ((p1 _).trans hp) ((p2 _).trans hp) hr ht
    (by rw [hu]; exact (hr2 p r a.tkn).1) (by rw [hu]; exact hle)

/-- **C178** The same for purchases. -/
theorem C178_added_purchase (s : Sim ℝ) (h : Healthy s) (hL : Links s) (hm : s.method = .exact) (l l' : List (StrategyArgs ℝ)) (hperm : l.Perm l')
    (hacc : ∀ b ∈ l, ∃ r, (s.addStrategy b).1 = .ok r) (hs : ∀ b ∈ l, Sensible b) (a : TradeArgs ℝ) (h0 : 0 < a.amt) (hu : a.usePositions = none)
    (hlp : a.limitPrice = none) (hla : a.limitAmt = none) (hip : a.inpair = true) (p r : CarbonPair) (hp : s.getPair a.pair = .ok p)
    (hr : p.reverse = .ok r) (t : Str) (ht : p.other a.tkn = some t) (cost : Curve ℝ → ℝ)
    (hcost : ∀ o ∈ suppliers (run s (l.map Op.add)) p r t none, o.curve.dxdy (-o.curve.y) = .ok (cost o.curve))
    (hle : a.amt ≤ ((suppliers (run s (l.map Op.add)) p r t none).map fun o => cost o.curve).sum) :
    ∃ given, Succeeds (run s (l.map Op.add)) true a t (some given) (some a.amt) ∧
      Succeeds (run s (l'.map Op.add)) true a t (some given) (some a.amt) := by
  obtain ⟨hr1, hr2⟩ := added h hL hperm hacc hs
  obtain ⟨p1, m1, h1, l1⟩ := hr1 l (Or.inl rfl)
  obtain ⟨p2, m2, h2, l2⟩ := hr1 l' (Or.inr rfl)
  exact C178_purchase _ _ h1 h2 l1 l2 (m1.trans hm) (m2.trans hm) a a h0 rfl rfl hlp hla hip hlp hla hip p r ((p1 _).trans hp) ((p2 _).trans hp) hr t ht
    (by rw [hu]; exact (hr2 p r t).1) cost (by rw [hu]; exact hcost) (by rw [hu]; exact hle)

/-! ## The fast router -/

/-- 10 ETH from 1 to 36 USDC. -/
def wideStrat : StrategyArgs ℚ := { strat with psellStart := some 1, psellEnd := some 36, pbuyStart := some (1 / 4), pbuyEnd := some (1 / 9) }

/-- **C178** fails with the fast router, which decides ties by the numbers of the orders: two strategies ask the same, 60 USDC, for all their ETH, and
the purchase of 15 ETH costs more or less with the order in which they were added. -/
theorem C178_fast_violated :
    (∀ b ∈ [strat, wideStrat], ∃ r, ((sim0 .fast).addStrategy b).1 = .ok r) ∧
    ∃ u v : ℚ, outcome ((run (sim0 .fast) [.add strat, .add wideStrat]).ammSells { tkn := "ETH".toList, amt := 15 }) = some (true, 15, u) ∧
      outcome ((run (sim0 .fast) [.add wideStrat, .add strat]).ammSells { tkn := "ETH".toList, amt := 15 }) = some (true, 15, v) ∧ u < v := by
  refine ⟨?_, 480 / 7, 84, by decide +kernel, by decide +kernel, by norm_num⟩
  intro b hb
  simp only [List.mem_cons, List.not_mem_nil, or_false] at hb
  rcases hb with rfl | rfl
  · exact ⟨(0, 1), by decide +kernel⟩
  · exact ⟨(0, 1), by decide +kernel⟩

end Carbon.Sim
