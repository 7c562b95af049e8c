import Mathlib.Algebra.Order.Group.Abs
import Mathlib.Algebra.BigOperators.Group.List.Basic
import Verif.Carbon.Simulator

/-!
# Lemmas about the simulator
-/

set_option linter.unusedSectionVars false

namespace Carbon

namespace Dict

variable {κ α : Type} [DecidableEq κ]

theorem get_set (d : List (κ × α)) (k j : κ) (v : α) : get (set d k v) j = if j = k then some v else get d j := by
  induction d with
  | nil =>
    unfold set get
    by_cases h : k = j
    · subst h; simp
    · rw [if_neg (fun e => h e.symm)]; simp [h]
  | cons p d ih =>
    unfold set
    by_cases hp : p.1 = k
    · rw [if_pos hp]
      unfold get
      by_cases h : k = j
      · subst h; simp
      · rw [if_neg (fun e => h e.symm)]; simp [h, hp]
    · rw [if_neg hp]
      unfold get at ih ⊢
      by_cases h : p.1 = j
      · subst h; simp [hp]
      · simp only [List.find?_cons, beq_eq_false_iff_ne.mpr h]; exact ih

theorem get_del (d : List (κ × α)) (k j : κ) : get (del d k) j = if j = k then none else get d j := by
  unfold get del
  rw [List.find?_filter]
  by_cases h : j = k
  · subst h
    rw [if_pos rfl, List.find?_eq_none.mpr]
    · rfl
    · intro x _; simp
  · rw [if_neg h]
    congr 2
    funext p
    by_cases hp : p.1 = j
    · simp [hp, h]
    · simp [hp]

theorem mem_of_get {d : List (κ × α)} {k : κ} {v : α} (h : get d k = some v) : (k, v) ∈ d := by
  unfold get at h
  cases e : d.find? (fun p => p.1 == k) with
  | none => rw [e] at h; simp at h
  | some p =>
    rw [e] at h
    simp only [Option.map_some, Option.some.injEq] at h
    have h1 := List.find?_some e
    simp only [beq_iff_eq] at h1
    have h2 := List.mem_of_find?_eq_some e
    obtain ⟨p1, p2⟩ := p
    simp only at h h1
    subst h; subst h1
    exact h2

theorem get_of_mem {d : List (κ × α)} (hn : (d.map Prod.fst).Nodup) {k : κ} {v : α} (h : (k, v) ∈ d) :
    get d k = some v := by
  induction d with
  | nil => simp at h
  | cons p d ih =>
    rw [List.map_cons, List.nodup_cons] at hn
    rcases List.mem_cons.mp h with rfl | h
    · simp [get]
    · have hne : p.1 ≠ k := fun e => hn.1 (e ▸ List.mem_map_of_mem (f := Prod.fst) h)
      unfold get
      simp only [List.find?_cons, beq_eq_false_iff_ne.mpr hne]
      exact ih hn.2 h

theorem mem_keys_iff {d : List (κ × α)} {k : κ} : k ∈ d.map Prod.fst ↔ ∃ v, get d k = some v := by
  constructor
  · intro h
    induction d with
    | nil => simp at h
    | cons p d ih =>
      by_cases hp : p.1 = k
      · exact ⟨p.2, by simp [get, hp]⟩
      · rw [List.map_cons, List.mem_cons] at h
        obtain ⟨v, hv⟩ := ih (h.resolve_left (fun e => hp e.symm))
        refine ⟨v, ?_⟩
        unfold get at hv ⊢
        simp only [List.find?_cons, beq_eq_false_iff_ne.mpr hp]
        exact hv
  · rintro ⟨v, hv⟩
    exact List.mem_map_of_mem (f := Prod.fst) (mem_of_get hv)

theorem keys_set_of_mem {d : List (κ × α)} {k : κ} (v : α) (h : k ∈ d.map Prod.fst) :
    (set d k v).map Prod.fst = d.map Prod.fst := by
  induction d with
  | nil => simp at h
  | cons p d ih =>
    unfold set
    by_cases hp : p.1 = k
    · rw [if_pos hp]; simp [hp]
    · rw [if_neg hp]
      rw [List.map_cons, List.mem_cons] at h
      simp only [List.map_cons]
      rw [ih (h.resolve_left (fun e => hp e.symm))]

theorem set_of_not_mem {d : List (κ × α)} {k : κ} (v : α) (h : k ∉ d.map Prod.fst) : set d k v = d ++ [(k, v)] := by
  induction d with
  | nil => rfl
  | cons p d ih =>
    rw [List.map_cons, List.mem_cons, not_or] at h
    unfold set
    rw [if_neg (fun e => h.1 e.symm), ih h.2]; rfl

theorem del_keys (d : List (κ × α)) (k : κ) : (del d k).map Prod.fst = (d.map Prod.fst).filter (· ≠ k) := by
  unfold del
  induction d with
  | nil => rfl
  | cons p d ih =>
    by_cases hp : p.1 = k
    · simp only [List.filter_cons, hp, ne_eq, not_true_eq_false, decide_false, List.map_cons]
      simpa using ih
    · simp only [List.filter_cons, hp, ne_eq, not_false_eq_true, decide_true, List.map_cons, if_true]
      rw [List.cons_inj_right]
      simpa using ih

/-- Replacing a value by one with the same image under `f` does not change the images. -/
theorem map_set {β : Type} (f : κ × α → β) {d : List (κ × α)} {k : κ} {o v : α} (h : get d k = some o)
    (he : f (k, v) = f (k, o)) : (set d k v).map f = d.map f := by
  induction d with
  | nil => simp [get] at h
  | cons p d ih =>
    unfold set
    by_cases hp : p.1 = k
    · rw [if_pos hp]
      have : p.2 = o := by simpa [get, hp] using h
      rw [List.map_cons, List.map_cons, he, ← this, ← hp]
    · rw [if_neg hp, List.map_cons, List.map_cons, ih]
      unfold get at h ⊢
      simpa only [List.find?_cons, beq_eq_false_iff_ne.mpr hp] using h

/-- The sum over a dictionary changes by the difference at the key set. -/
theorem sum_set {K : Type} [AddCommGroup K] (f : κ × α → K) {d : List (κ × α)} {k : κ} {o v : α} (h : get d k = some o) :
    ((set d k v).map f).sum = (d.map f).sum + (f (k, v) - f (k, o)) := by
  induction d with
  | nil => simp [get] at h
  | cons p d ih =>
    unfold set
    by_cases hp : p.1 = k
    · rw [if_pos hp]
      have : p.2 = o := by simpa [get, hp] using h
      subst this
      subst hp
      rw [List.map_cons, List.map_cons, List.sum_cons, List.sum_cons]
      abel
    · rw [if_neg hp, List.map_cons, List.map_cons, List.sum_cons, List.sum_cons, ih]
      · abel
      · unfold get at h ⊢
        simpa only [List.find?_cons, beq_eq_false_iff_ne.mpr hp] using h

end Dict

namespace Sim

variable {K : Type} [Field K] [LinearOrder K] [PySqrt K]

/-- Everything about an order that a trade must not touch. -/
structure Label (K : Type) where
  tkn : Str
  pair : CarbonPair
  pairName : Str
  disabled : Bool
  id : Nat
  linked : Nat
  B : K
  S : K
  plow : K
  phigh : K
  adjN : Bool

/-- The labels of an order. -/
def label (o : SOrder K) : Label K :=
  ⟨o.tkn, o.pair, o.pairName, o.disabled, o.id, o.linked, o.curve.B, o.curve.S, o.curve.plow, o.curve.phigh, o.curve.adjN⟩

/-- The two states have the same orders up to holdings and capacity, in the same places. -/
structure Frame (s s' : Sim K) : Prop where
  orders : s'.orders.map (fun e => (e.1, label e.2)) = s.orders.map (fun e => (e.1, label e.2))
  nextId : s'.nextId = s.nextId
  pair : s'.pair = s.pair
  raise : s'.raiseonerror = s.raiseonerror
  method : s'.method = s.method
  future : s'.excludeFuture = s.excludeFuture

theorem Frame.refl (s : Sim K) : Frame s s := ⟨rfl, rfl, rfl, rfl, rfl, rfl⟩

theorem Frame.trans {s t u : Sim K} (h : Frame s t) (h' : Frame t u) : Frame s u :=
  ⟨h'.1.trans h.1, h'.2.trans h.2, h'.3.trans h.3, h'.4.trans h.4, h'.5.trans h.5, h'.6.trans h.6⟩

theorem Frame.keys {s s' : Sim K} (h : Frame s s') : s'.orders.map Prod.fst = s.orders.map Prod.fst := by
  have := congrArg (List.map Prod.fst) h.orders
  simpa [List.map_map, Function.comp_def] using this

theorem get_map {α β : Type} (f : α → β) (d : List (Nat × α)) (k : Nat) :
    Dict.get (d.map fun e => (e.1, f e.2)) k = (Dict.get d k).map f := by
  unfold Dict.get
  induction d with
  | nil => rfl
  | cons p d ih =>
    by_cases hp : p.1 = k
    · simp [hp]
    · simp only [List.map_cons, List.find?_cons, beq_eq_false_iff_ne.mpr hp]; exact ih

theorem Frame.get {s s' : Sim K} (h : Frame s s') (k : Nat) :
    (Dict.get s'.orders k).map label = (Dict.get s.orders k).map label := by
  have := congrArg (fun d => Dict.get d k) h.orders
  simpa [get_map] using this

theorem execRoute_frame (swap : Bool) (s : Sim K) (k : Nat) (a : Action K) : Frame s (execRoute swap s k a).2 := by
  unfold execRoute
  split
  · exact Frame.refl s
  · rename_i o ho
    dsimp only
    have h1 : Frame s { s with orders := Dict.set s.orders k (debit o (sold swap a.input a.output)) } :=
      ⟨Dict.map_set _ ho rfl, rfl, rfl, rfl, rfl, rfl⟩
    split_ifs with hl
    · exact h1
    · split
      · exact h1
      · rename_i l hl'
        refine h1.trans ⟨Dict.map_set _ hl' rfl, rfl, rfl, rfl, rfl, rfl⟩

theorem runRoutes_frame (p : CarbonPair) (tkn : Str) (swap : Bool) (pl : Plan K) (s : Sim K) (ct : Nat)
    (l : List (Action K)) : Frame s (runRoutes p tkn swap pl s ct l).2 := by
  induction l generalizing s ct with
  | nil => exact Frame.refl s
  | cons a l ih =>
    unfold runRoutes
    split
    · exact Frame.refl s
    · rename_i k hk
      have h1 : Frame s (if pl.exec then execRoute swap s k a else (.ok (), s)).2 := by
        split_ifs
        · exact execRoute_frame swap s k a
        · exact Frame.refl s
      generalize (if pl.exec then execRoute swap s k a else (.ok (), s)) = r at h1
      obtain ⟨r, s1⟩ := r
      cases r with
      | error e => exact h1
      | ok _ =>
        dsimp only
        split
        · exact h1
        · refine h1.trans (Frame.trans ?_ (ih _ _))
          exact ⟨rfl, rfl, rfl, rfl, rfl, rfl⟩

theorem trade_frame (s : Sim K) (p : CarbonPair) (tkn : Str) (amt : K) (byTarget : Bool) (a : TradeArgs K) :
    Frame s (s.trade p tkn amt byTarget a).2 := by
  unfold trade
  split
  · exact Frame.refl s
  · rename_i pl hpl
    dsimp only
    have h1 := runRoutes_frame p tkn (byTarget && decide (s.method = .fast)) pl s 0 pl.routes
    generalize runRoutes p tkn (byTarget && decide (s.method = .fast)) pl s 0 pl.routes = r at h1
    obtain ⟨r, s1⟩ := r
    cases r with
    | error e => exact h1
    | ok _ =>
      dsimp only
      split
      · exact h1
      · exact h1.trans ⟨rfl, rfl, rfl, rfl, rfl, rfl⟩

/-- An API trade is no change, or a call of `_trade`. -/
theorem buysPos_cases (s : Sim K) (a : TradeArgs K) :
    (∃ e, s.buysPos a = (.error e, s)) ∨
    ∃ p tkno, s.getPair a.pair = .ok p ∧ p.other a.tkn = some tkno ∧ s.buysPos a = s.trade p tkno a.amt false a := by
  unfold buysPos
  generalize hr : (do
    let p ← s.getPair a.pair
    s.positionValid (p.other a.tkn) p
    match p.other a.tkn with
    | none => (.error .value : Py (CarbonPair × Str))
    | some t => .ok (p, t)) = r
  cases r with
  | error e => exact Or.inl ⟨e, rfl⟩
  | ok pt =>
    obtain ⟨p, t⟩ := pt
    right
    rw [Py.bind_eq_ok] at hr
    obtain ⟨p', hp, hr⟩ := hr
    rw [Py.bind_eq_ok] at hr
    obtain ⟨_, _, hr⟩ := hr
    cases ho : p'.other a.tkn with
    | none => rw [ho] at hr; simp at hr
    | some t' =>
      rw [ho] at hr
      simp only [Except.ok.injEq, Prod.mk.injEq] at hr
      obtain ⟨rfl, rfl⟩ := hr
      exact ⟨p', t', hp, ho, rfl⟩

theorem sellsPos_cases (s : Sim K) (a : TradeArgs K) :
    (∃ e, s.sellsPos a = (.error e, s)) ∨
    ∃ p, s.getPair a.pair = .ok p ∧ s.sellsPos a = s.trade p a.tkn (-a.amt) true a := by
  unfold sellsPos
  generalize hr : (do
    let p ← s.getPair a.pair
    s.positionValid (some a.tkn) p
    (.ok p : Py CarbonPair)) = r
  cases r with
  | error e => exact Or.inl ⟨e, rfl⟩
  | ok p =>
    right
    rw [Py.bind_eq_ok] at hr
    obtain ⟨p', hp, hr⟩ := hr
    rw [Py.bind_eq_ok] at hr
    obtain ⟨_, _, hr⟩ := hr
    cases hr
    exact ⟨p, hp, rfl⟩

/-- The arguments with which a call of `amm_buys` or `amm_sells` reaches the router: as given, or for negative amounts
with the sign changed and without the list of positions. -/
inductive Effective : TradeArgs K → TradeArgs K → Prop where
  | same (a) : ¬ a.amt < 0 → Effective a a
  | flip (a) : a.amt < 0 → Effective a a.flip

theorem ammBuys_cases (s : Sim K) (a : TradeArgs K) :
    (∃ e, s.ammBuys a = (.error e, s)) ∨
    (¬ a.amt < 0 ∧ ∃ p tkno, s.getPair a.pair = .ok p ∧ p.other a.tkn = some tkno ∧
      s.ammBuys a = s.trade p tkno a.amt false a) ∨
    (a.amt < 0 ∧ ∃ p, s.getPair a.pair = .ok p ∧ s.ammBuys a = s.trade p a.tkn a.amt true a.flip) := by
  unfold ammBuys
  split_ifs with h
  · rcases sellsPos_cases s a.flip with ⟨e, he⟩ | ⟨p, hp, he⟩
    · exact Or.inl ⟨e, he⟩
    · refine Or.inr (Or.inr ⟨h, p, hp, ?_⟩)
      rw [he]
      show s.trade p a.tkn (- -a.amt) true a.flip = _
      rw [neg_neg]
  · rcases buysPos_cases s a with ⟨e, he⟩ | ⟨p, t, hp, ht, he⟩
    · exact Or.inl ⟨e, he⟩
    · exact Or.inr (Or.inl ⟨h, p, t, hp, ht, he⟩)

theorem ammSells_cases (s : Sim K) (a : TradeArgs K) :
    (∃ e, s.ammSells a = (.error e, s)) ∨
    (¬ a.amt < 0 ∧ ∃ p, s.getPair a.pair = .ok p ∧ s.ammSells a = s.trade p a.tkn (-a.amt) true a) ∨
    (a.amt < 0 ∧ ∃ p tkno, s.getPair a.pair = .ok p ∧ p.other a.tkn = some tkno ∧
      s.ammSells a = s.trade p tkno (-a.amt) false a.flip) := by
  unfold ammSells
  split_ifs with h
  · rcases buysPos_cases s a.flip with ⟨e, he⟩ | ⟨p, t, hp, ht, he⟩
    · exact Or.inl ⟨e, he⟩
    · exact Or.inr (Or.inr ⟨h, p, t, hp, ht, he⟩)
  · rcases sellsPos_cases s a with ⟨e, he⟩ | ⟨p, hp, he⟩
    · exact Or.inl ⟨e, he⟩
    · exact Or.inr (Or.inl ⟨h, p, hp, he⟩)

theorem ammBuys_frame (s : Sim K) (a : TradeArgs K) : Frame s (s.ammBuys a).2 := by
  rcases ammBuys_cases s a with ⟨e, h⟩ | ⟨_, p, t, _, _, h⟩ | ⟨_, p, _, h⟩ <;> rw [h]
  · exact Frame.refl s
  · exact trade_frame ..
  · exact trade_frame ..

theorem ammSells_frame (s : Sim K) (a : TradeArgs K) : Frame s (s.ammSells a).2 := by
  rcases ammSells_cases s a with ⟨e, h⟩ | ⟨_, p, _, h⟩ | ⟨_, p, t, _, _, h⟩ <;> rw [h]
  · exact Frame.refl s
  · exact trade_frame ..
  · exact trade_frame ..

/-! ## Adding -/

theorem buildOrder_label {pair : CarbonPair} {tkn : Str} {amt lo hi : K} {dis : Bool} {id linked : Nat}
    {pmarg yint : Option K} {o : SOrder K} (h : buildOrder pair tkn amt lo hi dis id linked pmarg yint = .ok o) :
    o.tkn = tkn ∧ o.pair = pair ∧ o.pairName = pair.pairIso ∧ o.disabled = dis ∧ o.id = id ∧ o.linked = linked := by
  unfold buildOrder at h
  rw [Py.bind_eq_ok] at h
  obtain ⟨c, _, h⟩ := h
  cases h
  exact ⟨rfl, rfl, rfl, rfl, rfl, rfl⟩

theorem sellOrder_label {pair : CarbonPair} {tkn : Str} {amt plo phi : Option K} {id linked : Nat}
    {pmarg yint : Option K} {o : SOrder K} (h : sellOrder pair tkn amt plo phi id linked pmarg yint = .ok o) :
    o.tkn = tkn ∧ o.pair = pair ∧ o.pairName = pair.pairIso ∧ o.disabled = plo.isNone ∧ o.id = id ∧
      o.linked = linked := by
  unfold sellOrder at h
  split_ifs at h
  split at h
  · exact buildOrder_label h
  · split_ifs at h <;> exact buildOrder_label h
  · cases h

/-- The possible outcomes of `add_strategy`. -/
theorem addStrategy_cases (s : Sim K) (a : StrategyArgs K) :
    (∃ e, s.addStrategy a = (.error e, s)) ∨
    ∃ p tkn2, s.getPair a.pair = .ok p ∧ p.other a.tkn = some tkn2 ∧
      ((∃ e, s.addStrategy a = (.error e, { s with nextId := s.nextId + 2 })) ∨
      ∃ o1 r2, strategyOrders p tkn2 s.nextId (s.nextId + 1) a = .ok (o1, r2) ∧
        ((∃ e, s.addStrategy a = (.error e, ({ s with nextId := s.nextId + 2, orders := Dict.set s.orders s.nextId o1 } : Sim K))) ∨
        ∃ o2, r2 = .ok o2 ∧ ∃ r, s.addStrategy a = (r, ({ s with nextId := s.nextId + 2, orders := Dict.set (Dict.set s.orders s.nextId o1) (s.nextId + 1) o2 } : Sim K)) ∧
          ((∃ e, r = .error e) ∨ r = .ok (s.nextId, s.nextId + 1)))) := by
  unfold addStrategy
  cases h1 : s.pairTokens a.pair a.tkn with
  | error e => exact Or.inl ⟨e, rfl⟩
  | ok pt =>
    obtain ⟨p, tkn2⟩ := pt
    right
    unfold pairTokens at h1
    rw [Py.bind_eq_ok] at h1
    obtain ⟨p', hp, h1⟩ := h1
    cases ho : p'.other a.tkn with
    | none => rw [ho] at h1; cases h1
    | some t =>
      rw [ho] at h1
      simp only [Except.ok.injEq, Prod.mk.injEq] at h1
      obtain ⟨rfl, rfl⟩ := h1
      refine ⟨p', t, hp, ho, ?_⟩
      dsimp only
      cases h2 : strategyOrders p' t s.nextId (s.nextId + 1) a with
      | error e => exact Or.inl ⟨e, rfl⟩
      | ok or =>
        obtain ⟨o1, r2⟩ := or
        refine Or.inr ⟨o1, r2, rfl, ?_⟩
        cases r2 with
        | error e => exact Or.inl ⟨e, rfl⟩
        | ok o2 =>
          refine Or.inr ⟨o2, rfl, ?_⟩
          dsimp only
          generalize (do let _ ← report o1; report o2) = rep
          cases rep with
          | error e => exact ⟨_, rfl, Or.inl ⟨e, rfl⟩⟩
          | ok x => exact ⟨_, rfl, Or.inr rfl⟩

theorem strategyOrders_ok {p : CarbonPair} {tkn2 : Str} {id1 id2 : Nat} {a : StrategyArgs K} {o1 : SOrder K}
    {r2 : Py (SOrder K)} (h : strategyOrders p tkn2 id1 id2 a = .ok (o1, r2)) :
    ∃ sm ss se bs be bm, p.convertPrice a.psellMarginal a.tkn = .ok sm ∧ p.convertPrice a.psellStart a.tkn = .ok ss ∧
      p.convertPrice a.psellEnd a.tkn = .ok se ∧ p.convertPrice a.pbuyStart tkn2 = .ok bs ∧
      p.convertPrice a.pbuyEnd tkn2 = .ok be ∧ p.convertPrice a.pbuyMarginal tkn2 = .ok bm ∧
      sellOrder p a.tkn a.amtSell se ss id1 id2 sm a.yintSell = .ok o1 ∧
      r2 = sellOrder p tkn2 a.amtBuy be bs id2 id1 bm a.yintBuy := by
  unfold strategyOrders at h
  simp only [Py.bind_eq_ok] at h
  obtain ⟨sm, h1, ss, h2, se, h3, bs, h4, be, h5, bm, h6, o, h7, h8⟩ := h
  simp only [Except.ok.injEq, Prod.mk.injEq] at h8
  obtain ⟨rfl, rfl⟩ := h8
  exact ⟨sm, ss, se, bs, be, bm, h1, h2, h3, h4, h5, h6, h7, rfl⟩

/-! ## Deleting -/

theorem deleteOrder_cases (s : Sim K) (k : Nat) :
    (Dict.get s.orders k = none ∧ s.deleteOrder k = (.ok [], s)) ∨
    ∃ o, Dict.get s.orders k = some o ∧
      (((o.linked = k ∨ o.linked = 0) ∧ s.deleteOrder k = (.ok [k], { s with orders := Dict.del s.orders k })) ∨
      (o.linked ≠ k ∧ o.linked ≠ 0 ∧ Dict.get s.orders o.linked = none ∧
        s.deleteOrder k = (.error .key, { s with orders := Dict.del s.orders k })) ∨
      (o.linked ≠ k ∧ o.linked ≠ 0 ∧ (∃ l, Dict.get s.orders o.linked = some l) ∧
        s.deleteOrder k = (.ok [k, o.linked], { s with orders := Dict.del (Dict.del s.orders k) o.linked }))) := by
  unfold deleteOrder
  cases h : Dict.get s.orders k with
  | none => exact Or.inl ⟨rfl, rfl⟩
  | some o =>
    right
    refine ⟨o, rfl, ?_⟩
    dsimp only
    by_cases hl : o.linked = k ∨ o.linked = 0
    · left; rw [if_pos hl]; exact ⟨hl, rfl⟩
    · right
      rw [if_neg hl]
      rw [not_or] at hl
      have : Dict.get (Dict.del s.orders k) o.linked = Dict.get s.orders o.linked := by
        rw [Dict.get_del, if_neg hl.1]
      rw [this]
      cases h2 : Dict.get s.orders o.linked with
      | none => left; exact ⟨hl.1, hl.2, rfl, rfl⟩
      | some l => right; exact ⟨hl.1, hl.2, ⟨l, rfl⟩, rfl⟩

end Sim

end Carbon
