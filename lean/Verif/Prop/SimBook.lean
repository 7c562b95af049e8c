import Verif.Carbon.SimulatorLemmas

/-!
# C28-C31: the order book of the simulator
-/

set_option linter.unusedSectionVars false

namespace Carbon.Sim

variable {K : Type} [Field K] [LinearOrder K] [PySqrt K]

/-- The operations on a simulator. `add_order` is `add` with the sell side only. -/
inductive Op (K : Type) where
  | add (a : StrategyArgs K)
  | single (tkn : Str) (amt pStart pEnd pmarg yint : Option K) (pair : CarbonPair.Arg) (oid lid : Option Nat)
  | delete (k : Nat)
  | buys (a : TradeArgs K)
  | sells (a : TradeArgs K)

/-- The state after an operation, whatever it returned. -/
def step (s : Sim K) : Op K → Sim K
  | .add a => (s.addStrategy a).2
  | .single tkn amt ps pe pm yint pair oid lid => (s.addReplaceSingle tkn amt ps pe pm yint pair oid lid).2
  | .delete k => (s.deleteOrder k).2
  | .buys a => (s.ammBuys a).2
  | .sells a => (s.ammSells a).2

/-- The state after a list of operations. -/
def run (s : Sim K) (ops : List (Op K)) : Sim K := ops.foldl step s

/-- The ids in the book. -/
def ids (s : Sim K) : List Nat := s.orders.map Prod.fst

/-- The ids that appear in the book through an operation. -/
def newIds (s : Sim K) (op : Op K) : List Nat := (ids (step s op)).filter (· ∉ ids s)

/-- All ids that ever appear in the book through a list of operations, in order of appearance. -/
def allNewIds : Sim K → List (Op K) → List Nat
  | _, [] => []
  | s, op :: ops => newIds s op ++ allNewIds (step s op) ops

/-- Every order is stored under its own id, no id twice, and only ids handed out so far. -/
structure Ids (s : Sim K) : Prop where
  nodup : (ids s).Nodup
  own : ∀ k o, (k, o) ∈ s.orders → o.id = k
  lt : ∀ k ∈ ids s, k < s.nextId

theorem Ids.of_frame {s s' : Sim K} (h : Ids s) (f : Frame s s') : Ids s' := by
  have hk : ids s' = ids s := f.keys
  refine ⟨hk ▸ h.nodup, ?_, ?_⟩
  · intro k o ho
    have hm : (k, label o) ∈ s'.orders.map fun e => (e.1, label e.2) := List.mem_map.mpr ⟨(k, o), ho, rfl⟩
    rw [f.orders] at hm
    obtain ⟨⟨k', o'⟩, hm', e⟩ := List.mem_map.mp hm
    simp only [Prod.mk.injEq] at e
    obtain ⟨rfl, e⟩ := e
    have := h.own _ _ hm'
    rw [← this]
    exact (congrArg Label.id e).symm
  · intro k hk'
    rw [hk] at hk'
    rw [f.nextId]
    exact h.lt k hk'

theorem Ids.not_mem {s : Sim K} (h : Ids s) {k : Nat} (hk : s.nextId ≤ k) : k ∉ s.orders.map Prod.fst :=
  fun hm => absurd (h.lt k hm) (not_lt.mpr hk)

theorem Ids.append {s : Sim K} (h : Ids s) {o : SOrder K} (ho : o.id = s.nextId) {n : Nat} (hn : s.nextId < n) :
    Ids { s with nextId := n, orders := s.orders ++ [(s.nextId, o)] } := by
  refine ⟨?_, ?_, ?_⟩
  · show ((s.orders ++ [(s.nextId, o)]).map Prod.fst).Nodup
    rw [List.map_append, List.map_cons, List.map_nil, List.nodup_append]
    refine ⟨h.nodup, List.nodup_singleton _, ?_⟩
    rintro a ha b hb rfl
    rw [List.mem_singleton] at hb
    exact h.not_mem (le_of_eq hb.symm) ha
  · intro k o' hm
    rcases List.mem_append.mp hm with hm | hm
    · exact h.own k o' hm
    · simp only [List.mem_singleton, Prod.mk.injEq] at hm
      rw [hm.1, hm.2, ho]
  · intro k hk
    have : k ∈ s.orders.map Prod.fst ∨ k = s.nextId := by
      simpa [ids] using hk
    rcases this with hk | hk
    · exact lt_trans (h.lt k hk) hn
    · rw [hk]; exact hn

theorem Ids.del {s : Sim K} (h : Ids s) (k : Nat) : Ids { s with orders := Dict.del s.orders k } := by
  refine ⟨?_, ?_, ?_⟩
  · show ((Dict.del s.orders k).map Prod.fst).Nodup
    rw [Dict.del_keys]; exact h.nodup.filter _
  · intro j o hm
    exact h.own j o (List.mem_filter.mp hm).1
  · intro j hj
    have : j ∈ (Dict.del s.orders k).map Prod.fst := hj
    rw [Dict.del_keys] at this
    exact h.lt j (List.mem_filter.mp this).1

/-- What `add_strategy` leaves in the book. -/
theorem addStrategy_orders {s : Sim K} (h : Ids s) (a : StrategyArgs K) :
    s.addStrategy a = ((s.addStrategy a).1, s) ∨
    ∃ l, (s.addStrategy a).2 = { s with nextId := s.nextId + 2, orders := s.orders ++ l } ∧
      ((l = [] ∧ ∃ e, (s.addStrategy a).1 = .error e) ∨
      ∃ p tkn2 o1, s.getPair a.pair = .ok p ∧ p.other a.tkn = some tkn2 ∧ o1.id = s.nextId ∧ o1.linked = s.nextId + 1 ∧
        o1.tkn = a.tkn ∧ o1.pair = p ∧ o1.pairName = p.pairIso ∧
        ((l = [(s.nextId, o1)] ∧ ∃ e, (s.addStrategy a).1 = .error e) ∨
        ∃ o2, o2.id = s.nextId + 1 ∧ o2.linked = s.nextId ∧ o2.tkn = tkn2 ∧ o2.pair = p ∧ o2.pairName = p.pairIso ∧
          l = [(s.nextId, o1), (s.nextId + 1, o2)] ∧
          ((∃ e, (s.addStrategy a).1 = .error e) ∨ (s.addStrategy a).1 = .ok (s.nextId, s.nextId + 1)))) := by
  rcases addStrategy_cases s a with ⟨e, he⟩ | ⟨p, tkn2, hp, ht, hc⟩
  · left; rw [he]
  right
  rcases hc with ⟨e, he⟩ | ⟨o1, r2, hs, hc⟩
  · exact ⟨[], by rw [he, List.append_nil], Or.inl ⟨rfl, e, by rw [he]⟩⟩
  obtain ⟨sm, ss, se, bs, be, bm, -, -, -, -, -, -, h1, h2⟩ := strategyOrders_ok hs
  obtain ⟨t1, t2, t3, t4, t5, t6⟩ := sellOrder_label h1
  have n1 : s.nextId ∉ s.orders.map Prod.fst := h.not_mem le_rfl
  have e1 : Dict.set s.orders s.nextId o1 = s.orders ++ [(s.nextId, o1)] := Dict.set_of_not_mem _ n1
  rcases hc with ⟨e, he⟩ | ⟨o2, hr, r, he, hc⟩
  · refine ⟨[(s.nextId, o1)], by rw [he, e1], Or.inr ⟨p, tkn2, o1, hp, ht, t5, t6, t1, t2, t3, ?_⟩⟩
    exact Or.inl ⟨rfl, e, by rw [he]⟩
  · rw [h2] at hr
    obtain ⟨u1, u2, u3, u4, u5, u6⟩ := sellOrder_label hr
    have n2 : s.nextId + 1 ∉ (s.orders ++ [(s.nextId, o1)]).map Prod.fst := by
      rw [List.map_append, List.mem_append, not_or]
      refine ⟨h.not_mem (Nat.le_succ _), ?_⟩
      simp
    have e2 : Dict.set (Dict.set s.orders s.nextId o1) (s.nextId + 1) o2 =
        s.orders ++ [(s.nextId, o1), (s.nextId + 1, o2)] := by
      rw [e1, Dict.set_of_not_mem _ n2, List.append_assoc]; rfl
    refine ⟨[(s.nextId, o1), (s.nextId + 1, o2)], by rw [he, e2], Or.inr ⟨p, tkn2, o1, hp, ht, t5, t6, t1, t2, t3, ?_⟩⟩
    exact Or.inr ⟨o2, u5, u6, u1, u2, u3, rfl, by rw [he]; exact hc⟩

theorem addStrategy_ids {s : Sim K} (h : Ids s) (a : StrategyArgs K) :
    Ids (s.addStrategy a).2 ∧ s.nextId ≤ (s.addStrategy a).2.nextId ∧
      ∀ k ∈ ids (s.addStrategy a).2, k ∈ ids s ∨ s.nextId ≤ k := by
  rcases addStrategy_orders h a with he | ⟨l, he, hc⟩
  · rw [he]; exact ⟨h, le_rfl, fun k hk => Or.inl hk⟩
  rw [he]
  refine ⟨?_, by show s.nextId ≤ s.nextId + 2; omega, ?_⟩
  · rcases hc with ⟨rfl, -⟩ | ⟨p, tkn2, o1, -, -, i1, -, -, -, -, hc⟩
    · rw [List.append_nil]
      exact ⟨h.nodup, h.own, fun k hk => lt_trans (h.lt k hk) (by show s.nextId < s.nextId + 2; omega)⟩
    · rcases hc with ⟨rfl, -⟩ | ⟨o2, i2, -, -, -, -, rfl, -⟩
      · exact h.append i1 (by omega)
      · have h1 := h.append i1 (n := s.nextId + 1) (by omega)
        have h2 := h1.append (o := o2) i2 (n := s.nextId + 2) (by show s.nextId + 1 < s.nextId + 2; omega)
        have e : s.orders ++ [(s.nextId, o1), (s.nextId + 1, o2)] =
          (s.orders ++ [(s.nextId, o1)]) ++ [(s.nextId + 1, o2)] := by rw [List.append_assoc]; rfl
        rw [e]; exact h2
  · intro k hk
    have hk' : k ∈ (s.orders ++ l).map Prod.fst := hk
    rw [List.map_append, List.mem_append] at hk'
    rcases hk' with hk' | hk'
    · exact Or.inl hk'
    right
    rcases hc with ⟨rfl, -⟩ | ⟨p, tkn2, o1, -, -, i1, -, -, -, -, hc⟩
    · simp at hk'
    · rcases hc with ⟨rfl, -⟩ | ⟨o2, i2, -, -, -, -, rfl, -⟩
      · simp at hk'; omega
      · simp at hk'; omega

/-- While future features are excluded, the private call for single orders changes nothing. -/
theorem addReplaceSingle_excluded (s : Sim K) (h : s.excludeFuture = true) (tkn : Str)
    (amt ps pe pm yint : Option K) (pair : CarbonPair.Arg) (oid lid : Option Nat) :
    (s.addReplaceSingle tkn amt ps pe pm yint pair oid lid).2 = s := by
  unfold addReplaceSingle
  split_ifs <;> rfl

theorem deleteOrder_future (s : Sim K) (k : Nat) : (s.deleteOrder k).2.excludeFuture = s.excludeFuture ∧
    (s.deleteOrder k).2.nextId = s.nextId := by
  rcases deleteOrder_cases s k with ⟨_, e⟩ | ⟨o, _, ⟨_, e⟩ | ⟨_, _, _, e⟩ | ⟨_, _, _, e⟩⟩ <;> rw [e] <;> exact ⟨rfl, rfl⟩

theorem addStrategy_future (s : Sim K) (a : StrategyArgs K) : (s.addStrategy a).2.excludeFuture = s.excludeFuture := by
  rcases addStrategy_cases s a with ⟨e, he⟩ | ⟨p, tkn2, hp, ht, ⟨e, he⟩ | ⟨o1, r2, hs, ⟨e, he⟩ | ⟨o2, hr, r, he, hc⟩⟩⟩ <;>
    rw [he]

theorem step_future (s : Sim K) (op : Op K) (h : s.excludeFuture = true) : (step s op).excludeFuture = true := by
  cases op with
  | add a => exact (addStrategy_future s a).trans h
  | single tkn amt ps pe pm yint pair oid lid => unfold step; dsimp only; rw [addReplaceSingle_excluded s h]; exact h
  | delete k => exact (deleteOrder_future s k).1.trans h
  | buys a => exact (ammBuys_frame s a).future.trans h
  | sells a => exact (ammSells_frame s a).future.trans h

theorem step_ids {s : Sim K} (hf : s.excludeFuture = true) (h : Ids s) (op : Op K) :
    Ids (step s op) ∧ s.nextId ≤ (step s op).nextId ∧ ∀ k ∈ ids (step s op), k ∈ ids s ∨ s.nextId ≤ k := by
  have fr : ∀ s', Frame s s' → Ids s' ∧ s.nextId ≤ s'.nextId ∧ ∀ k ∈ ids s', k ∈ ids s ∨ s.nextId ≤ k := by
    intro s' f
    refine ⟨h.of_frame f, f.nextId.ge, fun k hk => Or.inl ?_⟩
    have : ids s' = ids s := f.keys
    rwa [this] at hk
  cases op with
  | add a => exact addStrategy_ids h a
  | single tkn amt ps pe pm yint pair oid lid =>
    unfold step; dsimp only; rw [addReplaceSingle_excluded s hf]; exact fr s (Frame.refl s)
  | buys a => exact fr _ (ammBuys_frame s a)
  | sells a => exact fr _ (ammSells_frame s a)
  | delete k =>
    refine ⟨?_, (deleteOrder_future s k).2.ge, fun j hj => Or.inl ?_⟩
    · unfold step; dsimp only
      rcases deleteOrder_cases s k with ⟨_, e⟩ | ⟨o, _, ⟨_, e⟩ | ⟨_, _, _, e⟩ | ⟨_, _, _, e⟩⟩ <;> rw [e]
      · exact h
      · exact h.del k
      · exact h.del k
      · exact (h.del k).del o.linked
    · have key : ∀ j ∈ ids (s.deleteOrder k).2, j ∈ ids s := by
        intro j hj
        rcases deleteOrder_cases s k with ⟨_, e⟩ | ⟨o, _, ⟨_, e⟩ | ⟨_, _, _, e⟩ | ⟨_, _, _, e⟩⟩ <;> rw [e] at hj
        · exact hj
        · have : j ∈ (Dict.del s.orders k).map Prod.fst := hj
          rw [Dict.del_keys] at this
          exact (List.mem_filter.mp this).1
        · have : j ∈ (Dict.del s.orders k).map Prod.fst := hj
          rw [Dict.del_keys] at this
          exact (List.mem_filter.mp this).1
        · have : j ∈ (Dict.del (Dict.del s.orders k) o.linked).map Prod.fst := hj
          rw [Dict.del_keys, Dict.del_keys] at this
          exact (List.mem_filter.mp (List.mem_filter.mp this).1).1
      exact key j hj

theorem new_ids {pair : CarbonPair.Arg} {roe : Bool} {m : Method} {x : Bool} {s : Sim K} (h : new pair roe m x = .ok s) :
    Ids s ∧ s.excludeFuture = x ∧ s.orders = [] ∧ s.nextId = 0 := by
  unfold new at h
  rw [Py.bind_eq_ok] at h
  obtain ⟨p, _, h⟩ := h
  cases h
  exact ⟨⟨List.nodup_nil, by simp, by simp [ids]⟩, rfl, rfl, rfl⟩

theorem run_ids {s : Sim K} (hf : s.excludeFuture = true) (h : Ids s) (ops : List (Op K)) :
    Ids (run s ops) ∧ (run s ops).excludeFuture = true ∧ (allNewIds s ops).Nodup ∧
      ∀ k ∈ allNewIds s ops, s.nextId ≤ k := by
  induction ops generalizing s with
  | nil => exact ⟨h, hf, List.nodup_nil, by simp [allNewIds]⟩
  | cons op ops ih =>
    obtain ⟨h1, h2, h3⟩ := step_ids hf h op
    obtain ⟨i1, i2, i3, i4⟩ := ih (step_future s op hf) h1
    refine ⟨i1, i2, ?_, ?_⟩
    · unfold allNewIds
      rw [List.nodup_append]
      refine ⟨h1.nodup.filter _, i3, ?_⟩
      rintro a ha b hb rfl
      have := h1.lt a (List.mem_filter.mp ha).1
      exact absurd (i4 a hb) (not_le.mpr this)
    · intro k hk
      rcases List.mem_append.mp hk with hk | hk
      · obtain ⟨m1, m2⟩ := List.mem_filter.mp hk
        simp only [decide_not, Bool.not_eq_eq_eq_not, Bool.not_true, decide_eq_false_iff_not] at m2
        exact (h3 k m1).resolve_left m2
      · exact le_trans h2 (i4 k hk)

/-- **C28** For every history of operations on a new simulator (with future features excluded, the default): every order
is stored under its own id, and no id appears in the book twice, be it at the same time or one after the other. -/
theorem C28_unique_ids (pair : CarbonPair.Arg) (roe : Bool) (m : Method) (s : Sim K) (h : new pair roe m = .ok s)
    (ops : List (Op K)) :
    (∀ k o, (k, o) ∈ (run s ops).orders → o.id = k) ∧ ((run s ops).orders.map Prod.fst).Nodup ∧
      (allNewIds s ops).Nodup := by
  obtain ⟨h1, h2, _⟩ := new_ids h
  obtain ⟨i1, _, i3, _⟩ := run_ids h2 h1 ops
  exact ⟨i1.own, i1.nodup, i3⟩

/-- **C28** The ids returned by a successful call are new: they differ, and neither was in the book at any earlier time
of the history. -/
theorem C28_fresh (pair : CarbonPair.Arg) (roe : Bool) (m : Method) (s : Sim K) (h : new pair roe m = .ok s)
    (before after : List (Op K)) (a : StrategyArgs K) (i j : Nat)
    (ha : ((run s (before ++ after)).addStrategy a).1 = .ok (i, j)) :
    i ≠ j ∧ i ∉ ids (run s before) ∧ j ∉ ids (run s before) := by
  obtain ⟨h1, h2, _⟩ := new_ids h
  obtain ⟨b1, b2, _⟩ := run_ids h2 h1 before
  have hmono : ∀ (ops : List (Op K)) (t : Sim K), t.excludeFuture = true → Ids t → t.nextId ≤ (run t ops).nextId := by
    intro ops
    induction ops with
    | nil => intro t _ _; exact le_rfl
    | cons op ops ih =>
      intro t hf hi
      obtain ⟨c1, c2, _⟩ := step_ids hf hi op
      exact le_trans c2 (ih _ (step_future t op hf) c1)
  have hrun : run s (before ++ after) = run (run s before) after := by unfold run; rw [List.foldl_append]
  rw [hrun] at ha
  have hle := hmono after _ b2 b1
  have hij : i = (run (run s before) after).nextId ∧ j = (run (run s before) after).nextId + 1 := by
    set t := run (run s before) after
    rcases addStrategy_cases t a with ⟨e, he⟩ | ⟨p, tkn2, hp, ht, ⟨e, he⟩ | ⟨o1, r2, hs, ⟨e, he⟩ | ⟨o2, hr, r, he, hc⟩⟩⟩ <;>
      rw [he] at ha
    · cases ha
    · cases ha
    · cases ha
    · rcases hc with ⟨e, hc⟩ | hc
      · rw [hc] at ha; cases ha
      · rw [hc] at ha
        simp only [Except.ok.injEq, Prod.mk.injEq] at ha
        exact ⟨ha.1.symm, ha.2.symm⟩
  obtain ⟨rfl, rfl⟩ := hij
  exact ⟨by omega, fun hm => absurd (b1.lt _ hm) (by omega), fun hm => absurd (b1.lt _ hm) (by omega)⟩

/-! ## Links -/

/-- Every order's link leads to another order, on the same pair, that sells the other token and links back. -/
def Links (s : Sim K) : Prop :=
  ∀ k o, Dict.get s.orders k = some o → o.linked ≠ k ∧ ∃ l, Dict.get s.orders o.linked = some l ∧ l.linked = k ∧
    l.pair = o.pair ∧ o.pair.other o.tkn = some l.tkn ∧ l.pair.other l.tkn = some o.tkn

theorem Links.of_frame {s s' : Sim K} (h : Links s) (f : Frame s s') : Links s' := by
  intro k o ho
  have h1 := f.get k
  rw [ho] at h1
  cases e : Dict.get s.orders k with
  | none => rw [e] at h1; cases h1
  | some o' =>
    rw [e] at h1
    simp only [Option.map_some, Option.some.injEq] at h1
    obtain ⟨n, l', hl, a1, a2, a3, a4⟩ := h k o' e
    have el : o.linked = o'.linked := congrArg Label.linked h1
    have et : o.tkn = o'.tkn := congrArg Label.tkn h1
    have ep : o.pair = o'.pair := congrArg Label.pair h1
    have h2 := f.get o'.linked
    rw [hl] at h2
    cases e2 : Dict.get s'.orders o'.linked with
    | none => rw [e2] at h2; cases h2
    | some l =>
      rw [e2] at h2
      simp only [Option.map_some, Option.some.injEq] at h2
      have fl : l.linked = l'.linked := congrArg Label.linked h2
      have ft : l.tkn = l'.tkn := congrArg Label.tkn h2
      have fp : l.pair = l'.pair := congrArg Label.pair h2
      refine ⟨by rw [el]; exact n, l, by rw [el]; exact e2, by rw [fl, a1], by rw [fp, a2, ep], ?_, ?_⟩
      · rw [ep, et, a3, ft]
      · rw [fp, ft, a4, et]

theorem other_other {p : CarbonPair} {t t2 : Str} (h : p.other t = some t2) : p.other t2 = some t := by
  unfold CarbonPair.other CarbonPair.hasBase CarbonPair.hasQuote at *
  split_ifs at h with h1 h2
  · simp only [decide_eq_true_eq] at h1
    cases h
    by_cases hq : p.tknq = p.tknb
    · rw [if_pos (by simpa using hq), hq, h1]
    · rw [if_neg (by simpa using hq), if_pos (by simp), h1]
  · simp only [decide_eq_true_eq] at h1 h2
    cases h
    rw [if_pos (by simp), h2]

/-- What histories are considered for the links: additions that succeed or leave the book as it is, trades of any kind
and with any outcome, and deletions except of the order linked to order 0. -/
def Orderly (s : Sim K) : Op K → Prop
  | .add a => (∃ r, (s.addStrategy a).1 = .ok r) ∨ (s.addStrategy a).2.orders = s.orders
  | .delete k => ∀ o, Dict.get s.orders k = some o → o.linked ≠ 0
  | _ => True

/-- All operations of a history are orderly when they happen. -/
def AllOrderly : Sim K → List (Op K) → Prop
  | _, [] => True
  | s, op :: ops => Orderly s op ∧ AllOrderly (step s op) ops

theorem addStrategy_links {s : Sim K} (hi : Ids s) (h : Links s) (a : StrategyArgs K)
    (ho : (∃ r, (s.addStrategy a).1 = .ok r) ∨ (s.addStrategy a).2.orders = s.orders) : Links (s.addStrategy a).2 := by
  have key : (s.addStrategy a).2.orders = s.orders → Links (s.addStrategy a).2 := by
    intro e k o hk
    rw [e] at hk ⊢
    exact h k o hk
  rcases ho with ⟨r, hr⟩ | ho
  swap
  · exact key ho
  rcases addStrategy_orders hi a with he | ⟨l, he, hc⟩
  · exact key (by rw [he])
  rcases hc with ⟨-, e, hc⟩ | ⟨p, tkn2, o1, hp, ht, i1, l1, t1, p1, -, hc⟩
  · rw [hc] at hr; cases hr
  rcases hc with ⟨-, e, hc⟩ | ⟨o2, i2, l2, t2, p2, -, rfl, -⟩
  · rw [hc] at hr; cases hr
  rw [he]
  have n1 : s.nextId ∉ s.orders.map Prod.fst := hi.not_mem le_rfl
  have n2 : s.nextId + 1 ∉ (s.orders ++ [(s.nextId, o1)]).map Prod.fst := by
    rw [List.map_append, List.mem_append, not_or]
    exact ⟨hi.not_mem (Nat.le_succ _), by simp⟩
  have e2 : s.orders ++ [(s.nextId, o1), (s.nextId + 1, o2)] =
      Dict.set (Dict.set s.orders s.nextId o1) (s.nextId + 1) o2 := by
    rw [Dict.set_of_not_mem _ n1, Dict.set_of_not_mem _ n2, List.append_assoc]; rfl
  have hget : ∀ k, Dict.get (s.orders ++ [(s.nextId, o1), (s.nextId + 1, o2)]) k =
      if k = s.nextId + 1 then some o2 else if k = s.nextId then some o1 else Dict.get s.orders k := by
    intro k; rw [e2, Dict.get_set, Dict.get_set]
  intro k o hk
  have hk' : Dict.get (s.orders ++ [(s.nextId, o1), (s.nextId + 1, o2)]) k = some o := hk
  show o.linked ≠ k ∧ ∃ l, Dict.get (s.orders ++ [(s.nextId, o1), (s.nextId + 1, o2)]) o.linked = some l ∧ _
  rw [hget] at hk'
  have hoth := other_other ht
  split_ifs at hk' with c1 c2
  · cases hk'
    refine ⟨by rw [l2]; omega, o1, ?_, by rw [l1, c1], by rw [p1, p2], ?_, ?_⟩
    · rw [hget, l2, if_neg (by omega), if_pos rfl]
    · rw [p2, t2, t1, hoth]
    · rw [p1, t1, t2, ht]
  · cases hk'
    refine ⟨by rw [l1]; omega, o2, ?_, by rw [l2, c2], by rw [p1, p2], ?_, ?_⟩
    · rw [hget, l1, if_pos rfl]
    · rw [p1, t1, t2, ht]
    · rw [p2, t2, t1, hoth]
  · obtain ⟨n, l, hl, b1, b2, b3, b4⟩ := h k o hk'
    refine ⟨n, l, ?_, b1, b2, b3, b4⟩
    have hlt : o.linked < s.nextId := hi.lt _ (Dict.mem_keys_iff.mpr ⟨l, hl⟩)
    rw [hget, if_neg (by omega), if_neg (by omega), hl]

theorem deleteOrder_links {s : Sim K} (h : Links s) (k : Nat)
    (ho : ∀ o, Dict.get s.orders k = some o → o.linked ≠ 0) : Links (s.deleteOrder k).2 := by
  rcases deleteOrder_cases s k with ⟨_, e⟩ | ⟨o, hk, ⟨hl, e⟩ | ⟨_, _, hl, e⟩ | ⟨hne, _, ⟨l, hl⟩, e⟩⟩ <;> rw [e]
  · exact h
  · rcases hl with hl | hl
    · exact absurd hl (h k o hk).1
    · exact absurd hl (ho o hk)
  · obtain ⟨_, l, hl', _⟩ := h k o hk
    rw [hl] at hl'; cases hl'
  · obtain ⟨_, l', hl', c1, _⟩ := h k o hk
    rw [hl] at hl'
    cases hl'
    intro j q hj
    have hj' : Dict.get (Dict.del (Dict.del s.orders k) o.linked) j = some q := hj
    rw [Dict.get_del, Dict.get_del] at hj'
    split_ifs at hj' with d1 d2
    obtain ⟨n, m, hm, b1, b2, b3, b4⟩ := h j q hj'
    refine ⟨n, m, ?_, b1, b2, b3, b4⟩
    show Dict.get (Dict.del (Dict.del s.orders k) o.linked) q.linked = some m
    rw [Dict.get_del, Dict.get_del, if_neg, if_neg, hm]
    · intro e1
      rw [e1, hk] at hm
      cases hm
      exact d1 b1.symm
    · intro e1
      rw [e1, hl] at hm
      cases hm
      exact d2 (b1.symm.trans c1)

theorem step_links {s : Sim K} (hf : s.excludeFuture = true) (hi : Ids s) (h : Links s) (op : Op K)
    (ho : Orderly s op) : Links (step s op) := by
  cases op with
  | add a => exact addStrategy_links hi h a ho
  | single tkn amt ps pe pm yint pair oid lid => unfold step; dsimp only; rw [addReplaceSingle_excluded s hf]; exact h
  | delete k => exact deleteOrder_links h k ho
  | buys a => exact h.of_frame (ammBuys_frame s a)
  | sells a => exact h.of_frame (ammSells_frame s a)

theorem run_links {s : Sim K} (hf : s.excludeFuture = true) (hi : Ids s) (h : Links s) (ops : List (Op K))
    (ho : AllOrderly s ops) : Links (run s ops) := by
  induction ops generalizing s with
  | nil => exact h
  | cons op ops ih =>
    exact ih (step_future s op hf) (step_ids hf hi op).1 (step_links hf hi h op ho.1) ho.2

/-- **C29** After every history of successful additions, trades with any outcome and orderly deletions, every order's
link leads to another existing order on the same pair, selling the other token, that links back. -/
theorem C29_links (pair : CarbonPair.Arg) (roe : Bool) (m : Method) (s : Sim K) (h : new pair roe m = .ok s)
    (ops : List (Op K)) (ho : AllOrderly s ops) (k : Nat) (o : SOrder K)
    (hk : Dict.get (run s ops).orders k = some o) :
    o.linked ≠ k ∧ ∃ l, Dict.get (run s ops).orders o.linked = some l ∧ l.linked = k ∧ l.pair = o.pair ∧
      o.pair.other o.tkn = some l.tkn ∧ l.pair.other l.tkn = some o.tkn := by
  obtain ⟨h1, h2, h3, _⟩ := new_ids h
  refine run_links h2 h1 ?_ ops ho k o hk
  intro k o hk
  rw [h3] at hk
  cases hk

/-! ## Deleting -/

/-- **C30** Deleting an id that is not in the book changes nothing. -/
theorem C30_missing (s : Sim K) (k : Nat) (h : k ∉ ids s) : s.deleteOrder k = (.ok [], s) := by
  rcases deleteOrder_cases s k with ⟨_, e⟩ | ⟨o, hk, _⟩
  · exact e
  · exact absurd (Dict.mem_keys_iff.mpr ⟨o, hk⟩) h

/-- **C30** After every orderly history, deleting an order whose link is not order 0 removes exactly this order and the
one linked to it, reports these two, and leaves all other orders as and where they were. Missing: the order linked to
order 0, see `C30_violated`. -/
theorem C30_delete_partial (pair : CarbonPair.Arg) (roe : Bool) (m : Method) (s : Sim K) (h : new pair roe m = .ok s)
    (ops : List (Op K)) (ho : AllOrderly s ops) (k : Nat) (o : SOrder K)
    (hk : Dict.get (run s ops).orders k = some o) (h0 : o.linked ≠ 0) :
    ((run s ops).deleteOrder k).1 = .ok [k, o.linked] ∧
    ((run s ops).deleteOrder k).2.orders = (run s ops).orders.filter (fun e => e.1 ≠ k ∧ e.1 ≠ o.linked) ∧
    o.linked ∈ ids (run s ops) := by
  obtain ⟨hne, l, hl, _⟩ := C29_links pair roe m s h ops ho k o hk
  rcases deleteOrder_cases (run s ops) k with ⟨e, _⟩ | ⟨o', hk', ⟨hl', e⟩ | ⟨_, _, hl', e⟩ | ⟨_, _, _, e⟩⟩
  · rw [hk] at e; cases e
  · rw [hk] at hk'; cases hk'
    rcases hl' with hl' | hl'
    · exact absurd hl' hne
    · exact absurd hl' h0
  · rw [hk] at hk'; cases hk'
    rw [hl] at hl'; cases hl'
  · rw [hk] at hk'; cases hk'
    rw [e]
    refine ⟨rfl, ?_, Dict.mem_keys_iff.mpr ⟨l, hl⟩⟩
    show Dict.del (Dict.del (run s ops).orders k) o.linked = _
    unfold Dict.del
    rw [List.filter_filter]
    apply List.filter_congr
    intro e _
    simp only [ne_eq, decide_not, Bool.decide_and]
    rw [Bool.and_comm]

/-- **C30** does not hold for the second order of the first strategy: its link, order 0, is taken for no link. In every
simulator that still holds order 0, deleting the order linked to it reports and removes only that order; order 0 stays in
the book with a link that leads nowhere, and the state can no longer be read. -/
theorem C30_violated (s : Sim K) (hi : Ids s) (k : Nat) (o o0 : SOrder K) (hk : Dict.get s.orders k = some o)
    (h0 : o.linked = 0) (hk0 : k ≠ 0) (ho0 : Dict.get s.orders 0 = some o0) (hl : o0.linked = k) :
    (s.deleteOrder k).1 = .ok [k] ∧ Dict.get (s.deleteOrder k).2.orders 0 = some o0 ∧
      Dict.get (s.deleteOrder k).2.orders o0.linked = none ∧ ∀ r, (s.deleteOrder k).2.state none ≠ .ok r := by
  rcases deleteOrder_cases s k with ⟨e, _⟩ | ⟨o', hk', ⟨hl', e⟩ | ⟨_, hl', _⟩ | ⟨_, hl', _⟩⟩
  · rw [hk] at e; cases e
  swap
  · rw [hk] at hk'; cases hk'; exact absurd h0 hl'
  swap
  · rw [hk] at hk'; cases hk'; exact absurd h0 hl'
  rw [e]
  have g0 : Dict.get (Dict.del s.orders k) 0 = some o0 := by rw [Dict.get_del, if_neg (Ne.symm hk0), ho0]
  refine ⟨rfl, g0, ?_, ?_⟩
  · show Dict.get (Dict.del s.orders k) o0.linked = none
    rw [Dict.get_del, if_pos hl]
  · intro r hr
    unfold state at hr
    dsimp only at hr
    have hne : Dict.del s.orders k ≠ [] := by
      intro e0; rw [e0] at g0; cases g0
    rw [if_neg hne] at hr
    have hfil : ((Dict.del s.orders k).map Prod.snd).filter (fun _ => true) = (Dict.del s.orders k).map Prod.snd := by
      simp
    rw [hfil] at hr
    split_ifs at hr with c1 c2
    swap
    · rw [Py.bind_eq_ok] at hr
      obtain ⟨_, _, hr⟩ := hr
      cases hr
    have hm : o0 ∈ (Dict.del s.orders k).map Prod.snd := List.mem_map_of_mem (f := Prod.snd) (Dict.mem_of_get g0)
    have := List.all_eq_true.mp c2 o0 hm
    obtain ⟨l, lm, le⟩ := List.any_eq_true.mp this
    obtain ⟨⟨j, l'⟩, jm, rfl⟩ := List.mem_map.mp lm
    simp only [beq_iff_eq] at le
    have hj := List.mem_filter.mp jm
    have hown := hi.own j l' hj.1
    have : j ≠ k := by simpa using hj.2
    exact this (by rw [← hown, le, hl])

/-! ## Adding -/

/-- **C31** A call of `add_strategy` that reports success has added exactly two orders at the end of the book, linked to
each other, on the requested pair, selling the token and the other token, and nothing else has changed. -/
theorem C31_success (s : Sim K) (hi : Ids s) (a : StrategyArgs K) (i j : Nat)
    (h : (s.addStrategy a).1 = .ok (i, j)) :
    i ≠ j ∧ i ∉ ids s ∧ j ∉ ids s ∧ ∃ p tkn2 o1 o2, s.getPair a.pair = .ok p ∧ p.other a.tkn = some tkn2 ∧
      (s.addStrategy a).2.orders = s.orders ++ [(i, o1), (j, o2)] ∧ o1.id = i ∧ o1.linked = j ∧ o2.id = j ∧
      o2.linked = i ∧ o1.tkn = a.tkn ∧ o2.tkn = tkn2 ∧ o1.pair = p ∧ o2.pair = p ∧
      o1.curve.y = a.amtSell.getD 0 ∧ o2.curve.y = a.amtBuy.getD 0 := by
  have amount : ∀ {pair : CarbonPair} {tkn : Str} {amt plo phi : Option K} {id linked : Nat} {pmarg yint : Option K}
      {o : SOrder K}, sellOrder pair tkn amt plo phi id linked pmarg yint = .ok o → o.curve.y = amt.getD 0 := by
    intro pair tkn amt plo phi id linked pmarg yint o h
    have cy : ∀ {a : CurveArgs K} {c : Curve K} {y : K}, a.y = some y → Curve.init a = .ok c → c.y = y := by
      intro a c y hy hc
      unfold Curve.init at hc
      rw [Py.bind_eq_ok] at hc
      obtain ⟨sh, _, hc⟩ := hc
      rw [hy] at hc
      dsimp only at hc
      rw [Py.bind_eq_ok] at hc
      obtain ⟨z, _, hc⟩ := hc
      cases hc
      rfl
    have by' : ∀ {lo hi : K} {d : Bool}, buildOrder pair tkn (amt.getD 0) lo hi d id linked pmarg yint = .ok o →
        o.curve.y = amt.getD 0 := by
      intro lo hi d h
      unfold buildOrder at h
      rw [Py.bind_eq_ok] at h
      obtain ⟨c, hc, h⟩ := h
      cases h
      show c.y = _
      unfold buildCurve at hc
      split at hc
      · exact cy rfl hc
      · split_ifs at hc; exact cy rfl hc
      · exact cy rfl hc
    unfold sellOrder at h
    split_ifs at h
    split at h
    · exact by' h
    · split_ifs at h <;> exact by' h
    · cases h
  rcases addStrategy_cases s a with ⟨e, he⟩ | ⟨p, tkn2, hp, ht, ⟨e, he⟩ | ⟨o1, r2, hs, ⟨e, he⟩ | ⟨o2, hr, r, he, hc⟩⟩⟩ <;>
    rw [he] at h
  · cases h
  · cases h
  · cases h
  rcases hc with ⟨e, hc⟩ | hc
  · rw [hc] at h; cases h
  rw [hc] at h
  simp only [Except.ok.injEq, Prod.mk.injEq] at h
  obtain ⟨rfl, rfl⟩ := h
  obtain ⟨sm, ss, se, bs, be, bm, -, -, -, -, -, -, h1, h2⟩ := strategyOrders_ok hs
  rw [hr] at h2
  obtain ⟨t1, t2, t3, t4, t5, t6⟩ := sellOrder_label h1
  obtain ⟨u1, u2, u3, u4, u5, u6⟩ := sellOrder_label h2.symm
  have n1 : s.nextId ∉ s.orders.map Prod.fst := hi.not_mem le_rfl
  have n2 : s.nextId + 1 ∉ (s.orders ++ [(s.nextId, o1)]).map Prod.fst := by
    rw [List.map_append, List.mem_append, not_or]
    exact ⟨hi.not_mem (Nat.le_succ _), by simp⟩
  refine ⟨by omega, n1, hi.not_mem (Nat.le_succ _), p, tkn2, o1, o2, hp, ht, ?_, t5, t6, u5, u6, t1, u1, t2, u2,
    amount h1, amount h2.symm⟩
  rw [he]
  show Dict.set (Dict.set s.orders s.nextId o1) (s.nextId + 1) o2 = _
  rw [Dict.set_of_not_mem _ n1, Dict.set_of_not_mem _ n2, List.append_assoc]; rfl

/-- **C31** A call, whatever it reports, never removes or changes an order: it appends none, one or two orders. None
are appended if the pair or the token is invalid, a price cannot be converted, or the sell order is invalid. Missing: the
other failures, see `C31_violated`. -/
theorem C31_failure_partial (s : Sim K) (hi : Ids s) (a : StrategyArgs K) :
    (∃ l, (s.addStrategy a).2.orders = s.orders ++ l ∧ l.length ≤ 2) ∧
    ((∀ p tkn2, s.getPair a.pair = .ok p → p.other a.tkn = some tkn2 →
        ∃ e', strategyOrders p tkn2 s.nextId (s.nextId + 1) a = .error e') →
      (s.addStrategy a).2.orders = s.orders) := by
  constructor
  · rcases addStrategy_orders hi a with he | ⟨l, he, hc⟩
    · exact ⟨[], by rw [he, List.append_nil], by simp⟩
    · refine ⟨l, by rw [he], ?_⟩
      rcases hc with ⟨rfl, -⟩ | ⟨p, tkn2, o1, -, -, -, -, -, -, -, hc⟩
      · simp
      · rcases hc with ⟨rfl, -⟩ | ⟨o2, -, -, -, -, -, rfl, -⟩ <;> simp
  · intro hno
    rcases addStrategy_cases s a with ⟨e, he⟩ | ⟨p, tkn2, hp, ht, ⟨e, he⟩ | ⟨o1, r2, hs, _⟩⟩
    · rw [he]
    · rw [he]
    · obtain ⟨e', he'⟩ := hno p tkn2 hp ht
      rw [hs] at he'; cases he'

/-! ## Examples -/

/-- `CarbonPair("ETH/USDC")`. -/
def ethusdc : CarbonPair := ⟨"ETH".toList, "USDC".toList, "ETH".toList, "USDC".toList, false, none, none⟩

/-- A simulator of `ETH/USDC`. -/
def sim0 (m : Method) (roe : Bool := false) : Sim ℚ := ⟨0, [], [], 0, some ethusdc, roe, m, true⟩

example : new (K := ℚ) (.str "ETH/USDC".toList) false .exact = .ok (sim0 .exact) := by rfl

/-- Sells 10 ETH between 4 and 9 USDC, buys with 10 USDC between 1 and 1/4. -/
def strat : StrategyArgs ℚ :=
  { tkn := "ETH".toList, amtSell := some 10, psellStart := some 4, psellEnd := some 9, amtBuy := some 10,
    pbuyStart := some 1, pbuyEnd := some (1 / 4) }

/-- The sell side is complete, the buy side lacks a price. -/
def halfStrat : StrategyArgs ℚ := { strat with pbuyEnd := none }

/-- A sell side with equal prices and another marginal price. -/
def flatStrat : StrategyArgs ℚ := { strat with psellEnd := some 4, psellMarginal := some 1 }

example : ((sim0 .exact).addStrategy strat).1 = .ok (0, 1) := by decide +kernel

/-- A history with two strategies, a trade, a deletion and a new strategy, for C28 and C29. -/
def hist : List (Op ℚ) := [.add strat, .add strat, .sells { tkn := "ETH".toList, amt := 2 }, .delete 2, .add strat]

example : allNewIds (sim0 .fast) hist = [0, 1, 2, 3, 4, 5] ∧ ids (run (sim0 .fast) hist) = [0, 1, 4, 5] ∧
    ((run (sim0 .fast) hist).orders.map fun e => e.2.linked) = [1, 0, 5, 4] ∧
    ((run (sim0 .fast) hist).orders.map fun e => decide (e.2.curve.y = 10)) = [false, false, true, true] := by
  decide +kernel

/-- **C30** violated on a concrete history: one strategy, then order 1 is deleted. -/
theorem C30_first_strategy_violated :
    ((run (sim0 .exact) [.add strat]).deleteOrder 1).1 = .ok [1] ∧
      ids ((run (sim0 .exact) [.add strat]).deleteOrder 1).2 = [0] := by decide +kernel

/-- **C31** does not hold: with an incomplete buy side the call fails and leaves the sell order in the book, linked to an
order that does not exist; with an inconsistent marginal price it fails and leaves both. -/
theorem C31_violated :
    ((sim0 .exact).addStrategy halfStrat).1 = .error .value ∧ ids ((sim0 .exact).addStrategy halfStrat).2 = [0] ∧
    (((sim0 .exact).addStrategy halfStrat).2.orders.map fun e => e.2.linked) = [1] ∧
    ((sim0 .exact).addStrategy flatStrat).1 = .error (.custom "NameError") ∧
    ids ((sim0 .exact).addStrategy flatStrat).2 = [0, 1] := by decide +kernel

end Carbon.Sim
