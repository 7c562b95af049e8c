import Verif.Prop.AddingOrder

/-! C179: a strategy that is added and deleted again leaves no trace except for the numbers it has used up. -/

set_option linter.unusedSectionVars false

namespace Carbon.Sim

variable {K : Type} [Field K] [LinearOrder K] [IsStrictOrderedRing K] [PySqrt K]

/-- The simulator, numbering new orders from elsewhere. -/
def renumber (n : Nat) (s : Sim K) : Sim K := { s with nextId := n }

theorem execRoute_renumber (swap : Bool) (s : Sim K) (n k : Nat) (a : Action K) :
    execRoute swap (renumber n s) k a = Prod.map id (renumber n) (execRoute swap s k a) := by
  unfold execRoute
  show (match Dict.get s.orders k with
    | none => _
    | some o => _) = _
  cases Dict.get s.orders k with
  | none => rfl
  | some o =>
    dsimp only
    by_cases h : o.linked = k
    · rw [if_pos h, if_pos h]; rfl
    · rw [if_neg h, if_neg h]
      show (match Dict.get (Dict.set s.orders k (debit o (sold swap a.input a.output))) o.linked with
        | none => _
        | some l => _) = _
      cases Dict.get (Dict.set s.orders k (debit o (sold swap a.input a.output))) o.linked <;> rfl

theorem runRoutes_renumber (p : CarbonPair) (tkn : Str) (swap : Bool) (pl : Plan K) (n : Nat) (acts : List (Action K)) :
    ∀ (s : Sim K) (ct : Nat), runRoutes p tkn swap pl (renumber n s) ct acts = Prod.map id (renumber n) (runRoutes p tkn swap pl s ct acts) := by
  induction acts with
  | nil => exact fun s ct => rfl
  | cons a acts ih =>
    intro s ct
    unfold runRoutes
    cases pl.ids[a.index]? with
    | none => rfl
    | some k =>
      dsimp only
      have e : (if pl.exec then execRoute swap (renumber n s) k a else (.ok (), renumber n s)) =
          Prod.map id (renumber n) (if pl.exec then execRoute swap s k a else (.ok (), s)) := by
        split_ifs
        · exact execRoute_renumber swap s n k a
        · rfl
      rw [e]
      rcases (if pl.exec then execRoute swap s k a else (.ok (), s)) with ⟨r, s1⟩
      cases r with
      | error e => rfl
      | ok _ =>
        simp only [Prod.map_apply, id_eq]
        cases logPrice swap pl.price with
        | error e => rfl
        | ok price => exact ih { s1 with trades := Dict.set s1.trades (s1.numtrades, some ct) _ } (ct + 1)

theorem trade_renumber (s : Sim K) (n : Nat) (p : CarbonPair) (tkn : Str) (amt : K) (byTarget : Bool) (a : TradeArgs K) :
    (renumber n s).trade p tkn amt byTarget a = Prod.map id (renumber n) (s.trade p tkn amt byTarget a) := by
  unfold trade
  rw [show (renumber n s).plan p tkn amt byTarget a = s.plan p tkn amt byTarget a from rfl, show (renumber n s).method = s.method from rfl]
  cases s.plan p tkn amt byTarget a with
  | error e => rfl
  | ok pl =>
    dsimp only
    rw [runRoutes_renumber]
    rcases runRoutes p tkn (byTarget && decide (s.method = .fast)) pl s 0 pl.routes with ⟨r, s1⟩
    cases r with
    | error e => rfl
    | ok _ =>
      simp only [Prod.map_apply, id_eq]
      cases logPrice (byTarget && decide (s.method = .fast)) pl.price <;> rfl

theorem call_renumber (s : Sim K) (n : Nat) (buys : Bool) (a : TradeArgs K) :
    (renumber n s).call buys a = Prod.map id (renumber n) (s.call buys a) := by
  have e1 : ∀ x, (renumber n s).getPair x = s.getPair x := fun _ => rfl
  have e2 : ∀ t p, (renumber n s).positionValid t p = s.positionValid t p := fun _ _ => rfl
  have hb : ∀ a, (renumber n s).buysPos a = Prod.map id (renumber n) (s.buysPos a) := by
    intro a
    unfold buysPos
    simp only [e1, e2]
    cases s.getPair a.pair with
    | error e => rfl
    | ok p =>
      simp only [Py.ok_bind]
      cases s.positionValid (p.other a.tkn) p with
      | error e => rfl
      | ok _ =>
        simp only [Py.ok_bind]
        cases p.other a.tkn with
        | none => rfl
        | some t => exact trade_renumber ..
  have hs : ∀ a, (renumber n s).sellsPos a = Prod.map id (renumber n) (s.sellsPos a) := by
    intro a
    unfold sellsPos
    simp only [e1, e2]
    cases s.getPair a.pair with
    | error e => rfl
    | ok p =>
      simp only [Py.ok_bind]
      cases s.positionValid (some a.tkn) p with
      | error e => rfl
      | ok _ => exact trade_renumber ..
  unfold call ammBuys ammSells
  split_ifs
  · exact hs _
  · exact hb _
  · exact hb _
  · exact hs _

/-- What a simulator replies to a sequence of calls of `amm_buys` (`true`) and `amm_sells`, and the simulator afterwards. -/
def replies : Sim K → List (Bool × TradeArgs K) → List (Py (List (TradeRec K))) × Sim K
  | s, [] => ([], s)
  | s, c :: cs => ((s.call c.1 c.2).1 :: (replies (s.call c.1 c.2).2 cs).1, (replies (s.call c.1 c.2).2 cs).2)

theorem replies_renumber (n : Nat) (cs : List (Bool × TradeArgs K)) :
    ∀ s : Sim K, replies (renumber n s) cs = Prod.map id (renumber n) (replies s cs) := by
  induction cs with
  | nil => exact fun s => rfl
  | cons c cs ih =>
    intro s
    unfold replies
    rw [call_renumber]
    simp only [Prod.map_apply, id_eq, Prod.map_fst, Prod.map_snd]
    rw [ih]
    rfl

theorem del_absent {d : List (Nat × SOrder K)} {k : Nat} (h : k ∉ d.map Prod.fst) : Dict.del d k = d := by
  unfold Dict.del
  rw [List.filter_eq_self]
  intro e he
  rw [decide_eq_true_iff]
  rintro rfl
  exact h (List.mem_map_of_mem he)

theorem get_absent {d e : List (Nat × SOrder K)} {k : Nat} (h : k ∉ d.map Prod.fst) : Dict.get (d ++ e) k = Dict.get e k := by
  unfold Dict.get
  rw [List.find?_append, List.find?_eq_none.mpr, Option.none_or]
  intro p hp
  rw [beq_iff_eq]
  rintro rfl
  exact h (List.mem_map_of_mem hp)

theorem del_append (d e : List (Nat × SOrder K)) (k : Nat) : Dict.del (d ++ e) k = Dict.del d k ++ Dict.del e k := List.filter_append ..

theorem deleted {s : Sim K} (hi : Ids s) {a : StrategyArgs K} (hacc : ∃ r, (s.addStrategy a).1 = .ok r) {k : Nat}
    (hk : k = s.nextId ∨ k = s.nextId + 1 ∧ s.nextId ≠ 0) :
    ((s.addStrategy a).2.deleteOrder k).1 = .ok (if k = s.nextId then [s.nextId, s.nextId + 1] else [s.nextId + 1, s.nextId]) ∧
      ((s.addStrategy a).2.deleteOrder k).2 = renumber (s.nextId + 2) s := by
  obtain ⟨o1, o2, h⟩ := accepted_adds hacc
  rw [h s hi rfl]
  have n1 : s.nextId ∉ s.orders.map Prod.fst := fun hm => lt_irrefl _ (hi.lt _ hm)
  have n2 : s.nextId + 1 ∉ s.orders.map Prod.fst := fun hm => by have := hi.lt _ hm; omega
  rcases hk with rfl | ⟨rfl, h0⟩
  · have g1 : ∀ x y : SOrder K, Dict.get (s.orders ++ [(s.nextId, x), (s.nextId + 1, y)]) s.nextId = some x := by
      intro x y
      rw [get_absent n1]
      simp [Dict.get]
    have g2 : ∀ x y : SOrder K, Dict.del (s.orders ++ [(s.nextId, x), (s.nextId + 1, y)]) s.nextId = s.orders ++ [(s.nextId + 1, y)] := by
      intro x y
      rw [del_append, del_absent n1]
      simp [Dict.del]
    have g3 : ∀ y : SOrder K, Dict.get (s.orders ++ [(s.nextId + 1, y)]) (s.nextId + 1) = some y := by
      intro y
      rw [get_absent n2]
      simp [Dict.get]
    have g4 : ∀ y : SOrder K, Dict.del (s.orders ++ [(s.nextId + 1, y)]) (s.nextId + 1) = s.orders := by
      intro y
      rw [del_append, del_absent n2]
      simp [Dict.del]
    unfold deleteOrder
    dsimp only
    rw [g1]
    dsimp only [numbered]
    rw [if_neg (by omega), g2, g3]
    dsimp only
    rw [g4]
    exact ⟨by rw [if_pos rfl], rfl⟩
  · have g1 : ∀ x y : SOrder K, Dict.get (s.orders ++ [(s.nextId, x), (s.nextId + 1, y)]) (s.nextId + 1) = some y := by
      intro x y
      rw [get_absent n2]
      simp [Dict.get]
    have g2 : ∀ x y : SOrder K, Dict.del (s.orders ++ [(s.nextId, x), (s.nextId + 1, y)]) (s.nextId + 1) = s.orders ++ [(s.nextId, x)] := by
      intro x y
      rw [del_append, del_absent n2]
      simp [Dict.del]
    have g3 : ∀ y : SOrder K, Dict.get (s.orders ++ [(s.nextId, y)]) s.nextId = some y := by
      intro y
      rw [get_absent n1]
      simp [Dict.get]
    have g4 : ∀ y : SOrder K, Dict.del (s.orders ++ [(s.nextId, y)]) s.nextId = s.orders := by
      intro y
      rw [del_append, del_absent n1]
      simp [Dict.del]
    unfold deleteOrder
    dsimp only
    rw [g1]
    dsimp only [numbered]
    rw [if_neg (by omega), g2, g3]
    dsimp only
    rw [g4]
    exact ⟨by rw [if_neg (by omega)], rfl⟩

/-- **C179** A strategy that was accepted after any history, and that is deleted again, leaves no trace except for its two numbers: orders, trade log and
settings are what they were before it was added, every sequence of trades is answered as if it had never been added, and also leaves the same orders and the
same log. It can be deleted by the number of its first order, and by that of its second order unless the first one has number 0
(`C179_first_violated`). -/
theorem C179_deleted_partial (pair : CarbonPair.Arg) (roe : Bool) (m : Method) (s0 : Sim K) (hnew : new pair roe m = .ok s0) (ops : List (Op K))
    (a : StrategyArgs K) (i j : Nat) (hacc : ((run s0 ops).addStrategy a).1 = .ok (i, j)) (k : Nat) (hk : k = i ∨ k = j ∧ i ≠ 0) :
    let s := run s0 ops
    let t := (((s.addStrategy a).2).deleteOrder k).2
    (∃ l, ((s.addStrategy a).2.deleteOrder k).1 = .ok l ∧ l.Perm [i, j]) ∧
      t.orders = s.orders ∧ t.trades = s.trades ∧ t.numtrades = s.numtrades ∧ t.pair = s.pair ∧ t.method = s.method ∧
      t.raiseonerror = s.raiseonerror ∧ (∀ q, t.state q = s.state q) ∧
      ∀ calls, (replies t calls).1 = (replies s calls).1 ∧ (replies t calls).2.orders = (replies s calls).2.orders ∧
        (replies t calls).2.trades = (replies s calls).2.trades := by
  intro s t
  obtain ⟨h1, h2, _⟩ := new_ids hnew
  obtain ⟨hi, _⟩ := run_ids h2 h1 ops
  obtain ⟨o1, o2, h⟩ := accepted_adds ⟨_, hacc⟩
  have e := congrArg Prod.fst (h _ hi rfl)
  rw [hacc] at e
  cases e
  obtain ⟨d1, d2⟩ := deleted hi ⟨_, hacc⟩ hk
  have ht : t = renumber (s.nextId + 2) s := d2
  refine ⟨⟨_, d1, ?_⟩, ?_⟩
  · rcases hk with rfl | ⟨rfl, _⟩
    · rw [if_pos rfl]
    · rw [if_neg (by omega)]
      exact List.Perm.swap _ _ []
  rw [ht]
  refine ⟨rfl, rfl, rfl, rfl, rfl, rfl, fun q => rfl, fun calls => ?_⟩
  rw [replies_renumber]
  exact ⟨rfl, rfl, rfl⟩

/-- The hypotheses of `C179_deleted_partial`: a second strategy, deleted by the number of its second order. -/
example : let s := run (sim0 .exact) [.add strat]
    (s.addStrategy strat).1 = .ok (2, 3) ∧
    (replies ((s.addStrategy strat).2.deleteOrder 3).2 [(false, { tkn := "ETH".toList, amt := 5 })]).1 =
      (replies s [(false, { tkn := "ETH".toList, amt := 5 })]).1 := by
  intro s
  have h : (s.addStrategy strat).1 = .ok (2, 3) := by decide +kernel
  refine ⟨h, ?_⟩
  exact ((C179_deleted_partial (.str "ETH/USDC".toList) false .exact (sim0 .exact) rfl [.add strat] strat 2 3 h 3 (Or.inr ⟨rfl, by norm_num⟩)).2.2.2.2.2.2.2.2 _).1

/-- **C179** fails for the first strategy, deleted by the number of its second order: its first order stays, and is even sold from before an error is
raised. -/
theorem C179_first_violated :
    ((sim0 .exact).addStrategy strat).1 = .ok (0, 1) ∧ (sim0 .exact).orders = [] ∧
    ids (((sim0 .exact).addStrategy strat).2.deleteOrder 1).2 = [0] ∧
    (replies (sim0 .exact) [(false, { tkn := "ETH".toList, amt := 5 })]).1 = [.error .value] ∧
    (replies (((sim0 .exact).addStrategy strat).2.deleteOrder 1).2 [(false, { tkn := "ETH".toList, amt := 5 })]).1 = [.error .key] ∧
    (((replies (((sim0 .exact).addStrategy strat).2.deleteOrder 1).2 [(false, { tkn := "ETH".toList, amt := 5 })]).2.orders.map
      fun e => e.2.curve.y) = [5]) := by
  decide +kernel

end Carbon.Sim
