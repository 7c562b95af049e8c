import Verif.Prop.TradeLog

/-!
# C151: what is left of the trades when the amounts are rounded
-/

set_option linter.unusedSectionVars false

namespace Carbon

open CarbonPair (pyDiv)

/-- The error of `frmt`. -/
theorem frmt_err {K : Type} [Field K] [LinearOrder K] [IsStrictOrderedRing K] [FloorRing K] (R : Rounding K) (d : Nat) (v : K) :
    |frmt R d v - v| ≤ (1 + R.u) / (2 * 10 ^ d) + R.u * (2 + R.u) * |v| := by
  unfold frmt
  have hd : (0 : K) < 10 ^ d := by positivity
  have h1 := R.fl_err v
  generalize R.fl v = w at h1 ⊢
  have h2 : |(Sdk.roundHE (w * 10 ^ d) : K) / 10 ^ d - w| ≤ 1 / (2 * 10 ^ d) := by
    have h := Sdk.roundHE_err (w * 10 ^ d)
    have e : (Sdk.roundHE (w * 10 ^ d) : K) / 10 ^ d - w = ((Sdk.roundHE (w * 10 ^ d) : K) - w * 10 ^ d) / 10 ^ d := by
      field_simp
    rw [e, abs_div, abs_of_pos hd, div_le_div_iff₀ hd (by positivity)]
    nlinarith
  generalize (Sdk.roundHE (w * 10 ^ d) : K) / 10 ^ d = z at h2 ⊢
  have h3 := R.fl_err z
  generalize R.fl z = r at h3 ⊢
  have hu := R.u_nonneg
  have e : (1 + R.u) / (2 * 10 ^ d) = (1 + R.u) * (1 / (2 * 10 ^ d)) := by ring
  rw [e]
  generalize (1 : K) / (2 * 10 ^ d) = ε at h2 ⊢
  have a1 : |w| ≤ |v| + |w - v| := by
    have := abs_add_le v (w - v)
    rwa [add_sub_cancel] at this
  have a2 : |z| ≤ |w| + |z - w| := by
    have := abs_add_le w (z - w)
    rwa [add_sub_cancel] at this
  have a3 : |r - v| ≤ |r - z| + |z - w| + |w - v| := by
    have t1 := abs_sub_le r z v
    have t2 := abs_sub_le z w v
    linarith
  have a4 : |z| ≤ |v| + R.u * |v| + ε := by linarith
  have a5 : R.u * |z| ≤ R.u * (|v| + R.u * |v| + ε) := mul_le_mul_of_nonneg_left a4 hu
  nlinarith

namespace Sim

section Generic
variable {K : Type} [Field K] [LinearOrder K] [PySqrt K]

/-! ## Without rounding -/

theorem routeR_id (m : Method) (cs : List (Curve K)) (x : K) (byTarget : Bool) (thr : Option Nat) (sp : Bool) :
    routeR id m cs x byTarget thr sp = route m cs x byTarget thr sp := by
  unfold routeR
  cases route m cs x byTarget thr sp with
  | error e => rfl
  | ok l =>
    show Except.ok (l.map (roundAction id)) = Except.ok l
    rw [show (roundAction id : Action K → Action K) = id from rfl, List.map_id]

theorem planR_id (s : Sim K) (p : CarbonPair) (tkn : Str) (amt : K) (byTarget : Bool) (a : TradeArgs K) :
    s.planR id id p tkn amt byTarget a = s.plan p tkn amt byTarget a := by
  unfold planR plan
  simp only [routeR_id, Option.map_id, id]
  congr 1
  funext limit
  congr 1
  funext r
  split_ifs
  · rfl
  · congr 1
    funext routes
    cases routes.getLast? with
    | none => rfl
    | some last =>
      dsimp only
      congr 1
      funext raw
      congr 1
      funext price
      cases limit <;> cases price <;> rfl

theorem tradeR_id (s : Sim K) (p : CarbonPair) (tkn : Str) (amt : K) (byTarget : Bool) (a : TradeArgs K) :
    s.tradeR id id p tkn amt byTarget a = s.trade p tkn amt byTarget a := by
  rw [trade_eq_settle]
  unfold tradeR
  rw [planR_id]

/-- **C151** Without rounding these are the trades of `Simulator.lean`. -/
theorem C151_exact (s : Sim K) (buys : Bool) (a : TradeArgs K) : s.callR id id buys a = s.call buys a := by
  have h1 : ∀ a : TradeArgs K, s.buysPosR id id a = s.buysPos a := fun a => by
    unfold buysPosR buysPos; simp only [tradeR_id]; rfl
  have h2 : ∀ a : TradeArgs K, s.sellsPosR id id a = s.sellsPos a := fun a => by
    unfold sellsPosR sellsPos; simp only [tradeR_id]; rfl
  unfold callR call ammBuys ammSells
  simp only [h1, h2]

/-! ## The parts of a trade -/

theorem buysPosR_cases (f g : K → K) (s : Sim K) (a : TradeArgs K) :
    (∃ e, s.buysPosR f g a = (.error e, s)) ∨
    ∃ p tkno, s.getPair a.pair = .ok p ∧ p.other a.tkn = some tkno ∧ s.buysPosR f g a = s.tradeR f g p tkno a.amt false a := by
  unfold buysPosR
  generalize hr : (do
    let p ← s.getPair a.pair
    s.positionValid (p.other a.tkn) p
    match p.other a.tkn with
    | none => (.error .value : Py (CarbonPair × Str))
    | some t => .ok (p, t)) = r
  cases r with
  | error e => exact Or.inl ⟨e, rfl⟩
  | ok pt =>
    obtain ⟨p, t⟩ := pt
    right
    rw [Py.bind_eq_ok] at hr
    obtain ⟨p', hp, hr⟩ := hr
    rw [Py.bind_eq_ok] at hr
    obtain ⟨_, _, hr⟩ := hr
    cases ho : p'.other a.tkn with
    | none => rw [ho] at hr; cases hr
    | some t' =>
      rw [ho] at hr
      cases hr
      exact ⟨_, _, hp, ho, rfl⟩

theorem sellsPosR_cases (f g : K → K) (s : Sim K) (a : TradeArgs K) :
    (∃ e, s.sellsPosR f g a = (.error e, s)) ∨
    ∃ p, s.getPair a.pair = .ok p ∧ s.sellsPosR f g a = s.tradeR f g p a.tkn (-a.amt) true a := by
  unfold sellsPosR
  generalize hr : (do
    let p ← s.getPair a.pair
    s.positionValid (some a.tkn) p
    (.ok p : Py CarbonPair)) = r
  cases r with
  | error e => exact Or.inl ⟨e, rfl⟩
  | ok p =>
    right
    rw [Py.bind_eq_ok] at hr
    obtain ⟨p', hp, hr⟩ := hr
    rw [Py.bind_eq_ok] at hr
    obtain ⟨_, _, hr⟩ := hr
    cases hr
    exact ⟨_, hp, rfl⟩

theorem callR_cases [IsStrictOrderedRing K] (f g : K → K) (s : Sim K) (buys : Bool) (a : TradeArgs K) :
    (∃ e, s.callR f g buys a = (.error e, s)) ∨
    ∃ p tkn amt byTarget a', Reaches s buys a p tkn amt byTarget a' ∧
      s.callR f g buys a = s.tradeR f g p tkn amt byTarget a' := by
  unfold callR
  cases buys with
  | true =>
    rw [if_pos rfl]
    split_ifs with h0
    · rcases sellsPosR_cases f g s a.flip with h | ⟨p, h1, h2⟩
      · exact Or.inl h
      · refine Or.inr ⟨p, a.tkn, a.amt, true, a.flip, .buysNeg h0 h1, ?_⟩
        rw [h2]
        show s.tradeR f g p a.tkn (- -a.amt) true a.flip = _
        rw [neg_neg]
    · rcases buysPosR_cases f g s a with h | ⟨p, t, h1, h2, h3⟩
      · exact Or.inl h
      · exact Or.inr ⟨p, t, a.amt, false, a, .buys (not_lt.mp h0) h1 h2, h3⟩
  | false =>
    rw [if_neg (by simp)]
    split_ifs with h0
    · rcases buysPosR_cases f g s a.flip with h | ⟨p, t, h1, h2, h3⟩
      · exact Or.inl h
      · exact Or.inr ⟨p, t, -a.amt, false, a.flip, .sellsNeg h0 h1 h2, h3⟩
    · rcases sellsPosR_cases f g s a with h | ⟨p, h1, h2⟩
      · exact Or.inl h
      · exact Or.inr ⟨p, a.tkn, -a.amt, true, a, .sells (not_lt.mp h0) h1, h2⟩

theorem planR_ok {f g : K → K} {s : Sim K} {p : CarbonPair} {tkn : Str} {amt : K} {byTarget : Bool} {a : TradeArgs K} {pl : Plan K}
    (h : s.planR f g p tkn amt byTarget a = .ok pl) :
    ∃ r routes last, p.reverse = .ok r ∧
      route s.method ((s.applicable p r tkn a.usePositions).map fun e => e.2.curve) amt byTarget a.threshold a.supportPartial
        = .ok routes ∧
      pl.routes = routes.map (roundAction f) ∧ routes.getLast? = some last ∧ pl.last = roundAction f last ∧
      pl.ids = (s.applicable p r tkn a.usePositions).map (fun e => e.2.id) := by
  unfold planR at h
  rw [Py.bind_eq_ok] at h
  obtain ⟨limit, h1, h⟩ := h
  rw [Py.bind_eq_ok] at h
  obtain ⟨r, h2, h⟩ := h
  split_ifs at h
  dsimp only at h
  rw [Py.bind_eq_ok] at h
  obtain ⟨rs, h3, h⟩ := h
  unfold routeR at h3
  rw [Py.bind_eq_ok] at h3
  obtain ⟨routes, h3, h3'⟩ := h3
  cases h3'
  rw [List.getLast?_map] at h
  cases hl : routes.getLast? with
  | none => rw [hl] at h; cases h
  | some last =>
    rw [hl] at h
    dsimp only [Option.map_some] at h
    rw [Py.bind_eq_ok] at h
    obtain ⟨raw, h5, h⟩ := h
    rw [Py.bind_eq_ok] at h
    obtain ⟨price, h6, h⟩ := h
    refine ⟨r, routes, last, h2, h3, ?_⟩
    cases limit with
    | none =>
      dsimp only at h
      cases h
      exact ⟨rfl, hl, rfl, rfl⟩
    | some l =>
      cases price with
      | none => cases h
      | some pr =>
        dsimp only [Option.map_some] at h
        cases h
        exact ⟨rfl, hl, rfl, rfl⟩

theorem settle_frame (s : Sim K) (p : CarbonPair) (tkn : Str) (amt : K) (byTarget : Bool) (pl : Plan K) :
    Frame s (s.settle p tkn amt byTarget pl).2 := by
  unfold settle
  dsimp only
  have h1 := runRoutes_frame p tkn (byTarget && decide (s.method = .fast)) pl s 0 pl.routes
  generalize runRoutes p tkn (byTarget && decide (s.method = .fast)) pl s 0 pl.routes = r at h1
  obtain ⟨r, s1⟩ := r
  cases r with
  | error e => exact h1
  | ok _ =>
    dsimp only
    split
    · exact h1
    · exact h1.trans ⟨rfl, rfl, rfl, rfl, rfl, rfl⟩

theorem callR_frame [IsStrictOrderedRing K] (f g : K → K) (s : Sim K) (buys : Bool) (a : TradeArgs K) :
    Frame s (s.callR f g buys a).2 := by
  rcases callR_cases f g s buys a with ⟨e, he⟩ | ⟨p, t, x, byT, a', _, he⟩
  · rw [he]; exact Frame.refl s
  · rw [he]
    unfold tradeR
    split
    · exact Frame.refl s
    · exact settle_frame _ _ _ _ _ _

theorem settle_orders (s : Sim K) (p : CarbonPair) (tkn : Str) (amt : K) (byTarget : Bool) (pl : Plan K) :
    (s.settle p tkn amt byTarget pl).2.orders =
      (runRoutes p tkn (byTarget && decide (s.method = .fast)) pl s 0 pl.routes).2.orders := by
  unfold settle
  dsimp only
  generalize runRoutes p tkn (byTarget && decide (s.method = .fast)) pl s 0 pl.routes = r
  obtain ⟨r, s1⟩ := r
  cases r with
  | error e => rfl
  | ok _ =>
    dsimp only
    split <;> rfl

/-! ## Histories -/

/-- The state after an operation, with rounding. -/
def stepR (f g : K → K) (s : Sim K) : Op K → Sim K
  | .buys a => (s.callR f g true a).2
  | .sells a => (s.callR f g false a).2
  | op => step s op

/-- The state after a list of operations, with rounding. -/
def runR (f g : K → K) (s : Sim K) (ops : List (Op K)) : Sim K := ops.foldl (stepR f g) s

/-- All operations of a history are orderly when they happen. -/
def AllOrderlyR (f g : K → K) : Sim K → List (Op K) → Prop
  | _, [] => True
  | s, op :: ops => Orderly s op ∧ AllOrderlyR f g (stepR f g s op) ops

variable [IsStrictOrderedRing K]

theorem stepR_future (f g : K → K) (s : Sim K) (op : Op K) (h : s.excludeFuture = true) : (stepR f g s op).excludeFuture = true := by
  cases op with
  | buys a => exact (callR_frame f g s true a).future.trans h
  | sells a => exact (callR_frame f g s false a).future.trans h
  | _ => exact step_future s _ h

theorem stepR_ids {f g : K → K} {s : Sim K} (hf : s.excludeFuture = true) (h : Ids s) (op : Op K) : Ids (stepR f g s op) := by
  cases op with
  | buys a => exact h.of_frame (callR_frame f g s true a)
  | sells a => exact h.of_frame (callR_frame f g s false a)
  | add a => exact (step_ids hf h (.add a)).1
  | single tkn amt ps pe pm yint pair oid lid => exact (step_ids hf h (.single tkn amt ps pe pm yint pair oid lid)).1
  | delete k => exact (step_ids hf h (.delete k)).1

theorem stepR_links {f g : K → K} {s : Sim K} (hf : s.excludeFuture = true) (hi : Ids s) (h : Links s) (op : Op K)
    (ho : Orderly s op) : Links (stepR f g s op) := by
  cases op with
  | buys a => exact h.of_frame (callR_frame f g s true a)
  | sells a => exact h.of_frame (callR_frame f g s false a)
  | add a => exact step_links hf hi h (.add a) ho
  | single tkn amt ps pe pm yint pair oid lid => exact step_links hf hi h (.single tkn amt ps pe pm yint pair oid lid) ho
  | delete k => exact step_links hf hi h (.delete k) ho

theorem callR_logged (f g : K → K) {s : Sim K} (h : Logged s) (buys : Bool) (a : TradeArgs K) : Logged (s.callR f g buys a).2 := by
  rcases callR_cases f g s buys a with ⟨e, he⟩ | ⟨p, t, x, byT, a', _, he⟩
  · rw [he]; exact h
  · rw [he]
    unfold tradeR
    split
    · exact h
    · rename_i pl _
      obtain ⟨D, R, h⟩ := h
      obtain ⟨D', R', h', _⟩ := settle_logged h p t x byT pl
      exact ⟨_, _, h'⟩

theorem stepR_logged {f g : K → K} {s : Sim K} (h : Logged s) (op : Op K) : Logged (stepR f g s op) := by
  have old : ∀ op, Logged (step s op) := fun op => by
    obtain ⟨D, R, h⟩ := h
    obtain ⟨D', R', h', _⟩ := step_logged h op
    exact ⟨_, _, h'⟩
  cases op with
  | buys a => exact callR_logged f g h true a
  | sells a => exact callR_logged f g h false a
  | add a => exact old (.add a)
  | single tkn amt ps pe pm yint pair oid lid => exact old (.single tkn amt ps pe pm yint pair oid lid)
  | delete k => exact old (.delete k)

end Generic

theorem stepR_method (f g : ℝ → ℝ) (s : Sim ℝ) (hf : s.excludeFuture = true) (op : Op ℝ) : (stepR f g s op).method = s.method := by
  cases op with
  | buys a => exact (callR_frame f g s true a).method
  | sells a => exact (callR_frame f g s false a).method
  | _ => exact step_method s hf _

/-! ## Books with small debts -/

/-- Every order's holdings are at most its capacity and at least minus a rounding error, and the enabled orders are well
formed. -/
structure Booked (ε u : ℝ) (s : Sim ℝ) : Prop where
  ids : Ids s
  bal : ∀ k o, Dict.get s.orders k = some o → -(ε + u * o.curve.yint) ≤ o.curve.y ∧ o.curve.y ≤ o.curve.yint ∧ 0 ≤ o.curve.yint
  shape : ∀ k o, Dict.get s.orders k = some o → o.disabled = false → Shape o.curve

/-- The routes overdraw orders by rounding errors only. -/
structure Due (ε u : ℝ) (swap : Bool) (ids : List Nat) (s : Sim ℝ) (l : List (Action ℝ)) : Prop where
  distinct : l.Pairwise fun a b => ∀ k, ids[a.index]? = some k → ids[b.index]? ≠ some k
  each : ∀ a ∈ l, ∃ k o, ids[a.index]? = some k ∧ Dict.get s.orders k = some o ∧
    -(ε + u * o.curve.yint) ≤ o.curve.y - sold swap a.input a.output

theorem sold_nonneg (swap : Bool) (i o : ℝ) : 0 ≤ sold swap i o := by unfold sold; split_ifs <;> exact abs_nonneg _

theorem bought_nonneg (swap : Bool) (i o : ℝ) : 0 ≤ bought swap i o := by unfold bought; split_ifs <;> exact abs_nonneg _

theorem credit_grows (o : SOrder ℝ) {v : ℝ} (hv : 0 ≤ v) : o.curve.y ≤ (credit o v).curve.y ∧ o.curve.yint ≤ (credit o v).curve.yint ∧
    (credit o v).curve.y ≤ (credit o v).curve.yint := by
  unfold credit
  dsimp only
  refine ⟨by linarith, ?_, ?_⟩
  · split_ifs with h1
    · exact h1.le
    · exact le_rfl
  · split_ifs with h1
    · exact le_rfl
    · exact not_lt.mp h1

theorem Booked.set {ε u : ℝ} {s : Sim ℝ} (h : Booked ε u s) {k : Nat} {o o' : SOrder ℝ} (hk : Dict.get s.orders k = some o)
    (hl : label o' = label o) (hb : -(ε + u * o'.curve.yint) ≤ o'.curve.y ∧ o'.curve.y ≤ o'.curve.yint ∧ 0 ≤ o'.curve.yint)
    (hs : Shape o.curve → Shape o'.curve) : Booked ε u { s with orders := Dict.set s.orders k o' } := by
  have fr : Frame s { s with orders := Dict.set s.orders k o' } := ⟨Dict.map_set _ hk (by rw [hl]), rfl, rfl, rfl, rfl, rfl⟩
  refine ⟨h.ids.of_frame fr, ?_, ?_⟩
  · intro j q hq
    have hq' : Dict.get (Dict.set s.orders k o') j = some q := hq
    rw [Dict.get_set] at hq'
    split_ifs at hq' with hj
    · cases hq'; exact hb
    · exact h.bal j q hq'
  · intro j q hq hd
    have hq' : Dict.get (Dict.set s.orders k o') j = some q := hq
    rw [Dict.get_set] at hq'
    split_ifs at hq' with hj
    · cases hq'
      have : o.disabled = false := by
        rw [← hd]; exact (congrArg Label.disabled hl).symm
      exact hs (h.shape k o hk this)
    · exact h.shape j q hq' hd

theorem execRoute_booked {ε u : ℝ} (hu : 0 ≤ u) {swap : Bool} {s : Sim ℝ} (h : Booked ε u s) {ids : List Nat} {a : Action ℝ}
    {l : List (Action ℝ)} (hr : Due ε u swap ids s (a :: l)) {k : Nat} (hk : ids[a.index]? = some k) :
    Booked ε u (execRoute swap s k a).2 ∧ Due ε u swap ids (execRoute swap s k a).2 l := by
  obtain ⟨k', o, e1, e2, e3⟩ := hr.each a List.mem_cons_self
  rw [hk] at e1
  cases e1
  have hv := sold_nonneg swap a.input a.output
  have hw := bought_nonneg swap a.input a.output
  obtain ⟨d1, d2⟩ := List.pairwise_cons.mp hr.distinct
  have rdy : ∀ s' : Sim ℝ, (∀ j q, j ≠ k → Dict.get s.orders j = some q → ∃ q', Dict.get s'.orders j = some q' ∧
      q.curve.y ≤ q'.curve.y ∧ q.curve.yint ≤ q'.curve.yint) → Due ε u swap ids s' l := by
    intro s' hm
    refine ⟨d2, fun b hb => ?_⟩
    obtain ⟨j, q, c1, c2, c3⟩ := hr.each b (List.mem_cons_of_mem _ hb)
    have hj : j ≠ k := by
      rintro rfl
      exact d1 b hb j hk c1
    obtain ⟨q', f1, f2, f3⟩ := hm j q hj c2
    exact ⟨j, q', c1, f1, by nlinarith⟩
  have hb := h.bal k o e2
  have h1 : Booked ε u { s with orders := Dict.set s.orders k (debit o (sold swap a.input a.output)) } := by
    refine h.set e2 rfl ?_ fun hs => debit_shape hs _
    unfold debit
    dsimp only
    exact ⟨e3, by linarith [hb.2.1], hb.2.2⟩
  have g1 : ∀ j q, j ≠ k → Dict.get s.orders j = some q →
      Dict.get (Dict.set s.orders k (debit o (sold swap a.input a.output))) j = some q := by
    intro j q hj hq
    rw [Dict.get_set, if_neg hj, hq]
  have r1 : Due ε u swap ids { s with orders := Dict.set s.orders k (debit o (sold swap a.input a.output)) } l :=
    rdy _ fun j q hj hq => ⟨q, g1 j q hj hq, le_rfl, le_rfl⟩
  unfold execRoute
  rw [e2]
  dsimp only
  split_ifs with hl
  · exact ⟨h1, r1⟩
  · split
    · exact ⟨h1, r1⟩
    · rename_i lo hlo
      obtain ⟨c1, c2, c3⟩ := credit_grows lo hw
      obtain ⟨b1, _, b3⟩ := h1.bal _ _ hlo
      refine ⟨h1.set hlo rfl ⟨?_, c3, b3.trans c2⟩ fun hs => credit_shape hs _, rdy _ fun j q hj hq => ?_⟩
      · have := mul_le_mul_of_nonneg_left c2 hu
        linarith
      · show ∃ q', Dict.get (Dict.set _ _ _) j = some q' ∧ _
        rw [Dict.get_set]
        split_ifs with hjl
        · refine ⟨_, rfl, ?_⟩
          have := g1 j q hj hq
          rw [hjl, hlo] at this
          cases this
          exact ⟨c1, c2⟩
        · exact ⟨q, g1 j q hj hq, le_rfl, le_rfl⟩

theorem Booked.congr {ε u : ℝ} {s s' : Sim ℝ} (h : Booked ε u s) (fr : Frame s s') (ho : s'.orders = s.orders) : Booked ε u s' :=
  ⟨h.ids.of_frame fr, by rw [ho]; exact h.bal, by rw [ho]; exact h.shape⟩

theorem runRoutes_booked {ε u : ℝ} (hu : 0 ≤ u) {p : CarbonPair} {tkn : Str} {swap : Bool} {pl : Plan ℝ} (l : List (Action ℝ))
    (s : Sim ℝ) (ct : Nat) (h : Booked ε u s) (hr : Due ε u swap pl.ids s l) : Booked ε u (runRoutes p tkn swap pl s ct l).2 := by
  induction l generalizing s ct with
  | nil => exact h
  | cons a l ih =>
    unfold runRoutes
    split
    · exact h
    · rename_i k hk
      have h1 : Booked ε u (if pl.exec then execRoute swap s k a else (.ok (), s)).2 ∧
          Due ε u swap pl.ids (if pl.exec then execRoute swap s k a else (.ok (), s)).2 l := by
        split_ifs
        · exact execRoute_booked hu h hr hk
        · exact ⟨h, (List.pairwise_cons.mp hr.distinct).2, fun b hb => hr.each b (List.mem_cons_of_mem _ hb)⟩
      generalize (if pl.exec then execRoute swap s k a else (.ok (), s)) = r at h1
      obtain ⟨r, s1⟩ := r
      obtain ⟨h1, h2⟩ := h1
      cases r with
      | error e => exact h1
      | ok _ =>
        dsimp only
        split
        · exact h1
        · exact ih _ _ (h1.congr ⟨rfl, rfl, rfl, rfl, rfl, rfl⟩ rfl) ⟨h2.1, h2.2⟩

/-- A function that changes a number by at most `ε` plus the fraction `u` of it. -/
def Close (f : ℝ → ℝ) (ε u : ℝ) : Prop := ∀ v, |f v - v| ≤ ε + u * |v|

theorem Close.abs {f : ℝ → ℝ} {ε u : ℝ} (h : Close f ε u) (v : ℝ) : |(|f v| - |v|)| ≤ ε + u * |v| :=
  (abs_abs_sub_abs_le_abs_sub _ _).trans (h v)

theorem Close.sold {f : ℝ → ℝ} {ε u : ℝ} (h : Close f ε u) (swap : Bool) (i o : ℝ) :
    |sold swap (f i) (f o) - sold swap i o| ≤ ε + u * sold swap i o := by
  unfold Sim.sold; split_ifs <;> exact h.abs _

theorem Close.bought {f : ℝ → ℝ} {ε u : ℝ} (h : Close f ε u) (swap : Bool) (i o : ℝ) :
    |bought swap (f i) (f o) - bought swap i o| ≤ ε + u * bought swap i o := by
  unfold Sim.bought; split_ifs <;> exact h.abs _

/-- What a router returns can be executed up to rounding errors. -/
theorem planR_sound {f g : ℝ → ℝ} {ε u : ℝ} (hu : 0 ≤ u) (hc : Close f ε u) {s : Sim ℝ} (h : Booked ε u s) {p : CarbonPair}
    {tkn : Str} {amt : ℝ} {byTarget : Bool} {a : TradeArgs ℝ} {pl : Plan ℝ} (hx : if byTarget then amt ≤ 0 else 0 ≤ amt)
    (hsp : s.method = .alpha → a.supportPartial = false) (hpl : s.planR f g p tkn amt byTarget a = .ok pl) :
    ∃ r routes last, p.reverse = .ok r ∧ pl.routes = routes.map (roundAction f) ∧ pl.last = roundAction f last ∧ routes ≠ [] ∧
      Sound (byTarget && decide (s.method = .fast)) ((s.applicable p r tkn a.usePositions).map fun e => e.2.curve) routes last ∧
      Due ε u (byTarget && decide (s.method = .fast)) pl.ids s pl.routes ∧
      ∀ b ∈ pl.routes, ∃ k o, pl.ids[b.index]? = some k ∧ Dict.get s.orders k = some o ∧
        (k, o) ∈ s.applicable p r tkn a.usePositions := by
  obtain ⟨r, routes, last, h2, h3, h4, h5, h6, h7⟩ := planR_ok hpl
  have happ : ∀ e ∈ s.applicable p r tkn a.usePositions, e.2.id = e.1 ∧ Dict.get s.orders e.1 = some e.2 ∧ e.2.curve.Good := by
    rintro ⟨k, o⟩ he
    obtain ⟨m1, m2⟩ := List.mem_filter.mp he
    have hg := Dict.get_of_mem h.ids.nodup m1
    refine ⟨h.ids.own _ _ m1, hg, ?_⟩
    unfold eligible at m2
    simp only [Bool.and_eq_true, Bool.not_eq_true', decide_eq_true_eq] at m2
    obtain ⟨⟨⟨_, hd⟩, hy⟩, _⟩ := m2
    exact (h.shape k o hg hd).good hy (h.bal k o hg).2.1
  have hids : pl.ids = (s.applicable p r tkn a.usePositions).map Prod.fst := by
    rw [h7]
    exact List.map_congr_left fun e he => (happ e he).1
  have hnd : pl.ids.Nodup := by
    rw [hids]
    exact h.ids.nodup.sublist (List.filter_sublist.map _)
  have hs := route_sound (by
    intro c hc
    obtain ⟨e, he, rfl⟩ := List.mem_map.mp hc
    exact (happ e he).2.2) hx hsp h3 h5
  have hfind : ∀ b ∈ routes, ∃ k o, pl.ids[b.index]? = some k ∧ Dict.get s.orders k = some o ∧
      (k, o) ∈ s.applicable p r tkn a.usePositions ∧
      sold (byTarget && decide (s.method = .fast)) b.input b.output ≤ o.curve.y := by
    intro b hb
    obtain ⟨c, hc, c1, c2, c3⟩ := hs.each b hb
    rw [List.getElem?_map] at hc
    cases e : (s.applicable p r tkn a.usePositions)[b.index]? with
    | none => rw [e] at hc; cases hc
    | some q =>
      rw [e] at hc
      simp only [Option.map_some, Option.some.injEq] at hc
      subst hc
      refine ⟨q.1, q.2, ?_, (happ q (List.mem_of_getElem? e)).2.1, List.mem_of_getElem? e, c2⟩
      rw [hids, List.getElem?_map, e]; rfl
  refine ⟨r, routes, last, h2, h4, h6, ?_, hs, ⟨?_, ?_⟩, ?_⟩
  · rintro rfl; cases h5
  · rw [h4, List.pairwise_map]
    refine (List.pairwise_map.mp hs.nodup).imp ?_
    intro b c hbc k hb hc
    obtain ⟨i1, e1⟩ := List.getElem?_eq_some_iff.mp hb
    obtain ⟨i2, e2⟩ := List.getElem?_eq_some_iff.mp hc
    exact hbc ((hnd.getElem_inj_iff).mp (e1.trans e2.symm))
  · intro b hb
    rw [h4] at hb
    obtain ⟨b, hb0, rfl⟩ := List.mem_map.mp hb
    obtain ⟨k, o, c1, c2, _, c4⟩ := hfind b hb0
    refine ⟨k, o, c1, c2, ?_⟩
    have hd := hc.sold (byTarget && decide (s.method = .fast)) b.input b.output
    have hn := sold_nonneg (byTarget && decide (s.method = .fast)) b.input b.output
    have hb := (h.bal k o c2).2.1
    have h8 := (abs_le.mp hd).2
    show _ ≤ _ - sold _ (f b.input) (f b.output)
    nlinarith
  · intro b hb
    rw [h4] at hb
    obtain ⟨b, hb0, rfl⟩ := List.mem_map.mp hb
    obtain ⟨k, o, c1, c2, c3, _⟩ := hfind b hb0
    exact ⟨k, o, c1, c2, c3⟩

theorem callR_booked {f g : ℝ → ℝ} {ε u : ℝ} (hu : 0 ≤ u) (hc : Close f ε u) {s : Sim ℝ} (h : Booked ε u s) (buys : Bool)
    (a : TradeArgs ℝ) (hsp : s.method = .alpha → a.supportPartial = false) : Booked ε u (s.callR f g buys a).2 := by
  rcases callR_cases f g s buys a with ⟨e, he⟩ | ⟨p, t, x, byT, a', hr, he⟩
  · rw [he]; exact h
  rw [he]
  unfold tradeR
  split
  · exact h
  · rename_i pl hpl
    obtain ⟨hx, _, _, h4, _⟩ := hr.same
    obtain ⟨r, routes, last, _, _, _, _, _, hd, _⟩ := planR_sound hu hc h hx (fun hm => h4.trans (hsp hm)) hpl
    have h1 := runRoutes_booked hu (p := p) (tkn := t) pl.routes s 0 h hd
    refine ⟨h.ids.of_frame (settle_frame _ _ _ _ _ _), ?_, ?_⟩
    · rw [settle_orders]; exact h1.bal
    · rw [settle_orders]; exact h1.shape

theorem Booked.set_new {ε u : ℝ} (hε : 0 ≤ ε) (hu : 0 ≤ u) {s s' : Sim ℝ} (h : Booked ε u s) (hi : Ids s')
    (hg : ∀ k q, Dict.get s'.orders k = some q → Dict.get s.orders k = some q ∨ Stored q) : Booked ε u s' := by
  refine ⟨hi, fun k q hq => ?_, fun k q hq hd => ?_⟩
  · rcases hg k q hq with h1 | h1
    · exact h.bal k q h1
    · obtain ⟨b1, b2⟩ := h1.1
      have := mul_nonneg hu (b1.trans b2)
      exact ⟨by linarith, b2, b1.trans b2⟩
  · rcases hg k q hq with h1 | h1
    · exact h.shape k q h1 hd
    · exact h1.2 hd

theorem stepR_booked {f g : ℝ → ℝ} {ε u : ℝ} (hε : 0 ≤ ε) (hu : 0 ≤ u) (hc : Close f ε u) {s : Sim ℝ} (hf : s.excludeFuture = true)
    (h : Booked ε u s) (op : Op ℝ) (ho : Careful s.method op) : Booked ε u (stepR f g s op) := by
  have hids := stepR_ids (f := f) (g := g) hf h.ids op
  cases op with
  | add a => exact h.set_new hε hu hids (addStrategy_stored s a ho)
  | single tkn amt ps pe pm yint pair oid lid =>
    show Booked ε u (s.addReplaceSingle tkn amt ps pe pm yint pair oid lid).2
    rw [addReplaceSingle_excluded s hf]; exact h
  | buys a => exact callR_booked hu hc h true a ho
  | sells a => exact callR_booked hu hc h false a ho
  | delete k => exact h.set_new hε hu hids fun j q hq => Or.inl (deleteOrder_stored s k j q hq)

theorem runR_booked {f g : ℝ → ℝ} {ε u : ℝ} (hε : 0 ≤ ε) (hu : 0 ≤ u) (hc : Close f ε u) {s : Sim ℝ} (hf : s.excludeFuture = true)
    (h : Booked ε u s) (ops : List (Op ℝ)) (ho : ∀ op ∈ ops, Careful s.method op) :
    Booked ε u (runR f g s ops) ∧ (runR f g s ops).excludeFuture = true ∧ (runR f g s ops).method = s.method := by
  induction ops generalizing s with
  | nil => exact ⟨h, hf, rfl⟩
  | cons op ops ih =>
    have hm := stepR_method f g s hf op
    obtain ⟨h1, h2, h3⟩ := ih (stepR_future f g s op hf) (stepR_booked hε hu hc hf h op (ho op List.mem_cons_self))
      (fun o h => by rw [hm]; exact ho o (List.mem_cons_of_mem _ h))
    exact ⟨h1, h2, h3.trans hm⟩

theorem runR_links {f g : ℝ → ℝ} {s : Sim ℝ} (hf : s.excludeFuture = true) (hi : Ids s) (hL : Links s) (hl : Logged s)
    (ops : List (Op ℝ)) (ho : AllOrderlyR f g s ops) : Links (runR f g s ops) ∧ Logged (runR f g s ops) := by
  induction ops generalizing s with
  | nil => exact ⟨hL, hl⟩
  | cons op ops ih =>
    exact ih (stepR_future f g s op hf) (stepR_ids hf hi op) (stepR_links hf hi hL op ho.1) (stepR_logged hl op) ho.2

theorem new_booked {ε u : ℝ} {pair : CarbonPair.Arg} {roe : Bool} {m : Method} {s : Sim ℝ} (h : new pair roe m = .ok s) :
    Booked ε u s := by
  obtain ⟨h1, h2, h3, _⟩ := new_ids h
  refine ⟨h1, ?_, ?_⟩
  · intro k o hk; rw [h3] at hk; cases hk
  · intro k o hk; rw [h3] at hk; cases hk

/-! ## C151 -/

/-- **C151** Over any history of sensible additions, deletions and trades, with any rounding `f` of the booked amounts by at
most `ε` plus the fraction `u`, no order owes more than `ε` plus the fraction `u` of its capacity, and none holds more than
its capacity. Missing: what is missing in C33. -/
theorem C151_balances_partial (f g : ℝ → ℝ) (ε u : ℝ) (hε : 0 ≤ ε) (hu : 0 ≤ u) (hc : ∀ v, |f v - v| ≤ ε + u * |v|)
    (pair : CarbonPair.Arg) (roe : Bool) (m : Method) (s : Sim ℝ) (hn : new pair roe m = .ok s) (ops : List (Op ℝ))
    (ho : ∀ op ∈ ops, Careful m op) (k : Nat) (o : SOrder ℝ) (hk : Dict.get (runR f g s ops).orders k = some o) :
    -(ε + u * o.curve.yint) ≤ o.curve.y ∧ o.curve.y ≤ o.curve.yint := by
  obtain ⟨_, h2, _, hm⟩ := new_healthy hn
  obtain ⟨h3, _⟩ := runR_booked (g := g) hε hu hc h2 (new_booked hn) ops (by rwa [hm])
  exact ⟨(h3.bal k o hk).1, (h3.bal k o hk).2.1⟩

/-- **C151** The amounts as the routers report them, floats with 12 decimals: along any history as in C33 an order that has
sold everything it had owes at most half a unit of the twelfth decimal and two roundings of its capacity. -/
theorem C151_float_balances_partial (R : Rounding ℝ) (g : ℝ → ℝ) (pair : CarbonPair.Arg) (roe : Bool) (m : Method) (s : Sim ℝ)
    (hn : new pair roe m = .ok s) (ops : List (Op ℝ)) (ho : ∀ op ∈ ops, Careful m op) (k : Nat) (o : SOrder ℝ)
    (hk : Dict.get (runR (frmt R 12) g s ops).orders k = some o) :
    -((1 + R.u) / (2 * 10 ^ 12) + R.u * (2 + R.u) * o.curve.yint) ≤ o.curve.y ∧ o.curve.y ≤ o.curve.yint := by
  have hu := R.u_nonneg
  exact C151_balances_partial (frmt R 12) g _ _ (by positivity) (by positivity) (frmt_err R 12) pair roe m s hn ops ho k o hk

theorem Recorded.amounts {p : CarbonPair} {tkn : Str} {swap : Bool} {pl : Plan ℝ} {n : Nat} {as : List (Action ℝ)} {ct : Nat}
    {l : List (TradeRec ℝ)} (h : Recorded p tkn swap pl n ct as l) :
    l.map TradeRec.amt1 = as.map (fun a => sold swap a.input a.output) ∧
    l.map TradeRec.amt2 = as.map (fun a => bought swap a.input a.output) := by
  induction as generalizing ct l with
  | nil => rw [show l = [] from h]; exact ⟨rfl, rfl⟩
  | cons a as ih =>
    obtain ⟨k, price, t, _, _, rfl, ht⟩ := h
    obtain ⟨h1, h2⟩ := ih ht
    rw [List.map_cons, List.map_cons, List.map_cons, List.map_cons, h1, h2]
    exact ⟨rfl, rfl⟩

/-- The sum of rounded amounts. -/
theorem sum_close {ε u : ℝ} {l : List (Action ℝ)} {F G : Action ℝ → ℝ} (h : ∀ a, |G a - F a| ≤ ε + u * F a) :
    |(l.map G).sum - (l.map F).sum| ≤ l.length * ε + u * (l.map F).sum := by
  induction l with
  | nil => simp
  | cons a l ih =>
    rw [List.map_cons, List.map_cons, List.sum_cons, List.sum_cons, List.length_cons]
    have h1 := h a
    push_cast
    have e : G a + (l.map G).sum - (F a + (l.map F).sum) = (G a - F a) + ((l.map G).sum - (l.map F).sum) := by ring
    rw [e]
    have := abs_add_le (G a - F a) ((l.map G).sum - (l.map F).sum)
    nlinarith

theorem total_close {ε u : ℝ} (hε : 0 ≤ ε) (hu : 0 ≤ u) (hu1 : u ≤ 1) {l : List (Action ℝ)} (hne : l ≠ []) {F G : Action ℝ → ℝ}
    (h : ∀ a, |G a - F a| ≤ ε + u * F a) {t T : ℝ} (hT : T = (l.map F).sum) (ht : |t - T| ≤ ε + u * T) :
    (1 - u) * |t - (l.map G).sum| ≤ (l.length + 1) * ε + 2 * u * t := by
  have h1 := sum_close (l := l) h
  rw [← hT] at h1
  have hn : (1 : ℝ) ≤ l.length := by exact_mod_cast List.length_pos_of_ne_nil hne
  have h2 : |t - (l.map G).sum| ≤ (l.length + 1) * ε + 2 * u * T := by
    have e : t - (l.map G).sum = (t - T) - ((l.map G).sum - T) := by ring
    rw [e]
    have := abs_sub (t - T) ((l.map G).sum - T)
    linarith
  have h3 : (1 - u) * T ≤ t + ε := by have := (abs_le.mp ht).1; linarith
  have h4 := mul_le_mul_of_nonneg_left h2 (sub_nonneg.mpr hu1)
  have h5 := mul_le_mul_of_nonneg_left h3 (mul_nonneg (zero_le_two (α := ℝ)) hu)
  have h6 : 2 * u * ε ≤ u * ((l.length + 1) * ε) := by
    have := mul_le_mul_of_nonneg_right (show (2 : ℝ) ≤ l.length + 1 by linarith) (mul_nonneg hu hε)
    nlinarith
  nlinarith

/-- **C151** in any book of such a history: a successful trade returns one record for every route and the aggregate. If it was
executed, the holdings have changed by exactly the sums of the records of the routes, and these sums differ from the aggregate
record by the rounding errors of the amounts only. Missing: what is missing in C32. -/
theorem C151_records_partial (f g : ℝ → ℝ) (ε u : ℝ) (hε : 0 ≤ ε) (hu : 0 ≤ u) (hu1 : u ≤ 1)
    (hc : ∀ v, |f v - v| ≤ ε + u * |v|) (pair : CarbonPair.Arg) (roe : Bool) (m : Method) (s0 : Sim ℝ)
    (hn : new pair roe m = .ok s0) (ops : List (Op ℝ)) (ho : ∀ op ∈ ops, Careful m op) (hor : AllOrderlyR f g s0 ops)
    (buys : Bool) (a : TradeArgs ℝ) (hsp : m = .alpha → a.supportPartial = false) (recs : List (TradeRec ℝ)) (s' : Sim ℝ)
    (hr : (runR f g s0 ops).callR f g buys a = (.ok recs, s')) :
    ∃ p routes agg, (runR f g s0 ops).getPair a.pair = .ok p ∧ recs = routes ++ [agg] ∧ routes ≠ [] ∧
      agg.uid = ((runR f g s0 ops).numtrades, none) ∧ agg.tkn2 = p.other agg.tkn1 ∧
      (agg.exec = false → s'.orders = (runR f g s0 ops).orders) ∧
      (agg.exec = true → Unambiguous (runR f g s0 ops) p agg.tkn1 → ∀ w, agg.tkn2 = some w → ∀ t,
        holdings s' t = holdings (runR f g s0 ops) t - (if agg.tkn1 = t then (routes.map TradeRec.amt1).sum else 0) +
          (if w = t then (routes.map TradeRec.amt2).sum else 0)) ∧
      (1 - u) * |agg.amt1 - (routes.map TradeRec.amt1).sum| ≤ (routes.length + 1) * ε + 2 * u * agg.amt1 ∧
      (1 - u) * |agg.amt2 - (routes.map TradeRec.amt2).sum| ≤ (routes.length + 1) * ε + 2 * u * agg.amt2 := by
  obtain ⟨_, hf, hL, hm⟩ := new_healthy hn
  obtain ⟨hB, hf', hm'⟩ := runR_booked (g := g) hε hu hc hf (new_booked hn) ops (by rwa [hm])
  obtain ⟨hL', hlog⟩ := runR_links (f := f) (g := g) hf (new_ids hn).1 hL ⟨_, _, new_logged hn⟩ ops hor
  generalize runR f g s0 ops = s at hr hB hf' hm' hL' hlog
  rw [← hm, ← hm'] at hsp
  rcases callR_cases f g s buys a with ⟨e, he⟩ | ⟨p, tkn, x, byT, a', hrch, he⟩
  · rw [he] at hr; cases hr
  rw [he] at hr
  unfold tradeR at hr
  split at hr
  · cases hr
  rename_i pl hpl
  obtain ⟨hx, _, _, hsp', _, _, hp⟩ := hrch.same
  obtain ⟨r, routes, last, h2, h3, h4, hne, hs, hd, happ⟩ :=
    planR_sound hu hc hB hx (fun hm => hsp'.trans (hsp hm)) hpl
  obtain ⟨D, R, hlog⟩ := hlog
  obtain ⟨price, new, R', e1, e2, e3, _⟩ := settle_log hlog hr
  obtain ⟨m1, m2⟩ := e2.amounts
  generalize hsw : (byT && decide (s.method = .fast)) = swap at *
  have hlen : new.length = routes.length := by
    have := congrArg List.length m1
    rw [List.length_map, List.length_map, h3, List.length_map] at this
    exact this
  have k1 : new.map TradeRec.amt1 = routes.map fun b => sold swap (f b.input) (f b.output) := by
    rw [m1, h3, List.map_map]; rfl
  have k2 : new.map TradeRec.amt2 = routes.map fun b => bought swap (f b.input) (f b.output) := by
    rw [m2, h3, List.map_map]; rfl
  refine ⟨p, new, _, hp, e3, ?_, rfl, rfl, ?_, ?_, ?_, ?_⟩
  · rintro rfl
    exact hne (List.length_eq_zero_iff.mp hlen.symm)
  · intro hx
    have h8 := settle_orders s p tkn x byT pl
    rw [hr, hsw] at h8
    rw [h8]
    exact runRoutes_dry hx s 0 pl.routes
  · intro hx hua w hw t
    obtain ⟨s1, i1, _, _, i4⟩ := runRoutes_ok (p := p) (tkn := tkn) hx e1 pl.routes s 0 hL' (by
      intro b hb
      obtain ⟨k, o, c1, c2, c3⟩ := happ b hb
      refine ⟨k, o, c1, c2, ?_⟩
      have := (List.mem_filter.mp c3).2
      unfold eligible at this
      simp only [Bool.and_eq_true, decide_eq_true_eq] at this
      exact this.1.1.1.2)
    have h8 := settle_orders s p tkn x byT pl
    rw [hr, hsw, i1] at h8
    have i5 := i4 w (by
      intro b hb k o hk1 hk2
      obtain ⟨k', o', c1, c2, c3⟩ := happ b hb
      rw [hk1] at c1
      cases c1
      rw [hk2] at c2
      cases c2
      have hel := (List.mem_filter.mp c3).2
      unfold eligible at hel
      simp only [Bool.and_eq_true, Bool.or_eq_true, decide_eq_true_eq] at hel
      have := hua r k o h2 hk2 hel.1.1.1.2 hel.1.1.1.1
      exact this.trans hw) t
    rw [holdings_congr h8, i5, ← m1, ← m2]
    rfl
  · rw [k1, hlen]
    refine total_close hε hu hu1 hne (fun b => Close.sold hc swap b.input b.output) hs.soldTot ?_
    show |sold swap pl.last.totalInput pl.last.totalOutput - _| ≤ _
    rw [h4]
    exact Close.sold hc swap last.totalInput last.totalOutput
  · rw [k2, hlen]
    refine total_close hε hu hu1 hne (fun b => Close.bought hc swap b.input b.output) hs.boughtTot ?_
    show |bought swap pl.last.totalInput pl.last.totalOutput - _| ≤ _
    rw [h4]
    exact Close.bought hc swap last.totalInput last.totalOutput

/-! ## Prices and limits -/

theorem planR_price {f g : ℝ → ℝ} {s : Sim ℝ} {p : CarbonPair} {tkn : Str} {amt : ℝ} {byTarget : Bool} {a : TradeArgs ℝ} {pl : Plan ℝ}
    (h : s.planR f g p tkn amt byTarget a = .ok pl) :
    ∃ limit raw pr, limitOf p tkn amt byTarget a = .ok limit ∧ pl.last.totalInput ≠ 0 ∧ raw = -pl.last.totalOutput / pl.last.totalInput ∧
      p.convertPrice (some (g raw)) tkn = .ok pr ∧ pl.price = pr.map g ∧
      (∀ l, limit = some l → pl.exec = true → ∃ q, pl.price = some q ∧ p.limitIsMet tkn l .buy q = some true) := by
  unfold planR at h
  rw [Py.bind_eq_ok] at h
  obtain ⟨limit, h1, h⟩ := h
  rw [Py.bind_eq_ok] at h
  obtain ⟨r, h2, h⟩ := h
  split_ifs at h
  dsimp only at h
  rw [Py.bind_eq_ok] at h
  obtain ⟨rs, h3, h⟩ := h
  cases hl : rs.getLast? with
  | none => rw [hl] at h; cases h
  | some last =>
    rw [hl] at h
    dsimp only at h
    rw [Py.bind_eq_ok] at h
    obtain ⟨raw, h5, h⟩ := h
    rw [Py.bind_eq_ok] at h
    obtain ⟨pr, h6, h⟩ := h
    have hz : last.totalInput ≠ 0 := by
      intro h0
      unfold CarbonPair.pyDiv at h5
      rw [if_pos h0] at h5
      cases h5
    unfold CarbonPair.pyDiv at h5
    rw [if_neg hz] at h5
    have e5 := (Except.ok.inj h5).symm
    cases limit with
    | none =>
      dsimp only at h
      cases h
      exact ⟨none, raw, pr, h1, hz, e5, h6, rfl, by simp⟩
    | some l =>
      cases pr with
      | none => cases h
      | some q =>
        dsimp only [Option.map_some] at h
        cases h
        refine ⟨some l, raw, some q, h1, hz, e5, h6, rfl, fun l' hl' hx => ⟨g q, rfl, ?_⟩⟩
        cases hl'
        simp only [Bool.and_eq_true, beq_iff_eq] at hx
        exact hx.2

theorem runR_logged {f g : ℝ → ℝ} {s : Sim ℝ} (h : Logged s) (ops : List (Op ℝ)) : Logged (runR f g s ops) := by
  induction ops generalizing s with
  | nil => exact h
  | cons op ops ih => exact ih (stepR_logged h op)

/-- **C151** along any history: the price in the aggregate record is the quotient of its amounts, rounded, in the convention of the
pair, and rounded again; and a trade with a limit price is executed only if this price is within the limit. Missing: the fast
router when the amount sold is given. -/
theorem C151_price_partial (f g : ℝ → ℝ) (pair : CarbonPair.Arg) (roe : Bool) (m : Method) (s0 : Sim ℝ) (hn : new pair roe m = .ok s0)
    (ops : List (Op ℝ)) (buys : Bool) (a : TradeArgs ℝ) (hm : (runR f g s0 ops).method ≠ .fast) (recs : List (TradeRec ℝ)) (s' : Sim ℝ)
    (hr : (runR f g s0 ops).callR f g buys a = (.ok recs, s')) :
    ∃ p routes agg raw, (runR f g s0 ops).getPair a.pair = .ok p ∧ recs = routes ++ [agg] ∧ |raw| = agg.amt1 / agg.amt2 ∧
      agg.price = (if p.hasQuote agg.tkn1 then g (g raw) else g (1 / g raw)) ∧
      ∀ l, a.limitPrice = some l → agg.exec = true → if p.hasQuote agg.tkn1 then l ≤ agg.price else agg.price ≤ l := by
  have hlog : Logged (runR f g s0 ops) := runR_logged ⟨_, _, new_logged hn⟩ ops
  generalize runR f g s0 ops = s at hr hlog hm
  rcases callR_cases f g s buys a with ⟨e, he⟩ | ⟨p, tkn, x, byT, a', hrch, he⟩
  · rw [he] at hr; cases hr
  rw [he] at hr
  unfold tradeR at hr
  split at hr
  · cases hr
  rename_i pl hpl
  obtain ⟨_, _, _, _, hlp, hla, hp⟩ := hrch.same
  obtain ⟨limit, raw, pr, h1, h2, h3, h4, h5, h6⟩ := planR_price hpl
  obtain ⟨D, R, hlog⟩ := hlog
  obtain ⟨price, new, R', e1, e2, e3, _⟩ := settle_log hlog hr
  have hsw : (byT && decide (s.method = .fast)) = false := by simp [hm]
  rw [hsw] at e1 e3
  have e1' : pl.price = some price := by
    unfold logPrice at e1
    split at e1
    · cases e1
    · rename_i q hq
      simp only [Bool.false_eq_true, if_false] at e1
      rw [hq, Except.ok.inj e1]
  refine ⟨p, new, _, raw, hp, e3, ?_, ?_, fun l hl hx => ?_⟩
  · show |raw| = sold false pl.last.totalInput pl.last.totalOutput / bought false pl.last.totalInput pl.last.totalOutput
    rw [h3, abs_div, abs_neg]
    rfl
  · show price = if p.hasQuote tkn then g (g raw) else g (1 / g raw)
    rw [e1'] at h5
    cases hpr : pr with
    | none => rw [hpr] at h5; cases h5
    | some q =>
      rw [hpr] at h4 h5
      have hq : price = g q := Option.some.inj h5
      unfold CarbonPair.convertPrice at h4
      dsimp only at h4
      split_ifs at h4 with c1 c2
      · cases h4
      · have := Option.some.inj (Except.ok.inj h4)
        rw [if_pos c2, this]
        exact hq
      · rw [Py.bind_eq_ok] at h4
        obtain ⟨v, v1, v2⟩ := h4
        have e := Option.some.inj (Except.ok.inj v2)
        unfold CarbonPair.pyDiv at v1
        split_ifs at v1
        rw [if_neg c2, Except.ok.inj v1, e]
        exact hq
  · show if p.hasQuote tkn then l ≤ price else price ≤ l
    have hlim : limit = some l := by
      unfold limitOf at h1
      rw [hlp, hl] at h1
      split at h1
      · exact (Except.ok.inj h1).symm
      · simp at h1
    obtain ⟨q, q1, q2⟩ := h6 l hlim hx
    rw [e1'] at q1
    cases q1
    unfold CarbonPair.limitIsMet at q2
    split_ifs at q2 with c1 c2
    · rw [c2]
      split_ifs <;> exact le_rfl
    · dsimp only at q2
      cases c3 : p.hasQuote tkn
      · rw [c3] at q2
        simp at q2 ⊢
        exact q2.le
      · rw [c3] at q2
        simp at q2 ⊢
        exact q2.le

/-- **C151** The effective price of an executed trade with a limit price misses the limit by at most the two roundings of the
price. Missing: what is missing in `C151_price_partial`. -/
theorem C151_limit_partial (f g : ℝ → ℝ) (u : ℝ) (hu : 0 ≤ u) (hu1 : u < 1) (hg : ∀ v, |g v - v| ≤ u * |v|) (pair : CarbonPair.Arg)
    (roe : Bool) (m : Method) (s0 : Sim ℝ) (hn : new pair roe m = .ok s0) (ops : List (Op ℝ)) (buys : Bool) (a : TradeArgs ℝ)
    (hm : (runR f g s0 ops).method ≠ .fast) (recs : List (TradeRec ℝ)) (s' : Sim ℝ)
    (hr : (runR f g s0 ops).callR f g buys a = (.ok recs, s')) (l : ℝ) (hl : a.limitPrice = some l) :
    ∃ p routes agg, (runR f g s0 ops).getPair a.pair = .ok p ∧ recs = routes ++ [agg] ∧ (agg.exec = true →
      if p.hasQuote agg.tkn1 then l ≤ agg.amt1 / agg.amt2 * (1 + u) ^ 2 else agg.price ≤ l ∧
        (0 ≤ agg.price → agg.amt2 / agg.amt1 * (1 - u) ≤ l * (1 + u))) := by
  obtain ⟨p, routes, agg, raw, h1, h2, h3, h4, h5⟩ := C151_price_partial f g pair roe m s0 hn ops buys a hm recs s' hr
  refine ⟨p, routes, agg, h1, h2, fun hx => ?_⟩
  have h6 := h5 l hl hx
  have up : ∀ v, |g v| ≤ (1 + u) * |v| := by
    intro v
    have := abs_add_le (g v - v) v
    rw [sub_add_cancel] at this
    have := hg v
    linarith
  have down : ∀ v, (1 - u) * |v| ≤ |g v| := by
    intro v
    have := abs_sub (g v) (g v - v)
    rw [sub_sub_cancel] at this
    have := hg v
    linarith
  split_ifs at h4 h6 ⊢ with c
  · have a1 := up raw
    have a2 := up (g raw)
    rw [← h3]
    have a3 : |g (g raw)| ≤ (1 + u) * ((1 + u) * |raw|) := a2.trans (mul_le_mul_of_nonneg_left a1 (by linarith))
    have a4 := le_abs_self (g (g raw))
    rw [h4] at h6
    nlinarith
  · refine ⟨h6, fun h0 => ?_⟩
    have a1 := up raw
    have a2 := down (1 / g raw)
    rw [← h4, abs_of_nonneg h0, abs_div, abs_one] at a2
    rw [← inv_div, ← h3]
    by_cases hz : raw = 0
    · rw [hz, abs_zero, inv_zero, zero_mul]
      exact mul_nonneg (h0.trans h6) (by linarith)
    have hp := abs_pos.2 hz
    have hgp : 0 < |g raw| := lt_of_lt_of_le (mul_pos (by linarith) hp) (down raw)
    have a3 : 1 / ((1 + u) * |raw|) ≤ 1 / |g raw| := one_div_le_one_div_of_le hgp a1
    have a4 : (1 - u) * (1 / ((1 + u) * |raw|)) ≤ l := ((mul_le_mul_of_nonneg_left a3 (by linarith)).trans a2).trans h6
    have hu2 : (0 : ℝ) < 1 + u := by linarith
    have e : (1 - u) * (1 / ((1 + u) * |raw|)) * (1 + u) = |raw|⁻¹ * (1 - u) := by
      field_simp
    rw [← e]
    exact mul_le_mul_of_nonneg_right a4 hu2.le

/-! ## Concrete books -/

/-- The rounding of the routers with doubles. -/
def f12 : ℚ → ℚ := frmt Rounding.double 12

/-- The rounding of a quotient of doubles. -/
def g53 : ℚ → ℚ := Rounding.double.fl

/-- Sells ETH between 1 and 16 USDC, buys with 10 USDC between 1/4 and 1/64. -/
def wide (amt : ℚ) : StrategyArgs ℚ :=
  { tkn := "ETH".toList, amtSell := some amt, psellStart := some 1, psellEnd := some 16, amtBuy := some 10,
    pbuyStart := some (1 / 4), pbuyEnd := some (1 / 64) }

/-- The records of a call: the amounts sold and received. -/
def amounts (r : Py (List (TradeRec ℚ)) × Sim ℚ) : List (ℚ × ℚ) := (r.1.toOption.getD []).map fun t => (t.amt1, t.amt2)

/-- 12 decimals, and back to the nearest double. -/
example : f12 (1 / 3) = 6004799503154657 / 18014398509481984 ∧ |f12 (1 / 3) - 333333333333 / 10 ^ 12| < 1 / 10 ^ 16 ∧ f12 5 = 5 ∧
    f12 (-(1 / 3)) = -f12 (1 / 3) := by
  decide +kernel

/-- A trade whose amounts are rounded: 2 ETH of 10 for 40/17 USDC. -/
example :
    let s := run (sim0 .exact) [.add (wide 10)]
    amounts (s.call false { tkn := "ETH".toList, amt := 2 }) = [(2, 40 / 17), (2, 40 / 17)] ∧
      amounts (s.callR f12 g53 false { tkn := "ETH".toList, amt := 2 }) =
        [(2, 2649176251394873 / 2 ^ 50), (2, 2649176251394873 / 2 ^ 50)] ∧
      |2649176251394873 / 2 ^ 50 - (40 / 17 : ℚ)| < 1 / 10 ^ 12 := by
  decide +kernel

/-- The bounds are those of a history with trades: an order left with a debt, within the bound. -/
example :
    let s := runR f12 g53 (sim0 .exact) [.add (wide (16000000000006 / 10 ^ 13)),
      .sells { tkn := "ETH".toList, amt := 16000000000006 / 10 ^ 13 }]
    (s.orders.map fun e => decide (-((1 + 1 / 2 ^ 53) / (2 * 10 ^ 12) + 1 / 2 ^ 53 * (2 + 1 / 2 ^ 53) * e.2.curve.yint) ≤ e.2.curve.y ∧
      e.2.curve.y ≤ e.2.curve.yint)) = [true, true] := by
  decide +kernel

/-- **C151** violated for C33: an order sells everything it holds, 1.6000000000006, but 1.600000000001 is booked; with every
router it ends up with negative holdings. -/
theorem C151_overdrawn_violated :
    ∀ m ∈ [Method.exact, .fast, .alpha],
      let s := runR f12 g53 (sim0 m) [.add (wide (16000000000006 / 10 ^ 13)),
        .sells { tkn := "ETH".toList, amt := 16000000000006 / 10 ^ 13 }]
      (s.orders.map fun e => decide (e.2.curve.y < 0)) = [true, false] := by
  decide +kernel

/-- **C151** violated: the trader asks for 4e-13 USDC, gets nothing, and pays 2e-12 ETH. If the price is rounded to nothing,
too, the call fails with a division by zero. -/
theorem C151_nothing_violated :
    let s := run (sim0 .exact) [.add (wide 10)]
    let r := s.callR f12 g53 false { tkn := "USDC".toList, amt := 4 / 10 ^ 13 }
    ((r.1.toOption.getD []).map fun t => (t.exec, t.amt1, decide (1 / 10 ^ 12 < t.amt2))) = [(true, 0, true), (true, 0, true)] ∧
      (r.2.orders.map fun e => (decide (10 < e.2.curve.y), decide (e.2.curve.y = 10))) = [(true, false), (false, true)] ∧
      (s.callR f12 g53 false { tkn := "USDC".toList, amt := 1 / 10 ^ 13 }).1 = .error .zeroDiv := by
  decide +kernel

/-- **C151** violated for C32: with two equal orders a purchase of 3e-12 ETH is recorded as 2e-12 for each and 3e-12 in
total. -/
theorem C151_totals_violated :
    let s := run (sim0 .exact) [.add (wide 3), .add (wide 3)]
    let l := amounts (s.callR f12 g53 false { tkn := "ETH".toList, amt := 3 / 10 ^ 12 })
    l.map (fun e => Sdk.roundHE (e.1 * 10 ^ 12)) = [2, 2, 3] := by
  decide +kernel

/-- **C151** violated for C104: a sale of 0.1 USDC by the trader is filled completely, and flagged as partial, because the float
0.1 is not the number 0.1. Without rounding it is not flagged. -/
theorem C151_flag_violated :
    let s := run (sim0 .exact) [.add (wide 10)]
    let r := s.callR f12 g53 true { tkn := "USDC".toList, amt := 1 / 10 }
    ((r.1.toOption.getD []).map fun t => (t.partialFill, decide (|t.amt2 - 1 / 10| < 1 / 10 ^ 17))) = [(false, true), (true, true)] ∧
      (((s.call true { tkn := "USDC".toList, amt := 1 / 10 }).1.toOption.getD []).map fun t => t.partialFill) = [false, false] := by
  decide +kernel

/-- The hypotheses of the theorems: a linked history with a strategy and a rounding that is not the identity. -/
example : ∃ s : Sim ℝ, new (.str "ETH/USDC".toList) false .exact = .ok s ∧ Close (fun v => v + 1 / 10 ^ 13) (1 / 10 ^ 12) 0 ∧
    ∀ op ∈ ([.sells { tkn := "ETH".toList, amt := 1 }] : List (Op ℝ)), Careful .exact op := by
  refine ⟨_, rfl, fun v => ?_, fun op h => ?_⟩
  · rw [add_sub_cancel_left, zero_mul, add_zero, abs_of_nonneg (by positivity)]; norm_num
  · rw [List.mem_singleton.mp h]; intro h; cases h

end Sim

end Carbon
