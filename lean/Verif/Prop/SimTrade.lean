import Verif.Carbon.TradeLemmas

/-!
# C32-C36: trades in the simulator
-/

set_option linter.unusedSectionVars false

namespace Carbon.Sim

open CarbonPair (pyDiv)
open UICurve (pyDiv_ok)

/-! ## C33: histories -/

/-- One side of a strategy as a user would enter it: no negative amount, positive prices, and a marginal price only
together with the range and inside it. -/
def SensibleSide (amt p1 p2 pm : Option ℝ) : Prop :=
  (∀ v, amt = some v → 0 ≤ v) ∧ (∀ v, p1 = some v → 0 < v) ∧ (∀ v, p2 = some v → 0 < v) ∧
    ∀ m, pm = some m → ∃ u v, p1 = some u ∧ p2 = some v ∧ min u v ≤ m ∧ m ≤ max u v

/-- Both sides are sensible. -/
def Sensible (a : StrategyArgs ℝ) : Prop :=
  SensibleSide a.amtSell a.psellStart a.psellEnd a.psellMarginal ∧ SensibleSide a.amtBuy a.pbuyStart a.pbuyEnd a.pbuyMarginal

/-- What is asked of an operation: strategies are sensible, and with the alpha router no partial matches are requested. -/
def Careful (m : Method) : Op ℝ → Prop
  | .add a => Sensible a
  | .buys a => m = .alpha → a.supportPartial = false
  | .sells a => m = .alpha → a.supportPartial = false
  | _ => True

theorem convert_cases {p : CarbonPair} {t : Str} (ht : p.hasToken t = true) :
    (∀ x : Option ℝ, p.convertPrice x t = .ok x) ∨
    (∀ x : Option ℝ, ∀ v, x = some v → 0 < v → p.convertPrice x t = .ok (some (1 / v))) := by
  by_cases hq : p.hasQuote t = true
  · left
    intro x
    unfold CarbonPair.convertPrice
    cases x with
    | none => rfl
    | some v => simp [ht, hq]
  · right
    intro x v hx hv
    subst hx
    unfold CarbonPair.convertPrice
    simp only [ht, hq]
    rw [if_neg (by simp), if_neg (by simp), pyDiv_ok hv.ne']
    rfl

/-- A sensible side stays sensible when its prices are converted. -/
theorem SensibleSide.convert {amt p1 p2 pm q1 q2 qm : Option ℝ} (h : SensibleSide amt p1 p2 pm) {p : CarbonPair} {t : Str}
    (ht : p.hasToken t = true) (h1 : p.convertPrice p1 t = .ok q1) (h2 : p.convertPrice p2 t = .ok q2)
    (hm : p.convertPrice pm t = .ok qm) : SensibleSide amt q1 q2 qm := by
  have none' : ∀ {x : Option ℝ}, p.convertPrice (none : Option ℝ) t = .ok x → x = none := by
    intro x hx; unfold CarbonPair.convertPrice at hx; cases hx; rfl
  rcases convert_cases ht with hc | hc
  · rw [hc] at h1 h2 hm
    cases h1; cases h2; cases hm
    exact h
  · obtain ⟨a1, a2, a3, a4⟩ := h
    have conv : ∀ {x y : Option ℝ}, p.convertPrice x t = .ok y → (∀ v, x = some v → 0 < v) → ∀ w, y = some w →
        ∃ v, x = some v ∧ w = 1 / v := by
      intro x y hxy hpos w hw
      cases x with
      | none => rw [none' hxy] at hw; cases hw
      | some v =>
        rw [hc _ v rfl (hpos v rfl)] at hxy
        cases hxy
        cases hw
        exact ⟨v, rfl, rfl⟩
    refine ⟨a1, ?_, ?_, ?_⟩
    · intro w hw
      obtain ⟨v, hv, rfl⟩ := conv h1 a2 w hw
      have := a2 v hv
      positivity
    · intro w hw
      obtain ⟨v, hv, rfl⟩ := conv h2 a3 w hw
      have := a3 v hv
      positivity
    · intro w hw
      have hpm : ∀ v, pm = some v → 0 < v := by
        intro v hv
        obtain ⟨x, y, e1, e2, e3, _⟩ := a4 v hv
        exact lt_of_lt_of_le (lt_min (a2 x e1) (a3 y e2)) e3
      obtain ⟨v, hv, rfl⟩ := conv hm hpm w hw
      obtain ⟨x, y, e1, e2, e3, e4⟩ := a4 v hv
      have hx := a2 x e1
      have hy := a3 y e2
      have hv0 := hpm v hv
      rw [hc _ x e1 hx] at h1
      rw [hc _ y e2 hy] at h2
      cases h1; cases h2
      refine ⟨1 / x, 1 / y, rfl, rfl, ?_, ?_⟩
      · rw [min_le_iff]
        rcases le_max_iff.mp e4 with h | h
        · left; exact one_div_le_one_div_of_le hv0 h
        · right; exact one_div_le_one_div_of_le hv0 h
      · rw [le_max_iff]
        rcases min_le_iff.mp e3 with h | h
        · left; exact one_div_le_one_div_of_le hx h
        · right; exact one_div_le_one_div_of_le hy h

theorem shape_of {a : CurveArgs ℝ} {lo hi : ℝ} (hle : lo ≤ hi) (hlo : 0 ≤ lo) (hB : a.B = none) (h1 : a.plow = some lo)
    (h2 : a.phigh = some hi) : Curve.shape a = .ok (Real.sqrt lo, Real.sqrt hi - Real.sqrt lo, lo, hi) := by
  unfold Curve.shape
  rw [hB, h1, h2]
  dsimp only
  rw [if_neg (not_lt.mpr hle), if_neg (not_lt.mpr hle), Curve.sqrtE_ok hlo, Curve.sqrtE_ok (hlo.trans hle)]
  rfl

/-- The curve built for an order holds at most its capacity and, for positive prices, is well formed. -/
theorem buildCurve_ok {amt lo hi : ℝ} {pm yint : Option ℝ} (h0 : 0 ≤ amt) (hlo : 0 ≤ lo) (hle : lo ≤ hi)
    (hm : ∀ m, pm = some m → lo ≤ m ∧ m ≤ hi) {c : Curve ℝ} (h : buildCurve amt lo hi pm yint = .ok c) :
    (0 ≤ c.y ∧ c.y ≤ c.yint) ∧ (0 < lo → Shape c) := by
  have key : ∀ {a : CurveArgs ℝ} {z : ℝ}, a.B = none → a.plow = some lo → a.phigh = some hi → a.y = some amt →
      Curve.capacity a amt lo hi = .ok z → amt ≤ z → Curve.init a = .ok c → (0 ≤ c.y ∧ c.y ≤ c.yint) ∧ (0 < lo → Shape c) := by
    intro a z hB hl hh hy hcap hz hc
    unfold Curve.init at hc
    rw [shape_of hle hlo hB hl hh, Py.ok_bind, hy] at hc
    dsimp only at hc
    rw [hcap, Py.ok_bind] at hc
    cases hc
    refine ⟨⟨h0, hz⟩, fun hp => ⟨Real.sqrt_pos.mpr hp, sub_nonneg.mpr (Real.sqrt_le_sqrt hle), ?_, ?_, rfl⟩⟩
    · exact (Real.sq_sqrt hlo).symm
    · show hi = (Real.sqrt lo + (Real.sqrt hi - Real.sqrt lo)) ^ 2
      rw [add_sub_cancel, Real.sq_sqrt (hlo.trans hle)]
  unfold buildCurve at h
  split at h
  · rename_i m
    obtain ⟨m1, m2⟩ := hm m rfl
    have hl := Real.sqrt_le_sqrt m1
    have hh := Real.sqrt_le_sqrt m2
    by_cases hd : Real.sqrt m - Real.sqrt lo = 0
    · have herr : Curve.init ({ y := some amt, plow := some lo, phigh := some hi, pmarg := some m } : CurveArgs ℝ) =
          .error .zeroDiv := by
        unfold Curve.init
        rw [shape_of hle hlo rfl rfl rfl, Py.ok_bind]
        dsimp only
        unfold Curve.capacity
        dsimp only
        rw [Curve.sqrtE_ok (hlo.trans hle), Curve.sqrtE_ok hlo, Curve.sqrtE_ok (hlo.trans m1)]
        simp only [Py.ok_bind]
        unfold CarbonPair.pyDiv
        rw [if_pos hd]
        rfl
      rw [herr] at h
      cases h
    · have hd' : 0 < Real.sqrt m - Real.sqrt lo := lt_of_le_of_ne (by linarith) (Ne.symm hd)
      refine key rfl rfl rfl rfl (z := amt * (Real.sqrt hi - Real.sqrt lo) / (Real.sqrt m - Real.sqrt lo)) ?_ ?_ h
      · unfold Curve.capacity
        dsimp only
        rw [Curve.sqrtE_ok (hlo.trans hle), Curve.sqrtE_ok hlo, Curve.sqrtE_ok (hlo.trans m1)]
        simp only [Py.ok_bind]
        exact pyDiv_ok hd
      · rw [le_div_iff₀ hd']
        exact mul_le_mul_of_nonneg_left (by linarith) h0
  · rename_i z
    split_ifs at h with hz
    exact key rfl rfl rfl rfl (z := z) rfl (not_lt.mp hz) h
  · exact key rfl rfl rfl rfl (z := amt) rfl le_rfl h

/-- What is stored for one side of a strategy. -/
def Stored (o : SOrder ℝ) : Prop :=
  (0 ≤ o.curve.y ∧ o.curve.y ≤ o.curve.yint) ∧ (o.disabled = false → Shape o.curve)

theorem sellOrder_stored {pair : CarbonPair} {tkn : Str} {amt plo phi : Option ℝ} {id linked : Nat} {pm yint : Option ℝ}
    {o : SOrder ℝ} (hs : SensibleSide amt phi plo pm) (h : sellOrder pair tkn amt plo phi id linked pm yint = .ok o) :
    Stored o := by
  obtain ⟨a1, a2, a3, a4⟩ := hs
  have ha : 0 ≤ amt.getD 0 := by
    cases amt with
    | none => exact le_rfl
    | some v => exact a1 v rfl
  have build : ∀ {lo hi : ℝ} {d : Bool}, 0 ≤ lo → lo ≤ hi → (∀ m, pm = some m → lo ≤ m ∧ m ≤ hi) → (d = false → 0 < lo) →
      buildOrder pair tkn (amt.getD 0) lo hi d id linked pm yint = .ok o → Stored o := by
    intro lo hi d h1 h2 h3 h4 hb
    unfold buildOrder at hb
    rw [Py.bind_eq_ok] at hb
    obtain ⟨c, hc, hb⟩ := hb
    cases hb
    obtain ⟨e1, e2⟩ := buildCurve_ok ha h1 h2 h3 hc
    exact ⟨e1, fun hd => e2 (h4 hd)⟩
  unfold sellOrder at h
  split_ifs at h
  split at h
  · refine build le_rfl le_rfl ?_ (by simp) h
    intro m hm
    obtain ⟨u, v, e, _⟩ := a4 m hm
    cases e
  · rename_i lo hi
    have hlo := a3 lo rfl
    have hhi := a2 hi rfl
    have hr : ∀ m, pm = some m → min hi lo ≤ m ∧ m ≤ max hi lo := by
      intro m hm
      obtain ⟨u, v, e1, e2, e3, e4⟩ := a4 m hm
      cases e1; cases e2
      exact ⟨e3, e4⟩
    split_ifs at h with hle
    · refine build hlo.le hle ?_ (fun _ => hlo) h
      intro m hm
      have := hr m hm
      rwa [min_eq_right hle, max_eq_left hle] at this
    · have hle' : hi ≤ lo := (not_le.mp hle).le
      refine build hhi.le hle' ?_ (fun _ => hhi) h
      intro m hm
      have := hr m hm
      rwa [min_eq_left hle', max_eq_right hle'] at this
  · cases h

theorem Healthy.set_new {s s' : Sim ℝ} (h : Healthy s) (hi : Ids s')
    (hg : ∀ k q, Dict.get s'.orders k = some q → Dict.get s.orders k = some q ∨ Stored q) : Healthy s' := by
  refine ⟨hi, fun k q hq => ?_, fun k q hq hd => ?_⟩
  · rcases hg k q hq with h1 | h1
    · exact h.bal k q h1
    · exact h1.1
  · rcases hg k q hq with h1 | h1
    · exact h.shape k q h1 hd
    · exact h1.2 hd

theorem hasToken_of_other {p : CarbonPair} {t t2 : Str} (h : p.other t = some t2) : p.hasToken t = true := by
  unfold CarbonPair.other at h
  unfold CarbonPair.hasToken
  split_ifs at h with h1 h2
  · rw [h1]; split_ifs <;> rfl
  · rw [if_pos h2]

theorem addStrategy_stored (s : Sim ℝ) (a : StrategyArgs ℝ) (ha : Sensible a) :
    ∀ k q, Dict.get (s.addStrategy a).2.orders k = some q → Dict.get s.orders k = some q ∨ Stored q := by
  rcases addStrategy_cases s a with ⟨e, he⟩ | ⟨p, tkn2, hp, ht, hc⟩
  · rw [he]; exact fun k q hq => Or.inl hq
  rcases hc with ⟨e, he⟩ | ⟨o1, r2, hs, hc⟩
  · rw [he]; exact fun k q hq => Or.inl hq
  obtain ⟨sm, ss, se, bs, be, bm, c1, c2, c3, c4, c5, c6, h1, h2⟩ := strategyOrders_ok hs
  have t1 := hasToken_of_other ht
  have t2 := hasToken_of_other (other_other ht)
  have s1 : Stored o1 := sellOrder_stored (ha.1.convert t1 c2 c3 c1) h1
  rcases hc with ⟨e, he⟩ | ⟨o2, hr, r, he, hc⟩
  · rw [he]
    intro k q hq
    have hq' : Dict.get (Dict.set s.orders s.nextId o1) k = some q := hq
    rw [Dict.get_set] at hq'
    split_ifs at hq'
    · cases hq'; exact Or.inr s1
    · exact Or.inl hq'
  · rw [hr] at h2
    have s2 : Stored o2 := sellOrder_stored (ha.2.convert t2 c4 c5 c6) h2.symm
    rw [he]
    intro k q hq
    have hq' : Dict.get (Dict.set (Dict.set s.orders s.nextId o1) (s.nextId + 1) o2) k = some q := hq
    rw [Dict.get_set, Dict.get_set] at hq'
    split_ifs at hq'
    · cases hq'; exact Or.inr s2
    · cases hq'; exact Or.inr s1
    · exact Or.inl hq'

theorem addStrategy_healthy {s : Sim ℝ} (h : Healthy s) (a : StrategyArgs ℝ) (ha : Sensible a) :
    Healthy (s.addStrategy a).2 := h.set_new (addStrategy_ids h.ids a).1 (addStrategy_stored s a ha)

theorem step_method (s : Sim ℝ) (hf : s.excludeFuture = true) (op : Op ℝ) : (step s op).method = s.method := by
  cases op with
  | add a =>
    unfold step; dsimp only
    rcases addStrategy_cases s a with ⟨e, he⟩ | ⟨p, tkn2, hp, ht, ⟨e, he⟩ | ⟨o1, r2, hs, ⟨e, he⟩ | ⟨o2, hr, r, he, hc⟩⟩⟩ <;> rw [he]
  | single tkn amt ps pe pm yint pair oid lid => unfold step; dsimp only; rw [addReplaceSingle_excluded s hf]
  | delete k =>
    unfold step; dsimp only
    rcases deleteOrder_cases s k with ⟨_, e⟩ | ⟨o, _, ⟨_, e⟩ | ⟨_, _, _, e⟩ | ⟨_, _, _, e⟩⟩ <;> rw [e]
  | buys a => exact (ammBuys_frame s a).method
  | sells a => exact (ammSells_frame s a).method

theorem deleteOrder_stored (s : Sim ℝ) (k j : Nat) (q : SOrder ℝ) (hq : Dict.get (s.deleteOrder k).2.orders j = some q) :
    Dict.get s.orders j = some q := by
  have del' : ∀ {d : List (Nat × SOrder ℝ)} {i : Nat}, Dict.get (Dict.del d i) j = some q → Dict.get d j = some q := by
    intro d i hd
    rw [Dict.get_del] at hd
    split_ifs at hd
    exact hd
  rcases deleteOrder_cases s k with ⟨_, e⟩ | ⟨o, _, ⟨_, e⟩ | ⟨_, _, _, e⟩ | ⟨_, _, _, e⟩⟩ <;> rw [e] at hq
  · exact hq
  · exact del' hq
  · exact del' hq
  · exact del' (del' hq)

theorem step_healthy {s : Sim ℝ} (hf : s.excludeFuture = true) (h : Healthy s) (op : Op ℝ) (hc : Careful s.method op) :
    Healthy (step s op) := by
  have hids := (step_ids hf h.ids op).1
  cases op with
  | add a => exact addStrategy_healthy h a hc
  | single tkn amt ps pe pm yint pair oid lid => unfold step; dsimp only; rw [addReplaceSingle_excluded s hf]; exact h
  | buys a => exact ammBuys_healthy h a hc
  | sells a => exact ammSells_healthy h a hc
  | delete k => exact h.set_new hids fun j q hq => Or.inl (deleteOrder_stored s k j q hq)

theorem run_healthy {s : Sim ℝ} (hf : s.excludeFuture = true) (h : Healthy s) (ops : List (Op ℝ))
    (hc : ∀ op ∈ ops, Careful s.method op) : Healthy (run s ops) := by
  induction ops generalizing s with
  | nil => exact h
  | cons op ops ih =>
    refine ih (step_future s op hf) (step_healthy hf h op (hc op List.mem_cons_self)) fun o ho => ?_
    rw [step_method s hf]
    exact hc o (List.mem_cons_of_mem _ ho)

theorem new_healthy {pair : CarbonPair.Arg} {roe : Bool} {m : Method} {s : Sim ℝ} (h : new pair roe m = .ok s) :
    Healthy s ∧ s.excludeFuture = true ∧ Links s ∧ s.method = m := by
  obtain ⟨h1, h2, h3, _⟩ := new_ids h
  have hm : s.method = m := by
    unfold new at h
    rw [Py.bind_eq_ok] at h
    obtain ⟨p, _, h⟩ := h
    cases h; rfl
  refine ⟨⟨h1, ?_, ?_⟩, h2, ?_, hm⟩
  · intro k o hk; rw [h3] at hk; cases hk
  · intro k o hk; rw [h3] at hk; cases hk
  · intro k o hk; rw [h3] at hk; cases hk

/-- **C33** Over any history of sensible additions, deletions and trades, with any arguments and outcomes, every order's
holdings stay at or above zero and at or below its capacity. Missing: negative amounts, marginal prices outside of the range
or without one, and partial matches with the alpha router, for which it fails, see the violations below. -/
theorem C33_balances_partial (pair : CarbonPair.Arg) (roe : Bool) (m : Method) (s : Sim ℝ) (h : new pair roe m = .ok s)
    (ops : List (Op ℝ)) (hc : ∀ op ∈ ops, Careful m op) (k : Nat) (o : SOrder ℝ)
    (hk : Dict.get (run s ops).orders k = some o) : 0 ≤ o.curve.y ∧ o.curve.y ≤ o.curve.yint := by
  obtain ⟨h1, h2, _, hm⟩ := new_healthy h
  exact (run_healthy h2 h1 ops (by rwa [hm])).bal k o hk

/-! ## How the calls reach the router -/

section Generic
variable {K : Type} [Field K] [LinearOrder K] [IsStrictOrderedRing K] [PySqrt K]

/-- How the four calls (buys or sells, amount negative or not) reach `_trade`: `tkn` is the token sold by the AMM, `amt`
the signed amount. -/
inductive Reaches (s : Sim K) : Bool → TradeArgs K → CarbonPair → Str → K → Bool → TradeArgs K → Prop where
  | buys {a p t} : 0 ≤ a.amt → s.getPair a.pair = .ok p → p.other a.tkn = some t → Reaches s true a p t a.amt false a
  | buysNeg {a p} : a.amt < 0 → s.getPair a.pair = .ok p → Reaches s true a p a.tkn a.amt true a.flip
  | sells {a p} : 0 ≤ a.amt → s.getPair a.pair = .ok p → Reaches s false a p a.tkn (-a.amt) true a
  | sellsNeg {a p t} : a.amt < 0 → s.getPair a.pair = .ok p → p.other a.tkn = some t →
      Reaches s false a p t (-a.amt) false a.flip

/-- `amm_buys` or `amm_sells`. -/
def call (s : Sim K) (buys : Bool) (a : TradeArgs K) : Py (List (TradeRec K)) × Sim K :=
  if buys then s.ammBuys a else s.ammSells a

theorem call_cases (s : Sim K) (buys : Bool) (a : TradeArgs K) :
    (∃ e, s.call buys a = (.error e, s)) ∨
    ∃ p tkn amt byTarget a', Reaches s buys a p tkn amt byTarget a' ∧ s.call buys a = s.trade p tkn amt byTarget a' := by
  cases buys with
  | true =>
    rcases ammBuys_cases s a with ⟨e, h⟩ | ⟨h0, p, t, h1, h2, h⟩ | ⟨h0, p, h1, h⟩
    · exact Or.inl ⟨e, h⟩
    · exact Or.inr ⟨p, t, a.amt, false, a, .buys (not_lt.mp h0) h1 h2, h⟩
    · exact Or.inr ⟨p, a.tkn, a.amt, true, a.flip, .buysNeg h0 h1, h⟩
  | false =>
    rcases ammSells_cases s a with ⟨e, h⟩ | ⟨h0, p, h1, h⟩ | ⟨h0, p, t, h1, h2, h⟩
    · exact Or.inl ⟨e, h⟩
    · exact Or.inr ⟨p, a.tkn, -a.amt, true, a, .sells (not_lt.mp h0) h1, h⟩
    · exact Or.inr ⟨p, t, -a.amt, false, a.flip, .sellsNeg h0 h1 h2, h⟩

theorem Reaches.same {s : Sim K} {b byT : Bool} {a a' : TradeArgs K} {p : CarbonPair} {t : Str} {x : K}
    (h : Reaches s b a p t x byT a') : (if byT then x ≤ 0 else 0 ≤ x) ∧ |x| = |a.amt| ∧ a'.execute = a.execute ∧
      a'.supportPartial = a.supportPartial ∧ a'.limitPrice = a.limitPrice ∧ a'.limitAmt = a.limitAmt ∧
      s.getPair a.pair = .ok p := by
  cases h with
  | buys h0 hp ht => exact ⟨h0, rfl, rfl, rfl, rfl, rfl, hp⟩
  | buysNeg h0 hp => exact ⟨h0.le, rfl, rfl, rfl, rfl, rfl, hp⟩
  | sells h0 hp => exact ⟨by simpa using h0, abs_neg _, rfl, rfl, rfl, rfl, hp⟩
  | sellsNeg h0 hp ht => exact ⟨by simpa using h0.le, abs_neg _, rfl, rfl, rfl, rfl, hp⟩

theorem runRoutes_numtrades {p : CarbonPair} {tkn : Str} {swap : Bool} {pl : Plan K} (l : List (Action K)) (s : Sim K)
    (ct : Nat) : (runRoutes p tkn swap pl s ct l).2.numtrades = s.numtrades := by
  have ex : ∀ (s : Sim K) (k : Nat) (a : Action K), (execRoute swap s k a).2.numtrades = s.numtrades := by
    intro s k a
    unfold execRoute
    split
    · rfl
    · dsimp only
      split_ifs
      · rfl
      · split <;> rfl
  induction l generalizing s ct with
  | nil => rfl
  | cons a l ih =>
    unfold runRoutes
    split
    · rfl
    · rename_i k hk
      have h1 : (if pl.exec then execRoute swap s k a else (.ok (), s)).2.numtrades = s.numtrades := by
        split_ifs
        · exact ex s k a
        · rfl
      generalize (if pl.exec then execRoute swap s k a else (.ok (), s)) = r at h1
      obtain ⟨r, s1⟩ := r
      cases r with
      | error e => exact h1
      | ok _ =>
        dsimp only
        split
        · exact h1
        · rw [ih]; exact h1

/-- The aggregate record of a successful trade. -/
theorem trade_result {s s' : Sim K} {p : CarbonPair} {tkn : Str} {amt : K} {byTarget : Bool} {a : TradeArgs K}
    {recs : List (TradeRec K)} (h : s.trade p tkn amt byTarget a = (.ok recs, s')) :
    ∃ pl price rec, s.plan p tkn amt byTarget a = .ok pl ∧
      logPrice (byTarget && decide (s.method = .fast)) pl.price = .ok price ∧ rec ∈ recs ∧ rec.uid = (s.numtrades, none) ∧
      rec.exec = pl.exec ∧ rec.tkn1 = tkn ∧ rec.tkn2 = p.other tkn := by
  unfold trade at h
  split at h
  · cases h
  · rename_i pl hpl
    dsimp only at h
    have hn := runRoutes_numtrades (p := p) (tkn := tkn) (swap := byTarget && decide (s.method = .fast)) (pl := pl) pl.routes s 0
    generalize runRoutes p tkn (byTarget && decide (s.method = .fast)) pl s 0 pl.routes = q at h hn
    obtain ⟨q, s1⟩ := q
    cases q with
    | error e => cases h
    | ok _ =>
      dsimp only at h hn
      split at h
      · cases h
      · rename_i price hprice
        simp only [Prod.mk.injEq, Except.ok.injEq] at h
        have hm := Dict.mem_of_get (k := (s1.numtrades, none)) (d := Dict.set s1.trades (s1.numtrades, none)
          ⟨(s1.numtrades, none), pl.exec, decide (amt ≠ |pl.last.totalInput|), pl.limitfail,
            sold (byTarget && decide (s.method = .fast)) pl.last.totalInput pl.last.totalOutput, tkn,
            bought (byTarget && decide (s.method = .fast)) pl.last.totalInput pl.last.totalOutput,
            p.other tkn, p.pairIso, pl.routes.filterMap fun a => pl.ids[a.index]?, price⟩) (by rw [Dict.get_set, if_pos rfl])
        refine ⟨pl, price, ?_, hpl, hprice, ?_, ?_⟩
        · exact ⟨(s1.numtrades, none), pl.exec, decide (amt ≠ |pl.last.totalInput|), pl.limitfail,
            sold (byTarget && decide (s.method = .fast)) pl.last.totalInput pl.last.totalOutput, tkn,
            bought (byTarget && decide (s.method = .fast)) pl.last.totalInput pl.last.totalOutput,
            p.other tkn, p.pairIso, pl.routes.filterMap fun a => pl.ids[a.index]?, price⟩
        · rw [← h.1]
          exact List.mem_map.mpr ⟨_, List.mem_filter.mpr ⟨hm, by simp⟩, rfl⟩
        · exact ⟨by rw [← hn], rfl, rfl, rfl⟩

/-! ## C34: dry runs -/

/-- **C34** A trade with `execute=False` leaves every order exactly as it was, whatever the router, the arguments and the
outcome. -/
theorem C34_dry_run (s : Sim K) (buys : Bool) (a : TradeArgs K) (h : a.execute = false) :
    (s.call buys a).2.orders = s.orders := by
  rcases call_cases s buys a with ⟨e, he⟩ | ⟨p, t, x, byT, a', hr, he⟩
  · rw [he]
  · rw [he]
    have hx : a'.execute = false := hr.same.2.2.1.trans h
    cases hp : s.plan p t x byT a' with
    | error e => unfold trade; rw [hp]
    | ok pl =>
      refine trade_dry hp ?_
      obtain ⟨_, _, _, _, _, _, _, _, _, _, h8⟩ := plan_ok hp
      rcases h8 with ⟨_, h8, _⟩ | ⟨_, _, _, _, h8, _⟩
      · rw [h8, hx]
      · rw [h8, hx, Bool.false_and]

/-! ## C36: which orders change -/

/-- **C36** An order changed by a trade is one that sells the requested token, is enabled, not empty, allowed by the
caller and carries the name of the requested pair or its reverse, or it is linked to such an order. Missing: for negative
amounts the positions allowed by the caller are ignored (`C36_positions_violated`), and different pairs may have the same
name (`C36_name_violated`). -/
theorem C36_touched_partial (s : Sim K) (hi : Ids s) (buys : Bool) (a : TradeArgs K) (j : Nat)
    (h : Dict.get (s.call buys a).2.orders j ≠ Dict.get s.orders j) :
    ∃ p r k o, s.getPair a.pair = .ok p ∧ p.reverse = .ok r ∧ Dict.get s.orders k = some o ∧ (j = k ∨ o.linked = j) ∧
      o.disabled = false ∧ 0 < o.curve.y ∧ (o.pairName = p.pairIso ∨ o.pairName = r.pairIso) ∧
      (if (buys = true ↔ 0 ≤ a.amt) then p.other a.tkn = some o.tkn else o.tkn = a.tkn) ∧
      (0 ≤ a.amt → ∀ l, a.usePositions = some l → k ∈ l) := by
  rcases call_cases s buys a with ⟨e, he⟩ | ⟨p, t, x, byT, a', hr, he⟩
  · rw [he] at h; exact absurd rfl h
  rw [he] at h
  obtain ⟨r, k, o, h1, h2, h3, h4⟩ := trade_touched hi h
  have h5 := (List.mem_filter.mp h2).2
  unfold eligible at h5
  simp only [Bool.and_eq_true, Bool.or_eq_true, Bool.not_eq_true', decide_eq_true_eq] at h5
  obtain ⟨⟨⟨⟨hn, ht⟩, hd⟩, hy⟩, hpos⟩ := h5
  refine ⟨p, r, k, o, hr.same.2.2.2.2.2.2, h1, h3, h4, hd, hy, hn, ?_, ?_⟩
  · cases hr with
    | buys h0 hp ho => rw [if_pos (by simp [h0]), ho, ht]
    | buysNeg h0 hp => rw [if_neg (by simp [h0])]; exact ht
    | sells h0 hp => rw [if_neg (by simp [h0])]; exact ht
    | sellsNeg h0 hp ho => rw [if_pos (by simp [h0]), ho, ht]
  · intro h0 l hl
    have : a' = a := by
      cases hr with
      | buys => rfl
      | sells => rfl
      | buysNeg h1 => exact absurd h1 (not_lt.mpr h0)
      | sellsNeg h1 => exact absurd h1 (not_lt.mpr h0)
    rw [this, hl] at hpos
    simpa using hpos

end Generic

/-! ## C32: conservation -/

/-- Among the orders that sell `t`, the name of the pair `p` stands for the tokens of `p` only. -/
def Unambiguous (s : Sim ℝ) (p : CarbonPair) (t : Str) : Prop :=
  ∀ r k o, p.reverse = .ok r → Dict.get s.orders k = some o → o.tkn = t →
    (o.pairName = p.pairIso ∨ o.pairName = r.pairIso) → o.pair.other t = p.other t

/-- **C32** in any healthy and linked book (see `C33` and `C29` for how to get there): the aggregate record of an executed
trade states exactly by how much the holdings of the token sold have dropped and those of the other token have risen, and the
holdings of all other tokens are unchanged. Missing: pairs with ambiguous names (`C32_violated`). -/
theorem C32_conservation_partial (s : Sim ℝ) (h : Healthy s) (hL : Links s) (buys : Bool) (a : TradeArgs ℝ)
    (hsp : s.method = .alpha → a.supportPartial = false) (recs : List (TradeRec ℝ)) (s' : Sim ℝ)
    (hr : s.call buys a = (.ok recs, s')) :
    ∃ p rec, s.getPair a.pair = .ok p ∧ rec ∈ recs ∧ rec.uid = (s.numtrades, none) ∧ rec.tkn2 = p.other rec.tkn1 ∧
      (rec.exec = false → s'.orders = s.orders) ∧
      (rec.exec = true → Unambiguous s p rec.tkn1 → ∀ u, rec.tkn2 = some u → 0 < rec.amt1 ∧ 0 < rec.amt2 ∧
        ∀ t, holdings s' t = holdings s t - (if rec.tkn1 = t then rec.amt1 else 0) + (if u = t then rec.amt2 else 0)) := by
  rcases call_cases s buys a with ⟨e, he⟩ | ⟨p, tkn, x, byT, a', hrch, he⟩
  · rw [he] at hr; cases hr
  rw [he] at hr
  obtain ⟨hx, _, _, hsp', _, _, hp⟩ := hrch.same
  obtain ⟨pl, price, rec, e1, e2, e3, e4, e5, e6, e7⟩ := trade_result hr
  have hsp2 : s.method = .alpha → a'.supportPartial = false := fun hm => hsp'.trans (hsp hm)
  cases hex : pl.exec with
  | false =>
    refine ⟨p, rec, hp, e3, e4, by rw [e7, e6], fun _ => ?_, fun hc => ?_⟩
    · have := trade_dry e1 hex
      rwa [hr] at this
    · rw [e5, hex] at hc; cases hc
  | true =>
    obtain ⟨recs', rec', s'', f1, f2, f3, f4, f5, f6, f7, f8, f9, f10, f11⟩ := trade_ok h hL hx hsp2 e1 hex e2
    rw [hr] at f1
    simp only [Prod.mk.injEq, Except.ok.injEq] at f1
    obtain ⟨rfl, rfl⟩ := f1
    obtain ⟨r, _, hs, _⟩ := plan_sound h hx hsp2 e1
    refine ⟨p, rec', hp, f2, f3, by rw [f6, f5], fun hc => ?_, fun _ hu u hu2 => ?_⟩
    · rw [f4] at hc; cases hc
    · have hin := hs.inp
      have hout := hs.out
      have pos : 0 < rec'.amt1 ∧ 0 < rec'.amt2 := by
        rw [f9, f10]
        unfold sold bought
        have h1 := abs_pos.mpr hin.ne'
        have h2 := abs_pos.mpr hout.ne
        split_ifs
        · exact ⟨h1, h2⟩
        · exact ⟨h2, h1⟩
      refine ⟨pos.1, pos.2, ?_⟩
      rw [f5]
      refine f11 u ?_
      intro r k o hr' ho
      obtain ⟨m1, m2⟩ := List.mem_filter.mp ho
      unfold eligible at m2
      simp only [Bool.and_eq_true, Bool.or_eq_true, decide_eq_true_eq] at m2
      rw [f5] at hu
      rw [f6] at hu2
      rw [hu r k o hr' (Dict.get_of_mem h.ids.nodup m1) m2.1.1.1.2 m2.1.1.1.1, hu2]

/-- **C32** for every history: after sensible additions, orderly deletions and any trades, a trade conserves the tokens. -/
theorem C32_history_partial (pair : CarbonPair.Arg) (roe : Bool) (m : Method) (s : Sim ℝ) (hn : new pair roe m = .ok s)
    (ops : List (Op ℝ)) (hc : ∀ op ∈ ops, Careful m op) (ho : AllOrderly s ops) (buys : Bool) (a : TradeArgs ℝ)
    (hsp : m = .alpha → a.supportPartial = false) (recs : List (TradeRec ℝ)) (s' : Sim ℝ)
    (hr : (run s ops).call buys a = (.ok recs, s')) :
    ∃ p rec, (run s ops).getPair a.pair = .ok p ∧ rec ∈ recs ∧ rec.uid = ((run s ops).numtrades, none) ∧
      rec.tkn2 = p.other rec.tkn1 ∧ (rec.exec = false → s'.orders = (run s ops).orders) ∧
      (rec.exec = true → Unambiguous (run s ops) p rec.tkn1 → ∀ u, rec.tkn2 = some u → 0 < rec.amt1 ∧ 0 < rec.amt2 ∧
        ∀ t, holdings s' t = holdings (run s ops) t - (if rec.tkn1 = t then rec.amt1 else 0) +
          (if u = t then rec.amt2 else 0)) := by
  obtain ⟨h1, h2, h3, hm⟩ := new_healthy hn
  have hm' : (run s ops).method = m := by
    rw [← hm]
    clear hc ho hr hm h3 h1 hn
    induction ops generalizing s with
    | nil => rfl
    | cons op ops ih => exact (ih (step s op) (step_future s op h2)).trans (step_method s h2 op)
  exact C32_conservation_partial _ (run_healthy h2 h1 ops (by rwa [hm])) (run_links h2 h1.ids h3 ops ho) buys a
    (by rwa [hm']) recs s' hr

/-! ## C35: limits -/

/-- The effective price of a trade, in quote per base token, is within the limit: the AMM sells quote tokens for at least
the limit, or base tokens for at most the limit. -/
def Within (p : CarbonPair) (rec : TradeRec ℝ) (l : ℝ) : Prop :=
  if p.hasQuote rec.tkn1 then l ≤ rec.amt1 / rec.amt2 else p.hasBase rec.tkn1 = true ∧ rec.amt2 / rec.amt1 ≤ l

/-- The common part: a limit given by price or amount. -/
theorem limit_trade {s : Sim ℝ} (h : Healthy s) (hL : Links s) {buys byT : Bool} {a a' : TradeArgs ℝ} {p : CarbonPair}
    {tkn : Str} {x : ℝ} (hrch : Reaches s buys a p tkn x byT a') (hsp : s.method = .alpha → a.supportPartial = false)
    (hsw : (byT && decide (s.method = .fast)) = false) (hlim : a.limitPrice.isSome ∨ (a.limitAmt.isSome ∧ (p.other tkn).isSome)) :
    (s.trade p tkn x byT a').2.orders = s.orders ∨
    ∃ recs rec l, (s.trade p tkn x byT a').1 = .ok recs ∧ rec ∈ recs ∧ rec.uid = (s.numtrades, none) ∧ rec.tkn1 = tkn ∧
      limitOf p tkn x byT a' = .ok (some l) ∧ 0 < rec.amt1 ∧ 0 < rec.amt2 ∧ Within p rec l := by
  obtain ⟨hx, _, _, hsp', hlp, hla, hp⟩ := hrch.same
  have hsp2 : s.method = .alpha → a'.supportPartial = false := fun hm => hsp'.trans (hsp hm)
  cases e1 : s.plan p tkn x byT a' with
  | error e => left; unfold trade; rw [e1]
  | ok pl =>
    cases hex : pl.exec with
    | false => exact Or.inl (trade_dry e1 hex)
    | true =>
      right
      obtain ⟨limit, r, raw, h1, h2, h3, h4, h5, h6, h7, h8⟩ := plan_ok e1
      rcases h8 with ⟨hno, _⟩ | ⟨l, pr, rfl, hpr, hexec, _⟩
      · exfalso
        rw [hno] at h1
        unfold limitOf at h1
        rw [hlp, hla] at h1
        split at h1
        · rename_i hn
          rcases hlim with hl | hl
          · cases h1' : a.limitPrice with
            | none => rw [h1'] at hl; cases hl
            | some v => rw [h1'] at h1; cases h1
          · rw [hn] at hl; cases hl.1
        · rename_i L hLm
          by_cases hc : a.limitPrice.isSome = true
          · rw [if_pos hc] at h1; cases h1
          rw [if_neg hc] at h1
          rcases hlim with hl | hl
          · exact hc hl
          · rw [Py.bind_eq_ok] at h1
            obtain ⟨q, _, h1⟩ := h1
            obtain ⟨u, hu⟩ := Option.isSome_iff_exists.mp hl.2
            have htok : ∀ {t : Str}, p.hasToken t = true → p.convertPrice (some |q|) t ≠ .ok none := by
              intro t ht hc
              unfold CarbonPair.convertPrice at hc
              simp only [ht] at hc
              split_ifs at hc with c1 c2
              · cases c1
              · cases hc
              · rw [Py.bind_eq_ok] at hc
                obtain ⟨_, _, hc⟩ := hc
                cases hc
            cases byT with
            | true =>
              exact htok (hasToken_of_other hu) h1
            | false =>
              simp only [Bool.false_eq_true, if_false, hu] at h1
              exact htok (hasToken_of_other (other_other hu)) h1
      · have hlog : logPrice (byT && decide (s.method = .fast)) pl.price = .ok pr := by
          rw [hsw, hpr]; rfl
        obtain ⟨recs, rec, s', f1, f2, f3, f4, f5, f6, f7, f8, f9, f10, _⟩ := trade_ok h hL hx hsp2 e1 hex hlog
        obtain ⟨_, _, hs, _⟩ := plan_sound h hx hsp2 e1
        have hin := hs.inp
        have hout := hs.out
        rw [hsw] at f9 f10
        have a1 : rec.amt1 = -pl.last.totalOutput := by rw [f9]; exact abs_of_neg hout
        have a2 : rec.amt2 = pl.last.totalInput := by rw [f10]; exact abs_of_pos hin
        have p1 : 0 < rec.amt1 := by rw [a1]; linarith
        have p2 : 0 < rec.amt2 := by rw [a2]; exact hin
        have hraw : raw = rec.amt1 / rec.amt2 := by
          rw [pyDiv_ok hin.ne'] at h6
          rw [a1, a2]; exact (Except.ok.inj h6).symm
        refine ⟨recs, rec, l, by rw [f1], f2, f3, f5, h1, p1, p2, ?_⟩
        rw [hexec] at hex
        simp only [Bool.and_eq_true, beq_iff_eq] at hex
        have hmet := hex.2
        unfold CarbonPair.limitIsMet at hmet
        split_ifs at hmet with c1 c2
        all_goals
          have htk : p.hasToken tkn = true := by simpa using c1
          unfold CarbonPair.convertPrice at h7
          dsimp only at h7
          rw [if_neg c1] at h7
          unfold Within
          rw [f5]
        · split_ifs at h7 ⊢ with c3
          · rw [hpr] at h7
            rw [← hraw, ← c2]
            have := Option.some.inj (Except.ok.inj h7)
            exact this.ge
          · rw [hpr, hraw, pyDiv_ok (div_pos p1 p2).ne'] at h7
            have := Option.some.inj (Except.ok.inj h7)
            refine ⟨?_, ?_⟩
            · unfold CarbonPair.hasToken at htk
              rw [if_neg c3] at htk; exact htk
            · rw [one_div_div] at this
              rw [this, c2]
        · dsimp only at hmet
          split_ifs at h7 ⊢ with c3
          · rw [hpr] at h7
            rw [c3] at hmet
            simp at hmet
            have := Option.some.inj (Except.ok.inj h7)
            rw [← hraw]; linarith
          · rw [hpr, hraw, pyDiv_ok (div_pos p1 p2).ne'] at h7
            have := Option.some.inj (Except.ok.inj h7)
            have c3' : p.hasQuote tkn = false := by simpa using c3
            rw [c3'] at hmet
            simp at hmet
            refine ⟨?_, ?_⟩
            · unfold CarbonPair.hasToken at htk
              rw [if_neg c3] at htk; exact htk
            · rw [one_div_div] at this
              rw [this]; exact hmet.le

/-- **C35** In a healthy linked book, for every call with a limit price except sales by the fast router: either the book is
unchanged, or the trade was executed at an effective price within the limit. Missing: the fast router when the amount sold is
given (`C35_violated`). -/
theorem C35_limit_price_partial (s : Sim ℝ) (h : Healthy s) (hL : Links s) (buys : Bool) (a : TradeArgs ℝ)
    (hsp : s.method = .alpha → a.supportPartial = false) (hm : s.method = .fast → (buys = true ↔ 0 ≤ a.amt))
    (l : ℝ) (hl : a.limitPrice = some l) :
    (s.call buys a).2.orders = s.orders ∨
    ∃ p recs rec, s.getPair a.pair = .ok p ∧ (s.call buys a).1 = .ok recs ∧ rec ∈ recs ∧ rec.uid = (s.numtrades, none) ∧
      0 < rec.amt1 ∧ 0 < rec.amt2 ∧ Within p rec l := by
  rcases call_cases s buys a with ⟨e, he⟩ | ⟨p, tkn, x, byT, a', hrch, he⟩
  · left; rw [he]
  rw [he]
  have hsw : (byT && decide (s.method = .fast)) = false := by
    by_cases hf : s.method = .fast
    · have := hm hf
      cases hrch with
      | buys => rfl
      | sellsNeg => rfl
      | buysNeg h0 => exact absurd (this.mp rfl) (not_le.mpr h0)
      | sells h0 => exact absurd (this.mpr h0) (by simp)
    · simp [hf]
  rcases limit_trade h hL hrch hsp hsw (Or.inl (by rw [hl]; rfl)) with h1 | ⟨recs, rec, l', h1, h2, h3, h4, h5, h6, h7, h8⟩
  · exact Or.inl h1
  · right
    have : l' = l := by
      unfold limitOf at h5
      rw [hrch.same.2.2.2.2.1, hl] at h5
      split at h5
      · exact (Option.some.inj (Except.ok.inj h5)).symm
      · simp at h5
    subst this
    exact ⟨p, recs, rec, hrch.same.2.2.2.2.2.2, h1, h2, h3, h6, h7, h8⟩

/-- **C35** with a limit amount of the other token in place of the price: an executed trade is at least as good for the
trader as the given amounts. -/
theorem C35_limit_amt_partial (s : Sim ℝ) (h : Healthy s) (hL : Links s) (buys : Bool) (a : TradeArgs ℝ)
    (hsp : s.method = .alpha → a.supportPartial = false) (hm : s.method = .fast → (buys = true ↔ 0 ≤ a.amt))
    (L : ℝ) (hl : a.limitAmt = some L) (p : CarbonPair) (hp : s.getPair a.pair = .ok p) (hd : p.tknb ≠ p.tknq)
    (u : Str) (hu : p.other a.tkn = some u) :
    (s.call buys a).2.orders = s.orders ∨
    ∃ recs rec, (s.call buys a).1 = .ok recs ∧ rec ∈ recs ∧ rec.uid = (s.numtrades, none) ∧ 0 < rec.amt1 ∧ 0 < rec.amt2 ∧
      if (buys = true ↔ 0 ≤ a.amt) then rec.amt2 * |L| ≤ rec.amt1 * |a.amt| else rec.amt2 * |a.amt| ≤ rec.amt1 * |L| := by
  rcases call_cases s buys a with ⟨e, he⟩ | ⟨p', tkn, x, byT, a', hrch, he⟩
  · left; rw [he]
  rw [he]
  obtain ⟨_, hxa, _, _, _, hla, hp'⟩ := hrch.same
  rw [hp] at hp'
  cases hp'
  have hby : (buys = true ↔ 0 ≤ a.amt) ↔ byT = false := by
    cases hrch with
    | buys h0 => simp [h0]
    | sellsNeg h0 => simp [h0]
    | buysNeg h0 => simp [h0]
    | sells h0 => simp [h0]
  have hsw : (byT && decide (s.method = .fast)) = false := by
    by_cases hf : s.method = .fast
    · rw [hby.mp (hm hf)]; rfl
    · simp [hf]
  have hoth : (p.other tkn).isSome = true := by
    cases hrch with
    | buys h0 hp ho => rw [other_other ho]; rfl
    | sellsNeg h0 hp ho => rw [other_other ho]; rfl
    | buysNeg h0 => rw [hu]; rfl
    | sells h0 => rw [hu]; rfl
  obtain ⟨t', ht'⟩ := Option.isSome_iff_exists.mp hoth
  rcases limit_trade h hL hrch hsp hsw (Or.inr ⟨by rw [hl]; rfl, hoth⟩) with h1 | ⟨recs, rec, l', h1, h2, h3, h4, h5, h6, h7, h8⟩
  · exact Or.inl h1
  right
  refine ⟨recs, rec, h1, h2, h3, h6, h7, ?_⟩
  unfold limitOf at h5
  rw [hla, hl] at h5
  dsimp only at h5
  by_cases hc : a'.limitPrice.isSome = true
  · rw [if_pos hc] at h5; cases h5
  rw [if_neg hc, Py.bind_eq_ok] at h5
  obtain ⟨q, hq, h5⟩ := h5
  have hL0 : L ≠ 0 := by
    rintro rfl
    unfold pyDiv at hq
    rw [if_pos rfl] at hq; cases hq
  rw [pyDiv_ok hL0] at hq
  have hq' : |q| = |a.amt| / |L| := by
    rw [← hxa, ← Except.ok.inj hq, abs_div]
  have hLp := abs_pos.mpr hL0
  -- tokens: exactly one of `tkn`, `t'` is the quote token
  have htq : p.hasQuote tkn = true ↔ p.hasQuote t' = false := by
    unfold CarbonPair.other CarbonPair.hasBase CarbonPair.hasQuote at ht'
    unfold CarbonPair.hasQuote
    split_ifs at ht' with c1 c2
    · simp only [decide_eq_true_eq] at c1
      cases ht'
      simp only [decide_eq_true_eq, decide_true, Bool.true_eq_false, iff_false]
      rw [c1]; exact hd
    · simp only [decide_eq_true_eq] at c2
      cases ht'
      simp [c2, hd]
  have hconv : ∀ {t : Str} {y l : ℝ}, p.hasToken t = true → p.convertPrice (some y) t = .ok (some l) →
      (p.hasQuote t = true ∧ l = y) ∨ (p.hasQuote t = false ∧ y ≠ 0 ∧ l = 1 / y) := by
    intro t y l ht hc
    unfold CarbonPair.convertPrice at hc
    dsimp only at hc
    rw [if_neg (by simp [ht])] at hc
    split_ifs at hc with c3
    · exact Or.inl ⟨c3, (Option.some.inj (Except.ok.inj hc)).symm⟩
    · right
      by_cases hy : y = 0
      · subst hy
        unfold pyDiv at hc
        rw [if_pos rfl] at hc; cases hc
      · rw [pyDiv_ok hy] at hc
        exact ⟨by simpa using c3, hy, (Option.some.inj (Except.ok.inj hc)).symm⟩
  unfold Within at h8
  rw [h4] at h8
  cases byT with
  | true =>
    rw [if_neg (by rw [hby]; simp)]
    rw [if_pos rfl] at h5
    dsimp only at h5
    rcases hconv (hasToken_of_other ht') h5 with ⟨c1, rfl⟩ | ⟨c1, c2, rfl⟩
    · rw [if_pos c1, hq', div_le_div_iff₀ hLp h7] at h8
      linarith
    · rw [if_neg (by simp [c1]), hq', one_div_div] at h8
      have hx0 : 0 < |a.amt| := by
        rcases (abs_nonneg a.amt).eq_or_lt with h0 | h0
        · rw [hq', ← h0, zero_div] at c2; exact absurd rfl c2
        · exact h0
      have := (div_le_div_iff₀ h6 hx0).mp h8.2
      linarith
  | false =>
    rw [if_pos (hby.mpr rfl)]
    rw [if_neg (by simp), ht'] at h5
    dsimp only at h5
    rcases hconv (hasToken_of_other (other_other ht')) h5 with ⟨c1, rfl⟩ | ⟨c1, c2, rfl⟩
    · have c3 : ¬ p.hasQuote tkn = true := by rw [htq]; simp [c1]
      rw [if_neg c3, hq'] at h8
      have := (div_le_div_iff₀ h6 hLp).mp h8.2
      linarith
    · rw [if_pos (htq.mpr c1), hq', one_div_div] at h8
      have hx0 : 0 < |a.amt| := by
        rcases (abs_nonneg a.amt).eq_or_lt with h0 | h0
        · rw [hq', ← h0, zero_div] at c2; exact absurd rfl c2
        · exact h0
      have := (div_le_div_iff₀ hx0 h7).mp h8
      linarith

/-! ## Violations, on concrete books -/

/-- **C33** fails for a strategy with a negative amount: it is stored with negative holdings. -/
theorem C33_negative_violated :
    ((run (sim0 .exact) [.add { strat with amtSell := some (-5) }]).orders.map fun e => e.2.curve.y) = [-5, 10] := by
  decide +kernel

/-- **C33** fails for a marginal price outside of the range (the range is 4..9, the marginal price 1): the holdings exceed the
capacity. -/
theorem C33_marginal_violated :
    ((run (sim0 .exact) [.add { strat with psellMarginal := some 1 }]).orders.map fun e => (e.2.curve.y, e.2.curve.yint)) =
      [(10, 5 / 2), (10, 10)] := by
  decide +kernel

/-- **C33** fails for an amount and a marginal price without a range: the order has holdings and no capacity. -/
theorem C33_disabled_violated :
    ((run (sim0 .exact) [.add { tkn := "ETH".toList, amtSell := some 10, psellMarginal := some 4 }]).orders.map
      fun e => (e.2.curve.y, e.2.curve.yint)) = [(10, 0), (0, 0)] := by
  decide +kernel

/-- **C33** fails for a partial match by the alpha router in a book with less than 1e-10 in total: the correction by 1e-10
changes the sign of the amount, and the order ends up with negative holdings. -/
theorem C33_dust_violated :
    ((run (sim0 .alpha) [.add { strat with amtSell := some (1 / 10 ^ 11), psellStart := some 1, psellEnd := some 16 },
      .sells { tkn := "ETH".toList, amt := 1, supportPartial := true }]).orders.map fun e => decide (e.2.curve.y < 0)) =
      [true, false] := by
  decide +kernel

/-- A strategy on the pair `A/BA`, which has the same name, `ABA`, as the pair `AB/A`. -/
def ambiguous : StrategyArgs ℚ := { strat with tkn := "A".toList, pair := .str "A/BA".toList }

/-- **C32** fails for pairs with the same name: the trade on `AB/A` reports the token `AB` as received, but the holdings of
`AB` are unchanged and those of `BA` go up. -/
theorem C32_violated :
    let s := run (sim0 .fast) [.add ambiguous]
    let r := s.ammSells { tkn := "A".toList, amt := 2, pair := .str "AB/A".toList }
    ((r.1.toOption.getD []).map fun rec => (rec.tkn2, rec.exec, rec.amt2)) =
        [(some "AB".toList, true, 60 / 7), (some "AB".toList, true, 60 / 7)] ∧
      holdings r.2 "AB".toList = holdings s "AB".toList ∧
      holdings r.2 "BA".toList = holdings s "BA".toList + 60 / 7 := by
  decide +kernel

/-- **C36** fails for pairs with the same name: a trade on `AB/A` changes the orders on `A/BA`. -/
theorem C36_name_violated :
    let s := run (sim0 .fast) [.add ambiguous]
    (s.orders.map fun e => (e.2.pair.tknb, e.2.pair.tknq)) = [("A".toList, "BA".toList), ("A".toList, "BA".toList)] ∧
      ((s.ammSells { tkn := "A".toList, amt := 2, pair := .str "AB/A".toList }).2.orders.map fun e => e.2.curve.y) ≠
        s.orders.map fun e => e.2.curve.y := by
  decide +kernel

/-- **C36** fails for negative amounts: with no position allowed the trade is executed all the same. The same trade asked for
as a sale is refused. -/
theorem C36_positions_violated :
    let s := run (sim0 .fast) [.add strat]
    ((s.ammBuys { tkn := "ETH".toList, amt := -2, usePositions := some [] }).2.orders.map fun e => e.2.curve.y) =
        [8, 130 / 7] ∧
      ((s.ammSells { tkn := "ETH".toList, amt := 2, usePositions := some [] }).2.orders.map fun e => e.2.curve.y) =
        [10, 10] := by
  decide +kernel

/-- **C35** fails for sales by the fast router: 2 ETH are sold at most at a price of 1, and the trade is executed at 30/7. -/
theorem C35_violated :
    let r := (run (sim0 .fast) [.add strat]).ammSells { tkn := "ETH".toList, amt := 2, limitPrice := some 1 }
    ((r.1.toOption.getD []).map fun rec => (rec.exec, rec.tkn1, rec.amt1, rec.amt2, decide (1 < rec.amt2 / rec.amt1))) =
      [(true, "ETH".toList, 2, 60 / 7, true), (true, "ETH".toList, 2, 60 / 7, true)] := by
  decide +kernel

/-! ## Concrete histories -/

/-- Two trades on two strategies: holdings stay within the capacity. -/
example :
    ((run (sim0 .fast) [.add strat, .add strat, .sells { tkn := "ETH".toList, amt := 2 },
      .buys { tkn := "ETH".toList, amt := 1 }]).orders.map fun e => decide (0 ≤ e.2.curve.y ∧ e.2.curve.y ≤ e.2.curve.yint)) =
      [true, true, true, true] := by
  decide +kernel

/-- The trade itself is not trivial: it changes the book, and its dry run does not. -/
example :
    let s := run (sim0 .fast) [.add strat]
    ((s.call false { tkn := "ETH".toList, amt := 2 }).2.orders.map fun e => e.2.curve.y) = [8, 130 / 7] ∧
      ((s.call false { tkn := "ETH".toList, amt := 2, execute := false }).2.orders.map fun e => e.2.curve.y) = [10, 10] := by
  decide +kernel

/-- Only the allowed position, and the order linked to it, are changed. -/
example :
    let s := run (sim0 .fast) [.add strat, .add strat]
    ((s.call false { tkn := "ETH".toList, amt := 2, usePositions := some [2] }).2.orders.map fun e => e.2.curve.y) =
      [10, 10, 8, 130 / 7] := by
  decide +kernel

/-- Conservation: 2 ETH less, 60/7 USDC more. -/
example :
    let s := run (sim0 .fast) [.add strat]
    let s' := (s.call false { tkn := "ETH".toList, amt := 2 }).2
    holdings s' "ETH".toList = holdings s "ETH".toList - 2 ∧ holdings s' "USDC".toList = holdings s "USDC".toList + 60 / 7 := by
  decide +kernel

/-- The trader sells 1 ETH at 20/21: a limit of 1/10 is met, one of 10 is not. -/
example :
    let s := run (sim0 .fast) [.add strat]
    ((s.call true { tkn := "ETH".toList, amt := 1, limitPrice := some (1 / 10) }).2.orders.map fun e => e.2.curve.y) =
        [11, 190 / 21] ∧
      ((s.call true { tkn := "ETH".toList, amt := 1, limitPrice := some 10 }).2.orders.map fun e => e.2.curve.y) =
        [10, 10] := by
  decide +kernel

/-- A sensible strategy over the reals. -/
example : Sensible { tkn := "ETH".toList, amtSell := some 10, psellStart := some 4, psellEnd := some 9 } := by
  unfold Sensible SensibleSide
  simp

end Carbon.Sim
