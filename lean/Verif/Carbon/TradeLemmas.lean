import Verif.Carbon.RouteContract
import Verif.Prop.SimBook

/-!
# Lemmas about `_trade`
-/

set_option linter.unusedSectionVars false

namespace Carbon.Sim

open CarbonPair (pyDiv)

section Generic
variable {K : Type} [Field K] [LinearOrder K] [PySqrt K]

theorem plan_ok {s : Sim K} {p : CarbonPair} {tkn : Str} {amt : K} {byTarget : Bool} {a : TradeArgs K} {pl : Plan K}
    (h : s.plan p tkn amt byTarget a = .ok pl) :
    ∃ limit r raw, limitOf p tkn amt byTarget a = .ok limit ∧ p.reverse = .ok r ∧
      route s.method ((s.applicable p r tkn a.usePositions).map fun e => e.2.curve) amt byTarget a.threshold a.supportPartial
        = .ok pl.routes ∧
      pl.routes.getLast? = some pl.last ∧ pl.ids = (s.applicable p r tkn a.usePositions).map (fun e => e.2.id) ∧
      pyDiv (-pl.last.totalOutput) pl.last.totalInput = .ok raw ∧ p.convertPrice (some raw) tkn = .ok pl.price ∧
      ((limit = none ∧ pl.exec = a.execute ∧ pl.limitfail = none) ∨
        ∃ l pr, limit = some l ∧ pl.price = some pr ∧
          pl.exec = (a.execute && (p.limitIsMet tkn l .buy pr == some true)) ∧
          pl.limitfail = some (!(p.limitIsMet tkn l .buy pr == some true))) := by
  unfold plan at h
  rw [Py.bind_eq_ok] at h
  obtain ⟨limit, h1, h⟩ := h
  rw [Py.bind_eq_ok] at h
  obtain ⟨r, h2, h⟩ := h
  split_ifs at h
  dsimp only at h
  rw [Py.bind_eq_ok] at h
  obtain ⟨routes, h3, h⟩ := h
  split at h
  · cases h
  · rename_i last h4
    rw [Py.bind_eq_ok] at h
    obtain ⟨raw, h5, h⟩ := h
    rw [Py.bind_eq_ok] at h
    obtain ⟨price, h6, h⟩ := h
    refine ⟨limit, r, raw, h1, h2, ?_⟩
    cases limit with
    | none =>
      dsimp only at h
      cases h
      exact ⟨h3, h4, rfl, h5, h6, Or.inl ⟨rfl, rfl, rfl⟩⟩
    | some l =>
      cases price with
      | none => cases h
      | some pr =>
        dsimp only at h
        cases h
        exact ⟨h3, h4, rfl, h5, h6, Or.inr ⟨l, pr, rfl, rfl, rfl, rfl⟩⟩

/-- A dry run changes no order. -/
theorem runRoutes_dry {p : CarbonPair} {tkn : Str} {swap : Bool} {pl : Plan K} (he : pl.exec = false) (s : Sim K)
    (ct : Nat) (l : List (Action K)) : (runRoutes p tkn swap pl s ct l).2.orders = s.orders := by
  induction l generalizing s ct with
  | nil => rfl
  | cons a l ih =>
    unfold runRoutes
    rw [he]
    split
    · rfl
    · dsimp only
      split
      · rename_i h; cases h
      · rename_i s1 h
        cases h
        split
        · rfl
        · rw [ih]

theorem trade_dry {s : Sim K} {p : CarbonPair} {tkn : Str} {amt : K} {byTarget : Bool} {a : TradeArgs K} {pl : Plan K}
    (h : s.plan p tkn amt byTarget a = .ok pl) (he : pl.exec = false) :
    (s.trade p tkn amt byTarget a).2.orders = s.orders := by
  unfold trade
  rw [h]
  dsimp only
  have h1 := runRoutes_dry (p := p) (tkn := tkn) (swap := byTarget && decide (s.method = .fast)) he s 0 pl.routes
  generalize runRoutes p tkn (byTarget && decide (s.method = .fast)) pl s 0 pl.routes = r at h1
  obtain ⟨r, s1⟩ := r
  cases r with
  | error e => exact h1
  | ok _ =>
    dsimp only
    split <;> exact h1

/-- The orders a route changes. -/
theorem execRoute_get (swap : Bool) (s : Sim K) (k : Nat) (a : Action K) (j : Nat)
    (h : Dict.get (execRoute swap s k a).2.orders j ≠ Dict.get s.orders j) :
    ∃ o, Dict.get s.orders k = some o ∧ (j = k ∨ o.linked = j) := by
  unfold execRoute at h
  split at h
  · exact absurd rfl h
  · rename_i o ho
    refine ⟨o, ho, ?_⟩
    by_contra hc
    rw [not_or] at hc
    apply h
    dsimp only
    have e : Dict.get (Dict.set s.orders k (debit o (sold swap a.input a.output))) j = Dict.get s.orders j := by
      rw [Dict.get_set, if_neg hc.1]
    split_ifs
    · exact e
    · split
      · exact e
      · show Dict.get (Dict.set _ _ _) j = _
        rw [Dict.get_set, if_neg (fun e => hc.2 e.symm)]
        exact e

theorem runRoutes_touched {p : CarbonPair} {tkn : Str} {swap : Bool} {pl : Plan K} (l : List (Action K)) (s : Sim K)
    (ct : Nat) (j : Nat) (h : Dict.get (runRoutes p tkn swap pl s ct l).2.orders j ≠ Dict.get s.orders j) :
    ∃ a ∈ l, ∃ k, pl.ids[a.index]? = some k ∧ ∃ o, Dict.get s.orders k = some o ∧ (j = k ∨ o.linked = j) := by
  induction l generalizing s ct with
  | nil => exact absurd rfl h
  | cons a l ih =>
    unfold runRoutes at h
    split at h
    · exact absurd rfl h
    · rename_i k hk
      have h1 : (if pl.exec then execRoute swap s k a else (.ok (), s)) = execRoute swap s k a ∨
          (if pl.exec then execRoute swap s k a else (.ok (), s)) = (.ok (), s) := by
        split_ifs
        · exact Or.inl rfl
        · exact Or.inr rfl
      have fr : Frame s (if pl.exec then execRoute swap s k a else (.ok (), s)).2 := by
        rcases h1 with h1 | h1 <;> rw [h1]
        · exact execRoute_frame swap s k a
        · exact Frame.refl s
      have ex : Dict.get (if pl.exec then execRoute swap s k a else (.ok (), s)).2.orders j ≠ Dict.get s.orders j →
          ∃ o, Dict.get s.orders k = some o ∧ (j = k ∨ o.linked = j) := by
        rcases h1 with h1 | h1 <;> rw [h1]
        · exact execRoute_get swap s k a j
        · exact fun h => absurd rfl h
      generalize (if pl.exec then execRoute swap s k a else (.ok (), s)) = r at h fr ex
      obtain ⟨r, s1⟩ := r
      have here : Dict.get s1.orders j ≠ Dict.get s.orders j → ∃ b ∈ a :: l, ∃ k, pl.ids[b.index]? = some k ∧
          ∃ o, Dict.get s.orders k = some o ∧ (j = k ∨ o.linked = j) := fun h => by
        obtain ⟨o, ho⟩ := ex h
        exact ⟨a, List.mem_cons_self, k, hk, o, ho⟩
      cases r with
      | error e => exact here h
      | ok _ =>
        dsimp only at h
        split at h
        · exact here h
        · by_cases h2 : Dict.get s1.orders j = Dict.get s.orders j
          · rw [← h2] at h
            obtain ⟨b, hb, k', hk', o', ho', hj⟩ := ih _ _ h
            have hf := fr.get k'
            rw [ho'] at hf
            cases e : Dict.get s.orders k' with
            | none => rw [e] at hf; cases hf
            | some o =>
              rw [e] at hf
              simp only [Option.map_some, Option.some.injEq] at hf
              have el : o'.linked = o.linked := congrArg Label.linked hf
              exact ⟨b, List.mem_cons_of_mem _ hb, k', hk', o, e, by rwa [← el]⟩
          · exact here h2

/-- The orders a trade changes are applicable ones and those linked to them. -/
theorem trade_touched {s : Sim K} (hi : Ids s) {p : CarbonPair} {tkn : Str} {amt : K} {byTarget : Bool} {a : TradeArgs K}
    {j : Nat} (h : Dict.get (s.trade p tkn amt byTarget a).2.orders j ≠ Dict.get s.orders j) :
    ∃ r k o, p.reverse = .ok r ∧ (k, o) ∈ s.applicable p r tkn a.usePositions ∧ Dict.get s.orders k = some o ∧
      (j = k ∨ o.linked = j) := by
  unfold trade at h
  split at h
  · exact absurd rfl h
  · rename_i pl hpl
    dsimp only at h
    obtain ⟨_, r, _, _, hr, _, _, hids, _⟩ := plan_ok hpl
    have h' : Dict.get (runRoutes p tkn (byTarget && decide (s.method = .fast)) pl s 0 pl.routes).2.orders j ≠
        Dict.get s.orders j := by
      generalize runRoutes p tkn (byTarget && decide (s.method = .fast)) pl s 0 pl.routes = q at h
      obtain ⟨q, s1⟩ := q
      cases q with
      | error e => exact h
      | ok _ =>
        dsimp only at h
        split at h <;> exact h
    obtain ⟨b, _, k, hk, o, ho, hj⟩ := runRoutes_touched _ _ _ _ h'
    have hm : k ∈ pl.ids := List.mem_of_getElem? hk
    rw [hids] at hm
    obtain ⟨⟨k', o'⟩, hm', e⟩ := List.mem_map.mp hm
    have hmem := (List.mem_filter.mp hm').1
    have hown := hi.own _ _ hmem
    simp only at e hown
    have hk' : k' = k := by rw [← hown, e]
    subst hk'
    have := Dict.get_of_mem hi.nodup hmem
    rw [ho] at this
    cases this
    exact ⟨r, k', o, hr, hm', ho, hj⟩

/-- The total holdings of a token. -/
def holdings (s : Sim K) (t : Str) : K := (s.orders.map fun e => if e.2.tkn = t then e.2.curve.y else 0).sum

theorem holdings_congr {s s' : Sim K} (h : s'.orders = s.orders) (t : Str) : holdings s' t = holdings s t := by
  unfold holdings; rw [h]

/-- One route with both orders present. -/
theorem execRoute_ok {swap : Bool} {s : Sim K} {k : Nat} {a : Action K} {o l : SOrder K} (hk : Dict.get s.orders k = some o)
    (hne : o.linked ≠ k) (hl : Dict.get s.orders o.linked = some l) :
    ∃ s1, execRoute swap s k a = (.ok (), s1) ∧
      s1.orders = Dict.set (Dict.set s.orders k (debit o (sold swap a.input a.output))) o.linked (credit l (bought swap a.input a.output)) ∧
      s1.trades = s.trades ∧ s1.numtrades = s.numtrades ∧
      ∀ t, holdings s1 t = holdings s t - (if o.tkn = t then sold swap a.input a.output else 0) +
        (if l.tkn = t then bought swap a.input a.output else 0) := by
  have hl1 : Dict.get (Dict.set s.orders k (debit o (sold swap a.input a.output))) o.linked = some l := by
    rw [Dict.get_set, if_neg hne, hl]
  refine ⟨{ s with orders := Dict.set (Dict.set s.orders k (debit o (sold swap a.input a.output))) o.linked (credit l (bought swap a.input a.output)) }, ?_, rfl, rfl, rfl, ?_⟩
  · unfold execRoute
    rw [hk]
    dsimp only
    rw [if_neg hne, hl1]
  · intro t
    unfold holdings
    dsimp only
    rw [Dict.sum_set _ hl1, Dict.sum_set _ hk]
    have e1 : (credit l (bought swap a.input a.output)).tkn = l.tkn := rfl
    have e2 : (debit o (sold swap a.input a.output)).tkn = o.tkn := rfl
    have e3 : (credit l (bought swap a.input a.output)).curve.y = l.curve.y + bought swap a.input a.output := rfl
    have e4 : (debit o (sold swap a.input a.output)).curve.y = o.curve.y - sold swap a.input a.output := rfl
    simp only [e1, e2, e3, e4]
    split_ifs <;> ring

/-- The loop over the routes with a linked book and a price: it succeeds, and the holdings change by the sums. -/
theorem runRoutes_ok {p : CarbonPair} {tkn : Str} {swap : Bool} {pl : Plan K} {price : K} (hx : pl.exec = true)
    (hp : logPrice swap pl.price = .ok price) (l : List (Action K)) (s : Sim K) (ct : Nat) (hL : Links s)
    (hk : ∀ a ∈ l, ∃ k o, pl.ids[a.index]? = some k ∧ Dict.get s.orders k = some o ∧ o.tkn = tkn) :
    ∃ s1, runRoutes p tkn swap pl s ct l = (.ok (), s1) ∧ s1.numtrades = s.numtrades ∧ Frame s s1 ∧
      ∀ t2, (∀ a ∈ l, ∀ k o, pl.ids[a.index]? = some k → Dict.get s.orders k = some o → o.pair.other tkn = some t2) →
      ∀ t, holdings s1 t = holdings s t - (if tkn = t then (l.map fun a => sold swap a.input a.output).sum else 0) +
        (if t2 = t then (l.map fun a => bought swap a.input a.output).sum else 0) := by
  induction l generalizing s ct with
  | nil => exact ⟨s, rfl, rfl, Frame.refl s, fun t2 _ t => by simp⟩
  | cons a l ih =>
    obtain ⟨k, o, hki, hko, hot⟩ := hk a List.mem_cons_self
    obtain ⟨hne, lo, hlo, _, _, hoth, _⟩ := hL k o hko
    obtain ⟨s1, h1, h2, h3, h4, h5⟩ := execRoute_ok (swap := swap) (a := a) hko hne hlo
    have fr : Frame s s1 := by
      have := execRoute_frame swap s k a
      rwa [h1] at this
    have key : ∀ {j : Nat} {q : SOrder K}, Dict.get s1.orders j = some q → ∃ q', Dict.get s.orders j = some q' ∧
        q.tkn = q'.tkn ∧ q.pair = q'.pair := by
      intro j q hq
      have hf := fr.get j
      rw [hq] at hf
      cases e : Dict.get s.orders j with
      | none => rw [e] at hf; cases hf
      | some q' =>
        rw [e] at hf
        simp only [Option.map_some, Option.some.injEq] at hf
        exact ⟨q', rfl, congrArg Label.tkn hf, congrArg Label.pair hf⟩
    have key' : ∀ {j : Nat} {q : SOrder K}, Dict.get s.orders j = some q → ∃ q', Dict.get s1.orders j = some q' ∧
        q'.tkn = q.tkn := by
      intro j q hq
      have hf := fr.get j
      rw [hq] at hf
      cases e : Dict.get s1.orders j with
      | none => rw [e] at hf; cases hf
      | some q' =>
        rw [e] at hf
        simp only [Option.map_some, Option.some.injEq] at hf
        exact ⟨q', rfl, congrArg Label.tkn hf⟩
    generalize hs2 : ({ s1 with trades := Dict.set s1.trades (s1.numtrades, some ct) ⟨(s1.numtrades, some ct), pl.exec, false, pl.limitfail, sold swap a.input a.output, tkn,
      bought swap a.input a.output, p.other tkn, p.pairIso, [k], price⟩ } : Sim K) = s2
    have ho2 : s2.orders = s1.orders := by rw [← hs2]
    have fr2 : Frame s1 s2 := by rw [← hs2]; exact ⟨rfl, rfl, rfl, rfl, rfl, rfl⟩
    obtain ⟨s3, e1, e2, e3, e4⟩ := ih s2 (ct + 1) ((hL.of_frame fr).of_frame fr2) (by
        intro b hb
        obtain ⟨k', o', c1, c2, c3⟩ := hk b (List.mem_cons_of_mem _ hb)
        obtain ⟨q, d1, d2⟩ := key' c2
        exact ⟨k', q, c1, by rw [ho2]; exact d1, d2.trans c3⟩)
    refine ⟨s3, ?_, ?_, (fr.trans fr2).trans e3, ?_⟩
    · unfold runRoutes
      rw [hki]
      dsimp only
      rw [hx, if_pos rfl, h1]
      dsimp only
      rw [hp]
      dsimp only
      rw [hx] at hs2
      rw [hs2]
      exact e1
    · rw [e2, ← hs2]; exact h4
    · intro t2 ht t
      have hlt : lo.tkn = t2 := by
        have := ht a List.mem_cons_self k o hki hko
        rw [hot] at hoth
        rw [hoth] at this
        exact Option.some.inj this
      rw [e4 t2 (by
        intro b hb k' o' c1 c2
        rw [ho2] at c2
        obtain ⟨q, d1, d2, d3⟩ := key c2
        rw [d3]
        exact ht b (List.mem_cons_of_mem _ hb) k' q c1 d1), holdings_congr ho2, h5, hot, hlt]
      simp only [List.map_cons, List.sum_cons]
      split_ifs <;> ring

end Generic

/-! ## Healthy books -/

/-- The stored numbers of an order with a price range fit together. -/
structure Shape (c : Curve ℝ) : Prop where
  hB : 0 < c.B
  hS : 0 ≤ c.S
  hpl : c.plow = c.B ^ 2
  hph : c.phigh = (c.B + c.S) ^ 2
  hadj : c.adjN = decide (c.phigh = c.plow)

theorem Shape.good {c : Curve ℝ} (h : Shape c) (h0 : 0 < c.y) (h1 : c.y ≤ c.yint) : c.Good :=
  ⟨h.hB, h.hS, lt_of_lt_of_le h0 h1, h1, h0.le, h.hpl, h.hph, h.hadj⟩

/-- Every order holds something between nothing and its capacity, and the enabled orders are well formed. -/
structure Healthy (s : Sim ℝ) : Prop where
  ids : Ids s
  bal : ∀ k o, Dict.get s.orders k = some o → 0 ≤ o.curve.y ∧ o.curve.y ≤ o.curve.yint
  shape : ∀ k o, Dict.get s.orders k = some o → o.disabled = false → Shape o.curve

/-- The routes are executable in the state: for distinct orders, each of which holds what it is to sell. -/
structure Ready (swap : Bool) (ids : List Nat) (s : Sim ℝ) (l : List (Action ℝ)) : Prop where
  distinct : l.Pairwise fun a b => ∀ k, ids[a.index]? = some k → ids[b.index]? ≠ some k
  each : ∀ a ∈ l, ∃ k o, ids[a.index]? = some k ∧ Dict.get s.orders k = some o ∧ 0 < sold swap a.input a.output ∧
    sold swap a.input a.output ≤ o.curve.y ∧ 0 < bought swap a.input a.output

theorem debit_shape {o : SOrder ℝ} (h : Shape o.curve) (v : ℝ) : Shape (debit o v).curve := ⟨h.1, h.2, h.3, h.4, h.5⟩

theorem credit_shape {o : SOrder ℝ} (h : Shape o.curve) (v : ℝ) : Shape (credit o v).curve := ⟨h.1, h.2, h.3, h.4, h.5⟩

theorem credit_bal {o : SOrder ℝ} (h : 0 ≤ o.curve.y ∧ o.curve.y ≤ o.curve.yint) {v : ℝ} (hv : 0 ≤ v) :
    0 ≤ (credit o v).curve.y ∧ (credit o v).curve.y ≤ (credit o v).curve.yint := by
  unfold credit
  dsimp only
  refine ⟨by linarith [h.1], ?_⟩
  split_ifs with h1
  · exact le_rfl
  · exact not_lt.mp h1

theorem Healthy.set {s : Sim ℝ} (h : Healthy s) {k : Nat} {o o' : SOrder ℝ} (hk : Dict.get s.orders k = some o)
    (hl : label o' = label o) (hb : 0 ≤ o'.curve.y ∧ o'.curve.y ≤ o'.curve.yint)
    (hs : Shape o.curve → Shape o'.curve) : Healthy { s with orders := Dict.set s.orders k o' } := by
  have fr : Frame s { s with orders := Dict.set s.orders k o' } := ⟨Dict.map_set _ hk (by rw [hl]), rfl, rfl, rfl, rfl, rfl⟩
  refine ⟨h.ids.of_frame fr, ?_, ?_⟩
  · intro j q hq
    have hq' : Dict.get (Dict.set s.orders k o') j = some q := hq
    rw [Dict.get_set] at hq'
    split_ifs at hq' with hj
    · cases hq'; exact hb
    · exact h.bal j q hq'
  · intro j q hq hd
    have hq' : Dict.get (Dict.set s.orders k o') j = some q := hq
    rw [Dict.get_set] at hq'
    split_ifs at hq' with hj
    · cases hq'
      have : o.disabled = false := by
        rw [← hd]; exact (congrArg Label.disabled hl).symm
      exact hs (h.shape k o hk this)
    · exact h.shape j q hq' hd

theorem execRoute_healthy {swap : Bool} {s : Sim ℝ} (h : Healthy s) {ids : List Nat} {a : Action ℝ} {l : List (Action ℝ)}
    (hr : Ready swap ids s (a :: l)) {k : Nat} (hk : ids[a.index]? = some k) :
    Healthy (execRoute swap s k a).2 ∧ Ready swap ids (execRoute swap s k a).2 l := by
  obtain ⟨k', o, e1, e2, e3, e4, e5⟩ := hr.each a List.mem_cons_self
  rw [hk] at e1
  cases e1
  obtain ⟨d1, d2⟩ := List.pairwise_cons.mp hr.distinct
  have rdy : ∀ s' : Sim ℝ, (∀ j q, j ≠ k → Dict.get s.orders j = some q → ∃ q', Dict.get s'.orders j = some q' ∧ q.curve.y ≤ q'.curve.y) →
      Ready swap ids s' l := by
    intro s' hm
    refine ⟨d2, fun b hb => ?_⟩
    obtain ⟨j, q, c1, c2, c3, c4, c5⟩ := hr.each b (List.mem_cons_of_mem _ hb)
    have hj : j ≠ k := by
      rintro rfl
      exact d1 b hb j hk c1
    obtain ⟨q', f1, f2⟩ := hm j q hj c2
    exact ⟨j, q', c1, f1, c3, c4.trans f2, c5⟩
  have hb := h.bal k o e2
  have h1 : Healthy { s with orders := Dict.set s.orders k (debit o (sold swap a.input a.output)) } := by
    refine h.set e2 rfl ?_ fun hs => debit_shape hs _
    unfold debit
    dsimp only
    constructor <;> linarith [hb.1, hb.2]
  have g1 : ∀ j q, j ≠ k → Dict.get s.orders j = some q →
      Dict.get (Dict.set s.orders k (debit o (sold swap a.input a.output))) j = some q := by
    intro j q hj hq
    rw [Dict.get_set, if_neg hj, hq]
  have r1 : Ready swap ids { s with orders := Dict.set s.orders k (debit o (sold swap a.input a.output)) } l :=
    rdy _ fun j q hj hq => ⟨q, g1 j q hj hq, le_rfl⟩
  unfold execRoute
  rw [e2]
  dsimp only
  split_ifs with hl
  · exact ⟨h1, r1⟩
  · split
    · exact ⟨h1, r1⟩
    · rename_i lo hlo
      refine ⟨h1.set hlo rfl (credit_bal (h1.bal _ _ hlo) e5.le) fun hs => credit_shape hs _, rdy _ fun j q hj hq => ?_⟩
      show ∃ q', Dict.get (Dict.set _ _ _) j = some q' ∧ _
      rw [Dict.get_set]
      split_ifs with hjl
      · refine ⟨_, rfl, ?_⟩
        have := g1 j q hj hq
        rw [hjl, hlo] at this
        cases this
        show lo.curve.y ≤ lo.curve.y + _
        linarith
      · exact ⟨q, g1 j q hj hq, le_rfl⟩

theorem Healthy.congr {s s' : Sim ℝ} (h : Healthy s) (fr : Frame s s') (ho : s'.orders = s.orders) : Healthy s' :=
  ⟨h.ids.of_frame fr, by rw [ho]; exact h.bal, by rw [ho]; exact h.shape⟩

theorem runRoutes_healthy {p : CarbonPair} {tkn : Str} {swap : Bool} {pl : Plan ℝ} (l : List (Action ℝ)) (s : Sim ℝ)
    (ct : Nat) (h : Healthy s) (hr : Ready swap pl.ids s l) : Healthy (runRoutes p tkn swap pl s ct l).2 := by
  induction l generalizing s ct with
  | nil => exact h
  | cons a l ih =>
    unfold runRoutes
    split
    · exact h
    · rename_i k hk
      have h1 : Healthy (if pl.exec then execRoute swap s k a else (.ok (), s)).2 ∧
          Ready swap pl.ids (if pl.exec then execRoute swap s k a else (.ok (), s)).2 l := by
        split_ifs
        · exact execRoute_healthy h hr hk
        · exact ⟨h, (List.pairwise_cons.mp hr.distinct).2, fun b hb => hr.each b (List.mem_cons_of_mem _ hb)⟩
      generalize (if pl.exec then execRoute swap s k a else (.ok (), s)) = r at h1
      obtain ⟨r, s1⟩ := r
      obtain ⟨h1, h2⟩ := h1
      cases r with
      | error e => exact h1
      | ok _ =>
        dsimp only
        split
        · exact h1
        · exact ih _ _ (h1.congr ⟨rfl, rfl, rfl, rfl, rfl, rfl⟩ rfl) ⟨h2.1, h2.2⟩

/-- In a healthy book everything a router returns can be executed. -/
theorem plan_sound {s : Sim ℝ} (h : Healthy s) {p : CarbonPair} {tkn : Str} {amt : ℝ} {byTarget : Bool} {a : TradeArgs ℝ}
    {pl : Plan ℝ} (hx : if byTarget then amt ≤ 0 else 0 ≤ amt) (hsp : s.method = .alpha → a.supportPartial = false)
    (hpl : s.plan p tkn amt byTarget a = .ok pl) :
    ∃ r, p.reverse = .ok r ∧
      Sound (byTarget && decide (s.method = .fast)) ((s.applicable p r tkn a.usePositions).map fun e => e.2.curve) pl.routes pl.last ∧
      Ready (byTarget && decide (s.method = .fast)) pl.ids s pl.routes ∧
      ∀ b ∈ pl.routes, ∃ k o, pl.ids[b.index]? = some k ∧ Dict.get s.orders k = some o ∧
        (k, o) ∈ s.applicable p r tkn a.usePositions := by
  obtain ⟨limit, r, raw, h1, h2, h3, h4, h5, h6, h7, h8⟩ := plan_ok hpl
  have happ : ∀ e ∈ s.applicable p r tkn a.usePositions, e.2.id = e.1 ∧ Dict.get s.orders e.1 = some e.2 ∧ e.2.curve.Good := by
    rintro ⟨k, o⟩ he
    obtain ⟨m1, m2⟩ := List.mem_filter.mp he
    have hg := Dict.get_of_mem h.ids.nodup m1
    refine ⟨h.ids.own _ _ m1, hg, ?_⟩
    unfold eligible at m2
    simp only [Bool.and_eq_true, Bool.not_eq_true', decide_eq_true_eq] at m2
    obtain ⟨⟨⟨_, hd⟩, hy⟩, _⟩ := m2
    exact (h.shape k o hg hd).good hy (h.bal k o hg).2
  have hids : pl.ids = (s.applicable p r tkn a.usePositions).map Prod.fst := by
    rw [h5]
    exact List.map_congr_left fun e he => (happ e he).1
  have hnd : pl.ids.Nodup := by
    rw [hids]
    exact h.ids.nodup.sublist (List.filter_sublist.map _)
  have hs := route_sound (by
    intro c hc
    obtain ⟨e, he, rfl⟩ := List.mem_map.mp hc
    exact (happ e he).2.2) hx hsp h3 h4
  refine ⟨r, h2, hs, ⟨?_, ?_⟩, ?_⟩
  · refine (List.pairwise_map.mp hs.nodup).imp ?_
    intro b c hbc k hb hc
    obtain ⟨i1, e1⟩ := List.getElem?_eq_some_iff.mp hb
    obtain ⟨i2, e2⟩ := List.getElem?_eq_some_iff.mp hc
    exact hbc ((hnd.getElem_inj_iff).mp (e1.trans e2.symm))
  · intro b hb
    obtain ⟨c, hc, c1, c2, c3⟩ := hs.each b hb
    rw [List.getElem?_map] at hc
    cases e : (s.applicable p r tkn a.usePositions)[b.index]? with
    | none => rw [e] at hc; cases hc
    | some q =>
      rw [e] at hc
      simp only [Option.map_some, Option.some.injEq] at hc
      subst hc
      refine ⟨q.1, q.2, ?_, (happ q (List.mem_of_getElem? e)).2.1, c1, c2, c3⟩
      rw [hids, List.getElem?_map, e]; rfl
  · intro b hb
    obtain ⟨c, hc, _⟩ := hs.each b hb
    rw [List.getElem?_map] at hc
    cases e : (s.applicable p r tkn a.usePositions)[b.index]? with
    | none => rw [e] at hc; cases hc
    | some q =>
      refine ⟨q.1, q.2, ?_, (happ q (List.mem_of_getElem? e)).2.1, List.mem_of_getElem? e⟩
      rw [hids, List.getElem?_map, e]; rfl

theorem trade_healthy {s : Sim ℝ} (h : Healthy s) {p : CarbonPair} {tkn : Str} {amt : ℝ} {byTarget : Bool} {a : TradeArgs ℝ}
    (hx : if byTarget then amt ≤ 0 else 0 ≤ amt) (hsp : s.method = .alpha → a.supportPartial = false) :
    Healthy (s.trade p tkn amt byTarget a).2 := by
  unfold trade
  split
  · exact h
  · rename_i pl hpl
    dsimp only
    obtain ⟨r, _, _, hr, _⟩ := plan_sound h hx hsp hpl
    have h1 := runRoutes_healthy (p := p) (tkn := tkn) pl.routes s 0 h hr
    generalize runRoutes p tkn (byTarget && decide (s.method = .fast)) pl s 0 pl.routes = q at h1
    obtain ⟨q, s1⟩ := q
    cases q with
    | error e => exact h1
    | ok _ =>
      dsimp only
      split
      · exact h1
      · exact h1.congr ⟨rfl, rfl, rfl, rfl, rfl, rfl⟩ rfl

theorem ammBuys_healthy {s : Sim ℝ} (h : Healthy s) (a : TradeArgs ℝ) (hsp : s.method = .alpha → a.supportPartial = false) :
    Healthy (s.ammBuys a).2 := by
  rcases ammBuys_cases s a with ⟨e, e1⟩ | ⟨h0, p, t, _, _, e1⟩ | ⟨h0, p, _, e1⟩ <;> rw [e1]
  · exact h
  · exact trade_healthy h (not_lt.mp h0) hsp
  · exact trade_healthy h h0.le hsp

theorem ammSells_healthy {s : Sim ℝ} (h : Healthy s) (a : TradeArgs ℝ) (hsp : s.method = .alpha → a.supportPartial = false) :
    Healthy (s.ammSells a).2 := by
  rcases ammSells_cases s a with ⟨e, e1⟩ | ⟨h0, p, _, e1⟩ | ⟨h0, p, t, _, _, e1⟩ <;> rw [e1]
  · exact h
  · exact trade_healthy h (by simpa using h0) hsp
  · exact trade_healthy h (by simpa using h0.le) hsp

/-- A trade in a healthy linked book that gets as far as executing: it succeeds, and the aggregate record states by how
much the holdings have changed. -/
theorem trade_ok {s : Sim ℝ} (h : Healthy s) (hL : Links s) {p : CarbonPair} {tkn : Str} {amt : ℝ} {byTarget : Bool}
    {a : TradeArgs ℝ} {pl : Plan ℝ} (hx : if byTarget then amt ≤ 0 else 0 ≤ amt)
    (hsp : s.method = .alpha → a.supportPartial = false) (hpl : s.plan p tkn amt byTarget a = .ok pl)
    (he : pl.exec = true) {price : ℝ} (hp : logPrice (byTarget && decide (s.method = .fast)) pl.price = .ok price) :
    ∃ recs rec s', s.trade p tkn amt byTarget a = (.ok recs, s') ∧ rec ∈ recs ∧ rec.uid = (s.numtrades, none) ∧
      rec.exec = true ∧ rec.tkn1 = tkn ∧ rec.tkn2 = p.other tkn ∧ rec.price = price ∧ rec.limitfail = pl.limitfail ∧
      rec.amt1 = sold (byTarget && decide (s.method = .fast)) pl.last.totalInput pl.last.totalOutput ∧
      rec.amt2 = bought (byTarget && decide (s.method = .fast)) pl.last.totalInput pl.last.totalOutput ∧
      ∀ t2, (∀ r k o, p.reverse = .ok r → (k, o) ∈ s.applicable p r tkn a.usePositions → o.pair.other tkn = some t2) →
      ∀ t, holdings s' t = holdings s t - (if tkn = t then rec.amt1 else 0) + (if t2 = t then rec.amt2 else 0) := by
  obtain ⟨r, hr, hs, hrd, happ⟩ := plan_sound h hx hsp hpl
  generalize hsw : (byTarget && decide (s.method = .fast)) = swap at hs hrd hp
  obtain ⟨s1, e1, e2, e3, e4⟩ := runRoutes_ok (p := p) (tkn := tkn) he hp pl.routes s 0 hL (by
      intro b hb
      obtain ⟨k, o, c1, c2, c3⟩ := happ b hb
      refine ⟨k, o, c1, c2, ?_⟩
      have := (List.mem_filter.mp c3).2
      unfold eligible at this
      simp only [Bool.and_eq_true, decide_eq_true_eq] at this
      exact this.1.1.1.2)
  generalize hrec : (⟨(s1.numtrades, none), pl.exec, decide (amt ≠ |pl.last.totalInput|), pl.limitfail,
      sold swap pl.last.totalInput pl.last.totalOutput, tkn, bought swap pl.last.totalInput pl.last.totalOutput,
      p.other tkn, p.pairIso, pl.routes.filterMap fun a => pl.ids[a.index]?, price⟩ : TradeRec ℝ) = rec
  refine ⟨_, rec, _, by
    unfold trade
    rw [hpl]
    dsimp only
    rw [hsw, e1]
    dsimp only
    rw [hp], ?_, ?_⟩
  · refine List.mem_map.mpr ⟨((s1.numtrades, none), rec), List.mem_filter.mpr ⟨?_, by simp⟩, rfl⟩
    exact Dict.mem_of_get (by rw [Dict.get_set, if_pos rfl, hrec])
  · have ha1 : rec.amt1 = sold swap pl.last.totalInput pl.last.totalOutput := by rw [← hrec]
    have ha2 : rec.amt2 = bought swap pl.last.totalInput pl.last.totalOutput := by rw [← hrec]
    refine ⟨by rw [← hrec, e2], by rw [← hrec]; exact he, by rw [← hrec], by rw [← hrec], by rw [← hrec], by rw [← hrec], ha1, ha2, ?_⟩
    intro t2 ht t
    rw [ha1, ha2, hs.soldTot, hs.boughtTot]
    refine e4 t2 ?_ t
    intro b hb k o c1 c2
    obtain ⟨k', o', d1, d2, d3⟩ := happ b hb
    rw [c1] at d1
    cases d1
    rw [c2] at d2
    cases d2
    exact ht r k o hr d3

end Carbon.Sim
