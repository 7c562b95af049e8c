import Verif.Prop.TradeLog
import Verif.Prop.Pair

/-!
# C128, C129: refused trades, and which trades succeed
-/

set_option linter.unusedSectionVars false

namespace Carbon.Sim

open CarbonPair (pyDiv)
open UICurve (pyDiv_ok)

/-! ## From a plan to a trade -/

theorem plan_price_ok {s : Sim ℝ} (h : Healthy s) {p : CarbonPair} {tkn : Str} {amt : ℝ} {byTarget : Bool} {a : TradeArgs ℝ} {pl : Plan ℝ}
    (hx : if byTarget then amt ≤ 0 else 0 ≤ amt) (hsp : s.method = .alpha → a.supportPartial = false)
    (hpl : s.plan p tkn amt byTarget a = .ok pl) (ht : p.hasToken tkn = true) (swap : Bool) :
    ∃ price, logPrice swap pl.price = .ok price := by
  obtain ⟨_, _, hs, _⟩ := plan_sound h hx hsp hpl
  obtain ⟨_, _, raw, _, _, _, _, _, h6, h7, _⟩ := plan_ok hpl
  rw [pyDiv_ok hs.inp.ne'] at h6
  have hraw : 0 < raw := by
    rw [← Except.ok.inj h6]
    exact div_pos (by linarith [hs.out]) hs.inp
  obtain ⟨v, hv, h0⟩ : ∃ v, pl.price = some v ∧ 0 < v := by
    rcases convert_cases ht with hc | hc
    · rw [hc] at h7
      exact ⟨raw, (Except.ok.inj h7).symm, hraw⟩
    · rw [hc _ raw rfl hraw] at h7
      exact ⟨1 / raw, (Except.ok.inj h7).symm, by positivity⟩
  rw [hv]
  cases swap with
  | false => exact ⟨v, rfl⟩
  | true => exact ⟨1 / v, pyDiv_ok h0.ne'⟩

/-- In a healthy linked book everything that is planned for a token of the pair succeeds. -/
theorem trade_total {s : Sim ℝ} (h : Healthy s) (hL : Links s) {p : CarbonPair} {tkn : Str} {amt : ℝ} {byTarget : Bool}
    {a : TradeArgs ℝ} {pl : Plan ℝ} (hx : if byTarget then amt ≤ 0 else 0 ≤ amt)
    (hsp : s.method = .alpha → a.supportPartial = false) (hpl : s.plan p tkn amt byTarget a = .ok pl) (ht : p.hasToken tkn = true) :
    ∃ recs rec s', s.trade p tkn amt byTarget a = (.ok recs, s') ∧ rec ∈ recs ∧ rec.uid = (s.numtrades, none) ∧
      rec.exec = pl.exec ∧ rec.tkn1 = tkn ∧
      rec.amt1 = sold (byTarget && decide (s.method = .fast)) pl.last.totalInput pl.last.totalOutput ∧
      rec.amt2 = bought (byTarget && decide (s.method = .fast)) pl.last.totalInput pl.last.totalOutput := by
  obtain ⟨price, hp⟩ := plan_price_ok h hx hsp hpl ht (byTarget && decide (s.method = .fast))
  cases he : pl.exec with
  | true =>
    obtain ⟨recs, rec, s', h1, h2, h3, h4, h5, _, _, _, h9, h10, _⟩ := trade_ok h hL hx hsp hpl he hp
    exact ⟨recs, rec, s', h1, h2, h3, h4, h5, h9, h10⟩
  | false =>
    obtain ⟨r, _, _, _, happ⟩ := plan_sound h hx hsp hpl
    have e1 := runRoutes_preview (p := p) (tkn := tkn) he hp pl.routes s 0 fun b hb => by
      obtain ⟨k, _, hk, _⟩ := happ b hb
      exact ⟨k, hk⟩
    have hn := runRoutes_numtrades (p := p) (tkn := tkn) (swap := byTarget && decide (s.method = .fast)) (pl := pl) pl.routes s 0
    cases hq : runRoutes p tkn (byTarget && decide (s.method = .fast)) pl s 0 pl.routes with
    | mk q s1 =>
    rw [hq] at e1 hn
    dsimp only at e1 hn
    subst e1
    refine ⟨_, aggRec p tkn amt (byTarget && decide (s.method = .fast)) pl price s1.numtrades, _, by
      unfold trade
      rw [hpl]
      dsimp only
      rw [hq]
      dsimp only
      rw [hp], ?_, by rw [← hn]; rfl, he, rfl, rfl, rfl⟩
    refine List.mem_map.mpr ⟨((s1.numtrades, none), _), List.mem_filter.mpr ⟨?_, by simp⟩, rfl⟩
    exact Dict.mem_of_get (by rw [Dict.get_set, if_pos rfl])

/-! ## C128 -/

/-- **C128** In a healthy linked book a refused trade in a token of the pair leaves everything as it was: orders, log, and the number
of the next trade. Missing: dangling links (`C128_link_violated`) and tokens that are not in the pair (`C128_token_violated`). -/
theorem C128_refused_partial (s s' : Sim ℝ) (h : Healthy s) (hL : Links s) (buys : Bool) (a : TradeArgs ℝ)
    (hsp : s.method = .alpha → a.supportPartial = false) (ht : ∀ p, s.getPair a.pair = .ok p → p.hasToken a.tkn = true)
    (e : Err) (hc : s.call buys a = (.error e, s')) : s' = s := by
  rcases call_cases s buys a with ⟨e', he⟩ | ⟨p, tkn, x, byT, a', hr, he⟩
  · rw [he] at hc
    exact (congrArg Prod.snd hc).symm
  · rw [he] at hc
    obtain ⟨hx, _, _, hsp', _, _, hp⟩ := hr.same
    have htk : p.hasToken tkn = true := by
      cases hr with
      | buys h0 hp ho => exact hasToken_of_other (other_other ho)
      | buysNeg h0 hp => exact ht _ hp
      | sells h0 hp => exact ht _ hp
      | sellsNeg h0 hp ho => exact hasToken_of_other (other_other ho)
    cases hpl : s.plan p tkn x byT a' with
    | error e' =>
      unfold trade at hc
      rw [hpl] at hc
      exact (congrArg Prod.snd hc).symm
    | ok pl =>
      obtain ⟨recs, _, s2, h1, _⟩ := trade_total h hL hx (fun hm => hsp'.trans (hsp hm)) hpl htk
      rw [h1] at hc
      cases hc

/-- **C128** Whatever the book, a refused trade takes no number, and it changes no order when it was only a dry run. -/
theorem C128_dry (s s' : Sim ℝ) (hr : Reachable s) (buys : Bool) (a : TradeArgs ℝ) (e : Err) (hc : s.call buys a = (.error e, s')) :
    s'.numtrades = s.numtrades ∧ (a.execute = false → s'.orders = s.orders) := by
  have h1 := C104_numbers s hr buys a
  have h2 := C34_dry_run s buys a
  rw [hc] at h1 h2
  exact ⟨by simpa [Except.isOk, Except.toBool] using h1, h2⟩

/-! ## C129 -/

open Classical in
/-- The orders that can serve a sale of a token on a pair with reverse `r`: those on the pair or its reverse that sell the token, are
enabled, hold something, and are among the positions allowed. -/
noncomputable def suppliers (s : Sim ℝ) (p r : CarbonPair) (tkn : Str) (allowed : Option (List Nat)) : List (SOrder ℝ) :=
  (s.orders.map Prod.snd).filter fun o => (o.pairName = p.pairIso ∨ o.pairName = r.pairIso) ∧ o.tkn = tkn ∧ o.disabled = false ∧
    0 < o.curve.y ∧ ∀ l, allowed = some l → o.id ∈ l

theorem suppliers_eq {s : Sim ℝ} (hi : Ids s) (p r : CarbonPair) (tkn : Str) (u : Option (List Nat)) :
    suppliers s p r tkn u = (s.applicable p r tkn u).map Prod.snd := by
  unfold suppliers applicable
  rw [List.filter_map]
  congr 1
  apply List.filter_congr
  rintro ⟨k, o⟩ he
  have hk : o.id = k := hi.own _ _ he
  rw [Function.comp_apply, Bool.eq_iff_iff, decide_eq_true_iff]
  unfold eligible
  cases u with
  | none => simp [and_assoc]
  | some l => simp [and_assoc, hk]

theorem app_good {s : Sim ℝ} (h : Healthy s) {p r : CarbonPair} {tkn : Str} {u : Option (List Nat)} {e : Nat × SOrder ℝ}
    (he : e ∈ s.applicable p r tkn u) : e.2.curve.Good ∧ 0 < e.2.curve.y ∧ e ∈ s.orders ∧ e.2.tkn = tkn ∧
      (e.2.pairName = p.pairIso ∨ e.2.pairName = r.pairIso) := by
  obtain ⟨k, o⟩ := e
  obtain ⟨m1, m2⟩ := List.mem_filter.mp he
  have hg := Dict.get_of_mem h.ids.nodup m1
  unfold eligible at m2
  simp only [Bool.and_eq_true, Bool.or_eq_true, Bool.not_eq_true', decide_eq_true_eq] at m2
  obtain ⟨⟨⟨⟨hn, ht⟩, hd⟩, hy⟩, _⟩ := m2
  exact ⟨(h.shape k o hg hd).good hy (h.bal k o hg).2, hy, m1, ht, hn⟩

/-- A trade without limits whose routing succeeds: it succeeds, and the amounts are those of the routes. -/
theorem trade_of_route {s : Sim ℝ} (h : Healthy s) (hL : Links s) {p r : CarbonPair} {tkn : Str} {amt : ℝ} {byTarget : Bool}
    {a : TradeArgs ℝ} (hlp : a.limitPrice = none) (hla : a.limitAmt = none) (hip : a.inpair = true) (hr : p.reverse = .ok r)
    (hx : if byTarget then amt ≤ 0 else 0 ≤ amt) (hsp : s.method = .alpha → a.supportPartial = false) (ht : p.hasToken tkn = true)
    {acts : List (Action ℝ)} (hne : acts ≠ [])
    (hroute : route s.method ((s.applicable p r tkn a.usePositions).map fun e => e.2.curve) amt byTarget a.threshold a.supportPartial =
      .ok acts) :
    ∃ recs rec s', s.trade p tkn amt byTarget a = (.ok recs, s') ∧ rec ∈ recs ∧ rec.uid = (s.numtrades, none) ∧
      rec.exec = a.execute ∧ rec.tkn1 = tkn ∧
      rec.amt1 = (acts.map fun b => sold (byTarget && decide (s.method = .fast)) b.input b.output).sum ∧
      rec.amt2 = (acts.map fun b => bought (byTarget && decide (s.method = .fast)) b.input b.output).sum := by
  obtain ⟨last, hlast⟩ : ∃ last, acts.getLast? = some last := ⟨_, List.getLast?_eq_some_getLast hne⟩
  have hs := route_sound (by
    intro c hc
    obtain ⟨e, he, rfl⟩ := List.mem_map.mp hc
    exact (app_good h he).1) hx hsp hroute hlast
  have hraw : 0 < -last.totalOutput / last.totalInput := div_pos (by linarith [hs.out]) hs.inp
  obtain ⟨price, hprice⟩ : ∃ v, p.convertPrice (some (-last.totalOutput / last.totalInput)) tkn = .ok v := by
    rcases convert_cases ht with hc | hc
    · exact ⟨_, hc _⟩
    · exact ⟨_, hc _ _ rfl hraw⟩
  have hpl : s.plan p tkn amt byTarget a =
      .ok ⟨(s.applicable p r tkn a.usePositions).map fun e => e.2.id, acts, last, price, a.execute, none⟩ := by
    unfold plan limitOf
    rw [hla, hlp]
    dsimp only
    rw [Py.ok_bind, hr, Py.ok_bind, if_neg (by simp [hip]), hroute, Py.ok_bind, hlast]
    dsimp only
    rw [pyDiv_ok hs.inp.ne', Py.ok_bind, hprice, Py.ok_bind]
  obtain ⟨recs, rec, s', h1, h2, h3, h4, h5, h6, h7⟩ := trade_total h hL hx hsp hpl ht
  exact ⟨recs, rec, s', h1, h2, h3, h4, h5, h6.trans hs.soldTot, h7.trans hs.boughtTot⟩

theorem trade_of_error {s : Sim ℝ} {p r : CarbonPair} {tkn : Str} {amt : ℝ} {byTarget : Bool} {a : TradeArgs ℝ}
    (hlp : a.limitPrice = none) (hla : a.limitAmt = none) (hr : p.reverse = .ok r)
    {e : Err} (hroute : route s.method ((s.applicable p r tkn a.usePositions).map fun e => e.2.curve) amt byTarget a.threshold
      a.supportPartial = .error e) : ∃ e', s.trade p tkn amt byTarget a = (.error e', s) := by
  unfold trade plan limitOf
  rw [hla, hlp]
  dsimp only
  rw [Py.ok_bind, hr, Py.ok_bind]
  split_ifs
  · exact ⟨_, rfl⟩
  · rw [hroute]
    exact ⟨_, rfl⟩

theorem positionValid_ok {s : Sim ℝ} (h : Healthy s) {p r : CarbonPair} {tkn : Str} {u : Option (List Nat)} (hr : p.reverse = .ok r)
    (hne : s.applicable p r tkn u ≠ []) : s.positionValid (some tkn) p = .ok () := by
  obtain ⟨e, he⟩ := List.exists_mem_of_ne_nil _ hne
  obtain ⟨_, hy, hm, ht, hn⟩ := app_good h he
  unfold positionValid
  rw [if_neg, hr, Py.ok_bind, if_pos]
  · rw [List.any_eq_true]
    exact ⟨e, hm, by simp [hn, hy]⟩
  · rw [Bool.not_eq_true', Bool.not_eq_false, List.any_eq_true]
    exact ⟨e, hm, by simp [ht, hy]⟩

theorem sells_of_app {s : Sim ℝ} (h : Healthy s) {p r : CarbonPair} {a : TradeArgs ℝ} (h0 : 0 ≤ a.amt) (hp : s.getPair a.pair = .ok p)
    (hr : p.reverse = .ok r) (hne : s.applicable p r a.tkn a.usePositions ≠ []) :
    s.call false a = s.trade p a.tkn (-a.amt) true a := by
  show s.ammSells a = _
  unfold ammSells sellsPos
  rw [if_neg (not_lt.mpr h0), hp]
  simp only [Py.ok_bind]
  rw [positionValid_ok h hr hne]
  rfl

theorem buys_of_app {s : Sim ℝ} (h : Healthy s) {p r : CarbonPair} {a : TradeArgs ℝ} {t : Str} (h0 : 0 ≤ a.amt)
    (hp : s.getPair a.pair = .ok p) (ho : p.other a.tkn = some t)
    (hr : p.reverse = .ok r) (hne : s.applicable p r t a.usePositions ≠ []) :
    s.call true a = s.trade p t a.amt false a := by
  show s.ammBuys a = _
  unfold ammBuys buysPos
  rw [if_neg (not_lt.mpr h0), hp]
  simp only [Py.ok_bind, ho]
  rw [positionValid_ok h hr hne]
  rfl

/-- The outcome asked for: the call succeeds, and its aggregate record, executed if that was asked for, states these amounts, if
given. -/
def Succeeds (s : Sim ℝ) (buys : Bool) (a : TradeArgs ℝ) (tkn : Str) (amt1 amt2 : Option ℝ) : Prop :=
  ∃ recs agg s', s.call buys a = (.ok recs, s') ∧ agg ∈ recs ∧ agg.uid = (s.numtrades, none) ∧ agg.exec = a.execute ∧
    agg.tkn1 = tkn ∧ (∀ v, amt1 = some v → agg.amt1 = v) ∧ ∀ v, amt2 = some v → agg.amt2 = v

/-- The call is refused and changes nothing. -/
def Refused (s : Sim ℝ) (buys : Bool) (a : TradeArgs ℝ) : Prop := ∃ e, s.call buys a = (.error e, s)

theorem sells_refused {s : Sim ℝ} {a : TradeArgs ℝ} (h0 : 0 ≤ a.amt) (hlp : a.limitPrice = none) (hla : a.limitAmt = none)
    {p r : CarbonPair} (hp : s.getPair a.pair = .ok p) (hr : p.reverse = .ok r) {e : Err}
    (hroute : route s.method ((s.applicable p r a.tkn a.usePositions).map fun e => e.2.curve) (-a.amt) true a.threshold
      a.supportPartial = .error e) : Refused s false a := by
  rcases ammSells_cases s a with ⟨e, he⟩ | ⟨_, p', hp', he⟩ | ⟨hn, _⟩
  · exact ⟨e, he⟩
  · rw [hp] at hp'
    cases hp'
    obtain ⟨e', h1⟩ := trade_of_error hlp hla hr hroute
    exact ⟨e', he.trans h1⟩
  · exact absurd h0 (not_le.mpr hn)

theorem buys_refused {s : Sim ℝ} {a : TradeArgs ℝ} (h0 : 0 ≤ a.amt) (hlp : a.limitPrice = none) (hla : a.limitAmt = none)
    {p r : CarbonPair} {t : Str} (hp : s.getPair a.pair = .ok p) (ho : p.other a.tkn = some t) (hr : p.reverse = .ok r) {e : Err}
    (hroute : route s.method ((s.applicable p r t a.usePositions).map fun e => e.2.curve) a.amt false a.threshold
      a.supportPartial = .error e) : Refused s true a := by
  rcases ammBuys_cases s a with ⟨e, he⟩ | ⟨_, p', t', hp', ho', he⟩ | ⟨hn, _⟩
  · exact ⟨e, he⟩
  · rw [hp] at hp'
    cases hp'
    rw [ho] at ho'
    cases ho'
    obtain ⟨e', h1⟩ := trade_of_error hlp hla hr hroute
    exact ⟨e', he.trans h1⟩
  · exact absurd h0 (not_le.mpr hn)

theorem total_range {orders : List (Curve ℝ)} (f : Curve ℝ → ℝ) :
    ExactRouter.total (List.range orders.length) (fun i => (orders[i]?.map f).getD 0) = (orders.map f).sum := by
  unfold ExactRouter.total
  congr 1
  apply List.ext_getElem?
  intro i
  rw [List.getElem?_map, List.getElem?_map]
  by_cases hi : i < orders.length
  · rw [List.getElem?_range hi, List.getElem?_eq_getElem hi]
    simp [hi]
  · rw [List.getElem?_eq_none (by simpa using hi), List.getElem?_eq_none (by simpa using hi)]
    rfl

theorem neg_sum {l : List (Action ℝ)} (h : ∀ b ∈ l, b.output < 0) : (l.map fun b => sold false b.input b.output).sum = -(l.map Action.output).sum := by
  induction l with
  | nil => simp
  | cons b l ih =>
    rw [List.map_cons, List.sum_cons, List.map_cons, List.sum_cons, ih fun c hc => h c (List.mem_cons_of_mem _ hc)]
    unfold sold
    rw [if_neg (by simp), abs_of_neg (h b List.mem_cons_self)]
    ring

theorem abs_sum {α : Type} {f : α → ℝ} {l : List α} (h : ∀ b ∈ l, 0 ≤ f b) : (l.map fun b => |f b|).sum = (l.map f).sum := by
  congr 1
  exact List.map_congr_left fun b hb => abs_of_nonneg (h b hb)

/-- **C129, sales with the exact router.** A sale of a positive amount succeeds if the orders that can serve it hold the amount
together, and then it sells exactly the amount. Otherwise it is refused, unless partial matches are allowed, when it sells all they
hold. -/
theorem C129_sale_exact (s : Sim ℝ) (h : Healthy s) (hL : Links s) (hm : s.method = .exact) (a : TradeArgs ℝ) (h0 : 0 < a.amt)
    (hlp : a.limitPrice = none) (hla : a.limitAmt = none) (hip : a.inpair = true) (p r : CarbonPair) (hp : s.getPair a.pair = .ok p)
    (hr : p.reverse = .ok r) (ht : p.hasToken a.tkn = true) (held : ℝ)
    (hh : held = ((suppliers s p r a.tkn a.usePositions).map fun o => o.curve.y).sum) :
    (a.amt ≤ held → Succeeds s false a a.tkn (some a.amt) none) ∧
    (held < a.amt → a.supportPartial = false → Refused s false a) ∧
    (held < a.amt → a.supportPartial = true → 0 < held → Succeeds s false a a.tkn (some held) none) := by
  rw [suppliers_eq h.ids, List.map_map] at hh
  have hg : ∀ c ∈ (s.applicable p r a.tkn a.usePositions).map fun e => e.2.curve, c.Good := by
    intro c hc
    obtain ⟨e, he, rfl⟩ := List.mem_map.mp hc
    exact (app_good h he).1
  have hsp : s.method = .alpha → a.supportPartial = false := fun e => by rw [hm] at e; cases e
  have hps : ExactRouter.Positions ((s.applicable p r a.tkn a.usePositions).map fun e => e.2.curve) []
      (List.range ((s.applicable p r a.tkn a.usePositions).map fun e => e.2.curve).length) := ⟨List.nodup_nil, by simp, rfl⟩
  have htot : ExactRouter.total (List.range ((s.applicable p r a.tkn a.usePositions).map fun e => e.2.curve).length)
      (ExactRouter.yAt ((s.applicable p r a.tkn a.usePositions).map fun e => e.2.curve)) = held := by
    rw [hh, show ExactRouter.yAt ((s.applicable p r a.tkn a.usePositions).map fun e => e.2.curve) =
      fun i => ((((s.applicable p r a.tkn a.usePositions).map fun e => e.2.curve)[i]?).map Curve.y).getD 0 from rfl, total_range,
      List.map_map]
    rfl
  have succ : ∀ v, 0 < v → 0 < held → (∃ acts, ExactRouter.matchExact ((s.applicable p r a.tkn a.usePositions).map fun e => e.2.curve)
      (-a.amt) true [] a.supportPartial = .ok acts ∧
      ExactRouter.Executable ((s.applicable p r a.tkn a.usePositions).map fun e => e.2.curve) acts ∧ (acts.map (·.output)).sum = -v) →
      Succeeds s false a a.tkn (some v) none := by
    rintro v hv hpos ⟨acts, h1, h2, h3⟩
    have hne : acts ≠ [] := by
      rintro rfl
      simp at h3
      linarith
    have hroute : route s.method ((s.applicable p r a.tkn a.usePositions).map fun e => e.2.curve) (-a.amt) true a.threshold
        a.supportPartial = .ok acts := by
      rw [hm]
      exact h1
    obtain ⟨recs, rec, s', i1, i2, i3, i4, i5, i6, i7⟩ := trade_of_route h hL hlp hla hip hr (by simp [h0.le]) hsp ht hne hroute
    refine ⟨recs, rec, s', ?_, i2, i3, i4, i5, ?_, by simp⟩
    · rw [sells_of_app h h0.le hp hr, i1]
      intro e
      rw [e] at hh
      simp at hh
      linarith
    · rintro w hw
      cases hw
      rw [i6, hm]
      show (acts.map fun b => sold false b.input b.output).sum = _
      rw [neg_sum fun b hb => ?_, h3, neg_neg]
      obtain ⟨c, _, _, hneg, _⟩ := h2.2.2 b hb
      exact hneg
  refine ⟨fun hle => ?_, fun hlt hf => ?_, fun hlt hsp1 hpos => ?_⟩
  · obtain ⟨acts, e1, e2, _, e4, _⟩ := ExactRouter.C69_by_target _ hg [] _ hps (-a.amt) (by linarith) (by rw [htot]; linarith) a.supportPartial
    exact succ a.amt h0 (by linarith) ⟨acts, e1, e2, e4⟩
  · have := (ExactRouter.C69_insufficient _ hg [] _ hps (-a.amt) (by linarith) (by rw [htot]; linarith)).1
    refine sells_refused h0.le hlp hla hp hr (e := .assertion) ?_
    rw [hm, hf]
    exact this
  · obtain ⟨acts, e1, e2, _, e4⟩ := (ExactRouter.C69_insufficient _ hg [] _ hps (-a.amt) (by linarith) (by rw [htot]; linarith)).2
      (by rw [htot]; exact hpos)
    rw [htot] at e4
    exact succ held hpos hpos ⟨acts, by rw [hsp1]; exact e1, e2, e4⟩

/-- **C129, sales with the fast router.** A sale of a positive amount succeeds exactly if some order can serve it; it sells the amount
or, if that is less, all they hold. -/
theorem C129_sale_fast (s : Sim ℝ) (h : Healthy s) (hL : Links s) (hm : s.method = .fast) (a : TradeArgs ℝ) (h0 : 0 < a.amt)
    (hlp : a.limitPrice = none) (hla : a.limitAmt = none) (hip : a.inpair = true) (p r : CarbonPair) (hp : s.getPair a.pair = .ok p)
    (hr : p.reverse = .ok r) (ht : p.hasToken a.tkn = true) :
    (suppliers s p r a.tkn a.usePositions = [] → Refused s false a) ∧
    (suppliers s p r a.tkn a.usePositions ≠ [] → Succeeds s false a a.tkn
      (some (min a.amt ((suppliers s p r a.tkn a.usePositions).map fun o => o.curve.y).sum)) none) := by
  rw [suppliers_eq h.ids, List.map_map]
  have hg : ∀ c ∈ (s.applicable p r a.tkn a.usePositions).map fun e => e.2.curve, c.Good ∧ 0 < c.y := by
    intro c hc
    obtain ⟨e, he, rfl⟩ := List.mem_map.mp hc
    exact ⟨(app_good h he).1, (app_good h he).2.1⟩
  have hsp : s.method = .alpha → a.supportPartial = false := fun e => by rw [hm] at e; cases e
  refine ⟨fun hnil => ?_, fun hne => ?_⟩
  · rw [List.map_eq_nil_iff] at hnil
    refine sells_refused h0.le hlp hla hp hr (e := .index) ?_
    rw [hm, hnil]
    rfl
  · have hne' : s.applicable p r a.tkn a.usePositions ≠ [] := fun e => hne (by rw [e]; rfl)
    obtain ⟨e0, he0⟩ := List.exists_mem_of_ne_nil _ hne'
    obtain ⟨qs, acts, hq, h1, h2⟩ := (FastRouter.C25_total (fun o ho => good_sane (hg o ho).1)
      ⟨e0.2.curve, List.mem_map.mpr ⟨e0, he0, rfl⟩, (app_good h he0).2.1⟩ (-a.amt) (by linarith)).1
    have hamt : |-a.amt| = a.amt := by rw [abs_neg, abs_of_pos h0]
    rw [hamt] at hq h2
    obtain ⟨_, d2, d3⟩ := FastRouter.C25_by_target (fun o ho => good_sane (hg o ho).1) a.amt h0 qs hq acts h2
    have hheld : 0 < ((s.applicable p r a.tkn a.usePositions).map fun e => e.2.curve.y).sum :=
      sum_pos_list hne' fun e he => (app_good h he).2.1
    have hacts : acts ≠ [] := by
      rintro rfl
      rw [List.map_map] at d3
      have := lt_min h0 hheld
      simp only [List.map_nil, List.sum_nil] at d3
      rw [show (Curve.y ∘ fun e : Nat × SOrder ℝ => e.2.curve) = fun e => e.2.curve.y from rfl] at d3
      linarith
    obtain ⟨recs, rec, s', i1, i2, i3, i4, i5, i6, i7⟩ := trade_of_route h hL hlp hla hip hr (amt := -a.amt) (byTarget := true)
      (by simp [h0.le]) hsp ht hacts (by rw [hm]; exact h1)
    refine ⟨recs, rec, s', (sells_of_app h h0.le hp hr hne').trans i1, i2, i3, i4, i5, ?_, by simp⟩
    rintro w hw
    cases hw
    rw [i6, hm]
    show (acts.map fun b => |b.input|).sum = _
    rw [abs_sum fun b hb => ?_, d3, List.map_map]
    · rfl
    · obtain ⟨o, _, hpos, _⟩ := d2 b hb
      exact hpos.le

/-- **C129, purchases with the exact router.** `cost` is what an order charges for all it holds. A purchase of a positive amount
succeeds if the orders that can serve it cost at least the amount, and then exactly the amount is bought. Otherwise it is refused,
unless partial matches are allowed, when all of the orders are emptied. -/
theorem C129_purchase_exact (s : Sim ℝ) (h : Healthy s) (hL : Links s) (hm : s.method = .exact) (a : TradeArgs ℝ) (h0 : 0 < a.amt)
    (hlp : a.limitPrice = none) (hla : a.limitAmt = none) (hip : a.inpair = true) (p r : CarbonPair) (hp : s.getPair a.pair = .ok p)
    (hr : p.reverse = .ok r) (t : Str) (ht : p.other a.tkn = some t) (cost : Curve ℝ → ℝ)
    (hcost : ∀ o ∈ suppliers s p r t a.usePositions, o.curve.dxdy (-o.curve.y) = .ok (cost o.curve)) (asked : ℝ)
    (hh : asked = ((suppliers s p r t a.usePositions).map fun o => cost o.curve).sum)
    (hne : suppliers s p r t a.usePositions ≠ []) :
    (a.amt ≤ asked → Succeeds s true a t none (some a.amt)) ∧
    (asked < a.amt → a.supportPartial = false → Refused s true a) ∧
    (asked < a.amt → a.supportPartial = true → Succeeds s true a t
      (some ((suppliers s p r t a.usePositions).map fun o => o.curve.y).sum) (some asked)) := by
  rw [suppliers_eq h.ids] at hcost hh hne ⊢
  rw [List.map_map] at hh ⊢
  have hne' : s.applicable p r t a.usePositions ≠ [] := fun e => hne (by rw [e]; rfl)
  have hg : ∀ c ∈ (s.applicable p r t a.usePositions).map fun e => e.2.curve, c.Good := by
    intro c hc
    obtain ⟨e, he, rfl⟩ := List.mem_map.mp hc
    exact (app_good h he).1
  have hsp : s.method = .alpha → a.supportPartial = false := fun e => by rw [hm] at e; cases e
  have htk : p.hasToken t = true := hasToken_of_other (other_other ht)
  have hps : ExactRouter.Positions ((s.applicable p r t a.usePositions).map fun e => e.2.curve) []
      (List.range ((s.applicable p r t a.usePositions).map fun e => e.2.curve).length) := ⟨List.nodup_nil, by simp, rfl⟩
  have hq : ∀ (i : Nat) (c : Curve ℝ), ((s.applicable p r t a.usePositions).map fun e => e.2.curve)[i]? = some c →
      c.dxdy (-c.y) = .ok ((fun i : Nat => ((((s.applicable p r t a.usePositions).map fun e => e.2.curve)[i]?).map cost).getD 0) i) := by
    intro i c hc
    dsimp only
    rw [hc]
    obtain ⟨e, he, rfl⟩ := List.mem_map.mp (List.mem_of_getElem? hc)
    exact hcost e.2 (List.mem_map.mpr ⟨e, he, rfl⟩)
  have htot : ExactRouter.total (List.range ((s.applicable p r t a.usePositions).map fun e => e.2.curve).length)
      (fun i : Nat => ((((s.applicable p r t a.usePositions).map fun e => e.2.curve)[i]?).map cost).getD 0) = asked := by
    rw [hh, total_range, List.map_map]
    rfl
  have htoty : ExactRouter.total (List.range ((s.applicable p r t a.usePositions).map fun e => e.2.curve).length)
      (ExactRouter.yAt ((s.applicable p r t a.usePositions).map fun e => e.2.curve)) =
      ((s.applicable p r t a.usePositions).map ((fun o => o.curve.y) ∘ Prod.snd)).sum := by
    rw [show ExactRouter.yAt ((s.applicable p r t a.usePositions).map fun e => e.2.curve) =
      fun i => ((((s.applicable p r t a.usePositions).map fun e => e.2.curve)[i]?).map Curve.y).getD 0 from rfl, total_range,
      List.map_map]
    rfl
  have hpos : 0 < asked := by
    rw [hh]
    refine sum_pos_list hne' fun e he => ?_
    obtain ⟨gd, hy, _⟩ := app_good h he
    obtain ⟨q, _, q1, q2, q3⟩ := ExactRouter.par_ok gd
    have h1 := hcost e.2 (List.mem_map.mpr ⟨e, he, rfl⟩)
    rw [q3 _ le_rfl] at h1
    rw [Function.comp_apply, ← Except.ok.inj h1]
    have := ExactRouter.charge_anti q1 (v := -e.2.curve.y) (w := 0) (q1.Y_end (by rw [q2])) (by linarith)
    rwa [ExactRouter.charge_zero] at this
  have succ : ∀ v w, 0 < w → (∃ acts, ExactRouter.matchExact ((s.applicable p r t a.usePositions).map fun e => e.2.curve)
      a.amt false [] a.supportPartial = .ok acts ∧
      ExactRouter.Executable ((s.applicable p r t a.usePositions).map fun e => e.2.curve) acts ∧ (acts.map (·.input)).sum = w ∧
      ∀ u, v = some u → (acts.map (·.output)).sum = -u) →
      Succeeds s true a t v (some w) := by
    rintro v w hw ⟨acts, h1, h2, h3, h4⟩
    have hacts : acts ≠ [] := by
      rintro rfl
      simp at h3
      linarith
    obtain ⟨recs, rec, s', i1, i2, i3, i4, i5, i6, i7⟩ := trade_of_route h hL hlp hla hip hr (amt := a.amt) (byTarget := false)
      (by simp [h0.le]) hsp htk hacts (by rw [hm]; exact h1)
    refine ⟨recs, rec, s', (buys_of_app h h0.le hp ht hr hne').trans i1, i2, i3, i4, i5, ?_, ?_⟩
    · rintro u rfl
      rw [i6]
      show (acts.map fun b => sold false b.input b.output).sum = _
      rw [neg_sum fun b hb => ?_, h4 u rfl, neg_neg]
      obtain ⟨c, _, _, hneg, _⟩ := h2.2.2 b hb
      exact hneg
    · rintro u hu
      cases hu
      rw [i7, ← h3]
      show (acts.map fun b => |b.input|).sum = _
      refine abs_sum fun b hb => ?_
      obtain ⟨c, hc, hlo, hneg, hd⟩ := h2.2.2 b hb
      obtain ⟨q, _, q1, q2, q3⟩ := ExactRouter.par_ok (hg c (List.mem_of_getElem? hc))
      rw [q3 _ hlo] at hd
      rw [← Except.ok.inj hd]
      have := ExactRouter.charge_anti q1 (v := b.output) (w := 0) (q1.Y_end (by rw [q2]; exact hlo)) hneg
      rw [ExactRouter.charge_zero] at this
      exact this.le
  have c70 := ExactRouter.C70_by_source _ hg [] _ hps a.amt h0 _ hq
  rw [htot] at c70
  refine ⟨fun hle => ?_, fun hlt hf => ?_, fun hlt hsp1 => ?_⟩
  · obtain ⟨acts, e1, e2, _, e4, _⟩ := c70.1 hle a.supportPartial
    exact succ none a.amt h0 ⟨acts, e1, e2, e4, by simp⟩
  · refine buys_refused h0.le hlp hla hp ht hr (e := .assertion) ?_
    rw [hm, hf]
    exact (c70.2 hlt hpos).1
  · obtain ⟨acts, e1, e2, _, e4, e5⟩ := (c70.2 hlt hpos).2
    rw [htoty] at e4
    refine succ _ asked hpos ⟨acts, by rw [hsp1]; exact e1, e2, e5, ?_⟩
    rintro u hu
    cases hu
    exact e4

/-- **C129, purchases with the fast router.** A purchase of a positive amount succeeds exactly if some order can serve it; the amount
is bought or, if that is less, what the orders charge for all they hold. -/
theorem C129_purchase_fast (s : Sim ℝ) (h : Healthy s) (hL : Links s) (hm : s.method = .fast) (a : TradeArgs ℝ) (h0 : 0 < a.amt)
    (hlp : a.limitPrice = none) (hla : a.limitAmt = none) (hip : a.inpair = true) (p r : CarbonPair) (hp : s.getPair a.pair = .ok p)
    (hr : p.reverse = .ok r) (t : Str) (ht : p.other a.tkn = some t) (cost : Curve ℝ → ℝ)
    (hcost : ∀ o ∈ suppliers s p r t a.usePositions, o.curve.amtBySrc o.curve.y = .ok (cost o.curve)) :
    (suppliers s p r t a.usePositions = [] → Refused s true a) ∧
    (suppliers s p r t a.usePositions ≠ [] → Succeeds s true a t none
      (some (min a.amt ((suppliers s p r t a.usePositions).map fun o => cost o.curve).sum))) := by
  rw [suppliers_eq h.ids] at hcost ⊢
  rw [List.map_map]
  have hg : ∀ c ∈ (s.applicable p r t a.usePositions).map fun e => e.2.curve, c.Good ∧ 0 < c.y := by
    intro c hc
    obtain ⟨e, he, rfl⟩ := List.mem_map.mp hc
    exact ⟨(app_good h he).1, (app_good h he).2.1⟩
  have hsp : s.method = .alpha → a.supportPartial = false := fun e => by rw [hm] at e; cases e
  have htk : p.hasToken t = true := hasToken_of_other (other_other ht)
  refine ⟨fun hnil => ?_, fun hne => ?_⟩
  · rw [List.map_eq_nil_iff] at hnil
    refine buys_refused h0.le hlp hla hp ht hr (e := .index) ?_
    rw [hm, hnil]
    rfl
  · have hne' : s.applicable p r t a.usePositions ≠ [] := fun e => hne (by rw [e]; rfl)
    obtain ⟨e0, he0⟩ := List.exists_mem_of_ne_nil _ hne'
    obtain ⟨qs, acts, hq, h1, h2⟩ := (FastRouter.C25_total (fun o ho => good_sane (hg o ho).1)
      ⟨e0.2.curve, List.mem_map.mpr ⟨e0, he0, rfl⟩, (app_good h he0).2.1⟩ a.amt h0.ne').2
    rw [abs_of_pos h0] at hq h2
    obtain ⟨_, d2, d3⟩ := FastRouter.C25_by_source (fun o ho => good_sane (hg o ho).1) a.amt h0 qs hq acts h2
    have hc' : ∀ e ∈ s.applicable p r t a.usePositions, FastRouter.cost e.2.curve e.2.curve.y = cost e.2.curve := by
      intro e he
      have h3 := hcost e.2 (List.mem_map.mpr ⟨e, he, rfl⟩)
      rw [FastRouter.amtBySrc_ok (good_sane (app_good h he).1) le_rfl] at h3
      exact Except.ok.inj h3
    rw [List.map_map, show ((s.applicable p r t a.usePositions).map
      ((fun o => FastRouter.cost o o.y) ∘ fun e : Nat × SOrder ℝ => e.2.curve)) =
      (s.applicable p r t a.usePositions).map ((fun o : SOrder ℝ => cost o.curve) ∘ Prod.snd) from
      List.map_congr_left fun e he => hc' e he] at d3
    have hpos : 0 < ((s.applicable p r t a.usePositions).map ((fun o : SOrder ℝ => cost o.curve) ∘ Prod.snd)).sum := by
      refine sum_pos_list hne' fun e he => ?_
      rw [Function.comp_apply, ← hc' e he]
      exact FastRouter.cost_pos (good_sane (app_good h he).1) (app_good h he).2.1 le_rfl
    have hacts : acts ≠ [] := by
      rintro rfl
      have := lt_min h0 hpos
      simp only [List.map_nil, List.sum_nil] at d3
      linarith
    obtain ⟨recs, rec, s', i1, i2, i3, i4, i5, i6, i7⟩ := trade_of_route h hL hlp hla hip hr (amt := a.amt) (byTarget := false)
      (by simp [h0.le]) hsp htk hacts (by rw [hm]; exact h1)
    refine ⟨recs, rec, s', (buys_of_app h h0.le hp ht hr hne').trans i1, i2, i3, i4, i5, by simp, ?_⟩
    rintro w hw
    cases hw
    rw [i7, ← d3]
    show (acts.map fun b => |b.input|).sum = _
    refine abs_sum fun b hb => ?_
    obtain ⟨o, _, hp0, _⟩ := d2 b hb
    exact hp0.le

theorem matchExact_zero {orders : List (Curve ℝ)} (hg : ∀ c ∈ orders, c.Good) {matchlevel ps : List Nat}
    (hps : ExactRouter.Positions orders matchlevel ps) {byTarget sp : Bool} {acts : List (Action ℝ)}
    (h : ExactRouter.matchExact orders 0 byTarget matchlevel sp = .ok acts) : acts = [] := by
  obtain ⟨qs, eps, hlen, hq⟩ := ExactRouter.setup hg
  obtain ⟨avail, eav, hperm, hnd, hav, eps2⟩ := ExactRouter.avail_spec hps
  have hp : ∀ i ∈ avail, ExactRouter.Pos (qs.getD i ⟨0, 0, 0, 0, 0⟩) := fun i hi =>
    (ExactRouter.getD_spec hq i _ (List.getElem?_eq_getElem (hav i hi))).1
  unfold ExactRouter.matchExact at h
  rw [eps] at h
  simp only [Py.ok_bind] at h
  rw [eav, eps2] at h
  generalize (List.map (fun i => (qs.getD i ⟨0, 0, 0, 0, 0⟩ : ExactRouter.Par ℝ).y) ps).sum = L at h
  split at h
  · cases h
  split at h
  · cases h
  rw [ite_self, ExactRouter.distribute_zero hnd hp] at h
  simp only [Py.ok_bind, List.mapM_nil] at h
  rw [Py.bind_eq_ok] at h
  obtain ⟨_, h', h⟩ := h
  cases h'
  rw [Py.bind_eq_ok] at h
  obtain ⟨_, h', h⟩ := h
  simp [pyDiv] at h'

theorem route_zero {m : Method} {cs : List (Curve ℝ)} {byTarget : Bool} {thr : Option Nat} {sp : Bool}
    {acts : List (Action ℝ)} {last : Action ℝ} (hg : ∀ c ∈ cs, c.Good)
    (hsp : m = .alpha → sp = false) (h : route m cs 0 byTarget thr sp = .ok acts) (hl : acts.getLast? = some last) : False := by
  have hnil : ∀ acts' : List (Action ℝ), acts' = [] → acts'.getLast? = some last → False := by
    rintro _ rfl h
    cases h
  cases m with
  | exact =>
    have h : ExactRouter.matchExact cs 0 byTarget [] sp = .ok acts := by
      unfold route at h; cases byTarget <;> exact h
    exact hnil _ (matchExact_zero (ps := List.range cs.length) hg ⟨List.nodup_nil, by simp, rfl⟩ h) hl
  | fast =>
    cases byTarget with
    | true =>
      obtain ⟨qs, hq, hm⟩ := FastRouter.matchAmount_cases (x := (0 : ℝ)) h
      rw [abs_zero] at hq hm
      rw [FastRouter.matchQuotes_zero (fun o ho => FastRouter.rateByTarget_ok (good_sane (hg o ho)) 0)
        (fun o ho => min_eq_left (hg o ho).hy0) hq] at hm
      cases hm
    | false =>
      obtain ⟨qs, hq, hm⟩ := FastRouter.matchAmount_cases (x := (0 : ℝ)) h
      rw [abs_zero] at hq hm
      rw [FastRouter.matchQuotes_zero (fun o ho => FastRouter.rateBySource_ok (good_sane (hg o ho)) le_rfl)
        (fun o ho => min_eq_left (FastRouter.cost_nonneg (good_sane (hg o ho)) (hg o ho).hy0 le_rfl)) hq] at hm
      cases hm
  | alpha =>
    have hsp := hsp rfl
    subst hsp
    cases byTarget with
    | true =>
      obtain ⟨ml, ps, h1, h2⟩ := AlphaRouter.matchByTarget_exact h
      exact hnil _ (matchExact_zero hg h1 h2) hl
    | false =>
      obtain ⟨ml, ps, h1, h2⟩ := AlphaRouter.matchBySrc_exact h
      exact hnil _ (matchExact_zero hg h1 h2) hl

/-- **C129** A trade of the amount zero is refused in a healthy book, with every router, and changes nothing. -/
theorem C129_zero (s : Sim ℝ) (h : Healthy s) (buys : Bool) (a : TradeArgs ℝ) (h0 : a.amt = 0)
    (hsp : s.method = .alpha → a.supportPartial = false) : Refused s buys a := by
  rcases call_cases s buys a with ⟨e, he⟩ | ⟨p, tkn, x, byT, a', hr, he⟩
  · exact ⟨e, he⟩
  obtain ⟨_, hx, _, hsp', _, _, _⟩ := hr.same
  have hx0 : x = 0 := by
    rw [h0, abs_zero, abs_eq_zero] at hx
    exact hx
  subst hx0
  cases hpl : s.plan p tkn 0 byT a' with
  | error e =>
    refine ⟨e, he.trans ?_⟩
    unfold trade
    rw [hpl]
  | ok pl =>
    obtain ⟨_, r, _, _, _, h3, h4, _⟩ := plan_ok hpl
    refine (route_zero (fun c hc => ?_) (fun hm => hsp'.trans (hsp hm)) h3 h4).elim
    obtain ⟨e, he, rfl⟩ := List.mem_map.mp hc
    exact (app_good h he).1

/-- The pair whose name, `ABC`, is also that of `AB/C`. -/
def sameName : StrategyArgs ℚ := { strat with tkn := "BC".toList, pair := .str "A/BC".toList }

/-- **C128** fails if the order linked to the one that is to sell has been deleted: 2 ETH are taken from the order, and then the call
fails. -/
theorem C128_link_violated :
    let s := run (sim0 .fast) [.add strat, .delete 1]
    let r := s.ammSells { tkn := "ETH".toList, amt := 2 }
    r.1 = .error .key ∧ (s.orders.map fun e => e.2.curve.y) = [10] ∧ (r.2.orders.map fun e => e.2.curve.y) = [8] := by
  decide +kernel

/-- **C128** fails for a token that is not in the pair: the sale of `BC` on `AB/C` is executed by the orders on `A/BC`, and then the
call fails for want of a price. -/
theorem C128_token_violated :
    let s := run (sim0 .fast) [.add sameName]
    let r := s.ammSells { tkn := "BC".toList, amt := 2, pair := .str "AB/C".toList }
    r.1 = .error .type ∧ (s.orders.map fun e => e.2.curve.y) = [10, 10] ∧
      (r.2.orders.map fun e => decide (e.2.curve.y = 10)) = [false, false] := by
  decide +kernel

/-- A refused trade that changes nothing: the book holds 10 ETH. -/
example :
    let s := run (sim0 .exact) [.add strat]
    let r := s.ammSells { tkn := "ETH".toList, amt := 12 }
    r.1 = .error .assertion ∧ r.2.orders = s.orders ∧ r.2.trades = s.trades := by
  decide +kernel

/-- The aggregate record of a call: whether it was executed, and the amounts. -/
def outcome (r : Py (List (TradeRec ℚ)) × Sim ℚ) : Option (Bool × ℚ × ℚ) :=
  (r.1.toOption.getD []).getLast?.map fun t => (t.exec, t.amt1, t.amt2)

/-- Outcomes with the fast router: the book holds 10 ETH, for which it asks 60 USDC. -/
example :
    let s := run (sim0 .fast) [.add strat]
    outcome (s.ammSells { tkn := "ETH".toList, amt := 2 }) = some (true, 2, 60 / 7) ∧
      outcome (s.ammSells { tkn := "ETH".toList, amt := 12, execute := false }) = some (false, 10, 60) ∧
      outcome (s.ammBuys { tkn := "USDC".toList, amt := 30 }) = some (true, 6, 30) ∧
      outcome (s.ammBuys { tkn := "USDC".toList, amt := 70 }) = some (true, 10, 60) ∧
      outcome (s.ammSells { tkn := "ETH".toList, amt := 2, usePositions := some [1] }) = none ∧
      outcome (s.ammSells { tkn := "ETH".toList, amt := 0 }) = none := by
  decide +kernel

end Carbon.Sim
