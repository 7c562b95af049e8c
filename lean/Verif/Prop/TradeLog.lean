import Verif.Prop.SimTrade
import Verif.Carbon.SimulatorRounded

/-!
# C104, C105: the log of the trades, and dry runs as previews
-/

set_option linter.unusedSectionVars false

namespace Carbon.Sim

open CarbonPair (pyDiv)
open UICurve (pyDiv_ok)

section Generic
variable {K : Type} [Field K] [LinearOrder K] [IsStrictOrderedRing K] [PySqrt K]

/-! ## The shape of the log -/

/-- The log consists of the records of completed trades and of what the last, failed trade has left behind. -/
structure Log (s : Sim K) (D R : List ((Nat × Option Nat) × TradeRec K)) : Prop where
  eq : s.trades = D ++ R
  past : ∀ e ∈ D, e.1.1 < s.numtrades
  nodup : (D.map Prod.fst).Nodup
  rest : ∀ (i : Nat) (e : (Nat × Option Nat) × TradeRec K), R[i]? = some e → e.1 = (s.numtrades, some i)

/-- The log is in shape. -/
def Logged (s : Sim K) : Prop := ∃ D R, Log s D R

theorem set_append {κ α : Type} [DecidableEq κ] {D R : List (κ × α)} {k : κ} (v : α) (h : ∀ e ∈ D, e.1 ≠ k) :
    Dict.set (D ++ R) k v = D ++ Dict.set R k v := by
  induction D with
  | nil => rfl
  | cons e D ih =>
    show (if e.1 = k then (k, v) :: (D ++ R) else e :: Dict.set (D ++ R) k v) = _
    rw [if_neg (h e List.mem_cons_self), ih fun d hd => h d (List.mem_cons_of_mem _ hd)]
    rfl

theorem set_rest {n : Nat} {R : List ((Nat × Option Nat) × TradeRec K)} (h : ∀ (i : Nat) (e : (Nat × Option Nat) × TradeRec K), R[i]? = some e → e.1 = (n, some i)) {ct : Nat}
    (hc : ct ≤ R.length) (v : TradeRec K) :
    Dict.set R (n, some ct) v = R.take ct ++ ((n, some ct), v) :: R.drop (ct + 1) := by
  conv_lhs => rw [← List.take_append_drop ct R]
  rw [set_append]
  · congr 1
    cases hd : R.drop ct with
    | nil =>
      have : R.drop (ct + 1) = [] := by
        rw [List.drop_eq_nil_iff] at hd ⊢; omega
      rw [this]; rfl
    | cons e l =>
      have h1 : R[ct]? = some e := by
        rw [← List.head?_drop, hd]; rfl
      have h2 : R.drop (ct + 1) = l := by
        rw [← List.tail_drop, hd]; rfl
      unfold Dict.set
      rw [if_pos (h ct e h1), h2]
  · intro e he hk
    obtain ⟨i, hi⟩ := List.mem_iff_getElem?.mp he
    rw [List.getElem?_take] at hi
    split_ifs at hi with hlt
    have := h i e hi
    rw [hk] at this
    simp only [Prod.mk.injEq, Option.some.injEq, true_and] at this
    omega

theorem rest_set {n : Nat} {R : List ((Nat × Option Nat) × TradeRec K)} (h : ∀ (i : Nat) (e : (Nat × Option Nat) × TradeRec K), R[i]? = some e → e.1 = (n, some i)) {ct : Nat}
    (hc : ct ≤ R.length) (v : TradeRec K) (i : Nat) (e : (Nat × Option Nat) × TradeRec K)
    (he : (R.take ct ++ ((n, some ct), v) :: R.drop (ct + 1))[i]? = some e) : e.1 = (n, some i) := by
  have hl : (R.take ct).length = ct := by simp [hc]
  rw [List.getElem?_append, hl] at he
  split_ifs at he with h1
  · rw [List.getElem?_take, if_pos h1] at he
    exact h i e he
  · rw [List.getElem?_cons] at he
    split_ifs at he with h2
    · cases he
      have : i = ct := by omega
      rw [this]
    · rw [List.getElem?_drop] at he
      have : ct + 1 + (i - ct - 1) = i := by omega
      rw [this] at he
      exact h i e he

theorem rest_keys {n : Nat} {R : List ((Nat × Option Nat) × TradeRec K)}
    (h : ∀ (i : Nat) (e : (Nat × Option Nat) × TradeRec K), R[i]? = some e → e.1 = (n, some i)) :
    R.map Prod.fst = (List.range R.length).map fun i => (n, some i) := by
  apply List.ext_getElem?
  intro i
  rw [List.getElem?_map, List.getElem?_map]
  cases hi : R[i]? with
  | none =>
    rw [List.getElem?_eq_none_iff] at hi
    rw [List.getElem?_eq_none (by simpa using hi)]
    rfl
  | some e =>
    have hlt : i < R.length := by
      by_contra hc
      rw [List.getElem?_eq_none (not_lt.mp hc)] at hi
      cases hi
    rw [List.getElem?_range hlt, Option.map_some, Option.map_some, h i e hi]

/-- The record of a route. -/
def routeRec (p : CarbonPair) (tkn : Str) (swap : Bool) (pl : Plan K) (price : K) (n ct k : Nat) (a : Action K) : TradeRec K :=
  ⟨(n, some ct), pl.exec, false, pl.limitfail, sold swap a.input a.output, tkn, bought swap a.input a.output, p.other tkn,
    p.pairIso, [k], price⟩

/-- The aggregate record. -/
def aggRec (p : CarbonPair) (tkn : Str) (amt : K) (swap : Bool) (pl : Plan K) (price : K) (n : Nat) : TradeRec K :=
  ⟨(n, none), pl.exec, decide (amt ≠ |pl.last.totalInput|), pl.limitfail, sold swap pl.last.totalInput pl.last.totalOutput, tkn,
    bought swap pl.last.totalInput pl.last.totalOutput, p.other tkn, p.pairIso, pl.routes.filterMap fun a => pl.ids[a.index]?, price⟩

/-- The records of the routes, from number `ct`. -/
def Recorded (p : CarbonPair) (tkn : Str) (swap : Bool) (pl : Plan K) (n : Nat) : Nat → List (Action K) → List (TradeRec K) → Prop
  | _, [], l => l = []
  | ct, a :: as, l => ∃ k price t, pl.ids[a.index]? = some k ∧ logPrice swap pl.price = .ok price ∧
      l = routeRec p tkn swap pl price n ct k a :: t ∧ Recorded p tkn swap pl n (ct + 1) as t

theorem execRoute_log (swap : Bool) (s : Sim K) (k : Nat) (a : Action K) :
    (execRoute swap s k a).2.trades = s.trades ∧ (execRoute swap s k a).2.numtrades = s.numtrades := by
  unfold execRoute
  split
  · exact ⟨rfl, rfl⟩
  · dsimp only
    split_ifs
    · exact ⟨rfl, rfl⟩
    · split <;> exact ⟨rfl, rfl⟩

theorem runRoutes_log {p : CarbonPair} {tkn : Str} {swap : Bool} {pl : Plan K} (l : List (Action K)) (s : Sim K) (ct : Nat)
    {D R : List ((Nat × Option Nat) × TradeRec K)} (h : Log s D R) (hc : ct ≤ R.length) :
    ∃ R', Log (runRoutes p tkn swap pl s ct l).2 D R' ∧
      ((runRoutes p tkn swap pl s ct l).1 = .ok () → ∃ new, Recorded p tkn swap pl s.numtrades ct l new ∧
        R'.take (ct + l.length) = R.take ct ++ new.map fun t => (t.uid, t)) := by
  induction l generalizing s ct R with
  | nil => exact ⟨R, h, fun _ => ⟨[], rfl, by simp⟩⟩
  | cons a l ih =>
    unfold runRoutes
    split
    · exact ⟨R, h, fun hc => nomatch hc⟩
    · rename_i k hk
      have h1 : (if pl.exec then execRoute swap s k a else (.ok (), s)).2.trades = s.trades ∧
          (if pl.exec then execRoute swap s k a else (.ok (), s)).2.numtrades = s.numtrades := by
        split_ifs
        · exact execRoute_log swap s k a
        · exact ⟨rfl, rfl⟩
      generalize (if pl.exec then execRoute swap s k a else (.ok (), s)) = r at h1
      obtain ⟨r, s1⟩ := r
      dsimp only at h1
      have hl1 : Log s1 D R := ⟨h1.1.trans h.eq, by rw [h1.2]; exact h.past, h.nodup, by rw [h1.2]; exact h.rest⟩
      cases r with
      | error e => exact ⟨R, hl1, fun hc => nomatch hc⟩
      | ok _ =>
        dsimp only
        split
        · exact ⟨R, hl1, fun hc => nomatch hc⟩
        · rename_i price hprice
          have hl2 : Log { s1 with trades := Dict.set s1.trades (s1.numtrades, some ct) (routeRec p tkn swap pl price s1.numtrades ct k a) } D
              (R.take ct ++ ((s1.numtrades, some ct), routeRec p tkn swap pl price s1.numtrades ct k a) :: R.drop (ct + 1)) := by
            refine ⟨?_, hl1.past, hl1.nodup, rest_set hl1.rest hc _⟩
            show Dict.set s1.trades _ _ = _
            rw [hl1.eq, set_append, set_rest hl1.rest hc]
            intro e he hk
            have := hl1.past e he
            rw [hk] at this
            exact lt_irrefl _ this
          obtain ⟨R', i1, i2⟩ := ih _ (ct + 1) hl2 (by simp [hc])
          refine ⟨R', i1, fun hok => ?_⟩
          obtain ⟨new, j1, j2⟩ := i2 hok
          refine ⟨_ :: new, ⟨k, price, new, hk, hprice, rfl, ?_⟩, ?_⟩
          · rw [← h1.2]; exact j1
          · have e1 : ct + (a :: l).length = ct + 1 + l.length := by rw [List.length_cons]; omega
            have hl : (R.take ct).length = ct := by simp [hc]
            rw [e1, j2, List.take_append, hl]
            have : ct + 1 - ct = 1 := by omega
            rw [this, List.take_take, min_eq_right (by omega), h1.2]
            simp [routeRec]

/-- What a successful execution returns and leaves in the log. -/
theorem settle_log {s s' : Sim K} {D R : List ((Nat × Option Nat) × TradeRec K)} (hL : Log s D R) {p : CarbonPair} {tkn : Str} {amt : K}
    {byTarget : Bool} {pl : Plan K} {recs : List (TradeRec K)} (h : s.settle p tkn amt byTarget pl = (.ok recs, s')) :
    ∃ price new R', logPrice (byTarget && decide (s.method = .fast)) pl.price = .ok price ∧
      Recorded p tkn (byTarget && decide (s.method = .fast)) pl s.numtrades 0 pl.routes new ∧
      recs = new ++ [aggRec p tkn amt (byTarget && decide (s.method = .fast)) pl price s.numtrades] ∧
      s'.numtrades = s.numtrades + 1 ∧ Log s' (D ++ R') [] ∧ (∀ e ∈ R', e.1.1 = s.numtrades) ∧
      ∀ r ∈ recs, Dict.get s'.trades r.uid = some r := by
  unfold settle at h
  dsimp only at h
  have hn := runRoutes_numtrades (p := p) (tkn := tkn) (swap := byTarget && decide (s.method = .fast)) (pl := pl) pl.routes s 0
  obtain ⟨R', i1, i2⟩ := runRoutes_log (p := p) (tkn := tkn) (swap := byTarget && decide (s.method = .fast)) (pl := pl) pl.routes s 0 hL
    (Nat.zero_le _)
  generalize runRoutes p tkn (byTarget && decide (s.method = .fast)) pl s 0 pl.routes = q at h hn i1 i2
  obtain ⟨q, s1⟩ := q
  cases q with
  | error e => cases h
  | ok _ =>
    dsimp only at h hn i1 i2
    obtain ⟨new, j1, j2⟩ := i2 rfl
    rw [Nat.zero_add, List.take_zero, List.nil_append] at j2
    split at h
    · cases h
    · rename_i price hprice
      simp only [Prod.mk.injEq, Except.ok.injEq] at h
      obtain ⟨hrecs, hs'⟩ := h
      have hset : ∀ t : TradeRec K, Dict.set s1.trades (s1.numtrades, none) t = D ++ (R' ++ [((s1.numtrades, none), t)]) := by
        intro t
        rw [i1.eq, set_append]
        · have := set_append (D := R') (R := []) (k := (s1.numtrades, none)) t (by
            intro e he hk
            obtain ⟨i, hi⟩ := List.mem_iff_getElem?.mp he
            have := i1.rest i e hi
            rw [hk] at this
            cases this)
          rw [List.append_nil] at this
          rw [this]; rfl
        · intro e he hk
          have := i1.past e he
          rw [hk] at this
          exact lt_irrefl _ this
      rw [hset] at hrecs hs'
      have hnd : ((D ++ (R' ++ [((s1.numtrades, none), aggRec p tkn amt (byTarget && decide (s.method = Method.fast)) pl price s1.numtrades)])).map
          Prod.fst).Nodup := by
        rw [List.map_append, List.map_append, rest_keys i1.rest, List.nodup_append]
        refine ⟨i1.nodup, ?_, ?_⟩
        · rw [List.nodup_append]
          refine ⟨List.nodup_range.map (fun i j hij => by simpa using hij), List.nodup_singleton _, ?_⟩
          rintro u hu v hv rfl
          obtain ⟨i, _, rfl⟩ := List.mem_map.mp hu
          simp at hv
        · rintro u hu v hv rfl
          obtain ⟨e, he, rfl⟩ := List.mem_map.mp hu
          have := i1.past e he
          rcases List.mem_append.mp hv with hv | hv
          · obtain ⟨i, _, hi⟩ := List.mem_map.mp hv
            rw [← hi] at this
            exact lt_irrefl _ this
          · simp only [List.map_cons, List.map_nil, List.mem_singleton] at hv
            rw [hv] at this
            exact lt_irrefl _ this
      have hlen : pl.routes.length ≤ R'.length := by
        have hr : ∀ (as : List (Action K)) (ct : Nat) (l : List (TradeRec K)),
            Recorded p tkn (byTarget && decide (s.method = .fast)) pl s.numtrades ct as l → l.length = as.length := by
          intro as
          induction as with
          | nil => intro ct l hl; rw [show l = [] from hl]; rfl
          | cons b as ih =>
            rintro ct l ⟨k, pr, t, _, _, rfl, ht⟩
            rw [List.length_cons, List.length_cons, ih _ _ ht]
        have := congrArg List.length j2
        rw [List.length_take, List.length_map, hr _ _ _ j1] at this
        omega
      have hall : ∀ e ∈ R' ++ [((s1.numtrades, none), aggRec p tkn amt (byTarget && decide (s.method = .fast)) pl price s1.numtrades)],
          e.1.1 = s1.numtrades := by
        intro e he
        rcases List.mem_append.mp he with he | he
        · obtain ⟨i, hi⟩ := List.mem_iff_getElem?.mp he
          rw [i1.rest i e hi]
        · rw [List.mem_singleton.mp he]
      have hrec : recs = new ++ [aggRec p tkn amt (byTarget && decide (s.method = .fast)) pl price s.numtrades] := by
          rw [← hrecs, ← hn, List.filter_append, List.filter_append]
          have f1 : ∀ P : (Nat × Option Nat) × TradeRec K → Bool, (∀ e ∈ D, P e = false) → D.filter P = [] := by
            intro P hP
            rw [List.filter_eq_nil_iff]
            intro e he
            rw [hP e he]; simp
          rw [f1 _ (by
            intro e he
            have := i1.past e he
            rw [decide_eq_false_iff_not]
            intro hm
            rcases List.mem_cons.mp hm with hm | hm
            · rw [hm] at this; exact lt_irrefl _ this
            · obtain ⟨i, _, hi⟩ := List.mem_map.mp hm
              rw [← hi] at this; exact lt_irrefl _ this), List.nil_append]
          have f2 : R'.filter (fun e => decide (e.1 ∈ (s1.numtrades, none) :: (List.range pl.routes.length).map fun i => (s1.numtrades, some i))) =
              R'.take pl.routes.length := by
            conv_lhs => rw [← List.take_append_drop pl.routes.length R']
            rw [List.filter_append, List.filter_eq_self.mpr, List.filter_eq_nil_iff.mpr, List.append_nil]
            · intro e he
              obtain ⟨i, hi⟩ := List.mem_iff_getElem?.mp he
              rw [List.getElem?_drop] at hi
              rw [i1.rest _ e hi]
              simp
            · intro e he
              obtain ⟨i, hi⟩ := List.mem_iff_getElem?.mp he
              rw [List.getElem?_take] at hi
              split_ifs at hi with hlt
              rw [i1.rest _ e hi]
              simp [hlt]
          rw [f2, j2, List.filter_cons_of_pos (by simp), List.filter_nil, List.map_append, List.map_map]
          simp [Function.comp_def, aggRec]
      refine ⟨price, new, R' ++ [((s1.numtrades, none),
        aggRec p tkn amt (byTarget && decide (s.method = .fast)) pl price s1.numtrades)], hprice, j1, hrec, ?_,
        ⟨?_, ?_, hnd, fun i e he => by cases he⟩, fun e he => (hall e he).trans hn, ?_⟩
      · rw [← hs', ← hn]
      · rw [← hs', List.append_nil]; rfl
      · intro e he
        rw [← hs']
        show _ < s1.numtrades + 1
        rcases List.mem_append.mp he with he | he
        · exact Nat.lt_succ_of_lt (i1.past e he)
        · rw [hall e he]; exact Nat.lt_succ_self _
      · intro r hr
        rw [← hs']
        refine Dict.get_of_mem hnd ?_
        rw [hrec] at hr
        rcases List.mem_append.mp hr with hr | hr
        · refine List.mem_append_right _ (List.mem_append_left _ (List.mem_of_mem_take (i := pl.routes.length) ?_))
          rw [j2]
          exact List.mem_map.mpr ⟨r, hr, rfl⟩
        · rw [List.mem_singleton.mp hr, ← hn]
          refine List.mem_append_right _ (List.mem_append_right _ (List.mem_singleton_self _))

/-- What a successful trade returns and leaves in the log. -/
theorem trade_log {s s' : Sim K} {D R : List ((Nat × Option Nat) × TradeRec K)} (hL : Log s D R) {p : CarbonPair} {tkn : Str} {amt : K}
    {byTarget : Bool} {a : TradeArgs K} {recs : List (TradeRec K)} (h : s.trade p tkn amt byTarget a = (.ok recs, s')) :
    ∃ pl price new R', s.plan p tkn amt byTarget a = .ok pl ∧
      logPrice (byTarget && decide (s.method = .fast)) pl.price = .ok price ∧
      Recorded p tkn (byTarget && decide (s.method = .fast)) pl s.numtrades 0 pl.routes new ∧
      recs = new ++ [aggRec p tkn amt (byTarget && decide (s.method = .fast)) pl price s.numtrades] ∧
      s'.numtrades = s.numtrades + 1 ∧ Log s' (D ++ R') [] ∧ (∀ e ∈ R', e.1.1 = s.numtrades) ∧
      ∀ r ∈ recs, Dict.get s'.trades r.uid = some r := by
  rw [trade_eq_settle] at h
  split at h
  · cases h
  · rename_i pl hpl
    obtain ⟨price, new, R', h1⟩ := settle_log hL h
    exact ⟨pl, price, new, R', hpl, h1⟩

theorem Log.same {s s' : Sim K} {D R : List ((Nat × Option Nat) × TradeRec K)} (h : Log s D R) (h1 : s'.trades = s.trades)
    (h2 : s'.numtrades = s.numtrades) : Log s' D R := ⟨h1.trans h.eq, h2 ▸ h.past, h.nodup, h2 ▸ h.rest⟩

/-- An execution keeps the log in shape and only adds to it. -/
theorem settle_logged {s : Sim K} {D R : List ((Nat × Option Nat) × TradeRec K)} (h : Log s D R) (p : CarbonPair) (tkn : Str) (amt : K)
    (byTarget : Bool) (pl : Plan K) :
    ∃ D' R', Log (s.settle p tkn amt byTarget pl).2 (D ++ D') R' ∧ (∀ e ∈ D', e.1.1 = s.numtrades) ∧
      (s.settle p tkn amt byTarget pl).2.numtrades = s.numtrades + (if (s.settle p tkn amt byTarget pl).1.isOk then 1 else 0) := by
  cases ht : s.settle p tkn amt byTarget pl with
  | mk r s' =>
    cases r with
    | ok recs =>
      obtain ⟨price, new, R', _, _, _, h5, h6, h7, _⟩ := settle_log h ht
      exact ⟨R', [], h6, h7, by simpa [Except.isOk, Except.toBool] using h5⟩
    | error e =>
      have : ∃ R', Log s' D R' ∧ s'.numtrades = s.numtrades := by
        unfold settle at ht
        dsimp only at ht
        have hn := runRoutes_numtrades (p := p) (tkn := tkn) (swap := byTarget && decide (s.method = .fast)) (pl := pl) pl.routes s 0
        obtain ⟨R', i1, _⟩ := runRoutes_log (p := p) (tkn := tkn) (swap := byTarget && decide (s.method = .fast)) (pl := pl) pl.routes s 0 h
          (Nat.zero_le _)
        generalize runRoutes p tkn (byTarget && decide (s.method = .fast)) pl s 0 pl.routes = q at ht hn i1
        obtain ⟨q, s1⟩ := q
        cases q with
        | error e => cases ht; exact ⟨R', i1, hn⟩
        | ok _ =>
          dsimp only at ht hn i1
          split at ht
          · cases ht; exact ⟨R', i1, hn⟩
          · cases ht
      obtain ⟨R', h1, h2⟩ := this
      refine ⟨[], R', by rw [List.append_nil]; exact h1, fun e he => (List.not_mem_nil he).elim, ?_⟩
      simpa [Except.isOk, Except.toBool] using h2

/-- A trade keeps the log in shape and only adds to it. -/
theorem trade_logged {s : Sim K} {D R : List ((Nat × Option Nat) × TradeRec K)} (h : Log s D R) (p : CarbonPair) (tkn : Str) (amt : K)
    (byTarget : Bool) (a : TradeArgs K) :
    ∃ D' R', Log (s.trade p tkn amt byTarget a).2 (D ++ D') R' ∧ (∀ e ∈ D', e.1.1 = s.numtrades) ∧
      (s.trade p tkn amt byTarget a).2.numtrades = s.numtrades + (if (s.trade p tkn amt byTarget a).1.isOk then 1 else 0) := by
  rw [trade_eq_settle]
  split
  · exact ⟨[], R, by rw [List.append_nil]; exact h, fun e he => (List.not_mem_nil he).elim, rfl⟩
  · exact settle_logged h _ _ _ _ _

theorem call_logged {s : Sim K} {D R : List ((Nat × Option Nat) × TradeRec K)} (h : Log s D R) (buys : Bool) (a : TradeArgs K) :
    ∃ D' R', Log (s.call buys a).2 (D ++ D') R' ∧ (∀ e ∈ D', e.1.1 = s.numtrades) ∧
      (s.call buys a).2.numtrades = s.numtrades + (if (s.call buys a).1.isOk then 1 else 0) := by
  rcases call_cases s buys a with ⟨e, he⟩ | ⟨p, tkn, x, byT, a', _, he⟩
  · rw [he]
    exact ⟨[], R, by rw [List.append_nil]; exact h, fun e he => (List.not_mem_nil he).elim, rfl⟩
  · rw [he]
    exact trade_logged h p tkn x byT a'

theorem addStrategy_log (s : Sim K) (a : StrategyArgs K) :
    (s.addStrategy a).2.trades = s.trades ∧ (s.addStrategy a).2.numtrades = s.numtrades := by
  rcases addStrategy_cases s a with ⟨e, he⟩ | ⟨p, tkn2, hp, ht, ⟨e, he⟩ | ⟨o1, r2, hs, ⟨e, he⟩ | ⟨o2, hr, r, he, hc⟩⟩⟩ <;>
    rw [he] <;> exact ⟨rfl, rfl⟩

theorem single_log (s : Sim K) (tkn : Str) (amt ps pe pm yint : Option K) (pair : CarbonPair.Arg) (oid lid : Option Nat) :
    (s.addReplaceSingle tkn amt ps pe pm yint pair oid lid).2.trades = s.trades ∧
    (s.addReplaceSingle tkn amt ps pe pm yint pair oid lid).2.numtrades = s.numtrades := by
  unfold addReplaceSingle
  repeat' first
    | exact ⟨rfl, rfl⟩
    | dsimp only
    | split

theorem delete_log (s : Sim K) (k : Nat) :
    (s.deleteOrder k).2.trades = s.trades ∧ (s.deleteOrder k).2.numtrades = s.numtrades := by
  rcases deleteOrder_cases s k with ⟨_, e⟩ | ⟨o, _, ⟨_, e⟩ | ⟨_, _, _, e⟩ | ⟨_, _, _, e⟩⟩ <;> rw [e] <;> exact ⟨rfl, rfl⟩

theorem step_logged {s : Sim K} {D R : List ((Nat × Option Nat) × TradeRec K)} (h : Log s D R) (op : Op K) :
    ∃ D' R', Log (step s op) (D ++ D') R' ∧ (∀ e ∈ D', e.1.1 = s.numtrades) ∧ s.numtrades ≤ (step s op).numtrades := by
  have keep : ∀ s' : Sim K, s'.trades = s.trades → s'.numtrades = s.numtrades → ∃ D' R', Log s' (D ++ D') R' ∧
      (∀ e ∈ D', e.1.1 = s.numtrades) ∧ s.numtrades ≤ s'.numtrades := fun s' h1 h2 =>
    ⟨[], R, by rw [List.append_nil]; exact h.same h1 h2, fun e he => (List.not_mem_nil he).elim, h2.ge⟩
  cases op with
  | add a => exact keep _ (addStrategy_log s a).1 (addStrategy_log s a).2
  | single tkn amt ps pe pm yint pair oid lid =>
    have := single_log s tkn amt ps pe pm yint pair oid lid
    exact keep _ this.1 this.2
  | delete k => exact keep _ (delete_log s k).1 (delete_log s k).2
  | buys a =>
    obtain ⟨D', R', h1, h2, h3⟩ := call_logged h true a
    exact ⟨D', R', h1, h2, (Nat.le_add_right _ _).trans h3.ge⟩
  | sells a =>
    obtain ⟨D', R', h1, h2, h3⟩ := call_logged h false a
    exact ⟨D', R', h1, h2, (Nat.le_add_right _ _).trans h3.ge⟩

theorem run_logged {s : Sim K} {D R : List ((Nat × Option Nat) × TradeRec K)} (h : Log s D R) (ops : List (Op K)) :
    ∃ D' R', Log (run s ops) (D ++ D') R' ∧ (∀ e ∈ D', s.numtrades ≤ e.1.1) ∧ s.numtrades ≤ (run s ops).numtrades := by
  induction ops generalizing s D R with
  | nil => exact ⟨[], R, by rw [List.append_nil]; exact h, fun e he => (List.not_mem_nil he).elim, le_rfl⟩
  | cons op ops ih =>
    obtain ⟨D', R', h1, h2, h3⟩ := step_logged h op
    obtain ⟨D2, R2, i1, i2, i3⟩ := ih h1
    refine ⟨D' ++ D2, R2, by rw [← List.append_assoc]; exact i1, fun e he => ?_, h3.trans i3⟩
    rcases List.mem_append.mp he with he | he
    · exact (h2 e he).ge
    · exact h3.trans (i2 e he)

theorem new_logged {pair : CarbonPair.Arg} {roe : Bool} {m : Method} {ef : Bool} {s : Sim K} (h : new pair roe m ef = .ok s) : Log s [] [] := by
  unfold new at h
  rw [Py.bind_eq_ok] at h
  obtain ⟨p, _, h⟩ := h
  cases h
  exact ⟨rfl, fun e he => (List.not_mem_nil he).elim, List.nodup_nil, fun i e he => by cases he⟩

/-- The states a simulator can be in. -/
def Reachable (s : Sim K) : Prop := ∃ pair roe m ef s0 ops, new pair roe m ef = .ok s0 ∧ s = run s0 ops

theorem Reachable.logged {s : Sim K} (h : Reachable s) : Logged s := by
  obtain ⟨pair, roe, m, ef, s0, ops, h0, rfl⟩ := h
  obtain ⟨D, R, h1, _⟩ := run_logged (new_logged h0) ops
  exact ⟨_, R, h1⟩

/-! ## C104 -/

/-- **C104** Records of completed trades are never changed or removed, and nothing is added under the number of a completed trade. -/
theorem C104_past (s : Sim K) (h : Reachable s) (ops : List (Op K)) (u : Nat × Option Nat) (hu : u.1 < s.numtrades) :
    Dict.get (run s ops).trades u = Dict.get s.trades u := by
  obtain ⟨D, R, hL⟩ := h.logged
  obtain ⟨D', R', h1, h2, mono⟩ := run_logged hL ops
  have key : ∀ X : List ((Nat × Option Nat) × TradeRec K), (∀ e ∈ X, s.numtrades ≤ e.1.1) →
      Dict.get (D ++ X) u = Dict.get D u := by
    intro X hX
    unfold Dict.get
    rw [List.find?_append]
    have : ∀ f : (Nat × Option Nat) × TradeRec K → Bool, (∀ e, f e = true → e.1 = u) → X.find? f = none := by
      intro f hf
      rw [List.find?_eq_none]
      intro e he hc
      have := hX e he
      rw [hf e hc] at this
      omega
    rw [this]
    · rw [Option.or_none]
    · intro e h
      exact eq_of_beq h
  have rest : ∀ {s' : Sim K} {D R : List ((Nat × Option Nat) × TradeRec K)}, Log s' D R → ∀ e ∈ R, e.1.1 = s'.numtrades := by
    intro s' D R hl e he
    obtain ⟨i, hi⟩ := List.mem_iff_getElem?.mp he
    rw [hl.rest i e hi]
  rw [h1.eq, hL.eq, List.append_assoc, key, key]
  · intro e he
    exact (rest hL e he).ge
  · intro e he
    rcases List.mem_append.mp he with he | he
    · exact h2 e he
    · exact mono.trans (rest h1 e he).ge

/-- **C104** A call of the API takes the next number if it succeeds, and no number otherwise. -/
theorem C104_numbers (s : Sim K) (h : Reachable s) (buys : Bool) (a : TradeArgs K) :
    (s.call buys a).2.numtrades = s.numtrades + (if (s.call buys a).1.isOk then 1 else 0) := by
  obtain ⟨D, R, hL⟩ := h.logged
  obtain ⟨_, _, _, _, h1⟩ := call_logged hL buys a
  exact h1

/-- The records of the routes agree with the aggregate record. -/
theorem recorded_spec {p : CarbonPair} {tkn : Str} {swap : Bool} {pl : Plan K} {price : K} (hp : logPrice swap pl.price = .ok price) {n : Nat}
    (as : List (Action K)) (ct : Nat) (l : List (TradeRec K)) (h : Recorded p tkn swap pl n ct as l) :
    l.length = as.length ∧ (∀ (i : Nat) (r : TradeRec K), l[i]? = some r → r.uid = (n, some (ct + i)) ∧ r.exec = pl.exec ∧
      r.limitfail = pl.limitfail ∧ r.tkn1 = tkn ∧ r.tkn2 = p.other tkn ∧ r.pair = p.pairIso ∧ r.price = price) ∧
      l.flatMap TradeRec.routes = as.filterMap (fun a => pl.ids[a.index]?) ∧
      l.map TradeRec.amt1 = as.map (fun a => sold swap a.input a.output) ∧
      l.map TradeRec.amt2 = as.map (fun a => bought swap a.input a.output) := by
  induction as generalizing ct l with
  | nil => rw [show l = [] from h]; simp
  | cons a as ih =>
    obtain ⟨k, price', t, h1, h2, rfl, h3⟩ := h
    obtain ⟨i1, i2, i3, i4, i5⟩ := ih _ _ h3
    rw [hp] at h2
    cases h2
    refine ⟨by simp [i1], ?_, ?_, by simp [i4, routeRec], by simp [i5, routeRec]⟩
    · intro i r hr
      cases i with
      | zero =>
        cases hr
        exact ⟨rfl, rfl, rfl, rfl, rfl, rfl, rfl⟩
      | succ i =>
        obtain ⟨j1, j2⟩ := i2 i r hr
        refine ⟨?_, j2⟩
        rw [j1]
        have : ct + 1 + i = ct + (i + 1) := by omega
        rw [this]
    · rw [List.flatMap_cons, i3, List.filterMap_cons, h1]
      rfl

/-- **C104** What a successful call returns: one record for every route, numbered in order, then the aggregate record. They agree in
everything but the amounts and positions, the aggregate lists the positions of the routes, and all of them are in the log. -/
theorem C104_records (s s' : Sim K) (h : Reachable s) (buys : Bool) (a : TradeArgs K) (recs : List (TradeRec K))
    (hc : s.call buys a = (.ok recs, s')) :
    ∃ (p : CarbonPair) (routes : List (TradeRec K)) (agg : TradeRec K), s.getPair a.pair = .ok p ∧ recs = routes ++ [agg] ∧ routes ≠ [] ∧
      agg.uid = (s.numtrades, none) ∧ agg.pair = p.pairIso ∧ agg.tkn2 = p.other agg.tkn1 ∧
      (if buys = decide (0 ≤ a.amt) then p.other a.tkn = some agg.tkn1 else agg.tkn1 = a.tkn) ∧
      (∀ (i : Nat) (r : TradeRec K), routes[i]? = some r → r.uid = (s.numtrades, some i) ∧ r.exec = agg.exec ∧ r.limitfail = agg.limitfail ∧
        r.tkn1 = agg.tkn1 ∧ r.tkn2 = agg.tkn2 ∧ r.pair = agg.pair ∧ r.price = agg.price) ∧
      agg.routes = routes.flatMap TradeRec.routes ∧ ∀ r ∈ recs, Dict.get s'.trades r.uid = some r := by
  obtain ⟨D, R, hL⟩ := h.logged
  rcases call_cases s buys a with ⟨e, he⟩ | ⟨p, tkn, x, byT, a', hr, he⟩
  · rw [he] at hc; cases hc
  rw [he] at hc
  obtain ⟨pl, price, new, R', h1, h2, h3, h4, _, _, _, h8⟩ := trade_log hL hc
  obtain ⟨s1, s2, s3, _, _⟩ := recorded_spec h2 _ _ _ h3
  obtain ⟨_, _, _, _, _, _, hg, _⟩ := plan_ok h1
  refine ⟨p, new, _, hr.same.2.2.2.2.2.2, h4, ?_, rfl, rfl, rfl, ?_, ?_, s3.symm, h8⟩
  · rintro rfl
    have : pl.routes = [] := by
      rw [← List.length_eq_zero_iff, ← s1]; rfl
    rw [this] at hg
    cases hg
  · cases hr with
    | buys h0 hp ht => rw [if_pos (by simp [h0])]; exact ht
    | buysNeg h0 hp => rw [if_neg (by simp [h0])]; rfl
    | sells h0 hp => rw [if_neg (by simp [h0])]; rfl
    | sellsNeg h0 hp ht => rw [if_pos (by simp [h0])]; exact ht
  · intro i r hi
    have := s2 i r hi
    rw [Nat.zero_add] at this
    exact this

/-- **C104** The flag for an incomplete trade, when the amount bought by the AMM is given: it is set exactly if that amount was not bought. -/
theorem C104_flag_partial (s s' : Sim K) (h : Reachable s) (a : TradeArgs K) (h0 : 0 ≤ a.amt) (recs : List (TradeRec K))
    (hc : s.call true a = (.ok recs, s')) :
    ∃ agg, recs.getLast? = some agg ∧ agg.uid = (s.numtrades, none) ∧ (agg.partialFill = true ↔ agg.amt2 ≠ a.amt) := by
  obtain ⟨D, R, hL⟩ := h.logged
  rcases call_cases s true a with ⟨e, he⟩ | ⟨p, tkn, x, byT, a', hr, he⟩
  · rw [he] at hc; cases hc
  rw [he] at hc
  obtain ⟨pl, price, new, R', h1, h2, h3, h4, _⟩ := trade_log hL hc
  refine ⟨_, by rw [h4]; exact List.getLast?_concat, rfl, ?_⟩
  cases hr with
  | buys h0 hp ht =>
    show decide (a.amt ≠ |pl.last.totalInput|) = true ↔ |pl.last.totalInput| ≠ a.amt
    rw [decide_eq_true_iff]
    exact ne_comm
  | buysNeg hn hp => exact absurd h0 (not_le.mpr hn)

/-- **C104** fails for the flag of a sale: it is set however much of the amount was sold. -/
theorem C104_flag_violated (s s' : Sim K) (h : Reachable s) (a : TradeArgs K) (h0 : 0 < a.amt) (recs : List (TradeRec K))
    (hc : s.call false a = (.ok recs, s')) :
    ∃ agg, recs.getLast? = some agg ∧ agg.uid = (s.numtrades, none) ∧ agg.tkn1 = a.tkn ∧ agg.partialFill = true := by
  obtain ⟨D, R, hL⟩ := h.logged
  rcases call_cases s false a with ⟨e, he⟩ | ⟨p, tkn, x, byT, a', hr, he⟩
  · rw [he] at hc; cases hc
  rw [he] at hc
  obtain ⟨pl, price, new, R', h1, h2, h3, h4, _⟩ := trade_log hL hc
  refine ⟨_, by rw [h4]; exact List.getLast?_concat, rfl, ?_⟩
  cases hr with
  | sells h0' hp =>
    refine ⟨rfl, ?_⟩
    unfold aggRec
    rw [decide_eq_true_iff]
    intro hc
    have := abs_nonneg pl.last.totalInput
    linarith
  | sellsNeg hn hp ht => exact absurd h0 (not_lt.mpr hn.le)

end Generic

/-- The price of a plan is the price of its amounts, in the convention of the pair. -/
theorem plan_price {s : Sim ℝ} (h : Healthy s) {p : CarbonPair} {tkn : Str} {amt : ℝ} {byTarget : Bool} {a : TradeArgs ℝ} {pl : Plan ℝ}
    (hx : if byTarget then amt ≤ 0 else 0 ≤ amt) (hsp : s.method = .alpha → a.supportPartial = false)
    (hpl : s.plan p tkn amt byTarget a = .ok pl) {price : ℝ} (hp : logPrice (byTarget && decide (s.method = .fast)) pl.price = .ok price) :
    let amt1 := sold (byTarget && decide (s.method = .fast)) pl.last.totalInput pl.last.totalOutput
    let amt2 := bought (byTarget && decide (s.method = .fast)) pl.last.totalInput pl.last.totalOutput
    0 < amt1 ∧ 0 < amt2 ∧ p.hasToken tkn = true ∧ price = if p.hasQuote tkn then amt1 / amt2 else amt2 / amt1 := by
  obtain ⟨_, _, hs, _⟩ := plan_sound h hx hsp hpl
  obtain ⟨_, _, raw, _, _, _, _, _, h6, h7, _⟩ := plan_ok hpl
  have hin := hs.inp
  have hout := hs.out
  generalize (byTarget && decide (s.method = .fast)) = swap at hp
  have h1 : 0 < |pl.last.totalInput| := abs_pos.mpr hin.ne'
  have h2 : 0 < |pl.last.totalOutput| := abs_pos.mpr hout.ne
  rw [pyDiv_ok hin.ne'] at h6
  have hraw : raw = |pl.last.totalOutput| / |pl.last.totalInput| := by
    rw [abs_of_pos hin, abs_of_neg hout]; exact (Except.ok.inj h6).symm
  have hrp : 0 < raw := by rw [hraw]; positivity
  unfold CarbonPair.convertPrice at h7
  dsimp only at h7
  have ht : p.hasToken tkn = true := by
    by_contra hc
    rw [if_pos (by simpa using hc)] at h7
    rw [← Except.ok.inj h7] at hp
    cases hp
  rw [if_neg (by simp [ht])] at h7
  dsimp only
  refine ⟨?_, ?_, ht, ?_⟩
  · unfold sold; split_ifs <;> assumption
  · unfold bought; split_ifs <;> assumption
  · by_cases hq : p.hasQuote tkn = true
    · rw [if_pos hq] at h7 ⊢
      rw [← Except.ok.inj h7] at hp
      cases swap with
      | false =>
        unfold logPrice at hp
        simp only [Bool.false_eq_true, if_false] at hp
        rw [← Except.ok.inj hp, hraw]
        rfl
      | true =>
        unfold logPrice at hp
        simp only [if_true] at hp
        rw [pyDiv_ok hrp.ne'] at hp
        rw [← Except.ok.inj hp, hraw, one_div_div]
        rfl
    · rw [if_neg hq] at h7 ⊢
      rw [pyDiv_ok hrp.ne', Py.ok_bind] at h7
      rw [← Except.ok.inj h7] at hp
      cases swap with
      | false =>
        unfold logPrice at hp
        simp only [Bool.false_eq_true, if_false] at hp
        rw [← Except.ok.inj hp, hraw, one_div_div]
        rfl
      | true =>
        unfold logPrice at hp
        simp only [if_true] at hp
        rw [pyDiv_ok (one_div_pos.mpr hrp).ne'] at hp
        rw [← Except.ok.inj hp, hraw, one_div_one_div]
        rfl

/-- **C104** The amounts of the aggregate record are the sums of those of the routes, all of them positive, and its price is the price
of its amounts, quote token per base token, with every router. -/
theorem C104_totals (s s' : Sim ℝ) (hr : Reachable s) (h : Healthy s) (buys : Bool) (a : TradeArgs ℝ)
    (hsp : s.method = .alpha → a.supportPartial = false) (recs : List (TradeRec ℝ)) (hc : s.call buys a = (.ok recs, s')) :
    ∃ p routes agg, s.getPair a.pair = .ok p ∧ recs = routes ++ [agg] ∧ agg.uid = (s.numtrades, none) ∧
      agg.amt1 = (routes.map TradeRec.amt1).sum ∧ agg.amt2 = (routes.map TradeRec.amt2).sum ∧
      (∀ r ∈ recs, 0 < r.amt1 ∧ 0 < r.amt2) ∧ p.hasToken agg.tkn1 = true ∧
      agg.price = if p.hasQuote agg.tkn1 then agg.amt1 / agg.amt2 else agg.amt2 / agg.amt1 := by
  obtain ⟨D, R, hL⟩ := hr.logged
  rcases call_cases s buys a with ⟨e, he⟩ | ⟨p, tkn, x, byT, a', hrch, he⟩
  · rw [he] at hc; cases hc
  rw [he] at hc
  obtain ⟨hx, _, _, hsp', _, _, hp⟩ := hrch.same
  have hsp2 : s.method = .alpha → a'.supportPartial = false := fun hm => hsp'.trans (hsp hm)
  obtain ⟨pl, price, new, R', h1, h2, h3, h4, _⟩ := trade_log hL hc
  obtain ⟨s1, s2, s3, s4, s5⟩ := recorded_spec h2 _ _ _ h3
  obtain ⟨_, _, hs, _⟩ := plan_sound h hx hsp2 h1
  obtain ⟨q1, q2, q3, q4⟩ := plan_price h hx hsp2 h1 h2
  refine ⟨p, new, _, hp, h4, rfl, ?_, ?_, ?_, q3, q4⟩
  · rw [s4]; exact hs.soldTot
  · rw [s5]; exact hs.boughtTot
  · intro r hr
    rw [h4] at hr
    rcases List.mem_append.mp hr with hr | hr
    · obtain ⟨i, hi⟩ := List.mem_iff_getElem?.mp hr
      have e4 : (new.map TradeRec.amt1)[i]? = some r.amt1 := by rw [List.getElem?_map, hi]; rfl
      have e5 : (new.map TradeRec.amt2)[i]? = some r.amt2 := by rw [List.getElem?_map, hi]; rfl
      rw [s4, List.getElem?_map, Option.map_eq_some_iff] at e4
      rw [s5, List.getElem?_map, Option.map_eq_some_iff] at e5
      obtain ⟨b, b1, b2⟩ := e4
      obtain ⟨c, c1, c2⟩ := e5
      rw [b1] at c1
      cases c1
      obtain ⟨_, _, d1, _, d2⟩ := hs.each b (List.mem_of_getElem? b1)
      exact ⟨b2 ▸ d1, c2 ▸ d2⟩
    · rw [List.mem_singleton.mp hr]
      exact ⟨q1, q2⟩

/-! ## C105 -/

section Preview
variable {K : Type} [Field K] [LinearOrder K] [IsStrictOrderedRing K] [PySqrt K]

/-- A record without the mark whether the trade was executed. -/
def unmarked (r : TradeRec K) : TradeRec K := { r with exec := false }

theorem call_executes (s : Sim K) (buys : Bool) (a : TradeArgs K) :
    (∃ e, ∀ b, s.call buys { a with execute := b } = (.error e, s)) ∨
    ∃ (p : CarbonPair) (tkn : Str) (amt : K) (byTarget : Bool) (a' : TradeArgs K), (if byTarget then amt ≤ 0 else 0 ≤ amt) ∧ a'.supportPartial = a.supportPartial ∧
      ∀ b, s.call buys { a with execute := b } = s.trade p tkn amt byTarget { a' with execute := b } := by
  have hb : ∀ a : TradeArgs K, (∃ e, ∀ b, s.buysPos { a with execute := b } = (.error e, s)) ∨
      ∃ p tkn, ∀ b, s.buysPos { a with execute := b } = s.trade p tkn a.amt false { a with execute := b } := by
    intro a
    unfold buysPos
    dsimp only
    split
    · rename_i e _
      exact .inl ⟨e, fun _ => rfl⟩
    · rename_i p tkn _
      exact .inr ⟨p, tkn, fun _ => rfl⟩
  have hs : ∀ a : TradeArgs K, (∃ e, ∀ b, s.sellsPos { a with execute := b } = (.error e, s)) ∨
      ∃ p, ∀ b, s.sellsPos { a with execute := b } = s.trade p a.tkn (-a.amt) true { a with execute := b } := by
    intro a
    unfold sellsPos
    dsimp only
    split
    · rename_i e _
      exact .inl ⟨e, fun _ => rfl⟩
    · rename_i p _
      exact .inr ⟨p, fun _ => rfl⟩
  by_cases h0 : a.amt < 0
  · cases buys with
    | true =>
      have e : ∀ b, s.call true { a with execute := b } = s.sellsPos { a.flip with execute := b } := by
        intro b
        show s.ammBuys _ = _
        unfold ammBuys
        rw [if_pos h0]; rfl
      simp only [e]
      rcases hs a.flip with ⟨e, he⟩ | ⟨p, hp⟩
      · exact .inl ⟨e, he⟩
      · refine .inr ⟨p, a.flip.tkn, _, true, a.flip, ?_, rfl, hp⟩
        show -(-a.amt) ≤ 0
        linarith
    | false =>
      have e : ∀ b, s.call false { a with execute := b } = s.buysPos { a.flip with execute := b } := by
        intro b
        show s.ammSells _ = _
        unfold ammSells
        rw [if_pos h0]; rfl
      simp only [e]
      rcases hb a.flip with ⟨e, he⟩ | ⟨p, tkn, hp⟩
      · exact .inl ⟨e, he⟩
      · refine .inr ⟨p, tkn, _, false, a.flip, ?_, rfl, hp⟩
        show 0 ≤ -a.amt
        linarith
  · cases buys with
    | true =>
      have e : ∀ b, s.call true { a with execute := b } = s.buysPos { a with execute := b } := by
        intro b
        show s.ammBuys _ = _
        unfold ammBuys
        rw [if_neg h0]
      simp only [e]
      rcases hb a with ⟨e, he⟩ | ⟨p, tkn, hp⟩
      · exact .inl ⟨e, he⟩
      · exact .inr ⟨p, tkn, _, false, a, not_lt.mp h0, rfl, hp⟩
    | false =>
      have e : ∀ b, s.call false { a with execute := b } = s.sellsPos { a with execute := b } := by
        intro b
        show s.ammSells _ = _
        unfold ammSells
        rw [if_neg h0]
      simp only [e]
      rcases hs a with ⟨e, he⟩ | ⟨p, hp⟩
      · exact .inl ⟨e, he⟩
      · refine .inr ⟨p, a.tkn, _, true, a, ?_, rfl, hp⟩
        show -a.amt ≤ 0
        linarith [not_lt.mp h0]

/-- The plan depends on `execute` only through its mark. -/
theorem plan_executes (s : Sim K) (p : CarbonPair) (tkn : Str) (amt : K) (byTarget : Bool) (a : TradeArgs K) :
    (∃ e, ∀ b, s.plan p tkn amt byTarget { a with execute := b } = .error e) ∨
    ∃ (pl : Plan K) (m : Bool), ∀ b, s.plan p tkn amt byTarget { a with execute := b } = .ok { pl with exec := b && m } := by
  have hl : ∀ b, limitOf p tkn amt byTarget { a with execute := b } = limitOf p tkn amt byTarget a := fun _ => rfl
  unfold plan
  simp only [hl]
  cases limitOf p tkn amt byTarget a with
  | error e => exact .inl ⟨e, fun _ => rfl⟩
  | ok limit =>
    simp only [Py.ok_bind]
    cases p.reverse with
    | error e => exact .inl ⟨e, fun _ => rfl⟩
    | ok r =>
      simp only [Py.ok_bind]
      split_ifs
      · exact .inl ⟨_, fun _ => rfl⟩
      · cases route s.method ((s.applicable p r tkn a.usePositions).map fun e => e.2.curve) amt byTarget a.threshold a.supportPartial with
        | error e => exact .inl ⟨e, fun _ => rfl⟩
        | ok routes =>
          simp only [Py.ok_bind]
          cases routes.getLast? with
          | none => exact .inl ⟨_, fun _ => rfl⟩
          | some last =>
            dsimp only
            cases pyDiv (-last.totalOutput) last.totalInput with
            | error e => exact .inl ⟨e, fun _ => rfl⟩
            | ok raw =>
              simp only [Py.ok_bind]
              cases p.convertPrice (some raw) tkn with
              | error e => exact .inl ⟨e, fun _ => rfl⟩
              | ok price =>
                simp only [Py.ok_bind]
                cases limit with
                | none =>
                  refine .inr ⟨⟨(s.applicable p r tkn a.usePositions).map fun e => e.2.id, routes, last, price, false, none⟩, true, fun b => ?_⟩
                  rw [Bool.and_true]
                | some l =>
                  cases price with
                  | none => exact .inl ⟨_, fun _ => rfl⟩
                  | some pr =>
                    exact .inr ⟨⟨(s.applicable p r tkn a.usePositions).map fun e => e.2.id, routes, last, some pr, false,
                      some (!(p.limitIsMet tkn l .buy pr == some true))⟩, p.limitIsMet tkn l .buy pr == some true, fun _ => rfl⟩

theorem runRoutes_preview {p : CarbonPair} {tkn : Str} {swap : Bool} {pl : Plan K} {price : K} (hx : pl.exec = false)
    (hp : logPrice swap pl.price = .ok price) (l : List (Action K)) (s : Sim K) (ct : Nat) (hk : ∀ a ∈ l, ∃ k, pl.ids[a.index]? = some k) :
    (runRoutes p tkn swap pl s ct l).1 = .ok () := by
  induction l generalizing s ct with
  | nil => rfl
  | cons a l ih =>
    obtain ⟨k, hk1⟩ := hk a List.mem_cons_self
    unfold runRoutes
    simp only [hk1, hx, Bool.false_eq_true, if_false, hp]
    exact ih _ _ fun b hb => hk b (List.mem_cons_of_mem _ hb)

theorem recorded_unmarked {p : CarbonPair} {tkn : Str} {swap : Bool} {pl : Plan K} {b c : Bool} {n : Nat} (as : List (Action K)) (ct : Nat)
    (l l' : List (TradeRec K)) (h : Recorded p tkn swap { pl with exec := b } n ct as l)
    (h' : Recorded p tkn swap { pl with exec := c } n ct as l') : l.map unmarked = l'.map unmarked := by
  induction as generalizing ct l l' with
  | nil => rw [show l = [] from h, show l' = [] from h']
  | cons a as ih =>
    obtain ⟨k, pr, t, h1, h2, rfl, h3⟩ := h
    obtain ⟨k', pr', t', h1', h2', rfl, h3'⟩ := h'
    dsimp only at h1 h1' h2 h2'
    rw [h1] at h1'
    rw [h2] at h2'
    cases h1'
    cases h2'
    rw [List.map_cons, List.map_cons, ih _ _ _ h3 h3']
    rfl

end Preview

/-- **C105** A dry run is a faithful preview: it fails exactly if the executed trade would, with the same error, and otherwise returns
the same records except for the mark that tells that it was not executed. -/
theorem C105_preview (s : Sim ℝ) (hr : Reachable s) (h : Healthy s) (hL : Links s) (buys : Bool) (a : TradeArgs ℝ)
    (hsp : s.method = .alpha → a.supportPartial = false) :
    (∃ e, (s.call buys { a with execute := false }).1 = .error e ∧ (s.call buys { a with execute := true }).1 = .error e) ∨
    ∃ dry done, (s.call buys { a with execute := false }).1 = .ok dry ∧ (s.call buys { a with execute := true }).1 = .ok done ∧
      dry.map unmarked = done.map unmarked ∧ ∀ r ∈ dry, r.exec = false := by
  obtain ⟨D, R, hlog⟩ := hr.logged
  rcases call_executes s buys a with ⟨e, he⟩ | ⟨p, tkn, x, byT, a', hx, hsp', he⟩
  · exact .inl ⟨e, by rw [he], by rw [he]⟩
  rw [he, he]
  have hsp2 : s.method = .alpha → a'.supportPartial = false := fun hm => hsp'.trans (hsp hm)
  rcases plan_executes s p tkn x byT a' with ⟨e, hp⟩ | ⟨pl, m, hp⟩
  · refine .inl ⟨e, ?_, ?_⟩ <;> (unfold trade; rw [hp])
  have hp0 := hp false
  have hp1 := hp true
  rw [Bool.false_and] at hp0
  rw [Bool.true_and] at hp1
  obtain ⟨r, _, hs, hrd, happ⟩ := plan_sound (a := { a' with execute := true }) h hx hsp2 hp1
  dsimp only at hs hrd happ
  have hids : ∀ b ∈ pl.routes, ∃ k, pl.ids[b.index]? = some k := fun b hb => by
    obtain ⟨k, _, hk, _⟩ := happ b hb
    exact ⟨k, hk⟩
  cases hlp : logPrice (byT && decide (s.method = .fast)) pl.price with
  | error e =>
    have err : ∀ b, (s.trade p tkn x byT { a' with execute := b }).1 = .error e := by
      intro b
      obtain ⟨_, _, _, _, _, _, hg, _⟩ := plan_ok hp1
      dsimp only at hg
      unfold trade
      rw [hp b]
      dsimp only
      cases hrt : pl.routes with
      | nil => rw [hrt] at hg; cases hg
      | cons c cs =>
        obtain ⟨k, o, c1, c2, _⟩ := happ c (by rw [hrt]; exact List.mem_cons_self)
        obtain ⟨hne, lo, hlo, _⟩ := hL k o c2
        obtain ⟨s1, h1, _⟩ := execRoute_ok (swap := byT && decide (s.method = .fast)) (a := c) c2 hne hlo
        unfold runRoutes
        simp only [c1, h1, hlp]
        cases b <;> cases m <;> rfl
    exact .inl ⟨e, err false, err true⟩
  | ok price =>
    have ok0 : ∃ recs s', s.trade p tkn x byT { a' with execute := false } = (.ok recs, s') := by
      have := runRoutes_preview (p := p) (tkn := tkn) (pl := { pl with exec := false }) rfl hlp pl.routes s 0 hids
      unfold trade
      rw [hp0]
      dsimp only
      generalize runRoutes p tkn (byT && decide (s.method = .fast)) { pl with exec := false } s 0 pl.routes = q at this
      obtain ⟨q, s1⟩ := q
      cases q with
      | error e => cases this
      | ok _ =>
        dsimp only
        rw [hlp]
        exact ⟨_, _, rfl⟩
    have ok1 : ∃ recs s', s.trade p tkn x byT { a' with execute := true } = (.ok recs, s') := by
      cases m with
      | true =>
        obtain ⟨recs, _, s', f1, _⟩ := trade_ok (a := { a' with execute := true }) h hL hx hsp2 hp1 rfl hlp
        exact ⟨recs, s', f1⟩
      | false =>
        obtain ⟨recs, s', h0⟩ := ok0
        refine ⟨recs, s', ?_⟩
        rw [← h0]
        unfold trade
        rw [hp0, hp1]
    obtain ⟨r0, s0, h0⟩ := ok0
    obtain ⟨r1, s1, h1⟩ := ok1
    rw [h0, h1]
    obtain ⟨pl0, price0, new0, _, a1, a2, a3, a4, _⟩ := trade_log hlog h0
    obtain ⟨pl1, price1, new1, _, b1, b2, b3, b4, _⟩ := trade_log hlog h1
    rw [hp0] at a1
    rw [hp1] at b1
    cases a1
    cases b1
    rw [a2] at b2
    dsimp only at a2 a3 a4 b2 b3 b4
    cases b2
    refine .inr ⟨r0, r1, rfl, rfl, ?_, ?_⟩
    · rw [a4, b4, List.map_append, List.map_append, recorded_unmarked _ _ _ _ a3 b3]
      rfl
    · intro r hr
      rw [a4] at hr
      rcases List.mem_append.mp hr with hr | hr
      · obtain ⟨i, hi⟩ := List.mem_iff_getElem?.mp hr
        exact ((recorded_spec (pl := { pl with exec := false }) a2 _ _ _ a3).2.1 i r hi).2.1
      · rw [List.mem_singleton.mp hr]; rfl

/-! ## Instances -/

/-- Two trades on a book with two strategies, and their log: the first goes through two routes. -/
def traded : Sim ℚ := run (sim0 .fast) [.add strat, .add strat, .sells { tkn := "ETH".toList, amt := 12 }, .buys { tkn := "ETH".toList, amt := 1 }]

theorem traded_reachable : Reachable traded :=
  ⟨.str "ETH/USDC".toList, false, .fast, true, sim0 .fast, _, by rfl, rfl⟩

/-- The first trade sold the 12 ETH asked for, and is marked as incomplete. -/
example : traded.numtrades = 2 ∧ (traded.trades.map fun e => (e.1, e.2.amt1, e.2.amt2)) =
      [((0, some 0), 10, 60), ((0, some 1), 2, 60 / 7), ((0, none), 12, 480 / 7), ((1, some 0), 140 / 141, 1), ((1, none), 140 / 141, 1)] ∧
    (traded.trades.map fun e => (e.2.price, e.2.partialFill, e.2.routes)) =
      [(40 / 7, false, [0]), (40 / 7, false, [2]), (40 / 7, true, [0, 2]), (140 / 141, false, [1]), (140 / 141, false, [1])] := by
  decide +kernel

example (ops : List (Op ℚ)) : (Dict.get (run traded ops).trades (1, none)).map TradeRec.amt1 = some (140 / 141) := by
  rw [C104_past traded traded_reachable ops (1, none) (by decide +kernel)]
  decide +kernel

/-- A preview and the trade. -/
example : ((traded.ammSells { tkn := "ETH".toList, amt := 2, execute := false }).1.toOption.getD []).map unmarked =
      ((traded.ammSells { tkn := "ETH".toList, amt := 2 }).1.toOption.getD []).map unmarked ∧
    (((traded.ammSells { tkn := "ETH".toList, amt := 2 }).1.toOption.getD []).map fun r => (r.uid, r.exec, r.amt1, r.amt2, r.price)) =
      [((2, some 0), true, 2, 900 / 91, 450 / 91), ((2, none), true, 2, 900 / 91, 450 / 91)] := by
  decide +kernel

end Carbon.Sim
