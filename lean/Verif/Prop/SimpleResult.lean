import Verif.Tools.SimpleResult
import Verif.Prop.SimpleOpt

/-!
# Results of the optimizer for one pair (C138)
-/

set_option linter.unusedSectionVars false

namespace Carbon

open CarbonPair (pyDiv)
open UICurve (pyDiv_ok)
open CPC (Sound mirror)

namespace Opt

/-! ## Values of the trades -/

theorem wrap_eq (cs : List (CPC ℝ)) : Wrapped.wrap cs = cs.map wrap1 := rfl

theorem OnePair.sumTrade_eq {cs : List (CPC ℝ)} {X Y : Str} (h : OnePair cs X Y) {p : ℝ} (hp : 0 < p) :
    sumTrade (Wrapped.wrap cs) p = .ok (net X cs (tradesTo X p cs), net Y cs (tradesTo X p cs)) := by
  rw [wrap_eq, sumTrade_ok h.sound hp, h.sums_eq hp]

theorem OnePair.valY_eq {cs : List (CPC ℝ)} {X Y : Str} (h : OnePair cs X Y) {p : ℝ} (hp : 0 < p) :
    valY (Wrapped.wrap cs) p = .ok (net X cs (tradesTo X p cs) * p + net Y cs (tradesTo X p cs)) := by
  unfold valY
  rw [h.sumTrade_eq hp]
  rfl

theorem OnePair.valX_eq {cs : List (CPC ℝ)} {X Y : Str} (h : OnePair cs X Y) {p : ℝ} (hp : 0 < p) :
    valX (Wrapped.wrap cs) p = .ok (net X cs (tradesTo X p cs) + net Y cs (tradesTo X p cs) / p) := by
  unfold valX
  rw [h.valY_eq hp, Py.ok_bind, pyDiv_ok hp.ne']
  congr 1
  field_simp

theorem xyfromp_err {c : CPC ℝ} {p : ℝ} (hp : ¬ 0 < p) :
    c.xyfromp (some p) = .error .value ∨ c.xyfromp (some p) = .error .zeroDiv := by
  unfold CPC.xyfromp Curve.sqrtE
  dsimp only [Option.getD_some]
  by_cases h : p < 0
  · rw [if_pos h]; exact Or.inl rfl
  · have : p = 0 := le_antisymm (not_lt.1 hp) (not_lt.1 h)
    subst this
    rw [if_neg h, Py.ok_bind]
    split
    · exact Or.inl rfl
    · rw [Py.ok_bind]
      right
      have : (PySqrt.sqrt (0 : ℝ)) = 0 := Real.sqrt_zero
      unfold pyDiv
      rw [if_pos this]
      rfl

theorem wrappedTrade_err {w : Wrapped ℝ} {p : ℝ} (hp : ¬ 0 < p) :
    wrappedTrade p w = .error .value ∨ wrappedTrade p w = .error .zeroDiv := by
  cases w with
  | plain c =>
    unfold wrappedTrade CPC.dxdyfromp
    dsimp only
    rcases xyfromp_err (c := c) hp with h | h <;> rw [h]
    · exact Or.inl rfl
    · exact Or.inr rfl
  | inv i =>
    unfold wrappedTrade Inv.dxdyfromp Inv.recipArg
    by_cases h0 : p = 0
    · right
      dsimp only
      unfold pyDiv
      rw [if_pos h0]
      rfl
    · dsimp only
      rw [pyDiv_ok h0, Py.ok_bind, Py.ok_bind]
      have : ¬ 0 < 1 / p := by
        intro h
        exact hp (by simpa using h)
      unfold CPC.dxdyfromp
      rcases xyfromp_err (c := i.curve) this with h | h <;> rw [h]
      · exact Or.inl rfl
      · exact Or.inr rfl

/-- Without a positive price nothing has a value. -/
theorem valX_err {w : Wrapped ℝ} {ws : List (Wrapped ℝ)} {p : ℝ} (hp : ¬ 0 < p) :
    valX (w :: ws) p = .error .value ∨ valX (w :: ws) p = .error .zeroDiv := by
  unfold valX valY sumTrade
  rw [List.mapM_cons]
  rcases wrappedTrade_err (w := w) hp with h | h <;> rw [h]
  · exact Or.inl rfl
  · exact Or.inr rfl

theorem OnePair.wrap_cons {cs : List (CPC ℝ)} {X Y : Str} (h : OnePair cs X Y) : ∃ w ws, Wrapped.wrap cs = w :: ws := by
  cases cs with
  | nil => exact absurd rfl h.ne
  | cons c cs => exact ⟨_, _, rfl⟩

theorem OnePair.valX_pos {cs : List (CPC ℝ)} {X Y : Str} (h : OnePair cs X Y) {p v : ℝ} (hv : valX (Wrapped.wrap cs) p = .ok v) : 0 < p := by
  obtain ⟨w, ws, e⟩ := h.wrap_cons
  by_contra hn
  rw [e] at hv
  rcases valX_err (w := w) (ws := ws) hn with k | k <;> rw [k] at hv <;> cases hv

/-- At the price `p`, no trades that the pools accept are worth less to them than the trades to that price. -/
theorem OnePair.worth_le {cs : List (CPC ℝ)} {X Y : Str} (h : OnePair cs X Y) {p : ℝ} (hp : 0 < p) {w : List (ℝ × ℝ)} (hw : w.length = cs.length)
    (ha : ∀ cv ∈ cs.zip w, Allowed cv.1 cv.2) :
    net X cs (tradesTo X p cs) + net Y cs (tradesTo X p cs) / p ≤ net X cs w + net Y cs w / p ∧
      (net X cs w + net Y cs w / p ≤ net X cs (tradesTo X p cs) + net Y cs (tradesTo X p cs) / p → w = tradesTo X p cs) := by
  have hX : priceOf [(X, p)] X = p := by simp [priceOf, dictGet]
  have hY : priceOf [(X, p)] Y = 1 := by simp [priceOf, dictGet, h.diff]
  have hpos : ∀ t, 0 < priceOf [(X, p)] t := by
    intro t
    by_cases e : X = t
    · rw [← e, hX]; exact hp
    · simp [priceOf, dictGet, e]
  have hto : cs.map (tradeOf [(X, p)]) = tradesTo X p cs := by
    unfold tradesTo
    apply List.map_congr_left
    intro d hd
    unfold tradeOf
    rcases h.pair d hd with ⟨k1, k2⟩ | ⟨k1, k2⟩
    · rw [k1, k2, hX, hY, if_pos rfl, div_one]
    · rw [k1, k2, hX, hY, if_neg h.diff.symm]
  obtain ⟨k1, k2⟩ := Opt.worth_le hpos cs h.sound w hw ha
  have hT : ∀ c ∈ cs, c.tknb ∈ ({X, Y} : Finset Str) ∧ c.tknq ∈ ({X, Y} : Finset Str) := by
    intro c hc
    rcases h.pair c hc with ⟨k1, k2⟩ | ⟨k1, k2⟩ <;> rw [k1, k2] <;> simp
  rw [← worth _ _ _ _ hT, ← worth _ _ _ _ hT, hto, Finset.sum_pair h.diff, Finset.sum_pair h.diff, hX, hY] at k1 k2
  have e : ∀ a b : ℝ, a + b / p = (p * a + 1 * b) / p := by intro a b; field_simp
  rw [e, e]
  exact ⟨div_le_div_of_nonneg_right k1 hp.le, fun g => k2 ((div_le_div_iff_of_pos_right hp).1 g)⟩

theorem mem_zip_map {α β : Type} {l : List α} {f : α → β} {x : α × β} (h : x ∈ l.zip (l.map f)) : x.1 ∈ l ∧ x.2 = f x.1 := by
  induction l with
  | nil => simp at h
  | cons a l ih =>
    rw [List.map_cons, List.zip_cons_cons, List.mem_cons] at h
    rcases h with rfl | h
    · exact ⟨by simp, rfl⟩
    · exact ⟨List.mem_cons_of_mem _ (ih h).1, (ih h).2⟩

theorem OnePair.trades_ok {cs : List (CPC ℝ)} {X Y : Str} (h : OnePair cs X Y) {p : ℝ} (hp : 0 < p) :
    (tradesTo X p cs).length = cs.length ∧ ∀ cv ∈ cs.zip (tradesTo X p cs), Allowed cv.1 cv.2 ∧
      (cv.1.x + cv.2.1) * (cv.1.y + cv.2.2) = cv.1.k := by
  refine ⟨by simp [tradesTo], fun cv hcv => ?_⟩
  obtain ⟨h1, h2⟩ := mem_zip_map hcv
  rw [h2]
  apply best_allowed (h.sound _ h1)
  split
  · exact hp
  · positivity

theorem OnePair.worth_two {cs : List (CPC ℝ)} {X Y : Str} (h : OnePair cs X Y) {p q : ℝ} (hp : 0 < p) (hq : 0 < q) :
    net X cs (tradesTo X p cs) + net Y cs (tradesTo X p cs) / p ≤ net X cs (tradesTo X q cs) + net Y cs (tradesTo X q cs) / p :=
  (h.worth_le hp (h.trades_ok hq).1 fun cv hcv => ((h.trades_ok hq).2 cv hcv).1).1

theorem OnePair.best_actual {cs : List (CPC ℝ)} {X Y : Str} (h : OnePair cs X Y) {p : ℝ} (hp : 0 < p) {c : CPC ℝ} (hc : c ∈ cs) :
    best (actual c) p = if c.tknb = X then best c (if c.tknb = X then p else 1 / p) else (best c (if c.tknb = X then p else 1 / p)).swap := by
  rw [h.actual_eq hc]
  split
  · rfl
  · rw [best_mirror (h.sound c hc) hp]
    rfl

theorem zip_map_map {α β γ : Type} (l : List α) (f : α → β) (g : α × β → γ) : (l.zip (l.map f)).map g = l.map fun a => g (a, f a) := by
  induction l with
  | nil => rfl
  | cons a l ih => rw [List.map_cons, List.zip_cons_cons, List.map_cons, ih, List.map_cons]

theorem OnePair.vec_eq {cs : List (CPC ℝ)} {X Y : Str} (h : OnePair cs X Y) {p : ℝ} (hp : 0 < p) :
    (Wrapped.wrap cs).mapM (wrappedTrade p) =
      .ok ((cs.zip (tradesTo X p cs)).map fun cv => if cv.1.tknb = X then cv.2 else cv.2.swap) := by
  rw [tradesTo, zip_map_map, wrap_eq]
  dsimp only
  rw [List.mapM_map, mapM_ok (g := fun c => best (actual c) p)]
  · congr 1
    apply List.map_congr_left
    intro c hc
    exact h.best_actual hp hc
  · intro c hc
    exact wrap1_trade (h.sound c hc) hp

/-! ## The functions of the price -/

theorem OnePair.run_eq {cs : List (CPC ℝ)} {X Y : Str} (h : OnePair cs X Y) (target : Option Str) (result : Option SoResult) (n : Nat)
    (h1 : ¬ (target = none ∧ result = some .targettkn)) (h2 : ¬ (target ≠ none ∧ result = some .globalmax)) :
    simpleRun cs target result n =
      match (generalizing := false) result with
      | some .vecFunc => some (.ok (.vec fun p => (Wrapped.wrap cs).mapM (wrappedTrade p)))
      | some .sumFunc => some (.ok (.sum (sumTrade (Wrapped.wrap cs))))
      | some .valyFunc => some (.ok (.val (valY (Wrapped.wrap cs))))
      | some .valxFunc => some (.ok (.val (valX (Wrapped.wrap cs))))
      | r =>
        match (generalizing := false) r.getD (if target = none then .globalmax else .targettkn), target with
        | .targettkn, some t => (simpleOptimizer cs t n).map fun o => o.map .result
        | r, _ => some (globalRun (Wrapped.wrap cs) r) := by
  obtain ⟨w, ws, e⟩ := h.wrap_cons
  have hall : (w :: ws).all (fun v => decide (wrappedPair v = wrappedPair w)) = true := by
    rw [← e, List.all_eq_true]
    intro v hv
    have hw : w ∈ Wrapped.wrap cs := by rw [e]; simp
    rw [wrap_eq] at hv hw
    obtain ⟨c, hc, rfl⟩ := List.mem_map.1 hv
    obtain ⟨d, hd, rfl⟩ := List.mem_map.1 hw
    rw [wrap1_pair (h.sound c hc), wrap1_pair (h.sound d hd), h.actual_pair hc, h.actual_pair hd]
    simp
  unfold simpleRun
  dsimp only
  rw [e]
  dsimp only
  rw [if_neg (not_not.2 hall), if_neg h1, if_neg h2]
  cases result with
  | none => rfl
  | some r => cases r <;> rfl

/-- C138: the functions that can be asked for give, at every positive price, the trades of the curves to that price in the order of the
tokens `X`, `Y`, their sums, and the value of the sums in either token. -/
theorem C138_functions {cs : List (CPC ℝ)} {X Y : Str} (h : OnePair cs X Y) (target : Option Str) (n : Nat) :
    ∃ f g v w, simpleRun cs target (some .vecFunc) n = some (.ok (.vec f)) ∧ simpleRun cs target (some .sumFunc) n = some (.ok (.sum g)) ∧
      simpleRun cs target (some .valxFunc) n = some (.ok (.val v)) ∧ simpleRun cs target (some .valyFunc) n = some (.ok (.val w)) ∧
      ∀ p, 0 < p →
        f p = .ok ((cs.zip (tradesTo X p cs)).map fun cv => if cv.1.tknb = X then cv.2 else cv.2.swap) ∧
        g p = .ok (net X cs (tradesTo X p cs), net Y cs (tradesTo X p cs)) ∧
        v p = .ok (net X cs (tradesTo X p cs) + net Y cs (tradesTo X p cs) / p) ∧
        w p = .ok (net X cs (tradesTo X p cs) * p + net Y cs (tradesTo X p cs)) := by
  refine ⟨_, _, _, _, h.run_eq target (some .vecFunc) n (by simp) (by simp), h.run_eq target (some .sumFunc) n (by simp) (by simp),
    h.run_eq target (some .valxFunc) n (by simp) (by simp), h.run_eq target (some .valyFunc) n (by simp) (by simp), fun p hp => ?_⟩
  exact ⟨h.vec_eq hp, h.sumTrade_eq hp, h.valX_eq hp, h.valY_eq hp⟩

/-! ## The search without a target -/

theorem findmaxE_pos {f : ℝ → Py ℝ} {x0 : ℝ} {n : Nat} {x : ℝ} (h : findmaxE f x0 (n + 1) = some x) :
    ∃ y, findmaxE f x0 n = some y ∧ newton f y = .ok x := by
  unfold findmaxE at h
  split at h
  · cases h
  · rename_i y hy
    split at h
    · rename_i z hz
      cases h
      exact ⟨y, hy, hz⟩
    · cases h

theorem OnePair.globalRun_cases {cs : List (CPC ℝ)} {X Y : Str} (h : OnePair cs X Y) :
    (∀ r, globalRun (Wrapped.wrap cs) r = .error .value) ∨ (∀ r, globalRun (Wrapped.wrap cs) r = .error .zeroDiv) ∨
      ∃ p, 0 < p ∧ findmaxE (valX (Wrapped.wrap cs)) ((cs.map (priceIn X)).sum / cs.length) 20 = some p ∧
        (∀ r, r ≠ .pmax → r ≠ .globalmax → globalRun (Wrapped.wrap cs) r = .error .value) ∧
        globalRun (Wrapped.wrap cs) .pmax = .ok (.price p) ∧
        globalRun (Wrapped.wrap cs) .globalmax =
          .ok (.result ⟨Wrapped.wrap cs, p, net X cs (tradesTo X p cs) + net Y cs (tradesTo X p cs) / p⟩) := by
  have hps : (Wrapped.wrap cs).mapM wrappedP = .ok (cs.map (priceIn X)) := by
    rw [wrap_eq, mapM_p h.sound]
    congr 1
    exact List.map_congr_left fun c hc => h.actual_p hc
  unfold globalRun
  rw [hps]
  simp only [Py.ok_bind, List.length_map]
  cases hf : findmaxE (valX (Wrapped.wrap cs)) ((cs.map (priceIn X)).sum / cs.length) 20 with
  | none => exact Or.inl fun _ => rfl
  | some p =>
    dsimp only
    by_cases hp : 0 < p
    · right; right
      rw [h.valX_eq hp]
      refine ⟨p, hp, rfl, fun r h1 h2 => ?_, ?_, ?_⟩
      · rw [Py.ok_bind, if_neg h1, if_pos h2]
      · rw [Py.ok_bind, if_pos (by trivial)]
      · rw [Py.ok_bind, if_neg (by decide), if_neg (by simp)]
    · obtain ⟨w, ws, e⟩ := h.wrap_cons
      rw [e]
      rcases valX_err (w := w) (ws := ws) hp with k | k
      · exact Or.inl fun r => by rw [k]; rfl
      · exact Or.inr (Or.inl fun r => by rw [k]; rfl)

/-- C138: without a target the optimizer raises or it returns a positive price; its result is then the value, in `X`, of the trades to that
price, the same price is returned if only the price is asked for, and the other fields agree. -/
theorem C138_global {cs : List (CPC ℝ)} {X Y : Str} (h : OnePair cs X Y) (n : Nat) :
    simpleRun cs none none n = simpleRun cs none (some .globalmax) n ∧
    ∃ r, simpleRun cs none none n = some r ∧ (r = .error .value ∨ r = .error .zeroDiv ∨ ∃ s, r = .ok (.result s) ∧ 0 < s.price ∧
      s.result = net X cs (tradesTo X s.price cs) + net Y cs (tradesTo X s.price cs) / s.price ∧
      s.valx = .ok s.result ∧ s.valy = .ok (s.result * s.price) ∧
      s.dxdySum = .ok (net X cs (tradesTo X s.price cs), net Y cs (tradesTo X s.price cs)) ∧ s.curves = Wrapped.wrap cs ∧
      ∀ t, simpleRun cs t (some .pmax) n = some (.ok (.price s.price))) := by
  have e1 := h.run_eq none none n (by simp) (by simp)
  have e2 := h.run_eq none (some .globalmax) n (by simp) (by simp)
  dsimp only [Option.getD_none, Option.getD_some] at e1 e2
  rw [if_pos rfl] at e1
  refine ⟨by rw [e1, e2], _, e1, ?_⟩
  rcases h.globalRun_cases with k | k | ⟨p, hp, -, -, k1, k2⟩
  · exact Or.inl (k _)
  · exact Or.inr (Or.inl (k _))
  · refine Or.inr (Or.inr ⟨_, k2, hp, rfl, h.valX_eq hp, ?_, h.sumTrade_eq hp, rfl, fun t => ?_⟩)
    · unfold Simple.valy
      dsimp only
      rw [h.valY_eq hp]
      congr 1
      field_simp
    · have e3 := h.run_eq t (some .pmax) n (by simp) (by simp)
      dsimp only [Option.getD_some] at e3
      rw [e3, k1]

/-- C138: a target and the search without one exclude each other; an unknown request never gives anything; with a target and nothing else
asked for, the result is that of C82. -/
theorem C138_requests {cs : List (CPC ℝ)} {X Y : Str} (h : OnePair cs X Y) (n : Nat) :
    simpleRun cs none (some .targettkn) n = some (.error .assertion) ∧
    (∀ t, simpleRun cs (some t) (some .globalmax) n = some (.error .assertion)) ∧
    (∀ t, ∃ e, simpleRun cs t (some .unknown) n = some (.error e)) ∧
    (∀ t r, (simpleRun cs (some t) none n = some r ↔ ∃ o, simpleOptimizer cs t n = some o ∧ r = o.map SoOut.result)) ∧
    ∀ t, simpleRun cs (some t) none n = simpleRun cs (some t) (some .targettkn) n := by
  refine ⟨?_, fun t => ?_, fun t => ?_, fun t r => ?_, fun t => ?_⟩
  · obtain ⟨w, ws, e⟩ := h.wrap_cons
    unfold simpleRun
    dsimp only
    rw [e]
    dsimp only
    split
    · rfl
    · rw [if_pos ⟨rfl, rfl⟩]
  · obtain ⟨w, ws, e⟩ := h.wrap_cons
    unfold simpleRun
    dsimp only
    rw [e]
    dsimp only
    split
    · rfl
    · rw [if_neg (by simp), if_pos (by simp)]
  · have e := h.run_eq t (some .unknown) n (by simp) (by simp)
    dsimp only [Option.getD_some] at e
    rw [e]
    rcases h.globalRun_cases with k | k | ⟨p, -, -, k, -⟩
    · exact ⟨_, by rw [k]⟩
    · exact ⟨_, by rw [k]⟩
    · exact ⟨_, by rw [k _ (by decide) (by decide)]⟩
  · have e := h.run_eq (some t) none n (by simp) (by simp)
    dsimp only [Option.getD_none] at e
    rw [e, if_neg (by simp)]
    dsimp only
    rw [Option.map_eq_some_iff]
    constructor
    · rintro ⟨o, h1, rfl⟩; exact ⟨o, h1, rfl⟩
    · rintro ⟨o, h1, rfl⟩; exact ⟨o, h1, rfl⟩
  · have e := h.run_eq (some t) none n (by simp) (by simp)
    have e2 := h.run_eq (some t) (some .targettkn) n (by simp) (by simp)
    dsimp only [Option.getD_none, Option.getD_some] at e e2
    rw [if_neg (by simp)] at e
    rw [e, e2]

/-- C138: curves of different pairs, or none, are rejected. -/
theorem C138_one_pair {cs : List (CPC ℝ)} (hs : ∀ c ∈ cs, Sound c)
    (hd : cs = [] ∨ ∃ c ∈ cs, ∃ d ∈ cs, ¬ (c.tknb = d.tknb ∧ c.tknq = d.tknq) ∧ ¬ (c.tknb = d.tknq ∧ c.tknq = d.tknb))
    (target : Option Str) (result : Option SoResult) (n : Nat) : simpleRun cs target result n = some (.error .assertion) := by
  rcases hd with rfl | ⟨c, hc, d, hd, h1, h2⟩
  · rfl
  · cases hw : Wrapped.wrap cs with
    | nil =>
      rw [wrap_eq, List.map_eq_nil_iff] at hw
      rw [hw] at hc
      simp at hc
    | cons w ws =>
      unfold simpleRun
      dsimp only
      rw [hw]
      dsimp only
      rw [if_pos]
      intro hall
      rw [← hw, List.all_eq_true] at hall
      have key : ∀ e ∈ cs, (actual e).pair = wrappedPair w := by
        intro e he
        rw [← wrap1_pair (hs e he)]
        exact of_decide_eq_true (hall (wrap1 e) (by rw [wrap_eq]; exact List.mem_map_of_mem he))
      have tk : ∀ e ∈ cs, ((actual e).tknb = e.tknb ∧ (actual e).tknq = e.tknq) ∨ ((actual e).tknb = e.tknq ∧ (actual e).tknq = e.tknb) := by
        intro e he
        unfold actual
        split
        · exact Or.inl ⟨rfl, rfl⟩
        · obtain ⟨b, q, hp⟩ := (hs e he).hpair
          obtain ⟨g1, g2, -⟩ := CPC.tkn_of_pair hp
          obtain ⟨k1, k2, -⟩ := CPC.tkn_of_pair (CPC.mirror_unpack hp)
          exact Or.inr ⟨by rw [k1, g2], by rw [k2, g1]⟩
      have e1 := tokens_of_unpack (actual_sound (hs c hc))
      have e2 := tokens_of_unpack (actual_sound (hs d hd))
      rw [key c hc] at e1
      rw [key d hd, e1] at e2
      have e3 := Prod.ext_iff.1 (Except.ok.inj e2)
      obtain ⟨e3, e4⟩ := e3
      dsimp only at e3 e4
      rcases tk c hc with ⟨a1, a2⟩ | ⟨a1, a2⟩ <;> rcases tk d hd with ⟨b1, b2⟩ | ⟨b1, b2⟩ <;> rw [a1, b1] at e3 <;> rw [a2, b2] at e4
      · exact h1 ⟨e3, e4⟩
      · exact h2 ⟨e3, e4⟩
      · exact h2 ⟨e4, e3⟩
      · exact h1 ⟨e4, e3⟩

/-- C138: the value the optimizer reports is what the pools receive at least, whatever balanced trades they accept: nobody can take more of
`X` out of the pools than is reported without putting some of `Y` in. -/
theorem C138_bound {cs : List (CPC ℝ)} {X Y : Str} (h : OnePair cs X Y) {n : Nat} {s : Simple ℝ}
    (hr : simpleRun cs none none n = some (.ok (.result s))) {w : List (ℝ × ℝ)} (hw : w.length = cs.length)
    (ha : ∀ cv ∈ cs.zip w, Allowed cv.1 cv.2) (hn : net Y cs w ≤ 0) :
    s.result ≤ net X cs w ∧ (s.result = net X cs w → w = tradesTo X s.price cs) := by
  obtain ⟨-, r, h1, h2⟩ := C138_global h n
  rw [hr] at h1
  cases h1
  rcases h2 with h2 | h2 | ⟨s', h2, hp, hres, -⟩
  · cases h2
  · cases h2
  · cases h2
    obtain ⟨k1, k2⟩ := h.worth_le hp hw ha
    have : net Y cs w / s.price ≤ 0 := div_nonpos_of_nonpos_of_nonneg hn hp.le
    rw [hres]
    exact ⟨by linarith, fun e => k2 (by linarith)⟩

/-- C138: the value in `X` is greatest where `Y` balances, and only there; it is then the amount of `X` by itself. The value in `Y` is
greatest where `X` balances. -/
theorem C138_maximum {cs : List (CPC ℝ)} {X Y : Str} (h : OnePair cs X Y) {p q : ℝ} (hp : 0 < p) (hq : 0 < q) :
    (net Y cs (tradesTo X q cs) = 0 →
      net X cs (tradesTo X p cs) + net Y cs (tradesTo X p cs) / p ≤ net X cs (tradesTo X q cs) ∧
      (net X cs (tradesTo X p cs) + net Y cs (tradesTo X p cs) / p = net X cs (tradesTo X q cs) → tradesTo X q cs = tradesTo X p cs)) ∧
    (net X cs (tradesTo X q cs) = 0 →
      net X cs (tradesTo X p cs) * p + net Y cs (tradesTo X p cs) ≤ net Y cs (tradesTo X q cs)) := by
  obtain ⟨k1, k2⟩ := h.worth_le hp (h.trades_ok hq).1 fun cv hcv => ((h.trades_ok hq).2 cv hcv).1
  constructor
  · intro e
    rw [e, zero_div, add_zero] at k1 k2
    exact ⟨k1, fun g => k2 g.ge⟩
  · intro e
    rw [e, zero_add, le_div_iff₀ hp] at k1
    have : (net X cs (tradesTo X p cs) + net Y cs (tradesTo X p cs) / p) * p = net X cs (tradesTo X p cs) * p + net Y cs (tradesTo X p cs) := by
      field_simp
    linarith

theorem newton_rest {f : ℝ → Py ℝ} {p : ℝ} (h : newton f p = .ok p) :
    ∃ a, f (p + derivEps) = .ok a ∧ f (p - derivEps) = .ok a := by
  unfold newton derivE at h
  obtain ⟨d, h1, h⟩ := Py.bind_eq_ok.1 h
  obtain ⟨e, h2, h⟩ := Py.bind_eq_ok.1 h
  obtain ⟨q, h3, h⟩ := Py.bind_eq_ok.1 h
  obtain ⟨a, g1, h1⟩ := Py.bind_eq_ok.1 h1
  obtain ⟨b, g2, h1⟩ := Py.bind_eq_ok.1 h1
  have h4 : p - q = p := Except.ok.inj h
  have h5 : (a - b) / (2 * derivEps) = d := Except.ok.inj h1
  have hq : q = 0 := by linarith
  unfold pyDiv at h3
  split at h3
  · cases h3
  · rename_i he
    have h6 : d / e = q := Except.ok.inj h3
    rw [hq, div_eq_zero_iff] at h6
    have hd : d = 0 := h6.resolve_right he
    rw [hd, div_eq_zero_iff] at h5
    have he2 : (2 * derivEps : ℝ) ≠ 0 := by unfold derivEps; norm_num
    have : a - b = 0 := h5.resolve_right he2
    have : b = a := by linarith
    exact ⟨a, g1, by rw [g2, this]⟩

/-- C138: where the search comes to rest, a price at which `Y` balances exactly is not further away than the step of the derivative. -/
theorem C138_rest {cs : List (CPC ℝ)} {X Y : Str} (h : OnePair cs X Y) {p : ℝ} (hr : findmaxE (valX (Wrapped.wrap cs)) p 1 = some p) :
    ∃ q, 0 < q ∧ |p - q| ≤ 1 / 10 ^ 6 ∧ net Y cs (tradesTo X q cs) = 0 := by
  obtain ⟨y, h1, h2⟩ := findmaxE_pos hr
  cases h1
  obtain ⟨a, g1, g2⟩ := newton_rest h2
  have hu := h.valX_pos g1
  have hl := h.valX_pos g2
  rw [h.valX_eq hu] at g1
  rw [h.valX_eq hl] at g2
  have g1 := Except.ok.inj g1
  have g2 := Except.ok.inj g2
  have heps : (0 : ℝ) < derivEps := by unfold derivEps; norm_num
  have k1 := h.worth_two hu hl
  have k2 := h.worth_two hl hu
  have hlt : (p - derivEps : ℝ) < p + derivEps := by linarith
  have hinv : 1 / (p + derivEps) < 1 / (p - derivEps) := one_div_lt_one_div_of_lt hl hlt
  simp only [div_eq_mul_inv, one_mul] at g1 g2 k1 k2 hinv
  have n1 : net Y cs (tradesTo X (p - derivEps) cs) ≤ 0 := by
    by_contra hn
    push Not at hn
    nlinarith [mul_pos hn (sub_pos.2 hinv)]
  have n2 : 0 ≤ net Y cs (tradesTo X (p + derivEps) cs) := by
    by_contra hn
    push Not at hn
    nlinarith [mul_pos (neg_pos.2 hn) (sub_pos.2 hinv)]
  obtain ⟨q, hq, e⟩ := intermediate_value_Icc hlt.le ((tradesTo_continuous h Y (Or.inr rfl)).mono fun x hx => hl.trans_le hx.1) ⟨n1, n2⟩
  refine ⟨q, hl.trans_le hq.1, ?_, e⟩
  rw [abs_le]
  have := hq.1
  have := hq.2
  unfold derivEps at *
  constructor <;> linarith

/-! ## Trade instructions -/

theorem simpleInstructions_ok {X Y : Str} (hXY : X ≠ Y) (l : List (Wrapped ℝ × ℝ × ℝ)) (hl : ∀ x ∈ l, x.2.1 ≠ 0 ∨ x.2.2 ≠ 0 → x.2.1 * x.2.2 < 0) :
    ∃ ts, simpleInstructions X Y l = .ok ts ∧ (ts.map fun ti => (ti.cid, ti.amountOf X, ti.amountOf Y)) =
      (l.filter fun x => decide (x.2 ≠ (0, 0))).map fun x => (Cid.show (wrappedCid x.1), some x.2.1, some x.2.2) := by
  induction l with
  | nil => exact ⟨[], rfl, rfl⟩
  | cons x l ih =>
    obtain ⟨w, a, b⟩ := x
    obtain ⟨ts, h1, h2⟩ := ih fun x hx => hl x (List.mem_cons_of_mem _ hx)
    unfold simpleInstructions
    by_cases h0 : a ≠ 0 ∨ b ≠ 0
    · obtain ⟨ti, g1, g2, -, -, g3, g4, -⟩ := C49_instruction (cid := Cid.show (wrappedCid w)) hXY (hl (w, a, b) (by simp) h0)
      rw [if_pos h0, g1, Py.ok_bind, h1, Py.ok_bind]
      refine ⟨ti :: ts, rfl, ?_⟩
      rw [List.filter_cons_of_pos (by simpa [Prod.ext_iff, not_and_or] using h0), List.map_cons, List.map_cons, g2, g3, g4, h2]
    · rw [if_neg h0, h1]
      push Not at h0
      obtain ⟨rfl, rfl⟩ := h0
      exact ⟨ts, rfl, by rw [List.filter_cons_of_neg (by simp), h2]⟩

theorem OnePair.result_facts {cs : List (CPC ℝ)} {X Y : Str} (h : OnePair cs X Y) {target : Option Str} {result : Option SoResult} {n : Nat}
    {s : Simple ℝ} (hr : simpleRun cs target result n = some (.ok (.result s))) : s.curves = Wrapped.wrap cs ∧ 0 < s.price := by
  have tgt : ∀ t, simpleOptimizer cs t n = some (.ok s) → s.curves = Wrapped.wrap cs ∧ 0 < s.price := by
    intro t ht
    obtain ⟨w, ws, e⟩ := h.wrap_cons
    unfold simpleOptimizer at ht
    dsimp only at ht
    rw [e] at ht ⊢
    dsimp only at ht
    split at ht
    · cases ht
    · split at ht
      · cases ht
      · split at ht
        · cases ht
        · split at ht
          · cases ht
          · cases ht
          · rename_i r _
            split at ht
            · cases ht
            · rename_i v hv
              split at ht
              · cases ht
              · rename_i x _
                cases ht
                refine ⟨rfl, ?_⟩
                by_contra hn
                unfold sumTrade at hv
                rw [List.mapM_cons] at hv
                rcases wrappedTrade_err (w := w) hn with k | k
                · rw [show (Found.simple x).value = x from rfl, k] at hv; cases hv
                · rw [show (Found.simple x).value = x from rfl, k] at hv; cases hv
  have glob : ∀ r, globalRun (Wrapped.wrap cs) r = .ok (.result s) → s.curves = Wrapped.wrap cs ∧ 0 < s.price := by
    intro r hr
    rcases h.globalRun_cases with k | k | ⟨p, hp, -, k1, k2, k3⟩
    · rw [k] at hr; cases hr
    · rw [k] at hr; cases hr
    · by_cases r1 : r = .pmax
      · rw [r1, k2] at hr; cases hr
      · by_cases r2 : r = .globalmax
        · rw [r2, k3] at hr; cases hr
          exact ⟨rfl, hp⟩
        · rw [k1 r r1 r2] at hr; cases hr
  by_cases b1 : target = none ∧ result = some .targettkn
  · obtain ⟨rfl, rfl⟩ := b1
    rw [(C138_requests h n).1] at hr
    cases hr
  by_cases b2 : target ≠ none ∧ result = some .globalmax
  · obtain ⟨b, rfl⟩ := b2
    obtain ⟨t, rfl⟩ := Option.ne_none_iff_exists'.1 b
    rw [(C138_requests h n).2.1] at hr
    cases hr
  rw [h.run_eq target result n b1 b2] at hr
  split at hr
  · cases hr
  · cases hr
  · cases hr
  · cases hr
  · split at hr
    · rename_i t _ _
      obtain ⟨o, h1, h2⟩ := Option.map_eq_some_iff.1 hr
      cases o with
      | error e => cases h2
      | ok s' =>
        cases h2
        exact tgt _ h1
    · exact glob _ (Option.some.inj hr)

theorem OnePair.wrapped_tkn {cs : List (CPC ℝ)} {X Y : Str} (h : OnePair cs X Y) {c : CPC ℝ} (hc : c ∈ cs) :
    wrappedX (wrap1 c) = X ∧ wrappedY (wrap1 c) = Y := by
  have ha := h.actual_tkn hc
  unfold wrap1
  unfold actual at ha
  split at ha
  · rw [if_pos ‹_›]; exact ha
  · rw [if_neg ‹_›]
    obtain ⟨b, q, hp⟩ := (h.sound c hc).hpair
    obtain ⟨g1, g2, -⟩ := CPC.tkn_of_pair hp
    obtain ⟨k1, k2, -⟩ := CPC.tkn_of_pair (CPC.mirror_unpack hp)
    rw [k1, k2] at ha
    exact ⟨by rw [← ha.1]; exact g2, by rw [← ha.2]; exact g1⟩

theorem sum_filter_nonzero {α : Type} (l : List (α × ℝ × ℝ)) (f : α × ℝ × ℝ → ℝ) (hf : ∀ x : α × ℝ × ℝ, x.2 = (0, 0) → f x = 0) :
    ((l.filter fun x => decide (x.2 ≠ (0, 0))).map f).sum = (l.map f).sum := by
  induction l with
  | nil => rfl
  | cons x l ih =>
    by_cases h : x.2 = (0, 0)
    · rw [List.filter_cons_of_neg (by simpa using h), ih, List.map_cons, List.sum_cons, hf x h, zero_add]
    · rw [List.filter_cons_of_pos (by simpa using h), List.map_cons, List.sum_cons, ih, List.map_cons, List.sum_cons]

/-- C138: the trade instructions of a result, with or without a target, are those of the curves that trade to the price found, each with
the identifier and the amounts of its curve; their amounts add up to the sums of the trades. -/
theorem C138_instructions {cs : List (CPC ℝ)} {X Y : Str} (h : OnePair cs X Y) {target : Option Str} {result : Option SoResult} {n : Nat}
    {s : Simple ℝ} (hr : simpleRun cs target result n = some (.ok (.result s))) :
    ∃ ts, s.tradeInstructions = .ok ts ∧ (ts.map fun ti => (ti.cid, ti.amountOf X, ti.amountOf Y)) =
        ((cs.zip (tradesTo X s.price cs)).filter fun cv => decide (cv.2 ≠ (0, 0))).map (fun cv =>
          (Cid.show cv.1.cid, some (if cv.1.tknb = X then cv.2.1 else cv.2.2), some (if cv.1.tknb = X then cv.2.2 else cv.2.1))) ∧
      (ts.map fun ti => (ti.amountOf X).getD 0).sum = net X cs (tradesTo X s.price cs) ∧
      (ts.map fun ti => (ti.amountOf Y).getD 0).sum = net Y cs (tradesTo X s.price cs) := by
  obtain ⟨hc, hp⟩ := h.result_facts hr
  obtain ⟨g, hg⟩ : ∃ g : CPC ℝ → ℝ × ℝ, g = fun c => best c (if c.tknb = X then s.price else 1 / s.price) := ⟨_, rfl⟩
  obtain ⟨V, hV⟩ : ∃ V : List (ℝ × ℝ), V = cs.map fun c => if c.tknb = X then g c else (g c).swap := ⟨_, rfl⟩
  have hto : tradesTo X s.price cs = cs.map g := by rw [hg]; rfl
  have hv : s.dxdyVec = .ok V := by
    unfold Simple.dxdyVec
    rw [hc, h.vec_eq hp, hto, zip_map_map, hV]
  have hV0 : V ≠ [] := by rw [hV]; simpa using h.ne
  have hdx : s.dxvalues = .ok (V.map Prod.fst) := by
    unfold Simple.dxvalues
    rw [hv, Py.ok_bind, if_neg hV0]
  have hdy : s.dyvalues = .ok (V.map Prod.snd) := by
    unfold Simple.dyvalues
    rw [hv, Py.ok_bind, if_neg hV0]
  obtain ⟨hX, hY⟩ : s.tknx = .ok X ∧ s.tkny = .ok Y := by
    unfold Simple.tknx Simple.tkny
    rw [hc, wrap_eq]
    have hm : ∀ c ∈ cs, wrappedX (wrap1 c) = X ∧ wrappedY (wrap1 c) = Y := fun c hc => h.wrapped_tkn hc
    clear hV hto hv hdx hdy hr
    cases cs with
    | nil => exact absurd rfl h.ne
    | cons c l =>
      obtain ⟨k1, k2⟩ := hm c (by simp)
      rw [List.map_cons]
      dsimp only
      rw [k1, k2]
      exact ⟨rfl, rfl⟩
  have hz : (V.map Prod.fst).zip (V.map Prod.snd) = V := by
    clear hV hV0 hv hdx hdy
    induction V with
    | nil => rfl
    | cons a l ih => rw [List.map_cons, List.map_cons, List.zip_cons_cons, ih]
  have hzz : s.curves.zip V = cs.map fun c => (wrap1 c, if c.tknb = X then g c else (g c).swap) := by
    rw [hc, wrap_eq, hV, List.zip_map']
  have hopp : ∀ c ∈ cs, (g c).1 ≠ 0 ∨ (g c).2 ≠ 0 → (g c).1 * (g c).2 < 0 := by
    intro c hcm h0
    have hq : 0 < (if c.tknb = X then s.price else 1 / s.price) := by
      split
      · exact hp
      · positivity
    obtain ⟨hA, hK⟩ := best_allowed (h.sound c hcm) hq
    rw [hg] at h0 ⊢
    exact opposite (h.sound c hcm) hA hK h0
  obtain ⟨ts, t1, t2⟩ := simpleInstructions_ok h.diff (s.curves.zip V) (by
    rw [hzz]
    intro x hx h0
    obtain ⟨c, hcm, rfl⟩ := List.mem_map.1 hx
    dsimp only at h0 ⊢
    split at h0
    · rw [if_pos ‹_›]; exact hopp c hcm h0
    · rw [if_neg ‹_›]
      rw [Prod.fst_swap, Prod.snd_swap, mul_comm]
      exact hopp c hcm (by rw [Prod.fst_swap, Prod.snd_swap] at h0; exact h0.symm))
  have hzc : cs.zip (tradesTo X s.price cs) = cs.map fun c => (c, g c) := by
    have := zip_map_map cs g id
    rw [List.map_id] at this
    rw [hto, this]
    rfl
  have hlist : (ts.map fun ti => (ti.cid, ti.amountOf X, ti.amountOf Y)) =
        ((cs.zip (tradesTo X s.price cs)).filter fun cv => decide (cv.2 ≠ (0, 0))).map (fun cv =>
          (Cid.show cv.1.cid, some (if cv.1.tknb = X then cv.2.1 else cv.2.2), some (if cv.1.tknb = X then cv.2.2 else cv.2.1))) := by
    rw [t2, hzz, hzc, List.filter_map, List.filter_map, List.map_map, List.map_map]
    have hf : (cs.filter ((fun x : Wrapped ℝ × ℝ × ℝ => decide (x.2 ≠ (0, 0))) ∘ fun c => (wrap1 c, if c.tknb = X then g c else (g c).swap))) =
        cs.filter ((fun cv : CPC ℝ × ℝ × ℝ => decide (cv.2 ≠ (0, 0))) ∘ fun c => (c, g c)) := by
      apply List.filter_congr
      intro c _
      simp only [Function.comp]
      split
      · rfl
      · simp only [Prod.swap, ne_eq, Prod.ext_iff]
        congr 1
        simp [and_comm]
    rw [hf]
    apply List.map_congr_left
    intro c _
    simp only [Function.comp]
    have hcid : wrappedCid (wrap1 c) = c.cid := by unfold wrap1; split <;> rfl
    rw [hcid]
    split <;> rfl
  refine ⟨ts, ?_, hlist, ?_, ?_⟩
  · unfold Simple.tradeInstructions
    rw [hdx, Py.ok_bind, hdy, Py.ok_bind, hX, Py.ok_bind, hY, Py.ok_bind, hz, t1]
  · have e := congrArg (fun l => (l.map fun x : Str × Option ℝ × Option ℝ => x.2.1.getD 0).sum) hlist
    rw [List.map_map, List.map_map] at e
    have e' : (ts.map fun ti => (ti.amountOf X).getD 0).sum = _ := e
    rw [e', sum_filter_nonzero, hzc, List.map_map, (h.net_eq hp).1]
    · congr 1
      apply List.map_congr_left
      intro c hcm
      rw [h.best_actual hp hcm, hg]
      simp only [Function.comp, Option.getD_some]
      split <;> rfl
    · intro cv h0
      simp [h0]
  · have e := congrArg (fun l => (l.map fun x : Str × Option ℝ × Option ℝ => x.2.2.getD 0).sum) hlist
    rw [List.map_map, List.map_map] at e
    have e' : (ts.map fun ti => (ti.amountOf Y).getD 0).sum = _ := e
    rw [e', sum_filter_nonzero, hzc, List.map_map, (h.net_eq hp).2]
    · congr 1
      apply List.map_congr_left
      intro c hcm
      rw [h.best_actual hp hcm, hg]
      simp only [Function.comp, Option.getD_some]
      split <;> rfl
    · intro cv h0
      simp [h0]

/-! ## Where the search goes wrong -/

/-- The trade to a price, from the two equations that determine it. -/
theorem best_of {c : CPC ℝ} (hs : Sound c) {p : ℝ} (hp : 0 < p) {t : ℝ × ℝ} (hx : 0 < c.x + t.1) (hxa : 0 ≤ c.xAct + t.1)
    (hya : 0 ≤ c.yAct + t.2) (hk : (c.x + t.1) * (c.y + t.2) = c.k) (he : p * (c.x + t.1) = c.y + t.2) : best c p = t := by
  have hy : 0 < c.y + t.2 := by rw [← he]; positivity
  obtain ⟨k1, k2⟩ := best_le hs hp (t := t) ⟨hx, hy, hk.ge, hxa, hya⟩
  obtain ⟨hA, hK⟩ := best_allowed hs hp
  refine (k2 (le_antisymm k1 ?_)).symm
  have hX := hA.x
  have hY := hA.y
  generalize best c p = b at *
  obtain ⟨a, b⟩ := b
  obtain ⟨u, v⟩ := t
  dsimp only at *
  by_contra hn
  push Not at hn
  obtain ⟨A, rfl⟩ : ∃ A, a = A - c.x := ⟨c.x + a, by ring⟩
  obtain ⟨B, rfl⟩ : ∃ B, b = B - c.y := ⟨c.y + b, by ring⟩
  obtain ⟨U, rfl⟩ : ∃ U, u = U - c.x := ⟨c.x + u, by ring⟩
  obtain ⟨W, rfl⟩ : ∃ W, v = W - c.y := ⟨c.y + v, by ring⟩
  simp only [add_sub_cancel] at *
  have h1 : p * A + B < 2 * W := by nlinarith
  have h2 : (p * A + B) ^ 2 ≥ 4 * (p * (A * B)) := by nlinarith [sq_nonneg (p * A - B)]
  have h3 : p * (A * B) = W ^ 2 := by rw [hK, ← hk]; nlinarith
  have h4 : 0 < p * A := by positivity
  nlinarith

/-- C138 fails: the documented objective is the value in `Y`, but the optimizer goes for the value in `X`. Where that is greatest, the value
in `Y` is not. -/
theorem C138_objective_violated : ∃ (cs : List (CPC ℝ)) (X Y : Str) (p q : ℝ), OnePair cs X Y ∧ 0 < p ∧ 0 < q ∧
    (∀ r, 0 < r → net X cs (tradesTo X r cs) + net Y cs (tradesTo X r cs) / r ≤ net X cs (tradesTo X p cs) + net Y cs (tradesTo X p cs) / p) ∧
    net X cs (tradesTo X p cs) * p + net Y cs (tradesTo X p cs) < net X cs (tradesTo X q cs) * q + net Y cs (tradesTo X q cs) := by
  obtain ⟨h, -⟩ := twoPools_pair
  rw [twoPools_curves] at h
  have s1 := h.sound ⟨100, 10, 10, 10, "A/B".toList, some (.str "c1".toList), []⟩ (by simp)
  have s2 := h.sound ⟨100, 20, 20, 5, "A/B".toList, some (.str "c2".toList), []⟩ (by simp)
  have p1 : best (⟨100, 10, 10, 10, "A/B".toList, some (.str "c1".toList), []⟩ : CPC ℝ) (9 / 16) = (10 / 3, -5 / 2) :=
    best_of s1 (by norm_num) (by norm_num) (by norm_num) (by norm_num) (by norm_num [CPC.y]) (by norm_num [CPC.y])
  have p2 : best (⟨100, 20, 20, 5, "A/B".toList, some (.str "c2".toList), []⟩ : CPC ℝ) (9 / 16) = (-20 / 3, 5 / 2) :=
    best_of s2 (by norm_num) (by norm_num) (by norm_num) (by norm_num) (by norm_num [CPC.y]) (by norm_num [CPC.y])
  have q1 : best (⟨100, 10, 10, 10, "A/B".toList, some (.str "c1".toList), []⟩ : CPC ℝ) (4 / 9) = (5, -10 / 3) :=
    best_of s1 (by norm_num) (by norm_num) (by norm_num) (by norm_num) (by norm_num [CPC.y]) (by norm_num [CPC.y])
  have q2 : best (⟨100, 20, 20, 5, "A/B".toList, some (.str "c2".toList), []⟩ : CPC ℝ) (4 / 9) = (-5, 5 / 3) :=
    best_of s2 (by norm_num) (by norm_num) (by norm_num) (by norm_num) (by norm_num [CPC.y]) (by norm_num [CPC.y])
  have hto : ∀ p : ℝ, tradesTo "A".toList p [⟨100, 10, 10, 10, "A/B".toList, some (.str "c1".toList), []⟩,
      ⟨100, 20, 20, 5, "A/B".toList, some (.str "c2".toList), []⟩] =
      [best ⟨100, 10, 10, 10, "A/B".toList, some (.str "c1".toList), []⟩ p, best ⟨100, 20, 20, 5, "A/B".toList, some (.str "c2".toList), []⟩ p] :=
    fun p => rfl
  have tb : ∀ a b c : ℝ, ∀ i l, (⟨a, b, c, l, "A/B".toList, i, []⟩ : CPC ℝ).tknb = "A".toList := fun _ _ _ _ _ => rfl
  have tq : ∀ a b c : ℝ, ∀ i l, (⟨a, b, c, l, "A/B".toList, i, []⟩ : CPC ℝ).tknq = "B".toList := fun _ _ _ _ _ => rfl
  have hAB : ("A".toList : Str) ≠ "B".toList := by decide
  refine ⟨_, _, _, 9 / 16, 4 / 9, h, by norm_num, by norm_num, fun r hr => ?_, ?_⟩
  · have hz : net "B".toList [⟨100, 10, 10, 10, "A/B".toList, some (.str "c1".toList), []⟩,
      ⟨100, 20, 20, 5, "A/B".toList, some (.str "c2".toList), []⟩] (tradesTo "A".toList (9 / 16) [⟨100, 10, 10, 10, "A/B".toList, some (.str "c1".toList), []⟩,
      ⟨100, 20, 20, 5, "A/B".toList, some (.str "c2".toList), []⟩]) = 0 := by
      rw [hto, p1, p2]
      simp only [net, tb, tq, if_neg hAB, if_true]
      norm_num
    have := ((C138_maximum h hr (q := 9 / 16) (by norm_num)).1 hz).1
    rw [hz, zero_div, add_zero]
    exact this
  · rw [hto, hto, p1, p2, q1, q2]
    simp only [net, tb, tq, if_neg hAB, if_neg hAB.symm, if_true]
    norm_num

/-- A large pool at the price 1 and a small one at the price 16. -/
noncomputable def farPools : List (CPC ℝ) := [⟨10000, 100, 100, 100, "A/B".toList, none, []⟩, ⟨16, 1, 1, 16, "A/B".toList, none, []⟩]

theorem farPools_pair : OnePair farPools "A".toList "B".toList := by
  have hp : CarbonPair.unpack "A/B".toList = .ok ("A".toList, "B".toList) := by decide
  refine ⟨by simp [farPools], ?_, by decide, ?_, by decide⟩
  · intro c hc
    simp only [farPools, List.mem_cons, List.not_mem_nil, or_false] at hc
    rcases hc with rfl | rfl <;>
      exact ⟨by norm_num, by norm_num, by norm_num, by norm_num, by norm_num [CPC.y], by norm_num [CPC.y], _, _, hp⟩
  · intro c hc
    simp only [farPools, List.mem_cons, List.not_mem_nil, or_false] at hc
    rcases hc with rfl | rfl <;> exact Or.inl ⟨rfl, rfl⟩

theorem farPools_net {p : ℝ} (hp : 0 < p) :
    net "A".toList farPools (tradesTo "A".toList p farPools) = 104 / √p - 101 ∧ net "B".toList farPools (tradesTo "A".toList p farPools) = 104 * √p - 116 := by
  have h := farPools_pair
  have s1 := h.sound ⟨10000, 100, 100, 100, "A/B".toList, none, []⟩ (by simp [farPools])
  have s2 := h.sound ⟨16, 1, 1, 16, "A/B".toList, none, []⟩ (by simp [farPools])
  have hr : 0 < √p := Real.sqrt_pos.2 hp
  have hrr : √p * √p = p := Real.mul_self_sqrt hp.le
  have e1 : best (⟨10000, 100, 100, 100, "A/B".toList, none, []⟩ : CPC ℝ) p = (100 / √p - 100, 100 * √p - 100) := by
    refine best_of s1 hp ?_ ?_ ?_ ?_ ?_ <;> norm_num [CPC.y]
    · exact hp
    · positivity
    · rw [div_mul_eq_mul_div, div_eq_iff hr.ne']; ring
    · rw [mul_div_assoc', div_eq_iff hr.ne', mul_assoc, hrr]; ring
  have e2 : best (⟨16, 1, 1, 16, "A/B".toList, none, []⟩ : CPC ℝ) p = (4 / √p - 1, 4 * √p - 16) := by
    refine best_of s2 hp ?_ ?_ ?_ ?_ ?_ <;> norm_num [CPC.y]
    · exact hp
    · positivity
    · rw [div_mul_eq_mul_div, div_eq_iff hr.ne']; ring
    · rw [mul_div_assoc', div_eq_iff hr.ne', mul_assoc, hrr]; ring
  have hto : tradesTo "A".toList p farPools = [(100 / √p - 100, 100 * √p - 100), (4 / √p - 1, 4 * √p - 16)] := by
    rw [← e1, ← e2]; rfl
  have tb : ∀ a b c l : ℝ, (⟨a, b, c, l, "A/B".toList, none, []⟩ : CPC ℝ).tknb = "A".toList := fun _ _ _ _ => rfl
  have tq : ∀ a b c l : ℝ, (⟨a, b, c, l, "A/B".toList, none, []⟩ : CPC ℝ).tknq = "B".toList := fun _ _ _ _ => rfl
  have hAB : ("A".toList : Str) ≠ "B".toList := by decide
  rw [hto]
  unfold farPools
  simp only [net, tb, tq, if_neg hAB, if_neg hAB.symm, if_true]
  constructor
  · field_simp; ring
  · ring

theorem farPools_valX {p : ℝ} (hp : 0 < p) : valX (Wrapped.wrap farPools) p = .ok (208 / √p - 101 - 116 / p) := by
  obtain ⟨h1, h2⟩ := farPools_net hp
  rw [farPools_pair.valX_eq hp, h1, h2]
  have hr : 0 < √p := Real.sqrt_pos.2 hp
  have hrr : √p * √p = p := Real.mul_self_sqrt hp.le
  congr 1
  have : √p / p = 1 / √p := by rw [div_eq_div_iff hp.ne' hr.ne', hrr, one_mul]
  rw [sub_div, mul_div_assoc, this]
  ring

theorem second_difference {r s t : ℝ} (r0 : 0 < r) (s0 : 0 < s) (t0 : 0 < t) (hm : r * r + s * s = 2 * (t * t)) (q1 : r * s < t * t)
    (t1 : 29 / 10 < t) (q2 : t * t - 1 / 10 ^ 6 ≤ r * s) :
    0 < 208 / s - 116 / (s * s) + (208 / r - 116 / (r * r)) - 2 * (208 / t - 116 / (t * t)) := by
  have e0 : 208 / s + 208 / r = 208 * (r + s) / (r * s) := by field_simp
  have e0' : 116 / (s * s) + 116 / (r * r) = 116 * (r * r + s * s) / (r * s * (r * s)) := by field_simp
  rw [hm] at e0'
  have h0 : (r + s) ^ 2 = 2 * (t * t) + 2 * (r * s) := by linear_combination hm
  obtain ⟨q, hq⟩ : ∃ q, q = r * s := ⟨_, rfl⟩
  have q0 : 0 < q := by rw [hq]; positivity
  rw [← hq] at q1 q2 e0 e0' h0
  have h1 : t * t + q ≤ (r + s) * t := by
    have : (t * t + q) ^ 2 ≤ ((r + s) * t) ^ 2 := by
      rw [mul_pow, h0]
      nlinarith [mul_pos q0 t0, mul_pos t0 t0]
    exact (abs_le_of_sq_le_sq' this (by positivity)).2
  have e1 : 208 * (r + s) / q - 2 * (208 / t) = 208 * (((r + s) * t - 2 * q) / (q * t)) := by
    field_simp
  have e2 : 116 * (2 * (t * t)) / (q * q) - 2 * (116 / (t * t)) = 232 * ((t * t - q) / (q * t) * ((t * t + q) / (q * t))) := by
    field_simp
    ring
  have e3 : (t * t - q) / (q * t) ≤ ((r + s) * t - 2 * q) / (q * t) := by
    apply div_le_div_of_nonneg_right _ (by positivity)
    linarith
  have e5 : (t * t + q) / (q * t) < 208 / 232 := by
    rw [div_lt_div_iff₀ (by positivity) (by norm_num)]
    have h5 : 29 / 10 * t ≤ t * t := by nlinarith
    have h6 : (t * t - 1 / 10 ^ 6) * t ≤ q * t := mul_le_mul_of_nonneg_right q2 t0.le
    nlinarith [mul_pos t0 t0]
  have e6 : 0 < (t * t - q) / (q * t) := div_pos (by linarith) (by positivity)
  have : 208 / s - 116 / (s * s) + (208 / r - 116 / (r * r)) - 2 * (208 / t - 116 / (t * t)) =
      (208 / s + 208 / r - 2 * (208 / t)) - (116 / (s * s) + 116 / (r * r) - 2 * (116 / (t * t))) := by ring
  rw [this, e0, e0', e1, e2]
  nlinarith [mul_pos e6 (sub_pos.2 e5)]

/-- From 17/2 on, Newton's method moves up. -/
theorem farPools_up {p : ℝ} (hp : 17 / 2 ≤ p) : ∃ q, newton (valX (Wrapped.wrap farPools)) p = .ok q ∧ p < q := by
  have he : (derivEps : ℝ) = 1 / 10 ^ 6 := rfl
  obtain ⟨e, hee⟩ : ∃ e : ℝ, e = derivEps := ⟨_, rfl⟩
  have he0 : 0 < e := by rw [hee, he]; norm_num
  have he1 : e ≤ 1 / 10 ^ 6 := by rw [hee, he]
  have p0 : 0 < p := by linarith
  have pl : 0 < p - e := by linarith
  have pu : 0 < p + e := by linarith
  obtain ⟨r, hr⟩ : ∃ r, r = √(p - e) := ⟨_, rfl⟩
  obtain ⟨s, hs⟩ : ∃ s, s = √(p + e) := ⟨_, rfl⟩
  obtain ⟨t, ht⟩ : ∃ t, t = √p := ⟨_, rfl⟩
  have r0 : 0 < r := by rw [hr]; exact Real.sqrt_pos.2 pl
  have s0 : 0 < s := by rw [hs]; exact Real.sqrt_pos.2 pu
  have t0 : 0 < t := by rw [ht]; exact Real.sqrt_pos.2 p0
  have rr : r * r = p - e := by rw [hr]; exact Real.mul_self_sqrt pl.le
  have ss : s * s = p + e := by rw [hs]; exact Real.mul_self_sqrt pu.le
  have tt : t * t = p := by rw [ht]; exact Real.mul_self_sqrt p0.le
  obtain ⟨q, hq⟩ : ∃ q, q = r * s := ⟨_, rfl⟩
  have q0 : 0 < q := by rw [hq]; positivity
  have qq : q * q = p * p - e * e := by
    rw [hq]
    have : r * s * (r * s) = (r * r) * (s * s) := by ring
    rw [this, rr, ss]; ring
  have q1 : q < p := by nlinarith
  have q2 : p - e ≤ q := by nlinarith
  have t1 : 29 / 10 < t := by nlinarith
  have hrs : r < s := by nlinarith
  -- the first difference is negative
  have d1 : 208 / s - 116 / (p + e) < 208 / r - 116 / (p - e) := by
    rw [← rr, ← ss]
    have : 208 / r - 116 / (r * r) - (208 / s - 116 / (s * s)) = (s - r) * (208 * (r * s) - 116 * (r + s)) / (r * r * (s * s)) := by
      field_simp; ring
    have h3 : 0 < 208 * (r * s) - 116 * (r + s) := by nlinarith
    have h4 : 0 < (s - r) * (208 * (r * s) - 116 * (r + s)) / (r * r * (s * s)) := by
      apply div_pos (mul_pos (by linarith) h3); positivity
    linarith
  -- the second difference is positive
  have d2 : 0 < 208 / s - 116 / (p + e) + (208 / r - 116 / (p - e)) - 2 * (208 / t - 116 / p) := by
    rw [← rr, ← ss]
    nth_rewrite 1 [← tt]
    refine second_difference r0 s0 t0 (by rw [rr, ss, tt]; ring) (by rw [← hq, tt]; exact q1) t1 ?_
    rw [← hq, tt]
    linarith
  unfold newton derivE deriv2E
  rw [← hee, farPools_valX pu, farPools_valX pl, farPools_valX p0, ← hr, ← hs, ← ht]
  simp only [Py.ok_bind]
  have hn : (208 / s - 101 - 116 / (p + e) - 2 * (208 / t - 101 - 116 / p) + (208 / r - 101 - 116 / (p - e))) / (e * e) > 0 := by
    apply div_pos _ (by positivity)
    linarith
  rw [pyDiv_ok hn.ne', Py.ok_bind]
  refine ⟨_, rfl, ?_⟩
  have hd : (208 / s - 101 - 116 / (p + e) - (208 / r - 101 - 116 / (p - e))) / (2 * e) < 0 := by
    apply div_neg_of_neg_of_pos _ (by positivity)
    linarith
  have := div_neg_of_neg_of_pos hd hn
  linarith

/-- C138 fails: the search for the maximum may run away from it. For a large pool at the price 1 and a small one at 16 it starts at the mean
of the prices and ends above it; the value reported suggests that more than 42 `A` can be taken out of the pools, but no balanced trades
take out more than 8. -/
theorem C138_search_violated : ∃ s n, simpleRun farPools none none n = some (.ok (.result s)) ∧ 17 / 2 ≤ s.price ∧ s.result ≤ -42 ∧
    (∃ q, 0 < q ∧ q < 5 / 4 ∧ net "B".toList farPools (tradesTo "A".toList q farPools) = 0) ∧
    ∀ w : List (ℝ × ℝ), w.length = farPools.length → (∀ cv ∈ farPools.zip w, Allowed cv.1 cv.2) → net "B".toList farPools w ≤ 0 →
      -8 ≤ net "A".toList farPools w := by
  have h := farPools_pair
  have hst : (farPools.map (priceIn "A".toList)).sum / farPools.length = 17 / 2 := by
    have tb : ∀ a b c l : ℝ, (⟨a, b, c, l, "A/B".toList, none, []⟩ : CPC ℝ).tknb = "A".toList := fun _ _ _ _ => rfl
    unfold farPools
    simp only [List.map_cons, List.map_nil, priceIn, tb, if_true]
    norm_num [CPC.p, CPC.y]
  have hall : ∀ n, ∃ p, findmaxE (valX (Wrapped.wrap farPools)) (17 / 2) n = some p ∧ 17 / 2 ≤ p := by
    intro n
    induction n with
    | zero => exact ⟨_, rfl, le_rfl⟩
    | succ n ih =>
      obtain ⟨p, h1, h2⟩ := ih
      obtain ⟨q, h3, h4⟩ := farPools_up h2
      refine ⟨q, ?_, by linarith⟩
      unfold findmaxE
      rw [h1]
      dsimp only
      rw [h3]
  obtain ⟨p, hp, hp1⟩ := hall 20
  have hp0 : 0 < p := by linarith
  have hrun : globalRun (Wrapped.wrap farPools) .globalmax = .ok (.result ⟨Wrapped.wrap farPools, p, 208 / √p - 101 - 116 / p⟩) := by
    rcases h.globalRun_cases with k | k | ⟨p', hp', k0, -, -, k3⟩
    · exfalso
      have := k .pmax
      unfold globalRun at this
      rw [wrap_eq, mapM_p h.sound, Py.ok_bind] at this
      have hm : (farPools.map fun c => (actual c).p) = farPools.map (priceIn "A".toList) := List.map_congr_left fun c hc => h.actual_p hc
      rw [hm, ← wrap_eq] at this
      dsimp only at this
      rw [List.length_map, hst, hp] at this
      dsimp only at this
      rw [farPools_valX hp0, Py.ok_bind, if_pos rfl] at this
      cases this
    · exfalso
      have := k .pmax
      unfold globalRun at this
      rw [wrap_eq, mapM_p h.sound, Py.ok_bind] at this
      have hm : (farPools.map fun c => (actual c).p) = farPools.map (priceIn "A".toList) := List.map_congr_left fun c hc => h.actual_p hc
      rw [hm, ← wrap_eq] at this
      dsimp only at this
      rw [List.length_map, hst, hp] at this
      dsimp only at this
      rw [farPools_valX hp0, Py.ok_bind, if_pos rfl] at this
      cases this
    · rw [hst, hp] at k0
      cases k0
      rw [k3]
      have e1 := farPools_valX hp0
      rw [h.valX_eq hp0] at e1
      rw [Except.ok.inj e1]
  have e1 := h.run_eq none none 0 (by simp) (by simp)
  dsimp only [Option.getD_none] at e1
  rw [if_pos rfl] at e1
  dsimp only at e1
  rw [hrun] at e1
  have hq0 : (0 : ℝ) < (29 / 26) ^ 2 := by norm_num
  have hq1 : √((29 / 26 : ℝ) ^ 2) = 29 / 26 := Real.sqrt_sq (by norm_num)
  obtain ⟨g1, g2⟩ := farPools_net hq0
  rw [hq1] at g1 g2
  norm_num at g2
  refine ⟨_, 0, e1, hp1, ?_, ⟨(29 / 26) ^ 2, hq0, by norm_num, ?_⟩, fun w hw ha hn => ?_⟩
  · dsimp only
    have hr : 0 < √p := Real.sqrt_pos.2 hp0
    have hrr : √p * √p = p := Real.mul_self_sqrt hp0.le
    have h29 : 29 / 10 < √p := by nlinarith
    rw [← hrr, Real.sqrt_mul_self hr.le]
    obtain ⟨u, hu⟩ : ∃ u, u = 1 / √p := ⟨_, rfl⟩
    have hu1 : u ≤ 7 / 20 := by
      rw [hu, div_le_div_iff₀ hr (by norm_num)]; linarith
    have e2 : 208 / √p - 101 - 116 / (√p * √p) = 208 * u - 101 - 116 * (u * u) := by
      rw [hu]; field_simp
    rw [e2]
    nlinarith [mul_nonneg (sub_nonneg.2 hu1) (sub_nonneg.2 hu1)]
  · norm_num
    exact g2
  · have := (h.worth_le hq0 hw ha).1
    norm_num at this g1
    rw [g1, g2] at this
    have h5 : net "B".toList farPools w / (841 / 676) ≤ 0 := div_nonpos_of_nonpos_of_nonneg hn (by norm_num)
    norm_num at this h5
    linarith

/-- At the price 9/16 the two pools balance in `B`, and 10/3 of `A` can be taken out: the value in `A`. -/
example : (match simpleRun (twoPools ℚ).curves none (some .valxFunc) 0 with | some (.ok (.val f)) => f (9 / 16) | _ => .error .key) = .ok (-10 / 3) := by
  decide +kernel

example : (match simpleRun (twoPools ℚ).curves none (some .vecFunc) 0 with | some (.ok (.vec f)) => f (9 / 16) | _ => .error .key) =
    .ok [(10 / 3, -5 / 2), (-20 / 3, 5 / 2)] := by decide +kernel

example : (⟨Wrapped.wrap (twoPools ℚ).curves, 9 / 16, -10 / 3⟩ : Simple ℚ).tradeInstructions =
    .ok [⟨"c1".toList, "A".toList, 10 / 3, "B".toList, -5 / 2⟩, ⟨"c2".toList, "B".toList, 5 / 2, "A".toList, -20 / 3⟩] := by decide +kernel

/-- The bound applies to the result for the two pools that are far apart. -/
example : ∃ s n, simpleRun farPools none none n = some (.ok (.result s)) ∧ s.result ≤ net "A".toList farPools [(0, 0), (0, 0)] := by
  obtain ⟨s, n, h, -⟩ := C138_search_violated
  refine ⟨s, n, h, (C138_bound farPools_pair h (w := [(0, 0), (0, 0)]) rfl ?_ ?_).1⟩
  · intro cv hcv
    simp only [farPools, List.zip_cons_cons, List.zip_nil_right, List.mem_cons, List.not_mem_nil, or_false] at hcv
    rcases hcv with rfl | rfl <;> refine ⟨?_, ?_, ?_, ?_, ?_⟩ <;> norm_num [CPC.y]
  · simp [farPools, net]

end Opt

end Carbon
