import Verif.Tools.Optimizer
import Verif.Prop.CpcContainer
import Verif.Prop.Instructions
import Mathlib.Algebra.BigOperators.Group.List.Basic
import Mathlib.Algebra.Order.BigOperators.Group.Finset
import Mathlib.Algebra.BigOperators.Ring.Finset

/-!
# The marginal price optimizer: balance of the trades (C79), optimality (C80), and what is left afterwards (C81)
-/

set_option linter.unusedSectionVars false

namespace Carbon

open CarbonPair (pyDiv)
open UICurve (pyDiv_ok)
open CPC (Sound)

namespace Opt

/-- A trade with a pool that the pool accepts: it does not lose value along its curve and its available reserves suffice. -/
structure Allowed (c : CPC ℝ) (t : ℝ × ℝ) : Prop where
  x : 0 < c.x + t.1
  y : 0 < c.y + t.2
  k : c.k ≤ (c.x + t.1) * (c.y + t.2)
  xa : 0 ≤ c.xAct + t.1
  ya : 0 ≤ c.yAct + t.2

/-- What a list of trades, one per curve, changes in the pools' holdings of a token. -/
def net (t : Str) : List (CPC ℝ) → List (ℝ × ℝ) → ℝ
  | c :: cs, v :: vs => (if c.tknb = t then v.1 else 0) + (if c.tknq = t then v.2 else 0) + net t cs vs
  | _, _ => 0

/-! ## One curve -/

/-- The trade of one curve to a price. -/
noncomputable def best (c : CPC ℝ) (p : ℝ) : ℝ × ℝ :=
  match c.dxdyfromp (some p) with
  | .ok r => (r.1, r.2.1)
  | .error _ => (0, 0)

theorem best_eq {c : CPC ℝ} (hs : Sound c) {p : ℝ} (hp : 0 < p) : c.dxdyfromp (some p) = .ok ((best c p).1, (best c p).2, p) := by
  obtain ⟨dx, dy, h, -⟩ := CPC.C40_optimal c hs p hp
  unfold best
  rw [h]

theorem best_allowed {c : CPC ℝ} (hs : Sound c) {p : ℝ} (hp : 0 < p) : Allowed c (best c p) ∧
    (c.x + (best c p).1) * (c.y + (best c p).2) = c.k := by
  obtain ⟨dx, dy, h, hk, hx, hy, -⟩ := CPC.C40_optimal c hs p hp
  obtain ⟨X, Y, hc, hX, hXY, -⟩ := CPC.xyfromp_spec hs hp
  have hb : best c p = (dx, dy) := by unfold best; rw [h]
  have e : X - c.x = dx := by
    unfold CPC.dxdyfromp at h
    rw [hc, Py.ok_bind] at h
    exact congrArg Prod.fst (Except.ok.inj h)
  rw [hb]
  have hx0 : 0 < c.x + dx := by linarith
  have hy0 : 0 < c.y + dy := by
    by_contra hn
    push Not at hn
    have := hs.hk
    nlinarith
  exact ⟨⟨hx0, hy0, hk.ge, hx, hy⟩, hk⟩

/-- The trade to a price is worth less to the pool, at this price, than every other trade it accepts. -/
theorem best_le {c : CPC ℝ} (hs : Sound c) {p : ℝ} (hp : 0 < p) {t : ℝ × ℝ} (ht : Allowed c t) :
    p * (best c p).1 + (best c p).2 ≤ p * t.1 + t.2 ∧ (p * (best c p).1 + (best c p).2 = p * t.1 + t.2 → t = best c p) := by
  obtain ⟨dx, dy, h, hk, hx, hy, -, -, hopt⟩ := CPC.C40_optimal c hs p hp
  have hb : best c p = (dx, dy) := by unfold best; rw [h]
  rw [hb]
  obtain ⟨d1, d2⟩ := t
  obtain ⟨hx0, hy0, hkk, hxa, hya⟩ := ht
  dsimp only at *
  have hxm : c.xMin ≤ c.x + d1 := by unfold CPC.xMin; linarith
  have hym : c.yMin ≤ c.y + d2 := by unfold CPC.yMin; linarith
  have hdy : c.k / (c.x + d1) ≤ c.y + d2 := by rw [div_le_iff₀ hx0]; linarith
  by_cases hM : ∀ M, c.xMax = some M → c.x + d1 ≤ M
  · obtain ⟨h1, h2⟩ := hopt (c.x + d1) hx0 hxm hM
    have e : c.x + d1 - c.x = d1 := by ring
    rw [e] at h1 h2
    refine ⟨by linarith, fun heq => ?_⟩
    have h3 := h2 (by linarith)
    have hd : d1 = dx := by linarith
    subst hd
    have : d2 = dy := by linarith
    rw [this]
  · push Not at hM
    obtain ⟨M, hM, hlt⟩ := hM
    unfold CPC.xMax at hM
    by_cases hd0 : 0 < c.yMin
    · rw [if_pos hd0] at hM
      have hM' := Option.some.inj hM
      have hkp := hs.hk
      have hMp : 0 < M := by rw [← hM']; positivity
      have hMk : c.k / M = c.yMin := by rw [← hM']; field_simp
      obtain ⟨h1, -⟩ := hopt M hMp (by
        have : c.xMin ≤ c.x := by unfold CPC.xMin; linarith [hs.hxa]
        have h2 : c.x ≤ M := by
          rw [← hM', le_div_iff₀ hd0, ← hs.xy]
          have : c.yMin ≤ c.y := by unfold CPC.yMin; linarith [hs.hya]
          exact mul_le_mul_of_nonneg_left this hs.hx.le
        linarith) (by
        intro M' hM''
        unfold CPC.xMax at hM''
        rw [if_pos hd0] at hM''
        rw [← Option.some.inj hM'', hM'])
      rw [hMk] at h1
      have : p * M < p * (c.x + d1) := mul_lt_mul_of_pos_left hlt hp
      refine ⟨by linarith, fun heq => ?_⟩
      exfalso
      linarith
    · rw [if_neg hd0] at hM
      cases hM

theorem allowed_zero {c : CPC ℝ} (hs : Sound c) : Allowed c (0, 0) :=
  ⟨by simpa using hs.hx, by simpa using hs.y_pos, by simp [hs.xy], by simpa using hs.hxa, by simpa using hs.hya⟩

/-! ## All curves -/

theorem tokens_of_unpack {c : CPC ℝ} (hs : Sound c) : CarbonPair.unpack c.pair = .ok (c.tknb, c.tknq) := by
  obtain ⟨b, q, h⟩ := hs.hpair
  obtain ⟨h1, h2, -⟩ := CPC.tkn_of_pair h
  rw [h, h1, h2]

theorem dictGet_zip_mem {ts : List Str} {p : List ℝ} {t : Str} {v : ℝ} (h : dictGet (ts.zip p) t = some v) : v ∈ p := by
  induction ts generalizing p with
  | nil => simp [dictGet] at h
  | cons s ts ih =>
    cases p with
    | nil => simp [dictGet] at h
    | cons a p =>
      rw [List.zip_cons_cons] at h
      unfold dictGet at h
      split at h
      · rw [Option.some.inj h]; simp
      · exact List.mem_cons_of_mem _ (ih h)

theorem priceOf_pos {ts : List Str} {p : List ℝ} (h : ∀ v ∈ p, 0 < v) (t : Str) : 0 < priceOf (ts.zip p) t := by
  unfold priceOf
  cases hd : dictGet (ts.zip p) t with
  | none => simp
  | some v => exact h v (dictGet_zip_mem hd)

/-- The trade of a curve at given prices of the tokens. -/
noncomputable def tradeOf (prices : List (Str × ℝ)) (c : CPC ℝ) : ℝ × ℝ := best c (priceOf prices c.tknb / priceOf prices c.tknq)

theorem tradesAt_ok {cs : List (CPC ℝ)} (hs : ∀ c ∈ cs, Sound c) {p : ℝ} (hp : 0 < p) :
    tradesAt cs p = .ok (cs.map fun c => best c p) := by
  unfold tradesAt
  induction cs with
  | nil => rfl
  | cons c cs ih =>
    rw [List.mapM_cons, best_eq (hs c (by simp)) hp, Py.ok_bind, Py.ok_bind, ih fun d hd => hs d (List.mem_cons_of_mem _ hd), Py.ok_bind]
    rfl

/-- The contribution of a curve to the net amount of a token. -/
noncomputable def contrib (prices : List (Str × ℝ)) (t : Str) (c : CPC ℝ) : ℝ :=
  (if c.tknb = t then (tradeOf prices c).1 else 0) + (if c.tknq = t then (tradeOf prices c).2 else 0)

theorem net_map (prices : List (Str × ℝ)) (t : Str) (cs : List (CPC ℝ)) :
    net t cs (cs.map (tradeOf prices)) = (cs.map (contrib prices t)).sum := by
  induction cs with
  | nil => rfl
  | cons c cs ih => rw [List.map_cons, net, ih, List.map_cons, List.sum_cons]; rfl

theorem addTo_ok {d : List (Str × ℝ)} {t : Str} {w v : ℝ} (h : dictGet d t = some w) :
    ∃ d', addTo d t v = .ok d' ∧ ∀ s, dictGet d' s = (dictGet d s).map fun x => x + if t = s then v else 0 := by
  refine ⟨dictSet d t (w + v), by unfold addTo; rw [h], fun s => ?_⟩
  rw [dictGet_set]
  by_cases hs : t = s
  · subst hs
    rw [if_pos rfl, h]
    simp
  · rw [if_neg hs]
    simp [hs]

theorem sum_ite (cs : List (CPC ℝ)) (P : Prop) [Decidable P] (f : CPC ℝ → ℝ) :
    (if P then (cs.map f).sum else 0) = (cs.map fun c => if P then f c else 0).sum := by
  split
  · rfl
  · induction cs with
    | nil => rfl
    | cons c cs ih => rw [List.map_cons, List.sum_cons, ← ih, add_zero]

theorem sum_add_map (cs : List (CPC ℝ)) (f g : CPC ℝ → ℝ) : (cs.map f).sum + (cs.map g).sum = (cs.map fun c => f c + g c).sum := by
  induction cs with
  | nil => simp
  | cons c cs ih => simp only [List.map_cons, List.sum_cons]; rw [← ih]; ring

theorem addPair_ok {cs : List (CPC ℝ)} (hs : ∀ c ∈ cs, Sound c) {prices : List (Str × ℝ)} (hp : ∀ t, 0 < priceOf prices t)
    {d : List (Str × ℝ)} {c : CPC ℝ} (hc : c ∈ cs) (hb : ∃ w, dictGet d c.tknb = some w) (hq : ∃ w, dictGet d c.tknq = some w) :
    ∃ d', addPair cs prices d c.pair = .ok d' ∧ ∀ s, dictGet d' s = (dictGet d s).map fun x =>
      x + ((cs.filter fun e => decide (e.pair = c.pair)).map (contrib prices s)).sum := by
  unfold addPair
  rw [tokens_of_unpack (hs c hc), Py.ok_bind]
  dsimp only
  rw [pyDiv_ok (hp _).ne', Py.ok_bind, tradesAt_ok (fun e he => hs e (List.mem_filter.1 he).1) (div_pos (hp _) (hp _)), Py.ok_bind]
  obtain ⟨w1, hw1⟩ := hq
  obtain ⟨d1, h1, k1⟩ := addTo_ok (v := (((cs.filter fun e => decide (e.pair = c.pair)).map fun e => best e (priceOf prices c.tknb / priceOf prices c.tknq)).map Prod.snd).sum) hw1
  rw [h1, Py.ok_bind]
  obtain ⟨w2, hw2⟩ := hb
  have hw2' := k1 c.tknb
  rw [hw2, Option.map_some] at hw2'
  obtain ⟨d2, h2, k2⟩ := addTo_ok (v := (((cs.filter fun e => decide (e.pair = c.pair)).map fun e => best e (priceOf prices c.tknb / priceOf prices c.tknq)).map Prod.fst).sum) hw2'
  refine ⟨d2, h2, fun s => ?_⟩
  rw [k2, k1, Option.map_map]
  congr 1
  funext x
  simp only [Function.comp, List.map_map]
  rw [add_assoc]
  congr 1
  rw [sum_ite, sum_ite, sum_add_map]
  congr 1
  apply List.map_congr_left
  intro e he
  have hpair : e.pair = c.pair := by simpa using (List.mem_filter.1 he).2
  have e1 : e.tknb = c.tknb := by unfold CPC.tknb; rw [hpair]
  have e2 : e.tknq = c.tknq := by unfold CPC.tknq; rw [hpair]
  unfold contrib tradeOf
  rw [e1, e2]
  simp only [Function.comp]
  ring

theorem sum_filter_split (cs : List (CPC ℝ)) (f : CPC ℝ → ℝ) {a : Str} {l : List Str} (h : a ∉ l) :
    ((cs.filter fun c => decide (c.pair ∈ a :: l)).map f).sum =
      ((cs.filter fun c => decide (c.pair = a)).map f).sum + ((cs.filter fun c => decide (c.pair ∈ l)).map f).sum := by
  induction cs with
  | nil => simp
  | cons c cs ih =>
    by_cases h1 : c.pair = a
    · have h2 : c.pair ∉ l := h1 ▸ h
      rw [List.filter_cons_of_pos (by simp [h1]), List.filter_cons_of_pos (by simp [h1]), List.filter_cons_of_neg (by simp [h2]),
        List.map_cons, List.sum_cons, ih, List.map_cons, List.sum_cons]
      ring
    · by_cases h2 : c.pair ∈ l
      · rw [List.filter_cons_of_pos (by simp [h2]), List.filter_cons_of_neg (by simp [h1]), List.filter_cons_of_pos (by simp [h2]),
          List.map_cons, List.sum_cons, ih, List.map_cons, List.sum_cons]
        ring
      · rw [List.filter_cons_of_neg (by simp [h1, h2]), List.filter_cons_of_neg (by simp [h1]), List.filter_cons_of_neg (by simp [h2]), ih]

theorem fold_ok {cs : List (CPC ℝ)} (hs : ∀ c ∈ cs, Sound c) {prices : List (Str × ℝ)} (hp : ∀ t, 0 < priceOf prices t)
    {ps : List Str} (hps : ∀ a ∈ ps, ∃ c ∈ cs, c.pair = a) (hn : ps.Nodup) {d : List (Str × ℝ)}
    (hd : ∀ c ∈ cs, (∃ w, dictGet d c.tknb = some w) ∧ ∃ w, dictGet d c.tknq = some w) :
    ∃ d', ps.foldlM (addPair cs prices) d = .ok d' ∧ ∀ s, dictGet d' s = (dictGet d s).map fun x =>
      x + ((cs.filter fun e => decide (e.pair ∈ ps)).map (contrib prices s)).sum := by
  induction ps generalizing d with
  | nil => exact ⟨d, rfl, fun s => by simp⟩
  | cons a ps ih =>
    rw [List.nodup_cons] at hn
    obtain ⟨c, hc, rfl⟩ := hps a (by simp)
    obtain ⟨d1, h1, k1⟩ := addPair_ok hs hp hc (hd c hc).1 (hd c hc).2
    obtain ⟨d2, h2, k2⟩ := ih (fun a ha => hps a (List.mem_cons_of_mem _ ha)) hn.2 (d := d1) (by
      intro e he
      obtain ⟨⟨w1, hw1⟩, w2, hw2⟩ := hd e he
      rw [k1, k1, hw1, hw2]
      exact ⟨⟨_, rfl⟩, _, rfl⟩)
    refine ⟨d2, ?_, fun s => ?_⟩
    · rw [List.foldlM_cons, h1, Py.ok_bind, h2]
    · rw [k2, k1, Option.map_map]
      congr 1
      funext x
      simp only [Function.comp]
      rw [sum_filter_split cs _ hn.1]
      ring

theorem dictGet_zero (l : List Str) (t : Str) : dictGet (l.map fun s => (s, (0 : ℝ))) t = if t ∈ l then some 0 else none := by
  induction l with
  | nil => rfl
  | cons a l ih =>
    rw [List.map_cons]
    unfold dictGet
    by_cases h : a = t
    · simp [h]
    · rw [if_neg h, ih]
      simp [Ne.symm h]

theorem mem_tkns {cc : CC ℝ} {c : CPC ℝ} (h : c ∈ cc.curves) : c.tknb ∈ cc.tkns ∧ c.tknq ∈ cc.tkns := by
  unfold CC.tkns
  exact ⟨List.mem_append_left _ (List.mem_map_of_mem h), List.mem_append_right _ (List.mem_map_of_mem h)⟩

theorem mapM_trades {cs : List (CPC ℝ)} (hs : ∀ c ∈ cs, Sound c) {m : Margp ℝ} (hp : ∀ t, 0 < priceOf m.prices t) :
    (cs.mapM fun c => do
      let p ← m.price c.tknb c.tknq
      let r ← c.dxdyfromp (some p)
      .ok (r.1, r.2.1)) = (.ok (cs.map (tradeOf m.prices)) : Py (List (ℝ × ℝ))) := by
  induction cs with
  | nil => rfl
  | cons c cs ih =>
    rw [List.mapM_cons]
    unfold Margp.price
    rw [pyDiv_ok (hp _).ne', Py.ok_bind, best_eq (hs c (by simp)) (div_pos (hp _) (hp _)), Py.ok_bind, Py.ok_bind]
    have := ih fun d hd => hs d (List.mem_cons_of_mem _ hd)
    unfold Margp.price at this
    rw [this, Py.ok_bind]
    rfl

/-- The optimizer's input: valid curves, a token that they trade, and one positive price for each other token. -/
structure Input (cc : CC ℝ) (target : Str) (p : List ℝ) : Prop where
  sound : ∀ c ∈ cc.curves, Sound c
  known : target ∈ cc.tkns
  length : p.length = (tokensOf cc target).length
  pos : ∀ v ∈ p, 0 < v

theorem margp_eq {cc : CC ℝ} {target : Str} {p : List ℝ} (h : Input cc target p) :
    ∃ m, margp cc target p = .ok m ∧ m.curves = cc ∧ m.target = target ∧ m.prices = (tokensOf cc target).zip p ∧
      m.dxdyvalues = .ok (cc.curves.map (tradeOf m.prices)) ∧
      (∀ t ∈ cc.tkns, dictGet m.dtokens t = some (net t cc.curves (cc.curves.map (tradeOf m.prices)))) ∧
      m.result = net target cc.curves (cc.curves.map (tradeOf m.prices)) := by
  have hpos := priceOf_pos (ts := tokensOf cc target) h.pos
  have hinit : ∀ t ∈ cc.tkns, dictGet (cc.tkns.dedup.map fun t => (t, (0 : ℝ))) t = some 0 := by
    intro t ht
    rw [dictGet_zero, if_pos (List.mem_dedup.2 ht)]
  obtain ⟨d, hd, hk⟩ := fold_ok h.sound hpos (ps := (cc.curves.map CPC.pair).dedup) (by
    intro a ha
    obtain ⟨c, hc, rfl⟩ := List.mem_map.1 (List.mem_dedup.1 ha)
    exact ⟨c, hc, rfl⟩) (List.nodup_dedup _) (d := cc.tkns.dedup.map fun t => (t, 0)) (by
    intro c hc
    exact ⟨⟨0, hinit _ (mem_tkns hc).1⟩, 0, hinit _ (mem_tkns hc).2⟩)
  have hall : (cc.curves.filter fun e => decide (e.pair ∈ (cc.curves.map CPC.pair).dedup)) = cc.curves := by
    rw [List.filter_eq_self]
    intro c hc
    simp only [List.mem_dedup, List.mem_map, decide_eq_true_eq]
    exact ⟨c, hc, rfl⟩
  have hget : ∀ t ∈ cc.tkns, dictGet d t = some (net t cc.curves (cc.curves.map (tradeOf ((tokensOf cc target).zip p)))) := by
    intro t ht
    rw [hk, hinit t ht, hall, net_map]
    simp
  have hne : cc.curves ≠ [] := by
    intro hc
    have := h.known
    unfold CC.tkns at this
    rw [hc] at this
    simp at this
  refine ⟨⟨cc, target, (tokensOf cc target).zip p, d,
    net target cc.curves (cc.curves.map (tradeOf ((tokensOf cc target).zip p)))⟩, ?_, rfl, rfl, rfl, ?_, hget, rfl⟩
  · unfold margp dtknfromp
    rw [if_neg hne, if_neg (not_not.2 h.known)]
    dsimp only
    rw [if_neg (not_not.2 h.length), hd, Py.ok_bind, hget _ h.known]
  · unfold Margp.dxdyvalues
    exact mapM_trades h.sound hpos

/-- C79: the net amounts that the optimizer reports are those of the trades it proposes for the curves, one trade per curve, each
of which its pool accepts and which leaves it on its curve. -/
theorem C79_balance {cc : CC ℝ} {target : Str} {p : List ℝ} (h : Input cc target p) :
    ∃ m v, margp cc target p = .ok m ∧ m.dxdyvalues = .ok v ∧ v.length = cc.curves.length ∧
      (∀ t ∈ cc.tkns, dictGet m.dtokens t = some (net t cc.curves v)) ∧ m.result = net target cc.curves v ∧
      ∀ cv ∈ cc.curves.zip v, Allowed cv.1 cv.2 ∧ (cv.1.x + cv.2.1) * (cv.1.y + cv.2.2) = cv.1.k := by
  obtain ⟨m, h1, h2, h3, h4, h5, h6, h7⟩ := margp_eq h
  refine ⟨m, _, h1, h5, by simp, h6, h7, ?_⟩
  intro cv hcv
  rw [List.zip_map_right] at hcv
  obtain ⟨⟨c, e⟩, hce, rfl⟩ := List.mem_map.1 hcv
  have heq : c = e ∧ c ∈ cc.curves := by
    have : ∀ l : List (CPC ℝ), (c, e) ∈ l.zip l → c = e ∧ c ∈ l := by
      intro l
      induction l with
      | nil => intro h; simp at h
      | cons a l ih =>
        intro h
        rw [List.zip_cons_cons, List.mem_cons] at h
        rcases h with h | h
        · obtain ⟨rfl, rfl⟩ := Prod.mk.inj h
          exact ⟨rfl, by simp⟩
        · exact ⟨(ih h).1, List.mem_cons_of_mem _ (ih h).2⟩
    exact this _ hce
  obtain ⟨rfl, hc⟩ := heq
  have hpos := priceOf_pos (ts := tokensOf cc target) h.pos
  have := best_allowed (h.sound c hc) (p := priceOf m.prices c.tknb / priceOf m.prices c.tknq) (by
    rw [h4]; exact div_pos (hpos _) (hpos _))
  exact this

/-! ## The instructions -/

theorem opposite {c : CPC ℝ} (hs : Sound c) {t : ℝ × ℝ} (ht : Allowed c t) (hk : (c.x + t.1) * (c.y + t.2) = c.k) (h0 : t.1 ≠ 0 ∨ t.2 ≠ 0) :
    t.1 * t.2 < 0 := by
  have hx := hs.hx
  have hy := hs.y_pos
  have hxy := hs.xy
  have h1 := ht.x
  have h2 := ht.y
  obtain ⟨a, b⟩ := t
  dsimp only at *
  have e : a * (c.y + b) = -(c.x * b) := by
    have : (c.x + a) * (c.y + b) = c.x * c.y := by rw [hk, ← hxy]
    linarith [this, show (c.x + a) * (c.y + b) = c.x * c.y + c.x * b + a * (c.y + b) by ring]
  rcases lt_trichotomy a 0 with ha | ha | ha
  · have : a * (c.y + b) < 0 := mul_neg_of_neg_of_pos ha h2
    have hb : 0 < b := by
      by_contra hb
      push Not at hb
      nlinarith
    exact mul_neg_of_neg_of_pos ha hb
  · subst ha
    have : b = 0 := by
      have : c.x * b = 0 := by linarith
      rcases mul_eq_zero.1 this with h | h
      · exact absurd h hx.ne'
      · exact h
    subst this
    simp at h0
  · have : 0 < a * (c.y + b) := mul_pos ha h2
    have hb : b < 0 := by
      by_contra hb
      push Not at hb
      nlinarith
    exact mul_neg_of_pos_of_neg ha hb

theorem instructions_ok (cs : List (CPC ℝ)) (v : List (ℝ × ℝ)) (hl : v.length = cs.length) (hs : ∀ c ∈ cs, Sound c)
    (ht : ∀ c ∈ cs, c.tknb ≠ c.tknq)
    (hv : ∀ cv ∈ cs.zip v, Allowed cv.1 cv.2 ∧ (cv.1.x + cv.2.1) * (cv.1.y + cv.2.2) = cv.1.k) :
    ∃ ts, instructions (cs.zip v) = .ok ts ∧ (∀ t, (ts.map fun ti => (ti.amountOf t).getD 0).sum = net t cs v) ∧
      ts.map TI.cid = ((cs.zip v).filter fun cv => decide (cv.2 ≠ (0, 0))).map fun cv => Cid.show cv.1.cid := by
  induction cs generalizing v with
  | nil => exact ⟨[], rfl, fun t => rfl, rfl⟩
  | cons c cs ih =>
    cases v with
    | nil => simp at hl
    | cons d v =>
      rw [List.zip_cons_cons] at hv ⊢
      obtain ⟨ts, h1, h2, h3⟩ := ih v (by simpa using hl) (fun e he => hs e (List.mem_cons_of_mem _ he))
        (fun e he => ht e (List.mem_cons_of_mem _ he)) fun e he => hv e (List.mem_cons_of_mem _ he)
      obtain ⟨a, b⟩ := d
      unfold instructions
      by_cases h0 : a ≠ 0 ∨ b ≠ 0
      · rw [if_pos h0]
        obtain ⟨hA, hK⟩ := hv (c, a, b) (by simp)
        have htk := ht c (by simp)
        obtain ⟨ti, g1, g2, -, -, g3, g4, g5, -⟩ := C49_instruction (cid := Cid.show c.cid) htk (opposite (hs c (by simp)) hA hK h0)
        rw [g1, Py.ok_bind, h1, Py.ok_bind]
        refine ⟨ti :: ts, rfl, fun t => ?_, ?_⟩
        · rw [List.map_cons, List.sum_cons, h2, net]
          by_cases e1 : c.tknb = t
          · subst e1
            rw [g3, if_pos rfl, if_neg (Ne.symm htk)]
            simp
          · by_cases e2 : c.tknq = t
            · subst e2
              rw [g4, if_pos rfl, if_neg e1]
              simp
            · rw [g5 t (Ne.symm e1) (Ne.symm e2), if_neg e1, if_neg e2]
              simp
        · rw [List.filter_cons_of_pos (by simpa [Prod.ext_iff, not_and_or] using h0), List.map_cons, List.map_cons, g2, h3]
      · rw [if_neg h0, h1]
        push Not at h0
        obtain ⟨rfl, rfl⟩ := h0
        refine ⟨ts, rfl, fun t => ?_, ?_⟩
        · rw [h2, net]; simp
        · rw [List.filter_cons_of_neg (by simp), h3]

/-- C79: there is one instruction for each curve that trades, under the curve's identifier, and the amounts of the instructions add up to
the reported net amounts of every token. -/
theorem C79_instructions {cc : CC ℝ} {target : Str} {p : List ℝ} (h : Input cc target p) (hd : ∀ c ∈ cc.curves, c.tknb ≠ c.tknq) :
    ∃ m v ts, margp cc target p = .ok m ∧ m.dxdyvalues = .ok v ∧ m.tradeInstructions = .ok ts ∧
      (∀ t ∈ cc.tkns, dictGet m.dtokens t = some (ts.map fun ti => (ti.amountOf t).getD 0).sum) ∧
      ts.map TI.cid = ((cc.curves.zip v).filter fun cv => decide (cv.2 ≠ (0, 0))).map fun cv => Cid.show cv.1.cid := by
  obtain ⟨m, v, h1, h2, h3, h4, h5, h6⟩ := C79_balance h
  obtain ⟨ts, k1, k2, k3⟩ := instructions_ok cc.curves v h3 h.sound hd h6
  obtain ⟨m', g1, g2, -⟩ := margp_eq h
  rw [h1] at g1
  cases g1
  refine ⟨m, v, ts, h1, h2, ?_, fun t ht => by rw [h4 t ht, k2], k3⟩
  unfold Margp.tradeInstructions
  rw [h2, Py.ok_bind, g2, k1]

/-! ## Optimality -/

theorem worth (pr : Str → ℝ) (T : Finset Str) (cs : List (CPC ℝ)) (v : List (ℝ × ℝ)) (hT : ∀ c ∈ cs, c.tknb ∈ T ∧ c.tknq ∈ T) :
    ∑ t ∈ T, pr t * net t cs v = ((cs.zip v).map fun cv => pr cv.1.tknb * cv.2.1 + pr cv.1.tknq * cv.2.2).sum := by
  induction cs generalizing v with
  | nil => simp [net]
  | cons c cs ih =>
    cases v with
    | nil => simp [net]
    | cons d v =>
      rw [List.zip_cons_cons, List.map_cons, List.sum_cons, ← ih v fun e he => hT e (List.mem_cons_of_mem _ he)]
      simp only [net, mul_add, Finset.sum_add_distrib]
      congr 1
      congr 1
      · simp only [mul_ite, mul_zero]
        rw [Finset.sum_ite_eq, if_pos (hT c (by simp)).1]
      · simp only [mul_ite, mul_zero]
        rw [Finset.sum_ite_eq, if_pos (hT c (by simp)).2]

theorem worth_le {prices : List (Str × ℝ)} (hp : ∀ t, 0 < priceOf prices t) (cs : List (CPC ℝ)) (hs : ∀ c ∈ cs, Sound c)
    (w : List (ℝ × ℝ)) (hl : w.length = cs.length) (ha : ∀ cv ∈ cs.zip w, Allowed cv.1 cv.2) :
    (let f := fun cv : CPC ℝ × ℝ × ℝ => priceOf prices cv.1.tknb * cv.2.1 + priceOf prices cv.1.tknq * cv.2.2
     ((cs.zip (cs.map (tradeOf prices))).map f).sum ≤ ((cs.zip w).map f).sum ∧
      (((cs.zip w).map f).sum ≤ ((cs.zip (cs.map (tradeOf prices))).map f).sum → w = cs.map (tradeOf prices))) := by
  intro f
  induction cs generalizing w with
  | nil =>
    cases w with
    | nil => simp
    | cons => simp at hl
  | cons c cs ih =>
    cases w with
    | nil => simp at hl
    | cons d w =>
      rw [List.zip_cons_cons] at ha
      obtain ⟨h1, h2⟩ := ih (fun e he => hs e (List.mem_cons_of_mem _ he)) w (by simpa using hl) fun e he => ha e (List.mem_cons_of_mem _ he)
      have hb := hp c.tknb
      have hq := hp c.tknq
      obtain ⟨g1, g2⟩ := best_le (hs c (by simp)) (div_pos hb hq) (ha (c, d) (by simp))
      have e : ∀ u : ℝ × ℝ, f (c, u) = priceOf prices c.tknq * (priceOf prices c.tknb / priceOf prices c.tknq * u.1 + u.2) := by
        intro u
        show priceOf prices c.tknb * u.1 + priceOf prices c.tknq * u.2 = _
        field_simp
      have hle : f (c, tradeOf prices c) ≤ f (c, d) := by
        rw [e, e]
        exact mul_le_mul_of_nonneg_left g1 hq.le
      simp only [List.map_cons, List.zip_cons_cons, List.sum_cons]
      refine ⟨by linarith, fun hge => ?_⟩
      have e2 := h2 (by linarith)
      have e1 : f (c, tradeOf prices c) = f (c, d) := by linarith
      rw [e, e] at e1
      have e3 : d = tradeOf prices c := g2 (mul_left_cancel₀ hq.ne' e1)
      rw [e3, e2]

theorem priceOf_target {cc : CC ℝ} {target : Str} {p : List ℝ} : priceOf ((tokensOf cc target).zip p) target = 1 := by
  unfold priceOf
  have : ∀ (l : List Str) (p : List ℝ), target ∉ l → dictGet (l.zip p) target = none := by
    intro l
    induction l with
    | nil => intro p _; rfl
    | cons a l ih =>
      intro p hn
      cases p with
      | nil => rfl
      | cons b p =>
        rw [List.zip_cons_cons]
        unfold dictGet
        rw [if_neg fun h => hn (by simp [h]), ih p fun h => hn (List.mem_cons_of_mem _ h)]
  rw [this _ _ (by unfold tokensOf; simp)]
  rfl

/-- C80: no other choice of trades, each of which its pool accepts, that asks for at most the same net amount of every other token, gets
more of the target token out of the pools; one that gets as much is the optimizer's choice. -/
theorem C80_optimal {cc : CC ℝ} {target : Str} {p : List ℝ} (h : Input cc target p) {m : Margp ℝ} (hm : margp cc target p = .ok m)
    {v w : List (ℝ × ℝ)} (hv : m.dxdyvalues = .ok v) (hw : w.length = cc.curves.length)
    (ha : ∀ cv ∈ cc.curves.zip w, Allowed cv.1 cv.2)
    (hn : ∀ t ∈ cc.tkns, t ≠ target → net t cc.curves w ≤ net t cc.curves v) :
    m.result ≤ net target cc.curves w ∧ (m.result = net target cc.curves w → w = v) := by
  obtain ⟨m', g1, g2, g3, g4, g5, g6, g7⟩ := margp_eq h
  rw [hm] at g1
  cases g1
  rw [hv] at g5
  cases g5
  have hpos := priceOf_pos (ts := tokensOf cc target) h.pos
  rw [← g4] at hpos
  have h1 : priceOf m.prices target = 1 := by rw [g4]; exact priceOf_target
  obtain ⟨k1, k2⟩ := worth_le hpos cc.curves h.sound w hw ha
  have hT : ∀ c ∈ cc.curves, c.tknb ∈ cc.tkns.toFinset ∧ c.tknq ∈ cc.tkns.toFinset := by
    intro c hc
    rw [List.mem_toFinset, List.mem_toFinset]
    exact mem_tkns hc
  rw [← worth _ _ _ _ hT, ← worth _ _ _ _ hT] at k1 k2
  have ht : target ∈ cc.tkns.toFinset := List.mem_toFinset.2 h.known
  rw [← Finset.add_sum_erase _ _ ht, ← Finset.add_sum_erase _ _ ht, h1, one_mul, one_mul, ← g7] at k1 k2
  have k3 : ∑ t ∈ cc.tkns.toFinset.erase target, priceOf m.prices t * net t cc.curves w ≤
      ∑ t ∈ cc.tkns.toFinset.erase target, priceOf m.prices t * net t cc.curves (cc.curves.map (tradeOf m.prices)) := by
    apply Finset.sum_le_sum
    intro t ht
    rw [Finset.mem_erase, List.mem_toFinset] at ht
    exact mul_le_mul_of_nonneg_left (hn t ht.2 ht.1) (hpos t).le
  exact ⟨by linarith, fun e => k2 (by linarith)⟩

theorem net_zero (t : Str) (cs : List (CPC ℝ)) (n : Nat) : net t cs (List.replicate n (0, 0)) = 0 := by
  induction cs generalizing n with
  | nil => rfl
  | cons c cs ih =>
    cases n with
    | zero => rfl
    | succ n => rw [List.replicate_succ, net, ih]; simp

theorem mem_zip_replicate {α β : Type} {a : α} {b e : β} {l : List α} {n : Nat} (h : (a, b) ∈ l.zip (List.replicate n e)) : b = e ∧ a ∈ l :=
  ⟨List.eq_of_mem_replicate (List.of_mem_zip h).2, (List.of_mem_zip h).1⟩

/-- C80: if the pools take no other token on balance, the optimizer never pays the target token into the pools, and it gets some out
unless there is nothing to trade. -/
theorem C80_profit {cc : CC ℝ} {target : Str} {p : List ℝ} (h : Input cc target p) {m : Margp ℝ} (hm : margp cc target p = .ok m)
    (hn : ∀ t ∈ cc.tkns, t ≠ target → ∃ d, dictGet m.dtokens t = some d ∧ 0 ≤ d) :
    m.result ≤ 0 ∧ (m.result = 0 → m.tradeInstructions = .ok []) := by
  obtain ⟨m', v, g1, g2, g3, g4, g5, g6⟩ := C79_balance h
  rw [hm] at g1
  cases g1
  obtain ⟨k1, k2⟩ := C80_optimal h hm g2 (w := List.replicate cc.curves.length (0, 0)) (by simp)
    (fun cv hcv => by
      obtain ⟨c, d⟩ := cv
      obtain ⟨rfl, hc⟩ := mem_zip_replicate hcv
      exact allowed_zero (h.sound c hc))
    (fun t ht hne => by
      obtain ⟨d, hd, h0⟩ := hn t ht hne
      rw [g4 t ht] at hd
      rw [net_zero, Option.some.inj hd]
      exact h0)
  rw [net_zero] at k1 k2
  refine ⟨k1, fun h0 => ?_⟩
  have hv := k2 h0
  obtain ⟨m', q1, q2, -⟩ := margp_eq h
  rw [hm] at q1
  cases q1
  unfold Margp.tradeInstructions
  rw [g2, Py.ok_bind, ← hv, q2]
  have : ∀ (cs : List (CPC ℝ)) (n : Nat), instructions (cs.zip (List.replicate n ((0 : ℝ), (0 : ℝ)))) = .ok [] := by
    intro cs
    induction cs with
    | nil => intro n; rfl
    | cons c cs ih =>
      intro n
      cases n with
      | zero => rfl
      | succ n =>
        rw [List.replicate_succ, List.zip_cons_cons]
        unfold instructions
        rw [if_neg (by simp), ih]
  exact this _ _

/-! ## After the trades -/

theorem execute_ok {c : CPC ℝ} (hs : Sound c) {t : ℝ × ℝ} (ht : Allowed c t) (hk : (c.x + t.1) * (c.y + t.2) = c.k) :
    ∃ d, c.execute (some t.1) none true = .ok d ∧ Sound d ∧ d.pair = c.pair ∧ d.cid ≠ none ∧ d.k = c.k ∧ d.x = c.x + t.1 ∧ d.y = c.y + t.2 ∧
      d.xAct = c.xAct + t.1 ∧ d.yAct = c.yAct + t.2 := by
  obtain ⟨b, q, hp⟩ := hs.hpair
  have hy : c.k / (c.x + t.1) = c.y + t.2 := by rw [← hk, mul_comm, mul_div_assoc, div_self ht.x.ne', mul_one]
  unfold CPC.execute
  dsimp only
  rw [if_neg (by simp)]
  simp only [Option.getD_some]
  rw [pyDiv_ok ht.x.ne', Py.ok_bind, hy]
  unfold CPC.executed
  rw [CPC.make_ok ht.x.ne' hp]
  have e1 : c.xAct + (c.x + t.1) - c.x = c.xAct + t.1 := by ring
  have e2 : c.yAct + (c.y + t.2) - c.y = c.yAct + t.2 := by ring
  rw [e1, e2]
  refine ⟨_, rfl, ⟨hs.hk, ht.x, ht.xa, ?_, ht.ya, ?_, b, q, hp⟩, rfl, by simp, rfl, rfl, hy, rfl, rfl⟩
  · show c.xAct + t.1 ≤ c.x + t.1
    linarith [hs.hxx]
  · show c.yAct + t.2 ≤ c.k / (c.x + t.1)
    rw [hy]
    linarith [hs.hyy]

/-- After the trade to a price, the trade to that price is nothing. -/
theorem best_again {c d : CPC ℝ} (hs : Sound c) (hd : Sound d) {p : ℝ} (hp : 0 < p) (hk : d.k = c.k) (hx : d.x = c.x + (best c p).1)
    (hy : d.y = c.y + (best c p).2) (hxa : d.xAct = c.xAct + (best c p).1) (hya : d.yAct = c.yAct + (best c p).2) : best d p = (0, 0) := by
  obtain ⟨hA, -⟩ := best_allowed hd hp
  obtain ⟨h1, h2⟩ := best_le hd hp (allowed_zero hd)
  obtain ⟨h3, -⟩ := best_le hs hp (t := ((best c p).1 + (best d p).1, (best c p).2 + (best d p).2)) ⟨by
    have := hA.x; rw [hx] at this; show 0 < c.x + (_ + _); linarith, by
    have := hA.y; rw [hy] at this; show 0 < c.y + (_ + _); linarith, by
    have := hA.k
    rw [hx, hy, hk] at this
    show c.k ≤ (c.x + (_ + _)) * (c.y + (_ + _))
    rw [← add_assoc, ← add_assoc]
    exact this, by
    have := hA.xa; rw [hxa] at this; show 0 ≤ c.xAct + (_ + _); linarith, by
    have := hA.ya; rw [hya] at this; show 0 ≤ c.yAct + (_ + _); linarith⟩
  simp only [mul_zero, add_zero] at h1 h2
  simp only [mul_add] at h3
  exact (h2 (by linarith)).symm

theorem executeAll_ok {prices : List (Str × ℝ)} (hp : ∀ t, 0 < priceOf prices t) (cs : List (CPC ℝ)) (hs : ∀ c ∈ cs, Sound c) :
    ∃ ds, executeAll (cs.zip ((cs.map (tradeOf prices)).map Prod.fst)) = .ok ds ∧ ds.map CPC.pair = cs.map CPC.pair ∧
      ∀ d ∈ ds, Sound d ∧ d.cid ≠ none ∧ tradeOf prices d = (0, 0) := by
  unfold executeAll
  induction cs with
  | nil => exact ⟨[], rfl, rfl, by simp⟩
  | cons c cs ih =>
    obtain ⟨ds, h1, h2, h3⟩ := ih fun e he => hs e (List.mem_cons_of_mem _ he)
    have hb : 0 < priceOf prices c.tknb / priceOf prices c.tknq := div_pos (hp _) (hp _)
    have hc := hs c (by simp)
    obtain ⟨g1, g2⟩ := best_allowed hc hb
    obtain ⟨d, k1, k2, k3, k4, k5, k6, k7, k8, k9⟩ := execute_ok hc g1 g2
    refine ⟨d :: ds, ?_, by rw [List.map_cons, List.map_cons, h2, k3], ?_⟩
    · rw [List.map_cons, List.map_cons, List.zip_cons_cons, List.mapM_cons]
      show (c.execute (some (best c _).1) none true >>= _) = _
      rw [k1, Py.ok_bind, h1, Py.ok_bind]
      rfl
    · intro e he
      rcases List.mem_cons.1 he with rfl | he
      · refine ⟨k2, k4, ?_⟩
        have e1 : e.tknb = c.tknb := by unfold CPC.tknb; rw [k3]
        have e2 : e.tknq = c.tknq := by unfold CPC.tknq; rw [k3]
        unfold tradeOf
        rw [e1, e2]
        exact best_again hc k2 hb k5 k6 k7 k8 k9
      · exact h3 e he

theorem tkns_eq {cc dd : CC ℝ} (h : dd.curves.map CPC.pair = cc.curves.map CPC.pair) : dd.tkns = cc.tkns := by
  have hb : ∀ l : List (CPC ℝ), l.map CPC.tknb = (l.map CPC.pair).map fun s => (splitSlash s).getD 0 [] := by
    intro l; rw [List.map_map]; rfl
  have hq : ∀ l : List (CPC ℝ), l.map CPC.tknq = (l.map CPC.pair).map fun s => (splitSlash s).getD 1 [] := by
    intro l; rw [List.map_map]; rfl
  unfold CC.tkns
  rw [hb, hq, h, ← hb, ← hq]

/-- C81: the adjusted curves are valid curves of the same pairs; on them the optimizer, at the same prices, finds nothing to trade. -/
theorem C81_rest {cc : CC ℝ} {target : Str} {p : List ℝ} (h : Input cc target p) :
    ∃ m dd m', margp cc target p = .ok m ∧ m.curvesNew = .ok (some dd) ∧ dd.curves.map CPC.pair = cc.curves.map CPC.pair ∧
      Input dd target p ∧ margp dd target p = .ok m' ∧ m'.result = 0 ∧ (∀ t ∈ cc.tkns, dictGet m'.dtokens t = some 0) ∧
      m'.tradeInstructions = .ok [] := by
  obtain ⟨m, g1, g2, g3, g4, g5, g6, g7⟩ := margp_eq h
  have hpos := priceOf_pos (ts := tokensOf cc target) h.pos
  rw [← g4] at hpos
  obtain ⟨ds, h1, h2, h3⟩ := executeAll_ok hpos cc.curves h.sound
  have hcur : (CC.ofCurves ds).curves = ds := CC.ofCurves_curves fun d hd => (h3 d hd).2.1
  have htk : (CC.ofCurves ds).tkns = cc.tkns := tkns_eq (by rw [hcur, h2])
  have hto : tokensOf (CC.ofCurves ds) target = tokensOf cc target := by unfold tokensOf; rw [htk]
  have hin : Input (CC.ofCurves ds) target p :=
    ⟨fun d hd => (h3 d (hcur ▸ hd)).1, htk ▸ h.known, by rw [hto]; exact h.length, h.pos⟩
  obtain ⟨m', k1, k2, k3, k4, k5, k6, k7⟩ := margp_eq hin
  have hpr : m'.prices = m.prices := by rw [k4, g4, hto]
  have hz : (CC.ofCurves ds).curves.map (tradeOf m'.prices) = List.replicate ds.length (0, 0) := by
    rw [hcur, hpr, List.eq_replicate_iff]
    refine ⟨by simp, fun b hb => ?_⟩
    obtain ⟨d, hd, rfl⟩ := List.mem_map.1 hb
    exact (h3 d hd).2.2
  rw [hz] at k6 k7
  rw [net_zero] at k7
  refine ⟨m, _, m', g1, ?_, by rw [hcur, h2], hin, k1, k7, fun t ht => by rw [k6 t (htk ▸ ht), net_zero], ?_⟩
  · unfold Margp.curvesNew
    rw [g5, Py.ok_bind, g2]
    unfold adjustCurves
    rw [h1]
  · refine (C80_profit hin k1 fun t ht hne => ⟨0, by rw [k6 t ht, net_zero], le_rfl⟩).2 k7

/-- C81: no arbitrage is left between the adjusted curves: trades that the pools accept and that pay in no token on balance are all empty. -/
theorem C81_no_arbitrage {cc : CC ℝ} {target : Str} {p : List ℝ} (h : Input cc target p) :
    ∃ m dd, margp cc target p = .ok m ∧ m.curvesNew = .ok (some dd) ∧ dd.curves.length = cc.curves.length ∧
      ∀ w : List (ℝ × ℝ), w.length = dd.curves.length → (∀ cv ∈ dd.curves.zip w, Allowed cv.1 cv.2) →
        (∀ t ∈ dd.tkns, net t dd.curves w ≤ 0) → ∀ t ∈ w, t = (0, 0) := by
  obtain ⟨m, dd, m', h1, h2, h3, h4, h5, h6, h7, h8⟩ := C81_rest h
  refine ⟨m, dd, h1, h2, by simpa using congrArg List.length h3, fun w hw ha hn => ?_⟩
  obtain ⟨m'', v, k1, k2, k3, k4, k5, k6⟩ := C79_balance h4
  rw [h5] at k1
  cases k1
  have htk := tkns_eq h3
  have hv0 : ∀ t ∈ dd.tkns, net t dd.curves v = 0 := by
    intro t ht
    have := h7 t (htk ▸ ht)
    rw [k4 t ht] at this
    exact Option.some.inj this
  obtain ⟨q1, q2⟩ := C80_optimal h4 h5 k2 hw ha fun t ht _ => by rw [hv0 t ht]; exact hn t ht
  obtain ⟨r1, r2⟩ := C80_optimal h4 h5 k2 (w := List.replicate dd.curves.length (0, 0)) (by simp)
    (fun cv hcv => by
      obtain ⟨c, d⟩ := cv
      obtain ⟨rfl, hc⟩ := mem_zip_replicate hcv
      exact allowed_zero (h4.sound c hc))
    (fun t ht _ => by rw [net_zero, hv0 t ht])
  have e1 : w = v := q2 (le_antisymm q1 (by rw [h6]; exact hn target h4.known))
  have e2 := r2 (by rw [h6, net_zero])
  intro t ht
  rw [e1, ← e2] at ht
  exact List.eq_of_mem_replicate ht

/-! ## Examples -/

/-- Two pools with the same invariant, at the prices 1 and 1/4. -/
def twoPools (K : Type) [Field K] [LinearOrder K] [PySqrt K] : CC K :=
  CC.ofCurves [⟨100, 10, 10, 10, "A/B".toList, some (.str "c1".toList), []⟩, ⟨100, 20, 20, 5, "A/B".toList, some (.str "c2".toList), []⟩]

theorem twoPools_curves (K : Type) [Field K] [LinearOrder K] [IsStrictOrderedRing K] [PySqrt K] : (twoPools K).curves =
    [⟨100, 10, 10, 10, "A/B".toList, some (.str "c1".toList), []⟩, ⟨100, 20, 20, 5, "A/B".toList, some (.str "c2".toList), []⟩] :=
  CC.ofCurves_curves (by simp)

/-- At the price 4/9 the pools balance in `A`, and five thirds of `B` can be taken out. -/
example : (margp (twoPools ℚ) "B".toList [4 / 9]).map (fun m => (m.dtokens, m.result)) =
    .ok ([("A".toList, 0), ("B".toList, -5 / 3)], -5 / 3) := by decide +kernel

example : ((margp (twoPools ℚ) "B".toList [4 / 9]).bind Margp.dxdyvalues) = .ok [(5, -10 / 3), (-5, 5 / 3)] := by decide +kernel

/-- The hypotheses of the theorems hold for these pools. -/
theorem twoPools_input : Input (twoPools ℝ) "B".toList [4 / 9] := by
  have e : (twoPools ℝ).tkns = ["A".toList, "A".toList, "B".toList, "B".toList] := by
    unfold CC.tkns
    rw [twoPools_curves]
    rfl
  refine ⟨?_, ?_, ?_, ?_⟩
  · intro c hc
    rw [twoPools_curves] at hc
    have hp : CarbonPair.unpack "A/B".toList = .ok ("A".toList, "B".toList) := by decide
    simp only [List.mem_cons, List.not_mem_nil, or_false] at hc
    rcases hc with rfl | rfl
    · exact ⟨by norm_num, by norm_num, by norm_num, by norm_num, by norm_num, by norm_num [CPC.y], _, _, hp⟩
    · exact ⟨by norm_num, by norm_num, by norm_num, by norm_num, by norm_num, by norm_num [CPC.y], _, _, hp⟩
  · rw [e]; decide
  · unfold tokensOf; rw [e]; decide
  · intro v hv
    rw [List.mem_singleton.1 hv]
    norm_num

/-- The theorems apply to the two pools: after the trades no arbitrage is left between them. -/
example : ∃ m dd, margp (twoPools ℝ) "B".toList [4 / 9] = .ok m ∧ m.curvesNew = .ok (some dd) ∧
    ∀ w : List (ℝ × ℝ), w.length = dd.curves.length → (∀ cv ∈ dd.curves.zip w, Allowed cv.1 cv.2) →
      (∀ t ∈ dd.tkns, net t dd.curves w ≤ 0) → ∀ t ∈ w, t = (0, 0) := by
  obtain ⟨m, dd, h1, h2, -, h3⟩ := C81_no_arbitrage twoPools_input
  exact ⟨m, dd, h1, h2, h3⟩

/-- Before the trades there is one: the empty trades are not the only ones. -/
example : ((margp (twoPools ℚ) "B".toList [4 / 9]).bind Margp.tradeInstructions).map (fun l => l.map fun t => (t.cid, t.amtIn, t.amtOut)) =
    .ok [("c1".toList, 5, -10 / 3), ("c2".toList, 5 / 3, -5)] := by decide +kernel

end Opt

end Carbon
