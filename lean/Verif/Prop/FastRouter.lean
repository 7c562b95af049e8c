import Mathlib.Algebra.BigOperators.Group.List.Basic
import Mathlib.Algebra.Order.BigOperators.Group.List
import Mathlib.Tactic.FieldSimp
import Mathlib.Tactic.Positivity
import Mathlib.Tactic.Linarith
import Mathlib.Tactic.Ring
import Mathlib.Tactic.NormNum
import Verif.Carbon.FastRouter

/-!
# C25: the fast router's totals reconcile

Everything holds for every ordering of the quotes, so for whatever the sort produces.
-/

set_option linter.unusedSectionVars false

namespace Carbon.FastRouter

open CarbonPair (pyDiv)

variable {K : Type} [Field K] [LinearOrder K] [IsStrictOrderedRing K]

/-- Orders the router can work with: positive prices and capacity, holdings not negative. -/
structure Sane (c : Curve K) : Prop where
  hB : 0 < c.B
  hS : 0 ≤ c.S
  hz : 0 < c.yint
  hy : 0 ≤ c.y

/-- The exact cost of `d` units of an order, in source token. -/
def cost (c : Curve K) (d : K) : K :=
  d * c.yint ^ 2 / ((c.S * c.y + c.B * c.yint) * (c.S * c.y + c.B * c.yint - c.S * d))

/-- The exact payout of an order for `s` units of source token. -/
def payout (c : Curve K) (s : K) : K :=
  s * (c.S * c.y + c.B * c.yint) ^ 2 / (c.S * s * (c.S * c.y + c.B * c.yint) + c.yint ^ 2)

theorem Sane.m_pos {c : Curve K} (h : Sane c) : 0 < c.S * c.y + c.B * c.yint := by
  have := h.hB; have := h.hS; have := h.hz; have := h.hy
  positivity

theorem Sane.m_pos' {c : Curve K} (h : Sane c) {d : K} (hd : d ≤ c.y) : 0 < c.S * c.y + c.B * c.yint - c.S * d := by
  have h1 : 0 < c.B * c.yint := mul_pos h.hB h.hz
  have h2 : 0 ≤ c.S * (c.y - d) := mul_nonneg h.hS (by linarith)
  linarith [mul_sub c.S c.y d]

theorem amtBySrc_ok {c : Curve K} (h : Sane c) {d : K} (hd : d ≤ c.y) : c.amtBySrc d = .ok (cost c d) := by
  have h1 := h.m_pos
  have h2 := h.m_pos' hd
  unfold Curve.amtBySrc cost
  dsimp only
  have e : (c.y * c.S + c.yint * c.B) * (c.y * c.S + c.yint * c.B - d * c.S) =
      (c.S * c.y + c.B * c.yint) * (c.S * c.y + c.B * c.yint - c.S * d) := by ring
  rw [e, pyDiv, if_neg (mul_pos h1 h2).ne']
  congr 2; ring

theorem amtByTarget_ok {c : Curve K} (h : Sane c) {s : K} (hs : 0 ≤ s) : c.amtByTarget s = .ok (payout c s) := by
  have h1 := h.m_pos
  have h2 := h.hS
  have h3 := h.hz
  unfold Curve.amtByTarget payout
  dsimp only
  have e : (c.y * c.S + c.yint * c.B) * s * c.S + c.yint * c.yint =
      c.S * s * (c.S * c.y + c.B * c.yint) + c.yint ^ 2 := by ring
  rw [e, pyDiv, if_neg (by positivity)]
  congr 2; ring

theorem cost_nonneg {c : Curve K} (h : Sane c) {d : K} (h0 : 0 ≤ d) (hd : d ≤ c.y) : 0 ≤ cost c d := by
  have h1 := h.m_pos
  have h2 := h.m_pos' hd
  have h3 := h.hz
  unfold cost; positivity

theorem cost_pos {c : Curve K} (h : Sane c) {d : K} (h0 : 0 < d) (hd : d ≤ c.y) : 0 < cost c d := by
  have h1 := h.m_pos
  have h2 := h.m_pos' hd
  have h3 := h.hz
  unfold cost; positivity

theorem payout_pos {c : Curve K} (h : Sane c) {s : K} (h0 : 0 < s) : 0 < payout c s := by
  have h1 := h.m_pos
  have h2 := h.hS
  have h3 := h.hz
  unfold payout; positivity

/-- `cost` and `payout` are inverse to each other. -/
theorem cost_payout {c : Curve K} (h : Sane c) {s : K} (hs : 0 ≤ s) : cost c (payout c s) = s := by
  have h1 := h.m_pos
  have h2 := h.hS
  have h3 := h.hz
  unfold cost payout
  generalize c.S * c.y + c.B * c.yint = m at *
  have hD : 0 < c.S * s * m + c.yint ^ 2 := by positivity
  have e : m - c.S * (s * m ^ 2 / (c.S * s * m + c.yint ^ 2)) = m * c.yint ^ 2 / (c.S * s * m + c.yint ^ 2) := by
    field_simp; ring
  rw [e]
  field_simp

theorem payout_lt {c : Curve K} (h : Sane c) {s : K} (hs : 0 ≤ s) : c.S * payout c s < c.S * c.y + c.B * c.yint := by
  have h1 := h.m_pos
  have h2 := h.hS
  have h3 := h.hz
  unfold payout
  generalize c.S * c.y + c.B * c.yint = m at *
  rw [mul_div_assoc', div_lt_iff₀ (by positivity)]
  have : 0 < m * c.yint ^ 2 := by positivity
  nlinarith

/-- `cost` is strictly increasing as long as the curve lasts. -/
theorem cost_lt_cost {c : Curve K} (h : Sane c) {d e : K} (hde : d < e) (he : e ≤ c.y) : cost c d < cost c e := by
  have h1 := h.m_pos
  have h2 := h.m_pos' he
  have h2' := h.m_pos' (hde.le.trans he)
  have h3 := h.hz
  unfold cost
  generalize c.S * c.y + c.B * c.yint = m at *
  rw [div_lt_div_iff₀ (by positivity) (by positivity)]
  have : 0 < (e - d) * (c.yint ^ 2 * m * m) := by
    have : 0 < e - d := by linarith
    positivity
  nlinarith

theorem payout_le_iff {c : Curve K} (h : Sane c) {s : K} (hs : 0 ≤ s) {d : K} (hd : d ≤ c.y) :
    payout c s ≤ d ↔ s ≤ cost c d := by
  have h1 := h.m_pos
  have h2 := h.m_pos' hd
  have h3 := h.hz
  have h4 := h.hS
  unfold cost payout
  generalize c.S * c.y + c.B * c.yint = m at *
  rw [div_le_iff₀ (by positivity), le_div_iff₀ (by positivity)]
  have e : s * (m * (m - c.S * d)) - d * c.yint ^ 2 = s * m ^ 2 - d * (c.S * s * m + c.yint ^ 2) := by ring
  constructor <;> intro <;> linarith

theorem rateByTarget_ok {c : Curve K} (h : Sane c) (x : K) :
    rateByTarget x c = .ok ⟨min x c.y, cost c (min x c.y)⟩ := by
  unfold rateByTarget
  dsimp only
  rw [amtBySrc_ok h (min_le_right _ _)]
  rfl

/-- By source the quote takes the whole amount if the order can pay for it, else what the order's content costs. -/
theorem rateBySource_ok {c : Curve K} (h : Sane c) {x : K} (hx : 0 ≤ x) :
    rateBySource x c = .ok ⟨min x (cost c c.y), min (payout c x) c.y⟩ := by
  unfold rateBySource
  rw [amtByTarget_ok h hx]
  simp only [Py.ok_bind]
  rw [amtBySrc_ok h (min_le_right _ _)]
  simp only [Py.ok_bind]
  congr 2
  have hiff := payout_le_iff h hx le_rfl
  rcases le_total (payout c x) c.y with hp | hp
  · rw [min_eq_left hp, cost_payout h hx, min_eq_left (hiff.mp hp)]
  · rcases hp.eq_or_lt with he | hp
    · rw [← he, min_self, he, cost_payout h hx, min_self]
    · rw [min_eq_right hp.le, min_eq_right]
      exact (not_le.mp (fun hc => absurd (hiff.mpr hc) (not_lt.mpr hp.le |> fun _ => not_le.mpr hp))).le

/-! ## The loop, for any trade function -/

/-- Quotes the loop cannot skip: not negative, and paying something if they take something. -/
def Fair (q : FQuote K) : Prop := 0 ≤ q.rate.input ∧ (0 < q.rate.input → 0 < q.rate.output)

theorem filter_true {r : FRate K} (h1 : 0 < r.input) (h2 : 0 < r.output) : filter r = true := by
  simp [filter, h1, h2]

theorem filter_pos {r : FRate K} (h : filter r = true) : 0 < r.input ∧ 0 < r.output := by
  simpa [filter] using h

variable {trade : K → Curve K → Py (FRate K)} {orders : List (Curve K)}

theorem loop_ok {qs : List (FQuote K)} (hq : ∀ q : FQuote K, q ∈ qs → ∃ o, orders[q.index]? = some o)
    (ht : ∀ x o, 0 < x → o ∈ orders → ∃ r, trade x o = .ok r) {x : K} (hx : 0 < x) :
    ∃ acts, loop trade orders x qs = .ok acts := by
  induction qs generalizing x with
  | nil => exact ⟨[], rfl⟩
  | cons q rest ih =>
    have ih' := fun (x : K) (hx : 0 < x) => ih (fun q h => hq q (List.mem_cons_of_mem _ h)) hx
    unfold loop
    split_ifs with h1 h2 h3 h4 h5
    · obtain ⟨a, ha⟩ := ih' (x - q.rate.input) (by linarith)
      rw [ha]; exact ⟨_, rfl⟩
    · exact ih' x hx
    · exact ⟨_, rfl⟩
    · exact ih' x hx
    · obtain ⟨o, ho⟩ := hq q List.mem_cons_self
      obtain ⟨r, hr⟩ := ht x o hx (List.mem_of_getElem? ho)
      simp only [lookup, ho, Py.ok_bind, hr]
      exact ⟨_, rfl⟩
    · exact ih' x hx

theorem loop_sum {qs : List (FQuote K)} (hf : ∀ q ∈ qs, Fair q) {x : K} (hx : 0 < x) {acts : List (Action K)}
    (h : loop trade orders x qs = .ok acts) :
    (acts.map Action.input).sum = min x (qs.map fun q => q.rate.input).sum := by
  induction qs generalizing x acts with
  | nil => cases h; simp [hx.le]
  | cons q rest ih =>
    have ih' := fun {x : K} (hx : 0 < x) {acts} => ih (x := x) (acts := acts) (fun q h => hf q (List.mem_cons_of_mem _ h)) hx
    have hrest : 0 ≤ (rest.map fun q => q.rate.input).sum :=
      List.sum_nonneg (by
        intro a ha
        obtain ⟨q', hq', rfl⟩ := List.mem_map.mp ha
        exact (hf q' (List.mem_cons_of_mem _ hq')).1)
    obtain ⟨f1, f2⟩ := hf q List.mem_cons_self
    simp only [List.map_cons, List.sum_cons]
    unfold loop at h
    split_ifs at h with h1 h2 h3 h4 h5
    · rw [Py.bind_eq_ok] at h
      obtain ⟨a, ha, he⟩ := h
      cases he
      rw [List.map_cons, List.sum_cons, ih' (by linarith) ha]
      simp only
      rw [← min_add_add_left]
      congr 1; ring
    · have h0 : q.rate.input = 0 := by
        by_contra hne
        exact h2 (filter_true (lt_of_le_of_ne f1 (Ne.symm hne)) (f2 (lt_of_le_of_ne f1 (Ne.symm hne))))
      rw [ih' hx h, h0, zero_add]
    · cases h
      simp only [List.map_cons, List.map_nil, List.sum_cons, List.sum_nil, add_zero]
      rw [h3, min_eq_left (by linarith)]
    · exact absurd (filter_true (h3 ▸ hx) (f2 (h3 ▸ hx))) h4
    · rw [Py.bind_eq_ok] at h
      obtain ⟨o, _, h⟩ := h
      rw [Py.bind_eq_ok] at h
      obtain ⟨r, _, h⟩ := h
      cases h
      simp only [List.map_cons, List.map_nil, List.sum_cons, List.sum_nil, add_zero]
      rw [min_eq_left (by linarith)]
    · have : 0 < q.rate.input := by
        rcases lt_trichotomy x q.rate.input with hlt | heq | hgt
        · linarith
        · exact absurd heq h3
        · exact absurd hgt h1
      exact absurd (filter_true this (f2 this)) h5

theorem loop_index_sublist {qs : List (FQuote K)} {x : K} {acts : List (Action K)}
    (h : loop trade orders x qs = .ok acts) : (acts.map Action.index).Sublist (qs.map FQuote.index) := by
  induction qs generalizing x acts with
  | nil => cases h; simp
  | cons q rest ih =>
    unfold loop at h
    split_ifs at h with h1 h2 h3 h4 h5
    · rw [Py.bind_eq_ok] at h
      obtain ⟨a, ha, he⟩ := h
      cases he
      exact (ih ha).cons_cons _
    · exact (ih h).cons _
    · cases h; simp
    · exact (ih h).cons _
    · rw [Py.bind_eq_ok] at h
      obtain ⟨o, _, h⟩ := h
      rw [Py.bind_eq_ok] at h
      obtain ⟨r, _, h⟩ := h
      cases h; simp
    · exact (ih h).cons _

/-- Origin of an action: an unchanged quote, or a smaller fill of a quote. -/
theorem loop_origin {qs : List (FQuote K)} {x : K} (hx : 0 < x) {acts : List (Action K)}
    (h : loop trade orders x qs = .ok acts) (a : Action K) (ha : a ∈ acts) :
    ∃ q ∈ qs, a.index = q.index ∧ filter q.rate = true ∧
      ((a.input = q.rate.input ∧ a.output = q.rate.output) ∨
       (0 < a.input ∧ a.input ≤ x ∧ a.input < q.rate.input ∧
        ∃ o r, orders[q.index]? = some o ∧ trade a.input o = .ok r ∧ a.output = r.output)) := by
  induction qs generalizing x acts with
  | nil => cases h; simp at ha
  | cons q rest ih =>
    unfold loop at h
    split_ifs at h with h1 h2 h3 h4 h5
    · rw [Py.bind_eq_ok] at h
      obtain ⟨acts', ha', he⟩ := h
      cases he
      rcases List.mem_cons.mp ha with rfl | ha
      · exact ⟨q, List.mem_cons_self, rfl, h2, .inl ⟨rfl, rfl⟩⟩
      · obtain ⟨p, hp, e1, e2, e3⟩ := ih (by linarith : 0 < x - q.rate.input) ha' ha
        refine ⟨p, List.mem_cons_of_mem q hp, e1, e2, e3.imp_right ?_⟩
        rintro ⟨f1, f2, f3⟩
        exact ⟨f1, by linarith [(filter_pos h2).1], f3⟩
    · exact (ih hx h ha).imp fun p hp => ⟨List.mem_cons_of_mem q hp.1, hp.2⟩
    · cases h
      rw [List.mem_singleton] at ha; subst ha
      exact ⟨q, List.mem_cons_self, rfl, h4, .inl ⟨rfl, rfl⟩⟩
    · exact (ih hx h ha).imp fun p hp => ⟨List.mem_cons_of_mem q hp.1, hp.2⟩
    · rw [Py.bind_eq_ok] at h
      obtain ⟨o, ho, h⟩ := h
      rw [Py.bind_eq_ok] at h
      obtain ⟨r, hr, h⟩ := h
      cases h
      rw [List.mem_singleton] at ha; subst ha
      refine ⟨q, List.mem_cons_self, rfl, h5, .inr ⟨hx, le_rfl, ?_, o, r, ?_, hr, rfl⟩⟩
      · exact lt_of_le_of_ne (not_lt.mp h1) h3
      · unfold lookup at ho
        split at ho
        · rename_i e; cases ho; exact e
        · cases ho
    · exact (ih hx h ha).imp fun p hp => ⟨List.mem_cons_of_mem q hp.1, hp.2⟩

/-! ## Totals -/

theorem totals_fields (ti tot : K) (acts : List (Action K)) :
    (totals ti tot acts).map (fun a => (a.index, a.input, a.output)) =
      acts.map fun a => (a.index, a.input, a.output) := by
  induction acts generalizing ti tot with
  | nil => rfl
  | cons a rest ih =>
    cases rest with
    | nil => rfl
    | cons b rest => simp only [totals, List.map_cons]; rw [ih]; rfl

theorem totals_length (ti tot : K) (acts : List (Action K)) : (totals ti tot acts).length = acts.length := by
  have := congrArg List.length (totals_fields ti tot acts)
  simpa using this

theorem totals_get (ti tot : K) (acts : List (Action K)) (i : Nat) (a : Action K)
    (h : (totals ti tot acts)[i]? = some a) :
    a.totalInput = ti + ((acts.take (i + 1)).map Action.input).sum ∧
    a.totalOutput = (if i + 1 = acts.length then -1 else 1) * (tot + ((acts.take (i + 1)).map Action.output).sum) := by
  induction acts generalizing ti tot i with
  | nil => simp [totals] at h
  | cons b rest ih =>
    cases rest with
    | nil =>
      cases i with
      | zero =>
        simp only [totals, List.getElem?_cons_zero, Option.some.injEq] at h
        subst h
        simp
      | succ i => simp [totals] at h
    | cons c rest =>
      cases i with
      | zero =>
        simp only [totals, List.getElem?_cons_zero, Option.some.injEq] at h
        subst h
        simp
      | succ i =>
        simp only [totals, List.getElem?_cons_succ] at h
        obtain ⟨e1, e2⟩ := ih _ _ _ h
        refine ⟨?_, ?_⟩
        · rw [e1]; simp only [List.take_succ_cons, List.map_cons, List.sum_cons]; ring
        · rw [e2]; simp only [List.take_succ_cons, List.map_cons, List.sum_cons, List.length_cons, Nat.add_right_cancel_iff]
          ring

/-- **C25** Running totals: the totals reported with an action are the sums of the amounts up to and including it; the
total output of the last action carries the opposite sign. -/
theorem C25_totals (x : K) (qs : List (FQuote K)) (acts : List (Action K))
    (h : matchQuotes trade orders x qs = .ok acts) (i : Nat) (a : Action K) (ha : acts[i]? = some a) :
    a.totalInput = ((acts.take (i + 1)).map Action.input).sum ∧
    a.totalOutput = (if i + 1 = acts.length then -1 else 1) * ((acts.take (i + 1)).map Action.output).sum := by
  unfold matchQuotes at h
  rw [Py.bind_eq_ok] at h
  obtain ⟨l, hl, h⟩ := h
  split_ifs at h
  cases h
  obtain ⟨e1, e2⟩ := totals_get 0 0 l i a ha
  have hf := totals_fields 0 0 l
  have h1 : (totals 0 0 l).map Action.input = l.map Action.input := by
    have := congrArg (List.map fun t : Nat × K × K => t.2.1) hf
    simpa [List.map_map, Function.comp_def] using this
  have h2 : (totals 0 0 l).map Action.output = l.map Action.output := by
    have := congrArg (List.map fun t : Nat × K × K => t.2.2) hf
    simpa [List.map_map, Function.comp_def] using this
  rw [List.map_take, h1, ← List.map_take, List.map_take (f := Action.output), h2, ← List.map_take, totals_length]
  refine ⟨by rw [e1, zero_add], by rw [e2, zero_add]⟩

/-! ## Quotes of a book -/

/-- `qs` are the quotes of the book, in some order. -/
def QuotesFor (trade : K → Curve K → Py (FRate K)) (x : K) (orders : List (Curve K)) (qs : List (FQuote K)) : Prop :=
  ∃ l, quotes trade x orders = .ok l ∧ qs.Perm l

/-- If every quote can be computed, the quotes are exactly those. -/
theorem quotes_eq {f : Curve K → FRate K} {x : K} (hf : ∀ o ∈ orders, trade x o = .ok (f o)) :
    quotes trade x orders = .ok (orders.zipIdx.map fun p => ⟨p.2, f p.1⟩) := by
  unfold quotes
  generalize 0 = n
  induction orders generalizing n with
  | nil => rfl
  | cons o rest ih =>
    rw [List.zipIdx_cons, List.mapM_cons, hf o List.mem_cons_self]
    simp only [Py.ok_bind]
    rw [ih (fun o h => hf o (List.mem_cons_of_mem _ h))]
    rfl

theorem qf_mem {f : Curve K → FRate K} {x : K} (hf : ∀ o ∈ orders, trade x o = .ok (f o)) {qs : List (FQuote K)}
    (h : QuotesFor trade x orders qs) {q : FQuote K} (hq : q ∈ qs) :
    ∃ o, orders[q.index]? = some o ∧ q.rate = f o := by
  obtain ⟨l, hl, hp⟩ := h
  rw [quotes_eq hf] at hl
  cases hl
  have := hp.mem_iff.mp hq
  simp only [List.mem_map, Prod.exists] at this
  obtain ⟨o, i, hm, rfl⟩ := this
  exact ⟨o, by simpa using List.mk_mem_zipIdx_iff_getElem?.1 hm, rfl⟩

theorem qf_nodup {f : Curve K → FRate K} {x : K} (hf : ∀ o ∈ orders, trade x o = .ok (f o)) {qs : List (FQuote K)}
    (h : QuotesFor trade x orders qs) : (qs.map FQuote.index).Nodup := by
  obtain ⟨l, hl, hp⟩ := h
  rw [quotes_eq hf] at hl
  cases hl
  rw [(hp.map FQuote.index).nodup_iff, List.map_map]
  have : (FQuote.index ∘ fun p : Curve K × ℕ => (⟨p.2, f p.1⟩ : FQuote K)) = Prod.snd := rfl
  rw [this, List.zipIdx_map_snd]
  exact List.nodup_range'

theorem qf_sum {f : Curve K → FRate K} {x : K} (hf : ∀ o ∈ orders, trade x o = .ok (f o)) {qs : List (FQuote K)}
    (h : QuotesFor trade x orders qs) :
    (qs.map fun q => q.rate.input).sum = (orders.map fun o => (f o).input).sum := by
  obtain ⟨l, hl, hp⟩ := h
  rw [quotes_eq hf] at hl
  cases hl
  rw [(hp.map fun q => q.rate.input).sum_eq, List.map_map]
  congr 1
  have : ((fun q : FQuote K => q.rate.input) ∘ fun p : Curve K × ℕ => (⟨p.2, f p.1⟩ : FQuote K)) =
    (fun o => (f o).input) ∘ Prod.fst := rfl
  rw [this, ← List.map_map, List.zipIdx_map_fst]

theorem min_sum_min {ι : Type} (x : K) (hx : 0 ≤ x) (f : ι → K) (l : List ι) (hf : ∀ i ∈ l, 0 ≤ f i) :
    min x (l.map fun i => min x (f i)).sum = min x (l.map f).sum := by
  induction l with
  | nil => rfl
  | cons a l ih =>
    have ih := ih fun i hi => hf i (List.mem_cons_of_mem _ hi)
    have ha := hf a List.mem_cons_self
    have hs : 0 ≤ (l.map f).sum := List.sum_nonneg (by
      intro b hb
      obtain ⟨i, hi, rfl⟩ := List.mem_map.mp hb
      exact hf i (List.mem_cons_of_mem _ hi))
    have hs' : 0 ≤ (l.map fun i => min x (f i)).sum := List.sum_nonneg (by
      intro b hb
      obtain ⟨i, hi, rfl⟩ := List.mem_map.mp hb
      exact le_min hx (hf i (List.mem_cons_of_mem _ hi)))
    simp only [List.map_cons, List.sum_cons]
    rcases le_total x (f a) with h | h
    · rw [min_eq_left h, min_eq_left (by linarith), min_eq_left (by linarith)]
    · rw [min_eq_right h]
      rcases le_total x (l.map f).sum with h2 | h2
      · rw [min_eq_left (by linarith : x ≤ f a + (l.map f).sum)]
        rw [min_eq_left h2] at ih
        have := min_eq_left_iff.mp ih
        rw [min_eq_left (by linarith)]
      · rw [min_eq_right h2] at ih
        rcases le_total x (l.map fun i => min x (f i)).sum with h3 | h3
        · rw [min_eq_left h3] at ih
          rw [← ih, min_eq_left (by linarith), min_eq_left (by linarith)]
        · rw [min_eq_right h3] at ih
          rw [ih]

/-- What a caller may rely on in a list of actions: distinct positions in the book. -/
def Distinct (orders : List (Curve K)) (acts : List (Action K)) : Prop :=
  (acts.map Action.index).Nodup ∧ ∀ a ∈ acts, a.index < orders.length

theorem matchQuotes_loop {x : K} {qs : List (FQuote K)} {acts : List (Action K)}
    (h : matchQuotes trade orders x qs = .ok acts) :
    ∃ l, loop trade orders x qs = .ok l ∧ acts.map (fun a => (a.index, a.input, a.output)) =
      l.map (fun a => (a.index, a.input, a.output)) ∧ acts ≠ [] := by
  unfold matchQuotes at h
  rw [Py.bind_eq_ok] at h
  obtain ⟨l, hl, h⟩ := h
  split_ifs at h with he
  cases h
  refine ⟨l, hl, totals_fields _ _ _, ?_⟩
  intro hn
  have := totals_length 0 0 l
  rw [hn] at this
  exact he (by rw [List.isEmpty_iff]; exact List.length_eq_zero_iff.mp this.symm)

theorem sum_of_fields {l m : List (Action K)} (h : l.map (fun a => (a.index, a.input, a.output)) =
    m.map (fun a => (a.index, a.input, a.output))) :
    l.map Action.index = m.map Action.index ∧ l.map Action.input = m.map Action.input ∧
    l.map Action.output = m.map Action.output := by
  refine ⟨?_, ?_, ?_⟩
  · have := congrArg (List.map fun t : Nat × K × K => t.1) h
    simpa [List.map_map, Function.comp_def] using this
  · have := congrArg (List.map fun t : Nat × K × K => t.2.1) h
    simpa [List.map_map, Function.comp_def] using this
  · have := congrArg (List.map fun t : Nat × K × K => t.2.2) h
    simpa [List.map_map, Function.comp_def] using this

private theorem fields_mem {l m : List (Action K)} (h : l.map (fun a => (a.index, a.input, a.output)) =
    m.map (fun a => (a.index, a.input, a.output))) {a : Action K} (ha : a ∈ l) :
    ∃ b ∈ m, b.index = a.index ∧ b.input = a.input ∧ b.output = a.output := by
  have : (a.index, a.input, a.output) ∈ m.map (fun a => (a.index, a.input, a.output)) := by
    rw [← h]; exact List.mem_map_of_mem ha
  obtain ⟨b, hb, e⟩ := List.mem_map.mp this
  simp only [Prod.mk.injEq] at e
  exact ⟨b, hb, e.1, e.2.1, e.2.2⟩

/-- **C25, by target.** For sane orders and a positive amount: every order is used at most once, gives at most what it
holds at exactly its curve's price, and together they give the requested amount, or all there is. -/
theorem C25_by_target (hs : ∀ o ∈ orders, Sane o) (x : K) (hx : 0 < x) (qs : List (FQuote K))
    (hq : QuotesFor rateByTarget x orders qs) (acts : List (Action K))
    (h : matchQuotes rateByTarget orders x qs = .ok acts) :
    Distinct orders acts ∧
    (∀ a ∈ acts, ∃ o, orders[a.index]? = some o ∧ 0 < a.input ∧ a.input ≤ o.y ∧ 0 < a.output ∧
      a.output = cost o a.input) ∧
    (acts.map Action.input).sum = min x (orders.map Curve.y).sum := by
  have hf : ∀ o ∈ orders, rateByTarget x o = .ok ((fun o => ⟨min x o.y, cost o (min x o.y)⟩ : Curve K → FRate K) o) :=
    fun o ho => rateByTarget_ok (hs o ho) x
  obtain ⟨l, hl, he, _⟩ := matchQuotes_loop h
  obtain ⟨s1, s2, s3⟩ := sum_of_fields he
  have hfair : ∀ q ∈ qs, Fair q := by
    intro q hm
    obtain ⟨o, ho, hr⟩ := qf_mem hf hq hm
    have hso := hs o (List.mem_of_getElem? ho)
    rw [Fair, hr]
    exact ⟨le_min hx.le hso.hy, fun h0 => cost_pos hso h0 (min_le_right _ _)⟩
  refine ⟨⟨?_, ?_⟩, ?_, ?_⟩
  · rw [s1]; exact (loop_index_sublist hl).nodup (qf_nodup hf hq)
  · intro a ha
    have : a.index ∈ l.map Action.index := by rw [← s1]; exact List.mem_map_of_mem ha
    have := (loop_index_sublist hl).subset this
    obtain ⟨q, hm, e⟩ := List.mem_map.mp this
    obtain ⟨o, ho, _⟩ := qf_mem hf hq hm
    rw [← e]; exact (List.getElem?_eq_some_iff.mp ho).1
  · intro a ha
    obtain ⟨b, hb, b1, b2, b3⟩ := fields_mem he ha
    obtain ⟨q, hm, e1, e2, e3⟩ := loop_origin hx hl b hb
    obtain ⟨o, ho, hr⟩ := qf_mem hf hq hm
    have hso := hs o (List.mem_of_getElem? ho)
    refine ⟨o, by rw [← b1, e1]; exact ho, ?_⟩
    rw [← b2, ← b3]
    rcases e3 with ⟨f1, f2⟩ | ⟨f1, _, f3, o', r, ho', htr, f5⟩
    · have hp := filter_pos e2
      rw [f1, f2]
      refine ⟨hp.1, ?_, hp.2, ?_⟩
      · rw [hr]; exact min_le_right _ _
      · rw [hr]
    · rw [ho] at ho'; cases ho'
      rw [rateByTarget_ok hso] at htr; cases htr
      rw [hr] at f3
      have hle : b.input ≤ o.y := (f3.trans_le (min_le_right _ _)).le
      rw [f5]
      simp only [min_eq_left hle]
      exact ⟨f1, hle, cost_pos hso f1 hle, trivial⟩
  · rw [s2, loop_sum hfair hx hl, qf_sum hf hq]
    exact min_sum_min x hx.le Curve.y orders fun o ho => (hs o ho).hy

/-- **C25, by source.** For sane orders and a positive amount: every order is used at most once, gives at most what it
holds and charges exactly its curve's price for it, and together they take the requested amount, or what the whole book
costs. -/
theorem C25_by_source (hs : ∀ o ∈ orders, Sane o) (x : K) (hx : 0 < x) (qs : List (FQuote K))
    (hq : QuotesFor rateBySource x orders qs) (acts : List (Action K))
    (h : matchQuotes rateBySource orders x qs = .ok acts) :
    Distinct orders acts ∧
    (∀ a ∈ acts, ∃ o, orders[a.index]? = some o ∧ 0 < a.input ∧ 0 < a.output ∧ a.output ≤ o.y ∧
      a.input = cost o a.output) ∧
    (acts.map Action.input).sum = min x (orders.map fun o => cost o o.y).sum := by
  have hf : ∀ o ∈ orders, rateBySource x o =
      .ok ((fun o => ⟨min x (cost o o.y), min (payout o x) o.y⟩ : Curve K → FRate K) o) :=
    fun o ho => rateBySource_ok (hs o ho) hx.le
  have hin : ∀ o ∈ orders, min x (cost o o.y) = cost o (min (payout o x) o.y) := by
    intro o ho
    have h1 := hf o ho
    unfold rateBySource at h1
    rw [amtByTarget_ok (hs o ho) hx.le] at h1
    simp only [Py.ok_bind] at h1
    rw [amtBySrc_ok (hs o ho) (min_le_right _ _)] at h1
    simp only [Py.ok_bind, Except.ok.injEq, FRate.mk.injEq, and_true] at h1
    exact h1.symm
  obtain ⟨l, hl, he, _⟩ := matchQuotes_loop h
  obtain ⟨s1, s2, s3⟩ := sum_of_fields he
  have hfair : ∀ q ∈ qs, Fair q := by
    intro q hm
    obtain ⟨o, ho, hr⟩ := qf_mem hf hq hm
    have hso := hs o (List.mem_of_getElem? ho)
    rw [Fair, hr]
    refine ⟨le_min hx.le (cost_nonneg hso hso.hy le_rfl), fun h0 => lt_min (payout_pos hso hx) ?_⟩
    refine lt_of_le_of_ne hso.hy fun hc => ?_
    have h2 := lt_of_lt_of_le h0 (min_le_right _ _)
    rw [← hc] at h2
    simp [cost] at h2
  refine ⟨⟨?_, ?_⟩, ?_, ?_⟩
  · rw [s1]; exact (loop_index_sublist hl).nodup (qf_nodup hf hq)
  · intro a ha
    have : a.index ∈ l.map Action.index := by rw [← s1]; exact List.mem_map_of_mem ha
    have := (loop_index_sublist hl).subset this
    obtain ⟨q, hm, e⟩ := List.mem_map.mp this
    obtain ⟨o, ho, _⟩ := qf_mem hf hq hm
    rw [← e]; exact (List.getElem?_eq_some_iff.mp ho).1
  · intro a ha
    obtain ⟨b, hb, b1, b2, b3⟩ := fields_mem he ha
    obtain ⟨q, hm, e1, e2, e3⟩ := loop_origin hx hl b hb
    obtain ⟨o, ho, hr⟩ := qf_mem hf hq hm
    have hmo := List.mem_of_getElem? ho
    have hso := hs o hmo
    refine ⟨o, by rw [← b1, e1]; exact ho, ?_⟩
    rw [← b2, ← b3]
    rcases e3 with ⟨f1, f2⟩ | ⟨f1, _, f3, o', r, ho', htr, f5⟩
    · have hp := filter_pos e2
      rw [f1, f2]
      refine ⟨hp.1, hp.2, ?_, ?_⟩
      · rw [hr]; exact min_le_right _ _
      · rw [hr]; exact hin o hmo
    · rw [ho] at ho'; cases ho'
      rw [rateBySource_ok hso f1.le] at htr; cases htr
      rw [hr] at f3
      have hle : b.input ≤ cost o o.y := (f3.trans_le (min_le_right _ _)).le
      have hpay : payout o b.input ≤ o.y := (payout_le_iff hso f1.le le_rfl).mpr hle
      rw [f5]
      simp only [min_eq_left hpay]
      exact ⟨f1, payout_pos hso f1, hpay, (cost_payout hso f1.le).symm⟩
  · rw [s2, loop_sum hfair hx hl, qf_sum hf hq]
    exact min_sum_min x hx.le (fun o => cost o o.y) orders fun o ho => cost_nonneg (hs o ho) (hs o ho).hy le_rfl

/-- **C25** The router's own ordering is one of the orderings the theorems speak about, and with sane orders of which at
least one is not empty it always succeeds. -/
theorem C25_total (hs : ∀ o ∈ orders, Sane o) (hne : ∃ o ∈ orders, 0 < o.y) (x : K) (hx : x ≠ 0) :
    (∃ qs acts, QuotesFor rateByTarget |x| orders qs ∧ matchByTarget orders x = .ok acts ∧
      matchQuotes rateByTarget orders |x| qs = .ok acts) ∧
    (∃ qs acts, QuotesFor rateBySource |x| orders qs ∧ matchBySource orders x = .ok acts ∧
      matchQuotes rateBySource orders |x| qs = .ok acts) := by
  have hx0 : 0 < |x| := abs_pos.mpr hx
  obtain ⟨w, hw, hwy⟩ := hne
  have go : ∀ (tr : K → Curve K → Py (FRate K)) (f : K → Curve K → FRate K) (cmp : FQuote K → FQuote K → Int),
      (∀ x o, 0 < x → o ∈ orders → tr x o = .ok (f x o)) →
      (∀ o ∈ orders, 0 ≤ (f |x| o).input ∧ (0 < (f |x| o).input → 0 < (f |x| o).output)) → 0 < (f |x| w).input →
      ∃ qs acts, QuotesFor tr |x| orders qs ∧ matchAmount tr cmp orders x = .ok acts ∧
        matchQuotes tr orders |x| qs = .ok acts := by
    intro tr f cmp hf hfair hpos
    have hq := quotes_eq (trade := tr) (fun o ho => hf |x| o hx0 ho)
    set l := orders.zipIdx.map fun p => (⟨p.2, f |x| p.1⟩ : FQuote K) with hl
    set qs := l.insertionSort (fun a b => cmp a b ≤ 0) with hqs
    have hQ : QuotesFor tr |x| orders qs := ⟨l, hq, List.perm_insertionSort _ _⟩
    obtain ⟨acts, ha⟩ := loop_ok (qs := qs) (orders := orders) (trade := tr)
      (fun q hm => (qf_mem (fun o ho => hf |x| o hx0 ho) hQ hm).imp fun _ h => h.1)
      (fun y o hy ho => ⟨_, hf y o hy ho⟩) hx0
    have hF : ∀ q ∈ qs, Fair q := by
      intro q hm
      obtain ⟨o, ho, hr⟩ := qf_mem (fun o ho => hf |x| o hx0 ho) hQ hm
      rw [Fair, hr]; exact hfair o (List.mem_of_getElem? ho)
    have hsum := loop_sum hF hx0 ha
    rw [qf_sum (fun o ho => hf |x| o hx0 ho) hQ] at hsum
    have hnil : acts ≠ [] := by
      rintro rfl
      simp only [List.map_nil, List.sum_nil] at hsum
      have hle : (f |x| w).input ≤ (orders.map fun o => (f |x| o).input).sum :=
        List.single_le_sum (by
          intro b hb
          obtain ⟨o, ho, rfl⟩ := List.mem_map.mp hb
          exact (hfair o ho).1) _ (List.mem_map_of_mem hw)
      have : 0 < min |x| (orders.map fun o => (f |x| o).input).sum := lt_min hx0 (by linarith)
      linarith
    have hm : matchQuotes tr orders |x| qs = .ok (totals 0 0 acts) := by
      unfold matchQuotes
      rw [ha]
      simp only [Py.ok_bind]
      rw [if_neg]
      rwa [List.isEmpty_iff]
    refine ⟨qs, _, hQ, ?_, hm⟩
    unfold matchAmount
    rw [hq]
    simp only [Py.ok_bind]
    exact hm
  constructor
  · apply go rateByTarget (fun x o => ⟨min x o.y, cost o (min x o.y)⟩) cmpMax
    · intro y o hy ho; exact rateByTarget_ok (hs o ho) y
    · intro o ho
      exact ⟨le_min hx0.le (hs o ho).hy, fun h0 => cost_pos (hs o ho) h0 (min_le_right _ _)⟩
    · exact lt_min hx0 hwy
  · apply go rateBySource (fun x o => ⟨min x (cost o o.y), min (payout o x) o.y⟩) cmpMin
    · intro y o hy ho; exact rateBySource_ok (hs o ho) hy.le
    · intro o ho
      have hso := hs o ho
      refine ⟨le_min hx0.le (cost_nonneg hso hso.hy le_rfl), fun h0 => lt_min (payout_pos hso hx0) ?_⟩
      refine lt_of_le_of_ne hso.hy fun hc => ?_
      have h2 := lt_of_lt_of_le h0 (min_le_right _ _)
      simp only [← hc] at h2
      simp [cost] at h2
    · exact lt_min hx0 (cost_pos (hs w hw) hwy le_rfl)

/-! ## Best price first -/

theorem insertionSort_congr {α : Type} (r r' : α → α → Prop) [DecidableRel r] [DecidableRel r'] (l : List α)
    (h : ∀ a ∈ l, ∀ b ∈ l, (r a b ↔ r' a b)) : l.insertionSort r = l.insertionSort r' := by
  induction l with
  | nil => rfl
  | cons a l ih =>
    rw [List.insertionSort_cons, List.insertionSort_cons,
      ← ih fun a ha b hb => h a (List.mem_cons_of_mem _ ha) b (List.mem_cons_of_mem _ hb)]
    have hm : ∀ b ∈ l.insertionSort r, (r a b ↔ r' a b) := fun b hb =>
      h a List.mem_cons_self b (List.mem_cons_of_mem _ ((List.perm_insertionSort r l).mem_iff.mp hb))
    generalize l.insertionSort r = m at hm
    induction m with
    | nil => rfl
    | cons b m ihm =>
      have hb := hm b List.mem_cons_self
      have := ihm fun c hc => hm c (List.mem_cons_of_mem _ hc)
      by_cases hr : r a b
      · rw [List.orderedInsert_cons, List.orderedInsert_cons, if_pos hr, if_pos (hb.mp hr)]
      · rw [List.orderedInsert_cons, List.orderedInsert_cons, if_neg hr, if_neg (fun h => hr (hb.mpr h)), this]

/-- Target per source of a quote, the price the trader gets. -/
def ratio (q : FQuote K) : K := q.rate.output / q.rate.input

/-- Better price first, larger output first among equals. -/
def Better (a b : FQuote K) : Prop := ratio b < ratio a ∨ (ratio b = ratio a ∧ b.rate.output ≤ a.rate.output)

instance : Std.Total (Better (K := K)) := ⟨fun a b => by
  unfold Better
  rcases lt_trichotomy (ratio a) (ratio b) with h | h | h
  · exact .inr (.inl h)
  · rcases le_total a.rate.output b.rate.output with h' | h'
    · exact .inr (.inr ⟨h, h'⟩)
    · exact .inl (.inr ⟨h.symm, h'⟩)
  · exact .inl (.inl h)⟩

instance : IsTrans (FQuote K) Better := ⟨fun a b c => by
  unfold Better
  rintro (h | ⟨h, h'⟩) (g | ⟨g, g'⟩)
  · exact .inl (g.trans h)
  · exact .inl (g ▸ h)
  · exact .inl (h ▸ g)
  · exact .inr ⟨g.trans h, g'.trans h'⟩⟩

theorem cmpMin_iff {a b : FQuote K} (ha : 0 < a.rate.input) (hb : 0 < b.rate.input) : cmpMin a b ≤ 0 ↔ Better a b := by
  have e1 : ratio b < ratio a ↔ b.rate.output * a.rate.input < a.rate.output * b.rate.input := by
    unfold ratio; rw [div_lt_div_iff₀ hb ha]
  have e2 : ratio b = ratio a ↔ b.rate.output * a.rate.input = a.rate.output * b.rate.input := by
    unfold ratio; rw [div_eq_div_iff hb.ne' ha.ne']
  unfold Better
  rw [e1, e2]
  unfold cmpMin
  dsimp only
  rcases lt_trichotomy (a.rate.output * b.rate.input) (b.rate.output * a.rate.input) with h | h | h
  · have := h.ne'
    simp [h, h.not_gt, this]
  · rcases lt_trichotomy a.rate.output b.rate.output with h' | h' | h'
    · simp [h, h', h'.not_gt]
    · have h1 := h'.le
      have h2 := h'.ge
      clear h'
      simp [h, h1.not_gt, h2.not_gt, h2]
    · simp [h, h', h'.not_gt, h'.le]
  · simp [h, h.not_gt]

theorem cmpMax_iff {a b : FQuote K} (ha : 0 < a.rate.input) (hb : 0 < b.rate.input) : cmpMax a b ≤ 0 ↔ Better b a := by
  unfold cmpMax
  exact cmpMin_iff hb ha

open Classical in
/-- The sort puts better prices first. -/
theorem sort_better (l : List (FQuote K)) (h : ∀ q ∈ l, 0 < q.rate.input) :
    (l.insertionSort fun a b => cmpMin a b ≤ 0).Pairwise Better ∧
    (l.insertionSort fun a b => cmpMax a b ≤ 0).Pairwise (fun a b => Better b a) := by
  constructor
  · rw [insertionSort_congr (fun a b => cmpMin a b ≤ 0) Better l fun a ha b hb => cmpMin_iff (h a ha) (h b hb)]
    exact List.pairwise_insertionSort Better l
  · rw [insertionSort_congr (fun a b => cmpMax a b ≤ 0) (fun a b => Better b a) l
      fun a ha b hb => cmpMax_iff (h a ha) (h b hb)]
    have : Std.Total (fun a b : FQuote K => Better b a) := ⟨fun a b => Std.Total.total b a⟩
    have : IsTrans (FQuote K) (fun a b => Better b a) := ⟨fun a b c h1 h2 => IsTrans.trans (r := Better) c b a h2 h1⟩
    exact List.pairwise_insertionSort (fun a b => Better b a) l

/-- The order of the actions is the order of the quotes. -/
theorem loop_pairwise {R : ℕ → ℕ → Prop} {qs : List (FQuote K)} (h : qs.Pairwise fun a b => R a.index b.index) {x : K}
    {acts : List (Action K)} (ha : loop trade orders x qs = .ok acts) :
    (acts.map Action.index).Pairwise R := by
  have h1 : (qs.map FQuote.index).Pairwise R := List.pairwise_map.mpr h
  exact h1.sublist (loop_index_sublist ha)

/-- **C25** Orders are used from the best to the worst price they quote for the request: of two orders used by source,
the earlier one pays at least as much per unit of its input; by target, it charges at most as much per unit. -/
theorem C25_best_first (hs : ∀ o ∈ orders, Sane o) (hpos : ∀ o ∈ orders, 0 < o.y) (x : K) (hx : x ≠ 0) :
    (∀ acts, matchBySource orders x = .ok acts → acts.Pairwise fun a b => ∀ oa ob ra rb,
      orders[a.index]? = some oa → orders[b.index]? = some ob → rateBySource |x| oa = .ok ra →
      rateBySource |x| ob = .ok rb → rb.output / rb.input ≤ ra.output / ra.input) ∧
    (∀ acts, matchByTarget orders x = .ok acts → acts.Pairwise fun a b => ∀ oa ob ra rb,
      orders[a.index]? = some oa → orders[b.index]? = some ob → rateByTarget |x| oa = .ok ra →
      rateByTarget |x| ob = .ok rb → ra.output / ra.input ≤ rb.output / rb.input) := by
  have hx0 : 0 < |x| := abs_pos.mpr hx
  have go : ∀ (tr : K → Curve K → Py (FRate K)) (f : K → Curve K → FRate K) (cmp : FQuote K → FQuote K → Int)
      (le : FQuote K → FQuote K → Prop),
      (∀ x o, 0 < x → o ∈ orders → tr x o = .ok (f x o)) →
      (∀ l : List (FQuote K), (∀ q ∈ l, 0 < q.rate.input) → (l.insertionSort fun a b => cmp a b ≤ 0).Pairwise le) →
      (∀ o ∈ orders, 0 < (f |x| o).input) →
      ∀ acts, matchAmount tr cmp orders x = .ok acts → acts.Pairwise fun a b => ∀ oa ob ra rb,
        orders[a.index]? = some oa → orders[b.index]? = some ob → tr |x| oa = .ok ra → tr |x| ob = .ok rb →
        le ⟨a.index, ra⟩ ⟨b.index, rb⟩ := by
    intro tr f cmp le hf hsort hin acts h
    have hfo := fun o ho => hf |x| o hx0 ho
    unfold matchAmount at h
    rw [Py.bind_eq_ok] at h
    obtain ⟨l, hl, h⟩ := h
    have hQ : QuotesFor tr |x| orders (l.insertionSort fun a b => cmp a b ≤ 0) := ⟨l, hl, List.perm_insertionSort _ _⟩
    have hlin : ∀ q ∈ l, 0 < q.rate.input := by
      intro q hq
      obtain ⟨o, ho, hr⟩ := qf_mem hfo ⟨l, hl, List.Perm.refl l⟩ hq
      rw [hr]; exact hin o (List.mem_of_getElem? ho)
    have hp := hsort l hlin
    obtain ⟨acts', hl', he, _⟩ := matchQuotes_loop h
    obtain ⟨s1, _, _⟩ := sum_of_fields he
    have key : (l.insertionSort fun a b => cmp a b ≤ 0).Pairwise fun a b =>
        (fun i j => ∀ oa ob ra rb, orders[i]? = some oa → orders[j]? = some ob → tr |x| oa = .ok ra → tr |x| ob = .ok rb →
        le ⟨i, ra⟩ ⟨j, rb⟩) a.index b.index := by
      refine hp.imp_of_mem ?_
      intro a b ha hb hle oa ob ra rb h1 h2 h3 h4
      obtain ⟨oa', h1', e1⟩ := qf_mem hfo hQ ha
      obtain ⟨ob', h2', e2⟩ := qf_mem hfo hQ hb
      rw [h1] at h1'; cases h1'
      rw [h2] at h2'; cases h2'
      rw [hfo oa (List.mem_of_getElem? h1)] at h3
      rw [hfo ob (List.mem_of_getElem? h2)] at h4
      cases h3; cases h4
      rw [← e1, ← e2]
      exact hle
    have := loop_pairwise (R := fun i j => ∀ oa ob ra rb, orders[i]? = some oa → orders[j]? = some ob →
      tr |x| oa = .ok ra → tr |x| ob = .ok rb → le ⟨i, ra⟩ ⟨j, rb⟩) key hl'
    rw [← s1] at this
    exact List.pairwise_map.mp this
  constructor
  · intro acts h
    refine (go rateBySource (fun x o => ⟨min x (cost o o.y), min (payout o x) o.y⟩) cmpMin Better
      (fun y o hy ho => rateBySource_ok (hs o ho) hy.le) (fun l hl => (sort_better l hl).1)
      (fun o ho => lt_min hx0 (cost_pos (hs o ho) (hpos o ho) le_rfl)) acts h).imp ?_
    intro a b hab oa ob ra rb h1 h2 h3 h4
    rcases hab oa ob ra rb h1 h2 h3 h4 with h | h
    · exact h.le
    · exact h.1.le
  · intro acts h
    refine (go rateByTarget (fun x o => ⟨min x o.y, cost o (min x o.y)⟩) cmpMax (fun a b => Better b a)
      (fun y o hy ho => rateByTarget_ok (hs o ho) y) (fun l hl => (sort_better l hl).2)
      (fun o ho => lt_min hx0 (hpos o ho)) acts h).imp ?_
    intro a b hab oa ob ra rb h1 h2 h3 h4
    rcases hab oa ob ra rb h1 h2 h3 h4 with h | h
    · exact h.le
    · exact h.1.le

/-- Two orders, a request they can fill together: the cheaper one is emptied first. -/
example : matchByTarget (K := ℚ) [⟨1, 1, 4, 1, 4, 4, false⟩, ⟨2, 1, 3, 4, 9, 3, false⟩] (-5) =
    .ok [⟨1, 3, 1 / 2, 3, 1 / 2⟩, ⟨0, 2, 2 / 3, 5, -(7 / 6)⟩] := by decide +kernel

/-- By source. -/
example : matchBySource (K := ℚ) [⟨1, 1, 4, 1, 4, 4, false⟩, ⟨2, 1, 3, 4, 9, 3, false⟩] 1 =
    .ok [⟨1, 1 / 2, 3, 1 / 2, 3⟩, ⟨0, 1 / 2, 8 / 5, 1, -(23 / 5)⟩] := by decide +kernel

end Carbon.FastRouter
