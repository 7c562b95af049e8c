import Verif.Prop.ArbTransport

/-!
# C88: arithmetic of edges

Sums, multiples and reversals of edges. A price "out per in" is what `price(inverse=False)` returns.
-/

set_option linter.unusedSectionVars false

namespace Carbon

open CarbonPair (pyDiv)

namespace Arb

section
variable {K : Type} [Field K] [LinearOrder K] [IsStrictOrderedRing K]

theorem make_isAmount (a : Nat) (x : K) (b : Nat) (y : K) (inv : Bool) (uid : Option Str) :
    (Edge.make a x b y inv uid).isAmount = !decide (x < 0) := rfl

theorem sameType_iff {e f : Edge K} : e.isAmount = f.isAmount ↔ (e.amountIn < 0 ↔ f.amountIn < 0) := by
  unfold Edge.isAmount
  by_cases h1 : e.amountIn < 0 <;> by_cases h2 : f.amountIn < 0 <;> simp [h1, h2]

/-- C88: two edges can be added exactly if they have the same type and the same ends; the sum has the same ends, adds both amounts
up, keeps the quotation of the first edge, is of the same type and has its full capacity. -/
theorem C88_add (e f : Edge K) : ((∃ s, e.add f = .ok s) ↔
      (e.isAmount = f.isAmount ∧ e.nodeIn = f.nodeIn ∧ e.nodeOut = f.nodeOut)) ∧
    ∀ s, e.add f = .ok s → s.nodeIn = e.nodeIn ∧ s.nodeOut = e.nodeOut ∧ s.amountIn = e.amountIn + f.amountIn ∧
      s.amountOut = e.amountOut + f.amountOut ∧ s.inverse = e.inverse ∧ s.isAmount = e.isAmount ∧
      s.remaining = (if s.isAmount then some s.amountIn else none) := by
  unfold Edge.add
  by_cases ht : e.isAmount = f.isAmount
  · rw [if_neg (not_not.2 ht)]
    by_cases hn : e.nodeOut = f.nodeOut ∧ e.nodeIn = f.nodeIn
    · rw [if_pos hn]
      refine ⟨⟨fun _ => ⟨ht, hn.2, hn.1⟩, fun _ => ⟨_, rfl⟩⟩, fun s hs => ?_⟩
      have := Except.ok.inj hs
      subst this
      have hiff : e.amountIn + f.amountIn < 0 ↔ e.amountIn < 0 := by
        have := sameType_iff.1 ht
        by_cases h : e.amountIn < 0
        · have := this.1 h
          exact ⟨fun _ => h, fun _ => by linarith⟩
        · have h2 : ¬ f.amountIn < 0 := fun hc => h (this.2 hc)
          rw [not_lt] at h2 h
          exact ⟨fun hc => by linarith, fun hc => by linarith⟩
      refine ⟨rfl, rfl, rfl, rfl, rfl, ?_, ?_⟩
      · rw [make_isAmount]
        unfold Edge.isAmount
        simp only [hiff]
      · rw [make_isAmount]
        show (if e.amountIn + f.amountIn < 0 then none else some (e.amountIn + f.amountIn)) = _
        by_cases h : e.amountIn + f.amountIn < 0 <;> simp [h, Edge.make]
    · rw [if_neg hn]
      refine ⟨⟨fun hc => (by obtain ⟨s, hs⟩ := hc; cases hs), fun h => absurd ⟨h.2.2, h.2.1⟩ hn⟩, fun s hs => by cases hs⟩
  · rw [if_pos ht]
    exact ⟨⟨fun hc => (by obtain ⟨s, hs⟩ := hc; cases hs), fun h => absurd h.1 ht⟩, fun s hs => by cases hs⟩

/-- What the sum of a non-empty list of edges looks like. -/
def total (e : Edge K) (es : List (Edge K)) : Edge K :=
  Edge.make e.nodeIn (e.amountIn + (es.map Edge.amountIn).sum) e.nodeOut (e.amountOut + (es.map Edge.amountOut).sum) e.inverse

theorem foldlM_add (a b : Nat) (inv t : Bool) : ∀ (es : List (Edge K)) (x y : K), (!decide (x < 0)) = t →
    (∀ e ∈ es, e.nodeIn = a ∧ e.nodeOut = b ∧ e.isAmount = t) →
    es.foldlM Edge.add (Edge.make a x b y inv) =
      .ok (Edge.make a (x + (es.map Edge.amountIn).sum) b (y + (es.map Edge.amountOut).sum) inv) ∧
    (!decide (x + (es.map Edge.amountIn).sum < 0)) = t := by
  intro es
  induction es with
  | nil => intro x y hx _; simp only [List.map_nil, List.sum_nil, add_zero]; exact ⟨rfl, hx⟩
  | cons e es ih =>
    intro x y hx h
    obtain ⟨h1, h2, h3⟩ := h e (by simp)
    have hadd : (Edge.make a x b y inv).add e = .ok (Edge.make a (x + e.amountIn) b (y + e.amountOut) inv) := by
      unfold Edge.add
      rw [if_neg (by rw [make_isAmount, hx, h3]; simp), if_pos ⟨h2.symm, h1.symm⟩]
      rfl
    have hs : (!decide (x + e.amountIn < 0)) = t := by
      have := (C88_add (Edge.make a x b y inv) e).2 _ hadd
      have := this.2.2.2.2.2.1
      rw [make_isAmount, make_isAmount, hx] at this
      exact this
    have := ih (x + e.amountIn) (y + e.amountOut) hs (fun f hf => h f (by simp [hf]))
    rw [List.foldlM_cons, hadd, Py.ok_bind, this.1]
    simp only [List.map_cons, List.sum_cons, ← add_assoc]
    exact ⟨trivial, this.2⟩

theorem sumList_eq {e : Edge K} {es : List (Edge K)}
    (h : ∀ f ∈ es, f.nodeIn = e.nodeIn ∧ f.nodeOut = e.nodeOut ∧ f.isAmount = e.isAmount) :
    Edge.sumList (e :: es) = .ok (some (total e es)) ∧ (total e es).isAmount = e.isAmount := by
  have := foldlM_add e.nodeIn e.nodeOut e.inverse e.isAmount es e.amountIn e.amountOut rfl h
  unfold Edge.sumList Edge.duplicate
  dsimp only
  rw [this.1, Py.ok_bind]
  exact ⟨rfl, this.2⟩

/-- C88: any number of edges of the same type between the same nodes can be added up; both amounts of the sum are the sums of the
amounts. -/
theorem C88_sum {es : List (Edge K)} (hne : es ≠ []) {a b : Nat} {t : Bool}
    (h : ∀ e ∈ es, e.nodeIn = a ∧ e.nodeOut = b ∧ e.isAmount = t) :
    ∃ s, Edge.sumList es = .ok (some s) ∧ s.nodeIn = a ∧ s.nodeOut = b ∧ s.isAmount = t ∧
      s.amountIn = (es.map Edge.amountIn).sum ∧ s.amountOut = (es.map Edge.amountOut).sum := by
  cases es with
  | nil => exact absurd rfl hne
  | cons e es =>
    obtain ⟨h1, h2, h3⟩ := h e (by simp)
    have := sumList_eq (e := e) (es := es) fun f hf => by
      obtain ⟨g1, g2, g3⟩ := h f (by simp [hf])
      exact ⟨g1.trans h1.symm, g2.trans h2.symm, g3.trans h3.symm⟩
    exact ⟨_, this.1, h1, h2, this.2.trans h3, by simp [total, Edge.make], by simp [total, Edge.make]⟩

theorem price_outPerIn {e : Edge K} (h : e.amountIn ≠ 0) : e.price (some false) = .ok (e.amountOut / e.amountIn) := by
  unfold Edge.price
  rw [Option.getD_some, if_neg (by simp), UICurve.pyDiv_ok h]

theorem sum_between {es : List (Edge K)} {lo hi : K} (h : ∀ e ∈ es, lo * e.amountIn ≤ e.amountOut ∧ e.amountOut ≤ hi * e.amountIn) :
    lo * (es.map Edge.amountIn).sum ≤ (es.map Edge.amountOut).sum ∧
      (es.map Edge.amountOut).sum ≤ hi * (es.map Edge.amountIn).sum := by
  induction es with
  | nil => simp
  | cons e es ih =>
    have h1 := h e (by simp)
    have h2 := ih fun f hf => h f (by simp [hf])
    simp only [List.map_cons, List.sum_cons, mul_add]
    constructor <;> linarith [h1.1, h1.2, h2.1, h2.2]

/-- C88: the price of a sum lies between the lowest and the highest price of its parts, both for edges with amounts and for
connections. -/
theorem C88_price {es : List (Edge K)} (hne : es ≠ []) {a b : Nat} {t : Bool}
    (h : ∀ e ∈ es, e.nodeIn = a ∧ e.nodeOut = b ∧ e.isAmount = t) (h0 : ∀ e ∈ es, e.amountIn ≠ 0) {lo hi : K}
    (hp : ∀ e ∈ es, ∃ p, e.price (some false) = .ok p ∧ lo ≤ p ∧ p ≤ hi) {s : Edge K} (hs : Edge.sumList es = .ok (some s)) :
    ∃ p, s.price (some false) = .ok p ∧ lo ≤ p ∧ p ≤ hi := by
  obtain ⟨s', hs', -, -, ht, h1, h2⟩ := C88_sum hne h
  rw [hs] at hs'
  have := Option.some.inj (Except.ok.inj hs')
  subst this
  have hq : ∀ e ∈ es, lo ≤ e.amountOut / e.amountIn ∧ e.amountOut / e.amountIn ≤ hi := by
    intro e he
    obtain ⟨p, hp1, hp2⟩ := hp e he
    rw [price_outPerIn (h0 e he)] at hp1
    rw [Except.ok.inj hp1]
    exact hp2
  cases t with
  | true =>
    have hpos : ∀ e ∈ es, 0 < e.amountIn := by
      intro e he
      have := (h e he).2.2
      unfold Edge.isAmount at this
      simp at this
      exact lt_of_le_of_ne this (Ne.symm (h0 e he))
    have hs0 : 0 < s.amountIn := by rw [h1]; exact sum_map_pos hne hpos
    refine ⟨_, price_outPerIn hs0.ne', ?_⟩
    have := sum_between (lo := lo) (hi := hi) fun e he =>
      ⟨(le_div_iff₀ (hpos e he)).1 (hq e he).1, (div_le_iff₀ (hpos e he)).1 (hq e he).2⟩
    rw [← h1, ← h2] at this
    exact ⟨(le_div_iff₀ hs0).2 this.1, (div_le_iff₀ hs0).2 this.2⟩
  | false =>
    have hneg : ∀ e ∈ es, e.amountIn < 0 := by
      intro e he
      have := (h e he).2.2
      unfold Edge.isAmount at this
      simpa using this
    have hs0 : s.amountIn < 0 := by
      unfold Edge.isAmount at ht
      simpa using ht
    refine ⟨_, price_outPerIn hs0.ne, ?_⟩
    have := sum_between (lo := hi) (hi := lo) fun e he =>
      ⟨(div_le_iff_of_neg (hneg e he)).1 (hq e he).2, (le_div_iff_of_neg (hneg e he)).1 (hq e he).1⟩
    rw [← h1, ← h2] at this
    exact ⟨(le_div_iff_of_neg hs0).2 this.2, (div_le_iff_of_neg hs0).2 this.1⟩

/-- C88: an edge can be multiplied exactly with the positive numbers; the multiple has the same ends, type and prices, and its
amounts are multiplied. -/
theorem C88_mul (e : Edge K) (c : K) : ((∃ s, e.mul c = .ok s) ↔ 0 < c) ∧
    ∀ s, e.mul c = .ok s → s.nodeIn = e.nodeIn ∧ s.nodeOut = e.nodeOut ∧ s.amountIn = e.amountIn * c ∧
      s.amountOut = e.amountOut * c ∧ s.isAmount = e.isAmount ∧ ∀ inv, s.price inv = e.price inv := by
  unfold Edge.mul
  by_cases hc : 0 < c
  · rw [if_pos hc]
    refine ⟨⟨fun _ => hc, fun _ => ⟨_, rfl⟩⟩, fun s hs => ?_⟩
    have := Except.ok.inj hs
    subst this
    refine ⟨rfl, rfl, rfl, rfl, ?_, fun inv => ?_⟩
    · rw [make_isAmount]
      unfold Edge.isAmount
      simp [mul_neg_iff, hc, not_lt.2 hc.le]
    · unfold Edge.price
      show (if inv.getD e.inverse then pyDiv (e.amountIn * c) (e.amountOut * c) else pyDiv (e.amountOut * c) (e.amountIn * c)) = _
      have key : ∀ x y : K, pyDiv (x * c) (y * c) = pyDiv x y := by
        intro x y
        unfold pyDiv
        by_cases hy : y = 0
        · simp [hy]
        · rw [if_neg (mul_ne_zero hy hc.ne'), if_neg hy, mul_div_mul_right _ _ hc.ne']
      rw [key, key]
  · rw [if_neg hc]
    exact ⟨⟨fun hc => (by obtain ⟨s, hs⟩ := hc; cases hs), fun h => absurd h hc⟩, fun s hs => by cases hs⟩

/-- C88: reversing an edge swaps its ends and amounts and keeps its quoted price; reversing twice gives the duplicate. -/
theorem C88_reverse (e : Edge K) : e.reverse.nodeIn = e.nodeOut ∧ e.reverse.nodeOut = e.nodeIn ∧
    e.reverse.amountIn = e.amountOut ∧ e.reverse.amountOut = e.amountIn ∧ e.reverse.price = e.price ∧
    (∀ b, e.reverse.price (some b) = e.price (some !b)) ∧ e.reverse.reverse = e.duplicate := by
  refine ⟨rfl, rfl, rfl, rfl, ?_, fun b => ?_, ?_⟩
  · unfold Edge.price Edge.reverse Edge.make
    cases e.inverse <;> rfl
  · unfold Edge.price Edge.reverse Edge.make
    cases b <;> rfl
  · unfold Edge.reverse Edge.duplicate Edge.make
    simp

/-- C88: the prices in the two quotations are reciprocal, and the default quotation is one of them. -/
theorem C88_quotation (e : Edge K) : e.price = e.price (some e.inverse) ∧
    ∀ p q, e.price (some false) = .ok p → e.price (some true) = .ok q → p * q = 1 := by
  refine ⟨rfl, fun p q hp hq => ?_⟩
  unfold Edge.price at hp hq
  simp only [Option.getD_some, Bool.false_eq_true, if_false, if_true] at hp hq
  obtain ⟨h1, h2⟩ := pyDiv_eq_ok' hp
  obtain ⟨h3, h4⟩ := pyDiv_eq_ok' hq
  rw [h2, h4]
  field_simp

/-- C88: the amounts of a sum do not depend on the order of the two edges. -/
theorem C88_comm (e f : Edge K) {s t : Edge K} (hs : e.add f = .ok s) (ht : f.add e = .ok t) :
    s.nodeIn = t.nodeIn ∧ s.nodeOut = t.nodeOut ∧ s.amountIn = t.amountIn ∧ s.amountOut = t.amountOut := by
  have h1 := (C88_add e f).2 s hs
  have h2 := (C88_add f e).2 t ht
  have h3 := (C88_add e f).1.1 ⟨s, hs⟩
  exact ⟨by rw [h1.1, h2.1, h3.2.1], by rw [h1.2.1, h2.2.1, h3.2.2], by rw [h1.2.2.1, h2.2.2.1, add_comm],
    by rw [h1.2.2.2.1, h2.2.2.2.1, add_comm]⟩

/-- C88: with different quotation directions the quoted price of the sum does depend on the order. -/
theorem C88_order_violated : ∃ e f s t : Edge ℚ, e.add f = .ok s ∧ f.add e = .ok t ∧ s.price = .ok (1 / 2) ∧ t.price = .ok 2 :=
  ⟨Edge.make 0 2 1 4 true, Edge.make 0 3 1 6 false, Edge.make 0 5 1 10 true, Edge.make 0 5 1 10 false, by decide +kernel⟩

end

example : Edge.sumList [Edge.make 0 (2 : ℚ) 1 4, Edge.make 0 3 1 9, Edge.make 0 5 1 5 true] =
    .ok (some (Edge.make 0 10 1 18)) := by decide +kernel

example : (Edge.make 0 (2 : ℚ) 1 4).add (Edge.make 1 2 0 4) = .error .value ∧
    (Edge.make 0 (2 : ℚ) 1 4).add (Edge.make 0 (-2) 1 (-4)) = .error .assertion := by decide +kernel

end Arb

end Carbon
