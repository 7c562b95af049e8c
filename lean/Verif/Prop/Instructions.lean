import Verif.Prop.ArbGraph
import Verif.Tools.Optimizer

/-!
# C49: signed trades become instructions and edges
-/

set_option linter.unusedSectionVars false

namespace Carbon

open CarbonPair (pyDiv)

namespace Opt

section
variable {K : Type} [Field K] [LinearOrder K] [IsStrictOrderedRing K]

/-- The signed amount that an instruction gives for a token. -/
def TI.amountOf (t : TI K) (tkn : Str) : Option K :=
  if t.tknIn = tkn then some t.amtIn else if t.tknOut = tkn then some t.amtOut else none

/-- C49: amounts of opposite sign become an instruction in which what goes in is positive, what comes out is negative, and each token
has the amount it was given with. -/
theorem C49_instruction {cid s t : Str} (hst : s ≠ t) {a b : K} (hab : a * b < 0) :
    ∃ ti, TI.new cid s a t b = .ok ti ∧ ti.cid = cid ∧ 0 < ti.amtIn ∧ ti.amtOut < 0 ∧ ti.amountOf s = some a ∧
      ti.amountOf t = some b ∧ (∀ u, u ≠ s → u ≠ t → ti.amountOf u = none) ∧ ti.isEmpty = false := by
  unfold TI.new TI.make
  rw [if_neg hst]
  by_cases ha : 0 < a
  · have hb : b < 0 := by
      by_contra h
      push Not at h
      nlinarith
    rw [if_pos ha, if_neg (not_not.2 hab), if_neg (not_not.2 ha.le), if_neg (not_not.2 hb.le)]
    refine ⟨_, rfl, rfl, ha, hb, ?_, ?_, ?_, ?_⟩
    · simp [TI.amountOf]
    · simp [TI.amountOf, hst]
    · intro u h1 h2; simp [TI.amountOf, h1.symm, h2.symm]
    · simp [TI.isEmpty, ha.ne', hb.ne]
  · have ha' : a < 0 := by
      rcases lt_trichotomy a 0 with h | h | h
      · exact h
      · rw [h, zero_mul] at hab; exact absurd hab (lt_irrefl _)
      · exact absurd h ha
    have hb : 0 < b := by
      by_contra h
      push Not at h
      nlinarith
    rw [if_neg ha, if_neg (by rw [not_not, mul_comm]; exact hab), if_neg (not_not.2 hb.le), if_neg (not_not.2 ha'.le)]
    refine ⟨_, rfl, rfl, hb, ha', ?_, ?_, ?_, ?_⟩
    · simp [TI.amountOf, hst.symm]
    · simp [TI.amountOf]
    · intro u h1 h2; simp [TI.amountOf, h1.symm, h2.symm]
    · simp [TI.isEmpty, ha'.ne, hb.ne']

/-- C49: the order in which the two sides are given does not matter. -/
theorem C49_symmetric {cid s t : Str} (hst : s ≠ t) {a b : K} (hab : a * b < 0) : TI.new cid s a t b = TI.new cid t b s a := by
  unfold TI.new
  rw [if_neg hst, if_neg hst.symm]
  by_cases ha : 0 < a
  · have hb : ¬ 0 < b := by
      intro h
      nlinarith
    rw [if_pos ha, if_neg hb]
  · have hb : 0 < b := by
      by_contra h
      push Not at h ha
      nlinarith
    rw [if_neg ha, if_pos hb]

/-- C49: amounts that are not of opposite sign are refused, unless both are smaller than 1e-8; then the instruction is empty. -/
theorem C49_same_sign {cid s t : Str} (hst : s ≠ t) {a b : K} (hab : 0 ≤ a * b) :
    (1 / 10 ^ 8 ≤ |a| ∨ 1 / 10 ^ 8 ≤ |b| → TI.new cid s a t b = .error .value) ∧
      (|a| < 1 / 10 ^ 8 → |b| < 1 / 10 ^ 8 → ∃ ti, TI.new cid s a t b = .ok ti ∧ ti.amountOf s = some 0 ∧ ti.amountOf t = some 0 ∧
        ti.isEmpty = true) := by
  unfold TI.new TI.make
  rw [if_neg hst]
  have h1 : ¬ a * b < 0 := not_lt.2 hab
  have h2 : ¬ b * a < 0 := by rw [mul_comm]; exact h1
  rw [if_pos h1, if_pos h2]
  constructor
  · intro h
    have k1 : ¬ (|a| < posNegEps ∧ |b| < posNegEps) := by
      unfold posNegEps
      rintro ⟨k, k'⟩
      rcases h with h | h <;> exact absurd h (not_le.2 (by assumption))
    have k2 : ¬ (|b| < posNegEps ∧ |a| < posNegEps) := fun h => k1 ⟨h.2, h.1⟩
    rw [if_neg k1, if_neg k2]
    split <;> rfl
  · intro ha hb
    have k1 : |a| < posNegEps ∧ |b| < posNegEps := ⟨ha, hb⟩
    have k2 : |b| < posNegEps ∧ |a| < posNegEps := ⟨hb, ha⟩
    rw [if_pos k1, if_pos k2]
    split
    · exact ⟨_, rfl, by simp [TI.amountOf], by simp [TI.amountOf, hst], by simp [TI.isEmpty]⟩
    · exact ⟨_, rfl, by simp [TI.amountOf, hst.symm], by simp [TI.amountOf], by simp [TI.isEmpty]⟩

/-- C49: a token is not traded against itself. -/
theorem C49_same_token (cid s : Str) (a b : K) : TI.new cid s a s b = .error .assertion := by
  unfold TI.new
  rw [if_pos rfl]

/-- C49: the two prices of an instruction are positive and reciprocal, and the price turns the input into the output. -/
theorem C49_prices {cid s t : Str} {a b : K} (hab : a * b < 0) {ti : TI K} (h : TI.new cid s a t b = .ok ti) :
    ∃ p q, ti.priceOutPerIn = .ok p ∧ ti.priceInPerOut = .ok q ∧ 0 < p ∧ 0 < q ∧ p * q = 1 ∧ ti.amtIn * p = -ti.amtOut := by
  have hst : s ≠ t := by
    rintro rfl
    rw [C49_same_token] at h
    cases h
  obtain ⟨ti', h', -, hi, ho, -⟩ := C49_instruction (cid := cid) hst hab
  rw [h] at h'
  have := Except.ok.inj h'
  subst this
  refine ⟨-ti.amtOut / ti.amtIn, -ti.amtIn / ti.amtOut, UICurve.pyDiv_ok hi.ne', UICurve.pyDiv_ok ho.ne, ?_, ?_, ?_, ?_⟩
  · exact div_pos (neg_pos.2 ho) hi
  · exact div_pos_of_neg_of_neg (neg_neg_of_pos hi) ho
  · have := ho.ne
    field_simp
  · field_simp

end

end Opt

namespace Arb

section
variable {K : Type} [Field K] [LinearOrder K] [IsStrictOrderedRing K]

theorem addEdge_succeeds {g : AG K} (w : WF g) (hg : ∀ e ∈ g.edgeList, e.isAmount = true) {s t : Str} {x y : K} (hx : 0 < x) (hy : 0 < y)
    (inv : Bool) (uid : Option Str) :
    ∃ e g', g.addEdge s x t y inv uid = (.ok (), g') ∧ g'.edgeList = g.edgeList ++ [e] ∧ g'.tknOf e.nodeIn = some s ∧
      g'.tknOf e.nodeOut = some t ∧ e.amountIn = x ∧ e.amountOut = y ∧ e.remaining = some x ∧ e.uid = uid := by
  rcases addEdge_cases w s x t y inv uid with ⟨hn, -⟩ | ⟨-, -, a, b, g2, w2, ex, -, -, ta, tb, he⟩
  · exact absurd ⟨hx, hy⟩ hn
  · have hl : g2.edgeList = g.edgeList := by
      unfold AG.edgeList
      rw [ex.edges, ex.edgeObjs]
    have hamt : (Edge.make a x b y inv uid).isAmount = true := by
      unfold Edge.isAmount Edge.make
      simp [hx.le]
    rw [he, addNew_eq w2, if_neg]
    · refine ⟨{ Edge.make a x b y inv uid with ix := some g2.edges.length }, _, rfl, ?_, ta, tb, rfl, rfl, ?_, rfl⟩
      · rw [← hl]
        unfold AG.edgeList
        dsimp only
        rw [List.filterMap_append]
        congr 1
        · apply List.filterMap_congr
          intro k hk
          obtain ⟨i, hi, rfl⟩ := List.mem_iff_getElem.1 hk
          obtain ⟨f, hf, -⟩ := w2.edgeIx i _ (List.getElem?_eq_getElem hi)
          rw [hf, List.getElem?_append_left (List.getElem?_eq_some_iff.1 hf).1, hf]
        · simp
      · show (if x < 0 then none else some x) = some x
        rw [if_neg (not_lt.2 hx.le)]
    · rintro ⟨h1, h2⟩
      rw [hamt] at h1
      unfold AG.edgeType at h1 h2
      rw [hl] at h1 h2
      cases hh : g.edgeList with
      | nil => rw [hh] at h2; simp at h2
      | cons f l =>
        rw [hh] at h1
        have := hg f (by rw [hh]; simp)
        simp [this] at h1

/-- C49: a trade given by amounts of opposite sign becomes one edge from the token that goes in, with its amount, to the token that
comes out, with its amount without the sign. -/
theorem C49_edge [PySqrt K] {dup : Bool} {g : AG K} (hg : Reach dup g) (hamt : ∀ e ∈ g.edgeList, 0 ≤ e.amountIn) {s t : Str} {a b : K}
    (hab : a * b < 0) (inv : Bool) (uid : Option Str) :
    ∃ e g', g.addEdgeDxdy s a t b inv uid = (.ok (), g') ∧ g'.edgeList = g.edgeList ++ [e] ∧ 0 < e.amountIn ∧ 0 < e.amountOut ∧
      e.remaining = some e.amountIn ∧ e.uid = uid ∧
      (0 < a → g'.tknOf e.nodeIn = some s ∧ e.amountIn = a ∧ g'.tknOf e.nodeOut = some t ∧ e.amountOut = -b) ∧
      (0 < b → g'.tknOf e.nodeIn = some t ∧ e.amountIn = b ∧ g'.tknOf e.nodeOut = some s ∧ e.amountOut = -a) := by
  have w := C45_consistent hg
  have hg' : ∀ e ∈ g.edgeList, e.isAmount = true := by
    intro e he
    unfold Edge.isAmount
    simp [hamt e he]
  unfold AG.addEdgeDxdy
  rw [if_neg (not_not.2 hab)]
  by_cases ha : 0 < a
  · have hb : b < 0 := by
      by_contra h
      push Not at h
      nlinarith
    rw [if_pos ha]
    obtain ⟨e, g', h1, h2, h3, h4, h5, h6, h7, h8⟩ := addEdge_succeeds w hg' (s := s) (t := t) ha (neg_pos.2 hb) inv uid
    refine ⟨e, g', h1, h2, by rw [h5]; exact ha, by rw [h6]; exact neg_pos.2 hb, by rw [h7, h5], h8, fun _ => ⟨h3, h5, h4, h6⟩, fun h => absurd h (not_lt.2 hb.le)⟩
  · have ha' : a < 0 := by
      rcases lt_trichotomy a 0 with h | h | h
      · exact h
      · rw [h, zero_mul] at hab; exact absurd hab (lt_irrefl _)
      · exact absurd h ha
    have hb : 0 < b := by
      by_contra h
      push Not at h
      nlinarith
    rw [if_neg ha]
    obtain ⟨e, g', h1, h2, h3, h4, h5, h6, h7, h8⟩ := addEdge_succeeds w hg' (s := t) (t := s) hb (neg_pos.2 ha') inv uid
    refine ⟨e, g', h1, h2, by rw [h5]; exact hb, by rw [h6]; exact neg_pos.2 ha', by rw [h7, h5], h8, fun h => absurd h ha, fun _ => ⟨h3, h5, h4, h6⟩⟩

/-- C49: amounts that are not of opposite sign never become an edge; they are refused if their product exceeds 1e-8. -/
theorem C49_edge_same_sign_partial (g : AG K) {s t : Str} {a b : K} (hab : 0 ≤ a * b) (inv : Bool) (uid : Option Str) :
    (g.addEdgeDxdy s a t b inv uid).2 = g ∧ (1 / 10 ^ 8 < a * b → (g.addEdgeDxdy s a t b inv uid).1 = .error .value) := by
  unfold AG.addEdgeDxdy
  rw [if_pos (not_lt.2 hab)]
  constructor
  · split <;> rfl
  · intro h
    unfold epsDxdy
    rw [if_pos h]

end

/-- C49 fails for edges when one side is zero: a trade that takes 1000 for nothing is silently left out, whereas the same trade is
refused as an instruction. -/
theorem C49_zero_side_violated : ∃ (s t : Str) (a b : ℚ), 1 / 10 ^ 8 ≤ |b| ∧ 0 ≤ a * b ∧
    ((AG.empty : AG ℚ).addEdgeDxdy s a t b).1 = .ok () ∧ ((AG.empty : AG ℚ).addEdgeDxdy s a t b).2.edges = [] ∧ Opt.TI.new [] s a t b = .error .value :=
  ⟨"A".toList, "B".toList, 0, 1000, by decide +kernel, by decide +kernel, by decide +kernel, by decide +kernel, by decide +kernel⟩

example : Opt.TI.new "c".toList "A".toList (-3 : ℚ) "B".toList 6 = .ok ⟨"c".toList, "B".toList, 6, "A".toList, -3⟩ := by decide +kernel
example : (⟨"c".toList, "B".toList, 6, "A".toList, -3⟩ : Opt.TI ℚ).priceOutPerIn = .ok (1 / 2) := by decide +kernel
example : Opt.TI.new "c".toList "A".toList (3 : ℚ) "B".toList 6 = .error .value := by decide +kernel
example : ((exGraph.addEdgeDxdy "A".toList (-3) "B".toList 6).2.edgeList.map fun e => (e.nodeIn, e.amountIn, e.nodeOut, e.amountOut)).getLast? =
    some (1, 6, 0, 3) := by decide +kernel

end Arb

end Carbon
