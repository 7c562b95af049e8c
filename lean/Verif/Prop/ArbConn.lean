import Verif.Prop.ArbDup

/-!
# C90: connections and transport of prices

A symmetric connection, and in particular a curve added to a graph, adds two opposite edges with reciprocal prices. Transporting an amount
there and back along such edges never loses, and gains exactly if the prices differ.
-/

set_option linter.unusedSectionVars false

namespace Carbon

open CarbonPair (pyDiv)

namespace Arb

section
variable {K : Type} [Field K] [LinearOrder K] [IsStrictOrderedRing K]

theorem datas_extends {g g2 : AG K} (h : WF g) (ex : Extends g g2) : datas g2 = datas g := by
  unfold datas AG.edgeList
  rw [ex.edges, ex.edgeObjs]
  apply List.map_congr_left
  intro e he
  have := h.ends e he
  unfold dataOf
  rw [ex.tkn _ this.1, ex.tkn _ this.2]

theorem datas_addNew {g : AG K} (h : WF g) (e : Edge K) (i : Option Nat) :
    datas { g with edgeObjs := g.edgeObjs ++ [{ e with ix := i }], edges := g.edges ++ [g.edgeObjs.length] } =
      datas g ++ [dataOf g e] := by
  unfold datas
  rw [edgeList_add h, List.map_append]
  rfl

/-- All edges of the graph are connections. -/
def OnlyConnections (g : AG K) : Prop := ∀ d ∈ datas g, d.amountIn < 0

theorem addConnection1_datas {g : AG K} (h : WF g) (hc : OnlyConnections g) (s t : Str) (swap : Bool) (p : K) (inv : Bool) {w : K}
    (hw : 0 < w) (uid : Str) : ∃ g', g.addConnection1 s t swap p inv w uid = (.ok (), g') ∧ WF g' ∧
      datas g' = datas g ++
        [⟨some (if swap then t else s), -w, some (if swap then s else t), -quoted p inv * w, inv, some uid, none⟩] := by
  obtain ⟨a, b, g2, wf, ex, ma, mb, ta, tb, he⟩ := addConnection1_eq h s t swap p inv hw uid
  have hwf := h.addConnection1 s t swap p inv hw uid
  rw [addNew_eq wf, if_neg] at he
  · rw [he] at hwf ⊢
    refine ⟨_, rfl, hwf, ?_⟩
    rw [datas_addNew wf, datas_extends h ex]
    congr 2
    unfold dataOf Edge.make
    cases swap
    · simp [ta, tb, hw]
    · simp [ta, tb, hw]
  · rintro ⟨h1, h2⟩
    have hm : (Edge.make (if swap then b else a) (-w) (if swap then a else b) (-quoted p inv * w) inv (some uid)).isAmount = false := by
      rw [make_isAmount]; simp [hw]
    rw [hm] at h1
    unfold AG.edgeType at h1 h2
    cases hl : g2.edgeList with
    | nil => rw [hl] at h2; exact h2 rfl
    | cons e es =>
      rw [hl] at h1
      have hd : dataOf g2 e ∈ datas g := by
        rw [← datas_extends h ex]
        unfold datas
        rw [hl]
        simp
      have : e.amountIn < 0 := hc _ hd
      apply h1
      simp [Edge.isAmount, this]

theorem OnlyConnections.append {g g' : AG K} (h : OnlyConnections g) {d : EdgeData K} (hd : d.amountIn < 0)
    (he : datas g' = datas g ++ [d]) : OnlyConnections g' := by
  intro x hx
  rw [he, List.mem_append, List.mem_singleton] at hx
  rcases hx with hx | rfl
  · exact h x hx
  · exact hd

theorem quoted_not (p : K) (inv : Bool) : quoted p (!inv) = (quoted p inv)⁻¹ := by
  unfold quoted
  by_cases hp : p = 0
  · simp [hp]
  · cases inv <;> simp [hp]

/-- C90: a symmetric connection with a positive weight adds two opposite edges with the price in the given quotation and its reciprocal;
they are quoted in opposite directions, so that both edges quote the given price. -/
theorem C90_symmetric {g : AG K} (h : WF g) (hc : OnlyConnections g) (a : AG.ConnArgs K) {p : K} (hp : AG.connPrice a = .ok p)
    (hw : 0 < a.weight.getD 1) (hs : a.symmetric = true) :
    ∃ g' d e, g.addConnection a = (.ok (), g') ∧ WF g' ∧ datas g' = datas g ++ [d, e] ∧ OnlyConnections g' ∧
      d.tknIn = some a.tknIn ∧ d.tknOut = some a.tknOut ∧ e.tknIn = some a.tknOut ∧ e.tknOut = some a.tknIn ∧
      d.amountIn = -(a.weight.getD 1) ∧ e.amountIn = -(a.weight.getD 1) ∧
      d.amountOut / d.amountIn = (if a.inverse then p⁻¹ else p) ∧
      e.amountOut / e.amountIn = (d.amountOut / d.amountIn)⁻¹ ∧ d.inverse = a.inverse ∧ e.inverse = !a.inverse := by
  obtain ⟨g1, h1, w1, d1⟩ := addConnection1_datas h hc a.tknIn a.tknOut false p a.inverse hw (a.uid.getD "None".toList)
  have hc1 := hc.append (by simpa using hw) d1
  obtain ⟨g2, h2, w2, d2⟩ := addConnection1_datas w1 hc1 a.tknIn a.tknOut true p (!a.inverse) hw
    (a.uid.getD "None".toList ++ "-r".toList)
  have hc2 := hc1.append (by simpa using hw) d2
  have hq : quoted p a.inverse = if a.inverse then p⁻¹ else p := by
    unfold quoted
    by_cases hp : p = 0
    · simp [hp]
    · cases a.inverse <;> simp [hp]
  refine ⟨g2, ⟨some a.tknIn, -(a.weight.getD 1), some a.tknOut, -quoted p a.inverse * a.weight.getD 1, a.inverse,
      some (a.uid.getD "None".toList), none⟩,
    ⟨some a.tknOut, -(a.weight.getD 1), some a.tknIn, -quoted p (!a.inverse) * a.weight.getD 1, !a.inverse,
      some (a.uid.getD "None".toList ++ "-r".toList), none⟩, ?_, w2, ?_, hc2, rfl, rfl, rfl, rfl, rfl, rfl, ?_, ?_, rfl, rfl⟩
  · unfold AG.addConnection
    rw [hp]
    dsimp only
    rw [if_neg (not_not.2 hw), h1]
    unfold andThen
    dsimp only
    rw [if_pos hs, h2]
  · rw [d2, d1, List.append_assoc]
    rfl
  · dsimp only
    rw [← hq]
    field_simp
  · dsimp only
    rw [quoted_not]
    have := hw.ne'
    rw [neg_mul, neg_mul, neg_div_neg_eq, neg_div_neg_eq, mul_div_assoc, mul_div_assoc, div_self this, mul_one, mul_one]

/-- C90: a connection that is not symmetric adds the first of these edges only. -/
theorem C90_oneway {g : AG K} (h : WF g) (hc : OnlyConnections g) (a : AG.ConnArgs K) {p : K} (hp : AG.connPrice a = .ok p)
    (hw : 0 < a.weight.getD 1) (hs : a.symmetric = false) :
    ∃ g' d, g.addConnection a = (.ok (), g') ∧ WF g' ∧ datas g' = datas g ++ [d] ∧ OnlyConnections g' ∧
      d.tknIn = some a.tknIn ∧ d.tknOut = some a.tknOut ∧ d.amountIn = -(a.weight.getD 1) ∧
      d.amountOut / d.amountIn = (if a.inverse then p⁻¹ else p) ∧ d.inverse = a.inverse := by
  obtain ⟨g1, h1, w1, d1⟩ := addConnection1_datas h hc a.tknIn a.tknOut false p a.inverse hw (a.uid.getD "None".toList)
  have hc1 := hc.append (by simpa using hw) d1
  have hq : quoted p a.inverse = if a.inverse then p⁻¹ else p := by
    unfold quoted
    by_cases hp : p = 0
    · simp [hp]
    · cases a.inverse <;> simp [hp]
  refine ⟨g1, _, ?_, w1, d1, hc1, rfl, rfl, rfl, ?_, rfl⟩
  · unfold AG.addConnection
    rw [hp]
    dsimp only
    rw [if_neg (not_not.2 hw), h1]
    unfold andThen
    dsimp only
    rw [hs, if_neg (by simp)]
  · dsimp only
    rw [← hq]
    field_simp

/-- The two edges of a curve. -/
def curveEdges [PySqrt K] (c : CPC K) : List (EdgeData K) :=
  [⟨some c.tknb, -1, some c.tknq, -c.p, false, some (Cid.show c.cid), none⟩,
    ⟨some c.tknq, -1, some c.tknb, -c.p⁻¹, true, some (Cid.show c.cid ++ "-r".toList), none⟩]

/-- C90: adding curves to a graph of connections succeeds and adds for each curve, in order, one edge from its base to its quote token
with its price and one back with the reciprocal price. -/
theorem C90_curves [PySqrt K] {g : AG K} (h : WF g) (hc : OnlyConnections g) (cs : List (CPC K)) :
    ∃ g', g.addCurves cs = (.ok (), g') ∧ WF g' ∧ OnlyConnections g' ∧ datas g' = datas g ++ cs.flatMap curveEdges := by
  induction cs generalizing g with
  | nil => exact ⟨g, rfl, h, hc, by simp⟩
  | cons c cs ih =>
    obtain ⟨g1, h1, w1, d1⟩ := addConnection1_datas h hc c.tknb c.tknq false c.p false one_pos (Cid.show c.cid)
    have hc1 := hc.append (by simp) d1
    obtain ⟨g2, h2, w2, d2⟩ := addConnection1_datas w1 hc1 c.tknb c.tknq true c.p true one_pos (Cid.show c.cid ++ "-r".toList)
    have hc2 := hc1.append (by simp) d2
    obtain ⟨g', h', w', hc', d'⟩ := ih w2 hc2
    refine ⟨g', ?_, w', hc', ?_⟩
    · unfold AG.addCurves AG.addConnection AG.connPrice
      simp only [ne_eq, not_true_eq_false, if_false, Bool.false_eq_true, Option.getD_none, Option.getD_some, zero_lt_one,
        if_true, Bool.not_false]
      rw [h1]
      unfold andThen
      dsimp only
      rw [h2]
      exact h'
    · have hq : quoted c.p true = c.p⁻¹ := by rw [show true = !false from rfl, quoted_not]; simp [quoted]
      rw [d', d2, d1, List.flatMap_cons, hq]
      simp [curveEdges, quoted]

/-! ## Transport of prices -/

/-- The average of the prices of the edges from one node to another. -/
def stepMean (g : AG K) (p : Nat × Nat) : K :=
  ((edgesFrom g p.1 p.2).map fun e => e.amountOut / e.amountIn).sum / (edgesFrom g p.1 p.2).length

/-- C90: the multiplier of a path is the product over its steps of the average price of the edges of the step. -/
theorem C90_multiplier (g : AG K) {ps : List (Nat × Nat)}
    (h : ∀ p ∈ ps, edgesFrom g p.1 p.2 ≠ [] ∧ ∀ e ∈ edgesFrom g p.1 p.2, e.amountIn ≠ 0) :
    g.ptransport ps = .ok ((ps.map (stepMean g)).prod, ps.map (stepMean g)) := by
  induction ps with
  | nil => rfl
  | cons p ps ih =>
    obtain ⟨h1, h2⟩ := h p (by simp)
    unfold AG.ptransport
    rw [between_eq, mapM_ok fun e he => price_outPerIn (h2 e he), Py.ok_bind]
    unfold AG.mean
    rw [if_neg (by simpa using h1), Py.ok_bind, ih fun q hq => h q (by simp [hq]), Py.ok_bind, List.length_map]
    rfl

/-- C90: a path with a step without edges has no multiplier. -/
theorem C90_broken (g : AG K) {ps : List (Nat × Nat)} (h : ∃ p ∈ ps, edgesFrom g p.1 p.2 = []) :
    ∃ e, g.ptransport ps = .error e := by
  induction ps with
  | nil => obtain ⟨p, hp, -⟩ := h; cases hp
  | cons p ps ih =>
    unfold AG.ptransport
    cases h1 : (g.between p).mapM fun e => e.price (some false) with
    | error e => exact ⟨e, rfl⟩
    | ok prices =>
      rw [Py.ok_bind]
      cases h2 : AG.mean prices with
      | error e => exact ⟨e, rfl⟩
      | ok m =>
        rw [Py.ok_bind]
        obtain ⟨q, hq, hq'⟩ := h
        rcases List.mem_cons.1 hq with rfl | hq
        · rw [between_eq, hq'] at h1
          have := Except.ok.inj h1
          subst this
          cases h2
        · obtain ⟨e, he⟩ := ih ⟨q, hq, hq'⟩
          rw [he]
          exact ⟨e, rfl⟩

theorem sum_tangent {l : List K} (hl : ∀ x ∈ l, 0 < x) {m : K} (hm : 0 < m) :
    2 * l.length / m - l.sum / m ^ 2 ≤ (l.map (·⁻¹)).sum ∧
      ((l.map (·⁻¹)).sum = 2 * l.length / m - l.sum / m ^ 2 ↔ ∀ x ∈ l, x = m) := by
  induction l with
  | nil => simp
  | cons x l ih =>
    obtain ⟨h1, h2⟩ := ih fun y hy => hl y (by simp [hy])
    have hx := hl x (by simp)
    have key : x⁻¹ - (2 / m - x / m ^ 2) = (x - m) ^ 2 / (x * m ^ 2) := by field_simp; ring
    have hk : 0 ≤ x⁻¹ - (2 / m - x / m ^ 2) := by rw [key]; positivity
    have hz : x⁻¹ - (2 / m - x / m ^ 2) = 0 ↔ x = m := by
      rw [key, div_eq_zero_iff]
      constructor
      · rintro (h | h)
        · exact sub_eq_zero.1 (pow_eq_zero_iff (two_ne_zero)|>.1 h)
        · exact absurd h (by positivity)
      · intro h; left; rw [h]; simp
    have hsum : 2 * ((x :: l).length : K) / m - (x :: l).sum / m ^ 2 =
        (2 / m - x / m ^ 2) + (2 * l.length / m - l.sum / m ^ 2) := by
      rw [List.length_cons, List.sum_cons]
      push_cast
      ring
    rw [hsum, List.map_cons, List.sum_cons]
    refine ⟨by linarith, ?_⟩
    rw [List.forall_mem_cons, ← hz, ← h2]
    constructor
    · intro h
      constructor <;> linarith
    · rintro ⟨h, h'⟩
      linarith

theorem mean_inv {l : List K} (hne : l ≠ []) (hl : ∀ x ∈ l, 0 < x) :
    1 ≤ l.sum / l.length * ((l.map (·⁻¹)).sum / l.length) ∧
      (l.sum / l.length * ((l.map (·⁻¹)).sum / l.length) = 1 ↔ ∀ x ∈ l, ∀ y ∈ l, x = y) := by
  have hn : (0 : K) < l.length := by exact_mod_cast List.length_pos_iff.2 hne
  have hs : 0 < l.sum := by
    have := sum_map_pos (f := id) hne hl
    simpa using this
  have hm : 0 < l.sum / l.length := div_pos hs hn
  obtain ⟨h1, h2⟩ := sum_tangent hl hm
  have heq : 2 * (l.length : K) / (l.sum / l.length) - l.sum / (l.sum / l.length) ^ 2 = l.length * l.length / l.sum := by
    field_simp
    ring
  rw [heq] at h1 h2
  have hprod : l.sum / l.length * ((l.map (·⁻¹)).sum / l.length) = (l.map (·⁻¹)).sum / (l.length * l.length / l.sum) := by
    field_simp
  have hpos : 0 < (l.length : K) * l.length / l.sum := by positivity
  rw [hprod]
  refine ⟨(one_le_div hpos).2 h1, ?_⟩
  rw [div_eq_one_iff_eq hpos.ne', h2]
  constructor
  · intro h x hx y hy
    rw [h x hx, h y hy]
  · intro h x hx
    have : ∀ l' : List K, (∀ y ∈ l', y = x) → l'.sum = l'.length * x := by
      intro l' h'
      induction l' with
      | nil => simp
      | cons z l' ih =>
        rw [List.sum_cons, ih fun y hy => h' y (by simp [hy]), h' z (by simp), List.length_cons]
        push_cast
        ring
    rw [this l fun y hy => h y hy x hx]
    field_simp

/-- The price that a curve gives for one token in terms of another, if it trades these two. -/
def quoteTo [PySqrt K] (s t : Str) (c : CPC K) : Option K :=
  if c.tknb = s ∧ c.tknq = t then some c.p else if c.tknb = t ∧ c.tknq = s then some c.p⁻¹ else none

theorem quoteTo_symm [PySqrt K] {s t : Str} (hst : s ≠ t) (c : CPC K) : quoteTo t s c = (quoteTo s t c).map (·⁻¹) := by
  unfold quoteTo
  by_cases h1 : c.tknb = s ∧ c.tknq = t
  · rw [if_pos h1, if_neg (fun h => hst (h1.1.symm.trans h.1)), if_pos h1]
    rfl
  · by_cases h2 : c.tknb = t ∧ c.tknq = s
    · rw [if_pos h2, if_neg h1, if_pos h2, Option.map_some, inv_inv]
    · rw [if_neg h2, if_neg h1, if_neg h1, if_neg h2]; rfl

theorem link_prices [PySqrt K] {g : AG K} {cs : List (CPC K)} (hd : datas g = cs.flatMap curveEdges) {s t : Str} (hst : s ≠ t) :
    (link g s t).map (fun d => d.amountOut / d.amountIn) = cs.filterMap (quoteTo s t) := by
  unfold link
  rw [hd]
  clear hd
  induction cs with
  | nil => rfl
  | cons c cs ih =>
    rw [List.flatMap_cons, List.filter_append, List.map_append, ih, List.filterMap_cons]
    unfold quoteTo curveEdges
    by_cases h1 : c.tknb = s ∧ c.tknq = t
    · have : ¬ (c.tknq = s ∧ c.tknb = t) := fun h => hst (h1.1.symm.trans h.2)
      simp [h1.1, h1.2, hst, hst.symm]
    · by_cases h2 : c.tknb = t ∧ c.tknq = s
      · simp [h2.1, h2.2, hst, hst.symm]
      · have h3 : ¬ (c.tknq = s ∧ c.tknb = t) := fun h => h2 ⟨h.2, h.1⟩
        simp [h1, h2, h3]

/-- C90: in the graph of a list of curves, going from one token to another and back multiplies an amount by at least one, and by exactly
one only if all curves between the two tokens have the same price. -/
theorem C90_roundtrip [PySqrt K] {cs : List (CPC K)} (hp : ∀ c ∈ cs, 0 < c.p) {s t : Str} (hst : s ≠ t) {c₀ : CPC K} (h₀ : c₀ ∈ cs)
    (hq : quoteTo s t c₀ ≠ none) :
    ∃ g a b m l, AG.empty.addCurves cs = (.ok (), g) ∧ (g.nodeByTkn s).1 = .ok a ∧ (g.nodeByTkn t).1 = .ok b ∧
      g.ptransport [(a, b), (b, a)] = .ok (m, l) ∧ 1 ≤ m ∧
      (m = 1 ↔ ∀ c ∈ cs, ∀ d ∈ cs, ∀ x y, quoteTo s t c = some x → quoteTo s t d = some y → x = y) := by
  obtain ⟨g, hg, w, hc, hd⟩ := C90_curves (K := K) WF.empty (by intro d hd; cases hd) cs
  have hd : datas g = cs.flatMap curveEdges := hd
  have hu : Unique g := by
    have := Unique.addCurves (K := K) WF.empty (by intro n hn; cases hn) cs
    rw [hg] at this
    exact this
  have hnode : ∀ s t, s ≠ t → quoteTo s t c₀ ≠ none → ∃ a, (g.nodeByTkn s).1 = .ok a ∧ a ∈ g.nodes ∧ g.tknOf a = some s := by
    intro s t hst hq
    have hne : link g s t ≠ [] := by
      intro hc
      have := link_prices hd hst
      rw [hc] at this
      have : cs.filterMap (quoteTo s t) = [] := this.symm
      rw [List.filterMap_eq_nil_iff] at this
      exact hq (this c₀ h₀)
    obtain ⟨d, hdm⟩ := List.exists_mem_of_ne_nil _ hne
    unfold link datas at hdm
    rw [List.mem_filter, List.mem_map] at hdm
    obtain ⟨⟨e, he, rfl⟩, hdm⟩ := hdm
    have hdm : g.tknOf e.nodeIn = some s ∧ g.tknOf e.nodeOut = some t := of_decide_eq_true hdm
    obtain ⟨m, hm⟩ := w.complete _ (w.ends e he).1 s hdm.1
    refine ⟨m, ?_, (w.lookup s m hm).1, (w.lookup s m hm).2⟩
    unfold AG.nodeByTkn
    rw [hm]
  obtain ⟨a, ha, ma, na⟩ := hnode s t hst hq
  obtain ⟨b, hb, mb, nb⟩ := hnode t s hst.symm (by rw [quoteTo_symm hst]; simpa using hq)
  have hneg : ∀ x y, ∀ e ∈ edgesFrom g x y, e.amountIn ≠ 0 := by
    intro x y e he
    unfold edgesFrom at he
    exact (hc (dataOf g e) (List.mem_map.2 ⟨e, (List.mem_filter.1 he).1, rfl⟩)).ne
  have hstep : ∀ s t a b, s ≠ t → a ∈ g.nodes → b ∈ g.nodes → g.tknOf a = some s → g.tknOf b = some t →
      (edgesFrom g a b).map (fun e => e.amountOut / e.amountIn) = cs.filterMap (quoteTo s t) := by
    intro s t a b hst ma mb na nb
    rw [← link_prices hd hst, link_eq w hu ma mb na nb, List.map_map]
    rfl
  have h1 := hstep s t a b hst ma mb na nb
  have h2 := hstep t s b a hst.symm mb ma nb na
  have hback : cs.filterMap (quoteTo t s) = (cs.filterMap (quoteTo s t)).map (·⁻¹) := by
    rw [List.map_filterMap]
    exact List.filterMap_congr fun c _ => quoteTo_symm hst c
  rw [hback] at h2
  have hlne : cs.filterMap (quoteTo s t) ≠ [] := by
    intro hc
    rw [List.filterMap_eq_nil_iff] at hc
    exact hq (hc c₀ h₀)
  have hpos : ∀ x ∈ cs.filterMap (quoteTo s t), 0 < x := by
    intro x hx
    rw [List.mem_filterMap] at hx
    obtain ⟨c, hcm, hx⟩ := hx
    have := hp c hcm
    unfold quoteTo at hx
    split at hx
    · rw [← Option.some.inj hx]; exact this
    · split at hx
      · rw [← Option.some.inj hx]; exact inv_pos.2 this
      · cases hx
  have hmul := C90_multiplier g (ps := [(a, b), (b, a)]) (by
    intro p hp
    refine ⟨?_, hneg _ _⟩
    intro hnil
    simp only [List.mem_cons, List.not_mem_nil, or_false] at hp
    rcases hp with rfl | rfl
    · rw [hnil] at h1
      exact hlne h1.symm
    · rw [hnil] at h2
      exact hlne (List.map_eq_nil_iff.1 h2.symm))
  have hl1 : (edgesFrom g a b).length = (cs.filterMap (quoteTo s t)).length := by rw [← h1, List.length_map]
  have hl2 : (edgesFrom g b a).length = (cs.filterMap (quoteTo s t)).length := by
    have := congrArg List.length h2
    rwa [List.length_map, List.length_map] at this
  have hm := mean_inv hlne hpos
  refine ⟨g, a, b, _, _, hg, ha, hb, hmul, ?_⟩
  simp only [List.map_cons, List.map_nil, List.prod_cons, List.prod_nil, mul_one]
  unfold stepMean
  dsimp only
  rw [h1, h2, hl1, hl2]
  refine ⟨hm.1, hm.2.trans ?_⟩
  constructor
  · intro h c hcm d hdm x y hx hy
    exact h x (List.mem_filterMap.2 ⟨c, hcm, hx⟩) y (List.mem_filterMap.2 ⟨d, hdm, hy⟩)
  · intro h x hx y hy
    obtain ⟨c, hcm, hx⟩ := List.mem_filterMap.1 hx
    obtain ⟨d, hdm, hy⟩ := List.mem_filterMap.1 hy
    exact h c hcm d hdm x y hx hy

end

/-- Two connections between the same tokens at prices 2 and 8: there and back gives 25/16. -/
example : (((AG.empty : AG ℚ).addConnection { tknIn := "A".toList, tknOut := "B".toList, price := some 2 }).2.addConnection
    { tknIn := "A".toList, tknOut := "B".toList, price := some 8 }).2.ptransport [(0, 1), (1, 0)] = .ok (25 / 16, [5, 5 / 16]) := by
  decide +kernel

end Arb

end Carbon
