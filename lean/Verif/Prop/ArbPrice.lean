import Verif.Prop.ArbConn
import Verif.Prop.ArbStats
import Verif.Tools.ArbPrice

/-!
# C110, C111: prices between tokens and the price table

The price of one token in terms of another is the product of the average prices along a path with as few steps as possible. Nothing is
assumed about which of several such paths networkx returns.
-/

set_option linter.unusedSectionVars false

namespace Carbon

open CarbonPair (pyDiv)

namespace Arb

/-- `p` leads from `s` to `t` along arcs. -/
def IsPath (arcs : List (Nat × Nat)) (s t : Nat) (p : List Nat) : Prop :=
  p.head? = some s ∧ p.getLast? = some t ∧ p.IsChain fun a b => (a, b) ∈ arcs

/-- What `nx.shortest_path` promises: a path with as few steps as possible, or none if there is no path. -/
structure ShortestPaths (sp : Sp) : Prop where
  sound : ∀ arcs s t p, sp arcs s t = some p → IsPath arcs s t p ∧ ∀ q, IsPath arcs s t q → p.length ≤ q.length
  complete : ∀ arcs s t, sp arcs s t = none → ∀ q, ¬ IsPath arcs s t q

/-! ## The promise can be kept -/

theorem mem_walks {arcs : List (Nat × Nat)} {k s : Nat} {p : List Nat} :
    p ∈ walks arcs k s ↔ p.length = k + 1 ∧ p.head? = some s ∧ p.IsChain fun a b => (a, b) ∈ arcs := by
  induction k generalizing s p with
  | zero =>
    simp only [walks, List.mem_singleton]
    constructor
    · rintro rfl; exact ⟨rfl, rfl, .singleton _⟩
    · rintro ⟨h1, h2, -⟩
      obtain ⟨x, rfl⟩ := List.length_eq_one_iff.1 h1
      have := Option.some.inj h2
      rw [this]
  | succ k ih =>
    simp only [walks, List.mem_flatMap, List.mem_filter, List.mem_map, decide_eq_true_eq]
    constructor
    · rintro ⟨⟨x, y⟩, ⟨ha, rfl⟩, q, hq, rfl⟩
      obtain ⟨h1, h2, h3⟩ := ih.1 hq
      refine ⟨by simp [h1], rfl, List.isChain_cons.2 ⟨fun z hz => ?_, h3⟩⟩
      rw [h2] at hz
      have : y = z := Option.some.inj hz
      rw [← this]; exact ha
    · rintro ⟨h1, h2, h3⟩
      match p, h1, h2, h3 with
      | [x], h1, _, _ => simp at h1
      | x :: y :: p, h1, h2, h3 =>
        have : x = s := Option.some.inj h2
        subst this
        rw [List.isChain_cons_cons] at h3
        exact ⟨(x, y), ⟨h3.1, rfl⟩, y :: p, ih.2 ⟨by simpa using h1, rfl, h3.2⟩, rfl⟩

theorem IsPath.nodup_of_min {arcs : List (Nat × Nat)} {s t : Nat} {p : List Nat} (h : IsPath arcs s t p)
    (hmin : ∀ q, IsPath arcs s t q → p.length ≤ q.length) : p.Nodup := by
  by_contra hn
  rw [← List.exists_duplicate_iff_not_nodup] at hn
  obtain ⟨x, hx⟩ := hn
  rw [List.duplicate_iff_sublist] at hx
  obtain ⟨l1, l2, l3, rfl⟩ : ∃ l1 l2 l3, p = l1 ++ x :: (l2 ++ x :: l3) := by
    have hm : x ∈ p := hx.subset (by simp)
    obtain ⟨l1, l2, rfl, hl⟩ := List.eq_append_cons_of_mem hm
    have : [x, x].Sublist (x :: l2) := by
      have h2 := hx
      rw [List.sublist_append_iff] at h2
      obtain ⟨u, v, huv, hu, hv⟩ := h2
      cases u with
      | nil => rw [huv]; exact hv
      | cons y u =>
        exfalso
        have : y = x := by
          have := congrArg List.head? huv
          simpa using this.symm
        exact hl (hu.subset (by rw [this]; simp))
    have : x ∈ l2 := by
      rw [List.cons_sublist_cons] at this
      exact this.subset (by simp)
    obtain ⟨a, b, rfl⟩ := List.append_of_mem this
    exact ⟨l1, a, b, rfl⟩
  have : IsPath arcs s t (l1 ++ x :: l3) := by
    obtain ⟨h1, h2, h3⟩ := h
    refine ⟨?_, ?_, ?_⟩
    · cases l1 with
      | nil => exact h1
      | cons y l1 => exact h1
    · rw [← h2]
      simp [List.getLast?_append, List.getLast?_cons]
    · have h4 := h3.suffix (l₁ := x :: l3) ⟨l1 ++ x :: l2, by simp⟩
      rw [List.isChain_split] at h3 ⊢
      exact ⟨h3.1, h4⟩
  have := hmin _ this
  simp at this
  omega

theorem pairs_nodup {p : List Nat} (h : p.Nodup) : (p.zip p.tail).Nodup := by
  apply List.Nodup.of_map Prod.snd
  rw [List.map_snd_zip (by simp)]
  exact h.tail

theorem pairs_mem {arcs : List (Nat × Nat)} {p : List Nat} (h : p.IsChain fun a b => (a, b) ∈ arcs) : ∀ q ∈ p.zip p.tail, q ∈ arcs := by
  induction p with
  | nil => intro q hq; cases hq
  | cons x p ih =>
    cases p with
    | nil => intro q hq; cases hq
    | cons y p =>
      rw [List.isChain_cons_cons] at h
      intro q hq
      rcases List.mem_cons.1 hq with rfl | hq
      · exact h.1
      · exact ih h.2 q hq

/-- The promise made by networkx can be kept. -/
theorem bfs_shortest : ShortestPaths bfs := by
  have key : ∀ arcs s t q, IsPath arcs s t q → ∃ k < arcs.length + 1, ∃ p ∈ walks arcs k s, p.getLast? = some t := by
    intro arcs s t q hq
    classical
    have hex : ∃ n q, IsPath arcs s t q ∧ q.length = n := ⟨_, q, hq, rfl⟩
    obtain ⟨p, hp, hl⟩ := Nat.find_spec hex
    have hmin : ∀ q, IsPath arcs s t q → p.length ≤ q.length := by
      intro q hq
      rw [hl]
      exact Nat.find_min' hex ⟨q, hq, rfl⟩
    have hz : (p.zip p.tail).length ≤ arcs.length :=
      ((pairs_nodup (hp.nodup_of_min hmin)).subperm (pairs_mem hp.2.2)).length_le
    have hne : p.length ≠ 0 := by
      intro h0
      rw [List.length_eq_zero_iff] at h0
      rw [h0] at hp
      cases hp.1
    rw [List.length_zip, List.length_tail] at hz
    exact ⟨p.length - 1, by omega, p, mem_walks.2 ⟨by omega, hp.1, hp.2.2⟩, hp.2.1⟩
  constructor
  · intro arcs s t p h
    unfold bfs at h
    rw [List.findSome?_eq_some_iff] at h
    obtain ⟨l1, k, l2, hr, hk, hl⟩ := h
    have hm := List.mem_of_find?_eq_some hk
    have hp := List.find?_some hk
    simp only [decide_eq_true_eq] at hp
    obtain ⟨hlen, hh, hc⟩ := mem_walks.1 hm
    refine ⟨⟨hh, hp, hc⟩, fun q hq => ?_⟩
    by_contra hlt
    rw [not_le, hlen] at hlt
    have hl1 : l1.length = k := by
      have := congrArg (fun l => l[l1.length]?) hr
      simp only [List.getElem?_append_right (le_refl _), Nat.sub_self, List.getElem?_cons_zero] at this
      rw [List.getElem?_range] at this
      · exact Option.some.inj this
      · have := congrArg List.length hr
        simp at this
        omega
    have hq0 : q.length ≠ 0 := by
      intro h0
      rw [List.length_eq_zero_iff] at h0
      rw [h0] at hq
      cases hq.1
    have hmem : q.length - 1 ∈ l1 := by
      have h1 : l1 = List.range k := by
        have := congrArg (List.take l1.length) hr
        rw [List.take_range, List.take_left] at this
        rw [← this, hl1]
        congr 1
        have := congrArg List.length hr
        simp at this
        omega
      rw [h1, List.mem_range]
      omega
    have := hl _ hmem
    rw [List.find?_eq_none] at this
    exact this q (mem_walks.2 ⟨by omega, hq.1, hq.2.2⟩) (by simp [hq.2.1])
  · intro arcs s t h q hq
    unfold bfs at h
    rw [List.findSome?_eq_none_iff] at h
    obtain ⟨k, hk, p, hp, ht⟩ := key arcs s t q hq
    have := h k (List.mem_range.2 hk)
    rw [List.find?_eq_none] at this
    exact this p hp (by simp [ht])

section
variable {K : Type} [Field K] [LinearOrder K] [IsStrictOrderedRing K]

/-- `l` is a list of nodes from `a` to `b` in which each is connected to the next by some edge. -/
def Route (g : AG K) (a b : Nat) (l : List Nat) : Prop :=
  l.head? = some a ∧ l.getLast? = some b ∧ l.IsChain fun x y => edgesFrom g x y ≠ []

theorem ixOf_node {g : AG K} (w : WF g) {i n : Nat} (h : g.nodes[i]? = some n) : g.ixOf n = some i := by
  obtain ⟨v, hv, hi⟩ := w.nodeIx i n h
  unfold AG.ixOf
  rw [hv]
  exact hi

theorem ixOf_mem {g : AG K} (w : WF g) {n : Nat} (h : n ∈ g.nodes) : ∃ i, g.ixOf n = some i ∧ g.nodes[i]? = some n := by
  obtain ⟨i, hi⟩ := List.mem_iff_getElem?.1 h
  exact ⟨i, ixOf_node w hi, hi⟩

theorem mem_arcs {g : AG K} (w : WF g) {i j : Nat} : (i, j) ∈ g.arcs ↔
    ∃ x y, g.nodes[i]? = some x ∧ g.nodes[j]? = some y ∧ edgesFrom g x y ≠ [] := by
  unfold AG.arcs
  rw [List.mem_dedup, List.mem_filterMap]
  constructor
  · rintro ⟨e, he, h⟩
    obtain ⟨m1, m2⟩ := w.ends e he
    obtain ⟨i', h1, h1'⟩ := ixOf_mem w m1
    obtain ⟨j', h2, h2'⟩ := ixOf_mem w m2
    rw [h1, h2] at h
    have := Option.some.inj h
    obtain ⟨rfl, rfl⟩ := Prod.mk.inj this
    refine ⟨_, _, h1', h2', ?_⟩
    intro hc
    have : e ∈ edgesFrom g e.nodeIn e.nodeOut := mem_edgesFrom.2 ⟨he, rfl, rfl⟩
    rw [hc] at this
    cases this
  · rintro ⟨x, y, hx, hy, hne⟩
    obtain ⟨e, he⟩ := List.exists_mem_of_ne_nil _ hne
    obtain ⟨he', rfl, rfl⟩ := mem_edgesFrom.1 he
    refine ⟨e, he', ?_⟩
    rw [ixOf_node w hx, ixOf_node w hy]
    rfl

theorem Route.mem {g : AG K} (w : WF g) {a b : Nat} {l : List Nat} (h : Route g a b l) (ha : a ∈ g.nodes) : ∀ n ∈ l, n ∈ g.nodes := by
  obtain ⟨h1, -, h3⟩ := h
  induction l generalizing a with
  | nil => intro n hn; cases hn
  | cons x l ih =>
    have : x = a := Option.some.inj h1
    subst this
    intro n hn
    rcases List.mem_cons.1 hn with rfl | hn
    · exact ha
    · cases l with
      | nil => cases hn
      | cons y l =>
        rw [List.isChain_cons_cons] at h3
        obtain ⟨e, he⟩ := List.exists_mem_of_ne_nil _ h3.1
        obtain ⟨he, -, hy⟩ := mem_edgesFrom.1 he
        exact ih (a := y) (hy ▸ (w.ends e he).2) rfl h3.2 n hn

/-- Paths of indices and routes of nodes correspond to each other. -/
theorem Route.path {g : AG K} (w : WF g) {a b i j : Nat} (hi : g.nodes[i]? = some a) (hj : g.nodes[j]? = some b) {l : List Nat}
    (h : Route g a b l) : IsPath g.arcs i j (l.map fun n => g.nodes.idxOf n) := by
  have hix : ∀ {i n : Nat}, g.nodes[i]? = some n → g.nodes.idxOf n = i := by
    intro i n hn
    obtain ⟨hlt, he⟩ := List.getElem?_eq_some_iff.1 hn
    rw [← he]
    exact w.nodes_nodup.idxOf_getElem i hlt
  have hm := h.mem w (List.mem_of_getElem? hi)
  obtain ⟨h1, h2, h3⟩ := h
  refine ⟨?_, ?_, ?_⟩
  · rw [List.head?_map, h1, Option.map_some, hix hi]
  · rw [List.getLast?_map, h2, Option.map_some, hix hj]
  · rw [List.isChain_map]
    refine List.IsChain.imp_of_mem_imp ?_ h3
    intro x y hx hy hxy
    refine (mem_arcs w).2 ⟨x, y, ?_, ?_, hxy⟩
    · exact List.getElem?_idxOf (hm x hx)
    · exact List.getElem?_idxOf (hm y hy)

theorem IsPath.route {g : AG K} (w : WF g) {a b i j : Nat} (hi : g.nodes[i]? = some a) (hj : g.nodes[j]? = some b) {p : List Nat}
    (h : IsPath g.arcs i j p) : ∃ l, p.mapM g.nodeByIx = .ok l ∧ Route g a b l ∧ l.length = p.length := by
  obtain ⟨h1, h2, h3⟩ := h
  induction p generalizing a i with
  | nil => cases h1
  | cons x p ih =>
    have : x = i := Option.some.inj h1
    subst this
    cases p with
    | nil =>
      have : x = j := Option.some.inj h2
      subst this
      rw [hi] at hj
      have := Option.some.inj hj
      subst this
      refine ⟨[a], ?_, ⟨rfl, rfl, .singleton _⟩, rfl⟩
      rw [List.mapM_cons]
      unfold AG.nodeByIx
      rw [hi]
      rfl
    | cons y p =>
      rw [List.isChain_cons_cons] at h3
      obtain ⟨a', b', ha', hb', hne⟩ := (mem_arcs w).1 h3.1
      rw [hi] at ha'
      have := Option.some.inj ha'
      subst this
      obtain ⟨l, hl, ⟨r1, r2, r3⟩, hlen⟩ := ih hb' rfl (by simpa using h2) h3.2
      refine ⟨a :: l, ?_, ⟨rfl, ?_, ?_⟩, by simp [hlen]⟩
      · rw [List.mapM_cons, hl]
        unfold AG.nodeByIx
        rw [hi]
        rfl
      · cases l with
        | nil => cases r1
        | cons z l => simpa using r2
      · refine List.isChain_cons.2 ⟨fun z hz => ?_, r3⟩
        rw [r1] at hz
        have : b' = z := Option.some.inj hz
        rw [← this]; exact hne

theorem shortestPath_spec {sp : Sp} (hsp : ShortestPaths sp) {g : AG K} (w : WF g) {a b : Nat} (ha : a ∈ g.nodes) (hb : b ∈ g.nodes) :
    (g.shortestPath sp a b = .error (.custom "NetworkXNoPath") ∧ ∀ q, ¬ Route g a b q) ∨
      ∃ l, g.shortestPath sp a b = .ok l ∧ Route g a b l ∧ ∀ q, Route g a b q → l.length ≤ q.length := by
  obtain ⟨i, hi, hi'⟩ := ixOf_mem w ha
  obtain ⟨j, hj, hj'⟩ := ixOf_mem w hb
  unfold AG.shortestPath
  rw [hi, hj]
  dsimp only
  cases h : sp g.arcs i j with
  | none =>
    left
    exact ⟨rfl, fun q hq => hsp.complete _ _ _ h _ (hq.path w hi' hj')⟩
  | some p =>
    right
    obtain ⟨hp, hmin⟩ := hsp.sound _ _ _ _ h
    obtain ⟨l, hl, hr, hlen⟩ := hp.route w hi' hj'
    refine ⟨l, hl, hr, fun q hq => ?_⟩
    have := hmin _ (hq.path w hi' hj')
    rw [List.length_map] at this
    omega

/-! ## Prices -/

theorem connections {g : AG K} (w : WF g) (ht : g.edgeType ≠ some true) : ∀ e ∈ g.edgeList, e.amountIn < 0 := by
  intro e he
  unfold AG.edgeType at ht
  cases hl : g.edgeList with
  | nil => rw [hl] at he; cases he
  | cons f fs =>
    rw [hl] at ht
    have h1 := w.oneType e he f (by rw [hl]; simp)
    have h2 : f.isAmount ≠ true := fun h => ht (by rw [← h]; rfl)
    rw [← h1] at h2
    unfold Edge.isAmount at h2
    simpa using h2

theorem ptransport_route {g : AG K} (w : WF g) (ht : g.edgeType ≠ some true) {a b : Nat} {l : List Nat} (h : Route g a b l) :
    g.ptransport (l.zip l.tail) = .ok (((l.zip l.tail).map (stepMean g)).prod, (l.zip l.tail).map (stepMean g)) := by
  refine C90_multiplier g ?_
  intro p hp
  refine ⟨?_, fun e he => (connections w ht e (mem_edgesFrom.1 he).1).ne⟩
  obtain ⟨-, -, h3⟩ := h
  clear ht
  induction l with
  | nil => cases hp
  | cons x l ih =>
    cases l with
    | nil => cases hp
    | cons y l =>
      rw [List.isChain_cons_cons] at h3
      rcases List.mem_cons.1 hp with rfl | hp
      · exact h3.1
      · exact ih hp h3.2

theorem priceAlong_spec {sp : Sp} (hsp : ShortestPaths sp) {g : AG K} (w : WF g) (ht : g.edgeType ≠ some true) {a b : Nat}
    (ha : a ∈ g.nodes) (hb : b ∈ g.nodes) :
    (g.priceAlong sp a b = .error (.custom "NetworkXNoPath") ∧ ∀ q, ¬ Route g a b q) ∨
      ∃ l, Route g a b l ∧ (∀ q, Route g a b q → l.length ≤ q.length) ∧
        g.priceAlong sp a b = .ok ((l.zip l.tail).map (stepMean g)).prod := by
  unfold AG.priceAlong
  rcases shortestPath_spec hsp w ha hb with ⟨h1, h2⟩ | ⟨l, h1, h2, h3⟩
  · left
    rw [h1]
    exact ⟨rfl, h2⟩
  · right
    refine ⟨l, h2, h3, ?_⟩
    rw [h1, Py.ok_bind]
    unfold pathPairs
    rw [ptransport_route w ht h2]
    rfl

/-- C110: between two known tokens of a graph of connections there is either no chain of edges, and asking for the price raises, or the
price is the product of the average prices of the steps of such a chain, one with as few steps as possible. -/
theorem C110_price [PySqrt K] {sp : Sp} (hsp : ShortestPaths sp) {dup : Bool} {g : AG K} (hg : Reach dup g) (ht : g.edgeType ≠ some true)
    {s t : Str} (hst : s ≠ t) {a b : Nat} (ha : (g.nodeByTkn s).1 = .ok a) (hb : (g.nodeByTkn t).1 = .ok b) :
    (g.price sp s t = .error (.custom "NetworkXNoPath") ∧ ∀ q, ¬ Route g a b q) ∨
      ∃ l, Route g a b l ∧ (∀ q, Route g a b q → l.length ≤ q.length) ∧
        g.price sp s t = .ok ((l.zip l.tail).map (stepMean g)).prod := by
  unfold AG.price
  rw [if_neg ht, if_pos hst, ha, hb]
  exact priceAlong_spec hsp (C45_consistent hg) ht ((C45_lookup hg s).2 a ha).1 ((C45_lookup hg t).2 b hb).1

/-- C110: if there are edges from one token to the other, the price is their average price and no other edge matters. -/
theorem C110_direct [PySqrt K] {sp : Sp} (hsp : ShortestPaths sp) {dup : Bool} {g : AG K} (hg : Reach dup g) (ht : g.edgeType ≠ some true)
    {s t : Str} (hst : s ≠ t) {a b : Nat} (ha : (g.nodeByTkn s).1 = .ok a) (hb : (g.nodeByTkn t).1 = .ok b)
    (hd : edgesFrom g a b ≠ []) :
    g.price sp s t =
      .ok (((edgesFrom g a b).map fun e => e.amountOut / e.amountIn).sum / (edgesFrom g a b).length) := by
  have hr : Route g a b [a, b] := ⟨rfl, rfl, List.isChain_pair.2 hd⟩
  rcases C110_price hsp hg ht hst ha hb with ⟨-, h⟩ | ⟨l, ⟨h1, h2, h3⟩, hmin, hp⟩
  · exact absurd hr (h _)
  · have hlen := hmin _ hr
    have hab : a ≠ b := by
      intro hab
      have h1 := ((C45_lookup hg s).2 a ha).2
      have h2 := ((C45_lookup hg t).2 b hb).2
      rw [hab, h2] at h1
      exact hst (Option.some.inj h1).symm
    match l, h1, h2, hlen, hp with
    | [x], h1, h2, _, _ =>
      exact absurd ((Option.some.inj h1).symm.trans (Option.some.inj h2)) hab
    | [x, y], h1, h2, _, hp =>
      have h1 : x = a := Option.some.inj h1
      have h2 : y = b := Option.some.inj h2
      subst h1 h2
      rw [hp]
      simp [stepMean]
    | x :: y :: z :: l, _, _, hlen, _ => simp at hlen

/-- C110: a token is worth one in terms of itself, whether or not the graph knows it. -/
theorem C110_same (sp : Sp) {g : AG K} (ht : g.edgeType ≠ some true) (s : Str) : g.price sp s s = .ok 1 := by
  unfold AG.price
  rw [if_neg ht, if_neg (not_not.2 rfl)]

/-- C110: graphs with amounts have no prices, and neither have unknown tokens. -/
theorem C110_rejected [PySqrt K] (sp : Sp) {dup : Bool} {g : AG K} (hg : Reach dup g) (s t : Str) :
    (g.edgeType = some true → g.price sp s t = .error .assertion) ∧
      (g.edgeType ≠ some true → s ≠ t → ((∀ n ∈ g.nodes, g.tknOf n ≠ some s) ∨ ∀ n ∈ g.nodes, g.tknOf n ≠ some t) →
        g.price sp s t = .error .key) := by
  unfold AG.price
  refine ⟨fun h => by rw [if_pos h], fun h hst hu => ?_⟩
  rw [if_neg h, if_pos hst]
  cases ha : (g.nodeByTkn s).1 with
  | error e =>
    have : e = .key := by
      unfold AG.nodeByTkn at ha
      split at ha
      · cases ha
      · simp at ha; exact ha.symm
    rw [this]; rfl
  | ok a =>
    have hs := (C45_lookup hg s).2 a ha
    have := hu.resolve_left fun h => h a hs.1 hs.2
    rw [(C45_lookup hg t).1.2 this]
    rfl

/-- All edges are priced by the values of their ends, so that no arbitrage is possible. -/
def Consistent (g : AG K) (v : Str → K) : Prop :=
  (∀ s, v s ≠ 0) ∧ ∀ e ∈ g.edgeList, ∀ s t, g.tknOf e.nodeIn = some s → g.tknOf e.nodeOut = some t → e.amountOut / e.amountIn = v s / v t

theorem tknOf_mem {g : AG K} (w : WF g) {n : Nat} (h : n ∈ g.nodes) : ∃ t, g.tknOf n = some t := by
  have := w.node_lt h
  unfold AG.tknOf
  rw [List.getElem?_eq_getElem this]
  exact ⟨_, rfl⟩

theorem stepMean_consistent {g : AG K} {v : Str → K} (hv : Consistent g v) {x y : Nat} (hne : edgesFrom g x y ≠ []) {s t : Str}
    (hs : g.tknOf x = some s) (ht : g.tknOf y = some t) : stepMean g (x, y) = v s / v t := by
  unfold stepMean
  dsimp only
  have : (edgesFrom g x y).map (fun e => e.amountOut / e.amountIn) = (edgesFrom g x y).map fun _ => v s / v t := by
    apply List.map_congr_left
    intro e he
    obtain ⟨he', rfl, rfl⟩ := mem_edgesFrom.1 he
    exact hv.2 e he' s t hs ht
  rw [this, List.map_const', List.sum_replicate, nsmul_eq_mul]
  have : ((edgesFrom g x y).length : K) ≠ 0 := by
    rw [Nat.cast_ne_zero]
    intro h
    exact hne (List.length_eq_zero_iff.1 h)
  field_simp

theorem prod_consistent {g : AG K} (w : WF g) {v : Str → K} (hv : Consistent g v) {a b : Nat} (ha : a ∈ g.nodes) {s t : Str}
    (hs : g.tknOf a = some s) (ht : g.tknOf b = some t) {l : List Nat} (h : Route g a b l) :
    ((l.zip l.tail).map (stepMean g)).prod = v s / v t := by
  have hm := h.mem w ha
  obtain ⟨h1, h2, h3⟩ := h
  induction l generalizing a s with
  | nil => cases h1
  | cons x l ih =>
    have : x = a := Option.some.inj h1
    subst this
    cases l with
    | nil =>
      have : x = b := Option.some.inj h2
      subst this
      rw [hs] at ht
      have := Option.some.inj ht
      subst this
      simp [div_self (hv.1 s)]
    | cons y l =>
      rw [List.isChain_cons_cons] at h3
      obtain ⟨u, hu⟩ := tknOf_mem w (hm y (by simp))
      have := ih (hm y (by simp)) hu (fun n hn => hm n (by simp [hn])) rfl (by simpa using h2) h3.2
      show (stepMean g (x, y) :: ((y :: l).zip l).map (stepMean g)).prod = _
      rw [List.prod_cons, stepMean_consistent hv h3.1 hs hu]
      rw [List.tail_cons] at this
      rw [this]
      have := hv.1 u
      field_simp

/-- C110: if all edges are priced by a value of each token, the price between two tokens, if there is one, is the ratio of their values,
whichever path is taken. -/
theorem C110_consistent [PySqrt K] {sp : Sp} (hsp : ShortestPaths sp) {dup : Bool} {g : AG K} (hg : Reach dup g)
    {v : Str → K} (hv : Consistent g v) {s t : Str} {x : K} (hx : g.price sp s t = .ok x) : x = v s / v t := by
  by_cases ht : g.edgeType = some true
  · rw [(C110_rejected sp hg s t).1 ht] at hx; cases hx
  · by_cases hst : s = t
    · subst hst
      rw [C110_same sp ht] at hx
      rw [← Except.ok.inj hx, div_self (hv.1 s)]
    · have hx' := hx
      unfold AG.price at hx'
      rw [if_neg ht, if_pos hst, Py.bind_eq_ok] at hx'
      obtain ⟨a, ha, hx'⟩ := hx'
      rw [Py.bind_eq_ok] at hx'
      obtain ⟨b, hb, -⟩ := hx'
      obtain ⟨ma, na⟩ := (C45_lookup hg s).2 a ha
      obtain ⟨mb, nb⟩ := (C45_lookup hg t).2 b hb
      rcases C110_price hsp hg ht hst ha hb with ⟨h, -⟩ | ⟨l, hr, -, hp⟩
      · rw [h] at hx; cases hx
      · rw [hp] at hx
        rw [← Except.ok.inj hx]
        exact prod_consistent (C45_consistent hg) hv ma na nb hr

theorem Route.trans {g : AG K} {a b c : Nat} {l m : List Nat} (h : Route g a b l) (k : Route g b c m) : Route g a c (l ++ m.tail) := by
  obtain ⟨h1, h2, h3⟩ := h
  obtain ⟨k1, k2, k3⟩ := k
  cases m with
  | nil => cases k1
  | cons x m =>
    have : x = b := Option.some.inj k1
    subst this
    cases l with
    | nil => cases h1
    | cons y l =>
      refine ⟨h1, ?_, ?_⟩
      · rw [List.tail_cons, List.getLast?_append, h2]
        cases m with
        | nil => simpa using k2
        | cons z m =>
          rw [List.getLast?_cons_cons] at k2
          rw [k2]; rfl
      · rw [List.tail_cons]
        refine h3.append k3.tail ?_
        intro u hu z hz
        rw [h2] at hu
        have : x = u := Option.some.inj hu
        subst this
        exact (List.isChain_cons.1 k3).1 z hz

/-- C110: prices exist along with those of the two parts of the way: if a first token has a price in terms of a second and that one in
terms of a third, then the first has a price in terms of the third. -/
theorem C110_connected [PySqrt K] {sp : Sp} (hsp : ShortestPaths sp) {dup : Bool} {g : AG K} (hg : Reach dup g) {r s t : Str} {x y : K}
    (hx : g.price sp r s = .ok x) (hy : g.price sp s t = .ok y) : ∃ z, g.price sp r t = .ok z := by
  by_cases ht : g.edgeType = some true
  · rw [(C110_rejected sp hg r s).1 ht] at hx; cases hx
  by_cases h1 : r = s
  · exact ⟨y, h1 ▸ hy⟩
  by_cases h2 : s = t
  · exact ⟨x, h2 ▸ hx⟩
  by_cases h3 : r = t
  · exact ⟨1, h3 ▸ C110_same sp ht r⟩
  have ends : ∀ {s t : Str} {x : K}, s ≠ t → g.price sp s t = .ok x →
      ∃ a b, (g.nodeByTkn s).1 = .ok a ∧ (g.nodeByTkn t).1 = .ok b ∧ ∃ l, Route g a b l := by
    intro s t x hst hx
    have hx' := hx
    unfold AG.price at hx'
    rw [if_neg ht, if_pos hst, Py.bind_eq_ok] at hx'
    obtain ⟨a, ha, hx'⟩ := hx'
    rw [Py.bind_eq_ok] at hx'
    obtain ⟨b, hb, -⟩ := hx'
    rcases C110_price hsp hg ht hst ha hb with ⟨h, -⟩ | ⟨l, hr, -, -⟩
    · rw [h] at hx; cases hx
    · exact ⟨a, b, ha, hb, l, hr⟩
  obtain ⟨a, b, ha, hb, l, hl⟩ := ends h1 hx
  obtain ⟨b', c, hb', hc, m, hm⟩ := ends h2 hy
  rw [hb] at hb'
  have := Except.ok.inj hb'
  subst this
  rcases C110_price hsp hg ht h3 ha hc with ⟨-, h⟩ | ⟨_, _, _, hp⟩
  · exact absurd (hl.trans hm) (h _)
  · exact ⟨_, hp⟩

/-- C110: in the graph of curves whose prices are the ratios of the values of their tokens, every price is the ratio of the values. -/
theorem C110_curves [PySqrt K] {sp : Sp} (hsp : ShortestPaths sp) {cs : List (CPC K)} {v : Str → K} (hv : ∀ s, v s ≠ 0)
    (hp : ∀ c ∈ cs, c.p = v c.tknb / v c.tknq) {g : AG K} (hg : AG.empty.addCurves cs = (.ok (), g)) {s t : Str} {x : K}
    (hx : g.price sp s t = .ok x) : x = v s / v t := by
  obtain ⟨g', hg', w, hc, hd⟩ := C90_curves (K := K) WF.empty (by intro d hd; cases hd) cs
  rw [hg] at hg'
  obtain rfl := (Prod.mk.inj hg').2
  have hr : Reach false g := by
    have := Reach.addCurves (dup := false) cs (Reach.empty (K := K))
    rw [hg] at this
    exact this
  refine C110_consistent hsp hr ⟨hv, ?_⟩ hx
  intro e he a b ha hb
  have hm : dataOf g e ∈ datas g := List.mem_map.2 ⟨e, he, rfl⟩
  rw [hd] at hm
  have hm : dataOf g e ∈ cs.flatMap curveEdges := by simpa [datas, AG.edgeList, AG.empty] using hm
  obtain ⟨c, hcm, hm⟩ := List.mem_flatMap.1 hm
  have hpc := hp c hcm
  unfold curveEdges at hm
  rcases List.mem_pair.1 hm with hm | hm
  · have h1 : g.tknOf e.nodeIn = some c.tknb := congrArg EdgeData.tknIn hm
    have h2 : g.tknOf e.nodeOut = some c.tknq := congrArg EdgeData.tknOut hm
    have h3 : e.amountIn = -1 := congrArg EdgeData.amountIn hm
    have h4 : e.amountOut = -c.p := congrArg EdgeData.amountOut hm
    rw [ha] at h1
    rw [hb] at h2
    rw [h3, h4, Option.some.inj h1, Option.some.inj h2, ← hpc]
    simp
  · have h1 : g.tknOf e.nodeIn = some c.tknq := congrArg EdgeData.tknIn hm
    have h2 : g.tknOf e.nodeOut = some c.tknb := congrArg EdgeData.tknOut hm
    have h3 : e.amountIn = -1 := congrArg EdgeData.amountIn hm
    have h4 : e.amountOut = -c.p⁻¹ := congrArg EdgeData.amountOut hm
    rw [ha] at h1
    rw [hb] at h2
    rw [h3, h4, Option.some.inj h1, Option.some.inj h2, hpc]
    simp

/-- C110: in the graph of a list of curves with positive prices, the prices of two tokens that some curve trades multiply, there and
back, to at least one, and to exactly one only if all curves between the two have the same price. -/
theorem C110_roundtrip [PySqrt K] {sp : Sp} (hsp : ShortestPaths sp) {cs : List (CPC K)} (hp : ∀ c ∈ cs, 0 < c.p) {s t : Str}
    (hst : s ≠ t) {c₀ : CPC K} (h₀ : c₀ ∈ cs) (hq : quoteTo s t c₀ ≠ none) :
    ∃ g x y, AG.empty.addCurves cs = (.ok (), g) ∧ g.price sp s t = .ok x ∧ g.price sp t s = .ok y ∧ 1 ≤ x * y ∧
      (x * y = 1 ↔ ∀ c ∈ cs, ∀ d ∈ cs, ∀ x y, quoteTo s t c = some x → quoteTo s t d = some y → x = y) := by
  obtain ⟨g, a, b, m, l, hg, ha, hb, hm, h1, h2⟩ := C90_roundtrip hp hst h₀ hq
  have hr : Reach false g := by
    have := Reach.addCurves (dup := false) cs (Reach.empty (K := K))
    rw [hg] at this
    exact this
  have hne : ∀ p ∈ [(a, b), (b, a)], edgesFrom g p.1 p.2 ≠ [] := by
    intro p hp hc
    obtain ⟨e, he⟩ := C90_broken g ⟨p, hp, hc⟩
    rw [hm] at he
    cases he
  have hcon : ∀ e ∈ g.edgeList, e.amountIn < 0 := by
    obtain ⟨g', hg', w, hc, hd⟩ := C90_curves (K := K) WF.empty (by intro d hd; cases hd) cs
    rw [hg] at hg'
    obtain rfl := (Prod.mk.inj hg').2
    intro e he
    exact hc (dataOf g e) (List.mem_map.2 ⟨e, he, rfl⟩)
  have ht : g.edgeType ≠ some true := by
    unfold AG.edgeType
    cases hl : g.edgeList with
    | nil => simp
    | cons f fs =>
      have := hcon f (by rw [hl]; simp)
      simp [Edge.isAmount, this]
  rw [C90_multiplier g fun p hp => ⟨hne p hp, fun e he => (hcon e (mem_edgesFrom.1 he).1).ne⟩] at hm
  have hm := (Prod.mk.inj (Except.ok.inj hm)).1
  simp only [List.map_cons, List.map_nil, List.prod_cons, List.prod_nil, mul_one] at hm
  refine ⟨g, _, _, hg, C110_direct hsp hr ht hst ha hb (hne (a, b) (by simp)), C110_direct hsp hr ht hst.symm hb ha (hne (b, a) (by simp)), ?_⟩
  have : stepMean g (a, b) * stepMean g (b, a) = m := hm
  unfold stepMean at this
  dsimp only at this
  rw [this]
  exact ⟨h1, h2⟩

/-- C110: with units, the price comes with its description, except that asking for a token in terms of itself raises. -/
theorem C110_units_partial (sp : Sp) (g : AG K) {s t : Str} (hst : s ≠ t) {x : K} (hx : g.price sp s t = .ok x) :
    g.priceUnits sp s t = .ok (x, t ++ " per ".toList ++ s ++ " [".toList ++ s ++ "/".toList ++ t ++ "]".toList) := by
  unfold AG.priceUnits
  rw [hx, Py.ok_bind, if_neg hst]

/-- C110 fails for a token in terms of itself with units, although it has the price one. -/
theorem C110_units_violated (sp : Sp) {g : AG K} (ht : g.edgeType ≠ some true) (s : Str) :
    g.price sp s s = .ok 1 ∧ g.priceUnits sp s s = .error .attr := by
  refine ⟨C110_same sp ht s, ?_⟩
  unfold AG.priceUnits
  rw [C110_same sp ht, Py.ok_bind, if_pos rfl]

/-! ## The price table -/

theorem nodeByObj_eq [PySqrt K] {g : AG K} (hg : Reach false g) {n : Nat} (hn : n ∈ g.nodes) : g.nodeByObj n = .ok n := by
  obtain ⟨t, ht⟩ := tknOf_mem (C45_consistent hg) hn
  unfold AG.nodeByObj
  rw [ht]
  dsimp only
  rw [C45_found_partial hg hn ht, Py.ok_bind, if_pos rfl]

theorem priceObj_eq [PySqrt K] (sp : Sp) {g : AG K} (hg : Reach false g) {a b : Nat} (ha : a ∈ g.nodes) (hb : b ∈ g.nodes) {s t : Str}
    (hs : g.tknOf a = some s) (ht : g.tknOf b = some t) : g.priceObj sp a b = g.price sp s t := by
  unfold AG.priceObj AG.price
  by_cases h1 : g.edgeType = some true
  · rw [if_pos h1, if_pos h1]
  · rw [if_neg h1, if_neg h1]
    by_cases hab : a = b
    · subst hab
      rw [hs] at ht
      obtain rfl := Option.some.inj ht
      rw [if_neg (not_not.2 rfl), if_neg (not_not.2 rfl)]
    · have hst : s ≠ t := by
        intro h
        exact hab (unique_of_reach hg a ha b hb (by rw [hs, ht, h]))
      rw [if_pos hab, if_pos hst, nodeByObj_eq hg ha, nodeByObj_eq hg hb, C45_found_partial hg ha hs, C45_found_partial hg hb ht]

theorem mapM_get {α β : Type} {f : α → Py β} {l : List α} {r : List β} (h : l.mapM f = .ok r) :
    r.length = l.length ∧ ∀ (i : Nat) (a : α) (b : β), l[i]? = some a → r[i]? = some b → f a = .ok b := by
  induction l generalizing r with
  | nil =>
    obtain rfl := Except.ok.inj h
    exact ⟨rfl, fun i a b ha => by simp at ha⟩
  | cons x l ih =>
    rw [List.mapM_cons, Py.bind_eq_ok] at h
    obtain ⟨y, hy, h⟩ := h
    rw [Py.bind_eq_ok] at h
    obtain ⟨ys, hys, h⟩ := h
    obtain rfl := Except.ok.inj h
    obtain ⟨h1, h2⟩ := ih hys
    refine ⟨by simp [h1], ?_⟩
    intro i a b ha hb
    cases i with
    | zero =>
      obtain rfl := Option.some.inj ha
      obtain rfl := Option.some.inj hb
      exact hy
    | succ i => exact h2 i a b ha hb

theorem tableNodes_eq (g : AG K) (incl excl : Option (List Nat)) :
    g.tableNodes incl excl = (incl.getD g.nodes).filter fun n => n ∉ excl.getD [] := by
  unfold AG.tableNodes
  cases excl with
  | none => simp
  | some x => rfl

/-- C111: the price table has one row and one column for each token asked for and not excluded, in order; the entry in the row of a
token and the column of another is the price of the one in terms of the other. -/
theorem C111_table [PySqrt K] (sp : Sp) {g : AG K} (hg : Reach false g) {incl excl : Option (List Nat)}
    (hi : ∀ l, incl = some l → ∀ n ∈ l, n ∈ g.nodes) {data : List (List K)} {labels : List Str}
    (h : g.pricetable sp incl excl = .ok (data, labels)) :
    (labels.map some = ((incl.getD g.nodes).filter fun n => n ∉ excl.getD []).map g.tknOf) ∧ data.length = labels.length ∧
      (∀ row ∈ data, row.length = labels.length) ∧
      ∀ (i j : Nat) (row : List K) (x : K) (s t : Str), data[i]? = some row → row[j]? = some x → labels[i]? = some s →
        labels[j]? = some t → g.price sp s t = .ok x := by
  unfold AG.pricetable at h
  dsimp only at h
  rw [tableNodes_eq] at h
  obtain ⟨ns, hnse⟩ : ∃ ns, ns = (incl.getD g.nodes).filter fun n => n ∉ excl.getD [] := ⟨_, rfl⟩
  have hmem : ∀ n ∈ ns, n ∈ g.nodes := by
    intro n hn
    rw [hnse] at hn
    have := (List.mem_filter.1 hn).1
    cases incl with
    | none => exact this
    | some l => exact hi l rfl n this
  rw [← hnse] at h ⊢
  have w := C45_consistent hg
  obtain ⟨tk, htk⟩ : ∃ tk : Nat → Str, ∀ n ∈ g.nodes, g.tknOf n = some (tk n) :=
    ⟨fun n => (g.tknOf n).getD [], fun n hn => by obtain ⟨t, ht⟩ := tknOf_mem w hn; simp [ht]⟩
  rw [mapM_ok (h := tk) fun n hn => by rw [htk n (hmem n hn)], Py.ok_bind, Py.bind_eq_ok] at h
  obtain ⟨d, hd, h⟩ := h
  obtain ⟨rfl, rfl⟩ := Prod.mk.inj (Except.ok.inj h)
  obtain ⟨l1, l2⟩ := mapM_get hd
  refine ⟨?_, by simpa using l1, ?_, ?_⟩
  · rw [List.map_map]
    exact List.map_congr_left fun n hn => (htk n (hmem n hn)).symm
  · intro row hrow
    obtain ⟨i, hi⟩ := List.mem_iff_getElem?.1 hrow
    have hlt : i < ns.length := by
      rw [← l1]
      exact (List.getElem?_eq_some_iff.1 hi).1
    have := mapM_get (l2 i _ row (List.getElem?_eq_getElem hlt) hi)
    rw [List.length_map]
    exact this.1
  · intro i j row x s t hr hx hs ht
    rw [List.getElem?_map, Option.map_eq_some_iff] at hs ht
    obtain ⟨a, ha, rfl⟩ := hs
    obtain ⟨b, hb, rfl⟩ := ht
    have hrow := l2 i a row ha hr
    have hx' := (mapM_get hrow).2 j b x hb hx
    have ma := hmem a (List.mem_of_getElem? ha)
    have mb := hmem b (List.mem_of_getElem? hb)
    rw [← priceObj_eq sp hg ma mb (htk a ma) (htk b mb)]
    exact hx'

/-- C111: the diagonal of the price table is one. -/
theorem C111_diagonal [PySqrt K] (sp : Sp) {g : AG K} (hg : Reach false g) {incl excl : Option (List Nat)}
    (hi : ∀ l, incl = some l → ∀ n ∈ l, n ∈ g.nodes) {data : List (List K)} {labels : List Str}
    (h : g.pricetable sp incl excl = .ok (data, labels)) {i : Nat} {row : List K} {x : K} (hr : data[i]? = some row)
    (hx : row[i]? = some x) : x = 1 := by
  obtain ⟨-, h2, h3, h4⟩ := C111_table sp hg hi h
  have hlt : i < labels.length := by
    rw [← h2]
    exact (List.getElem?_eq_some_iff.1 hr).1
  have hp := h4 i i row x _ _ hr hx (List.getElem?_eq_getElem hlt) (List.getElem?_eq_getElem hlt)
  by_cases ht : g.edgeType = some true
  · rw [(C110_rejected sp hg _ _).1 ht] at hp; cases hp
  · rw [C110_same sp ht] at hp
    exact (Except.ok.inj hp).symm

/-- C111: if all edges are priced by a value of each token, the table is consistent: entries multiply along any intermediate token, and
opposite entries are reciprocal. -/
theorem C111_consistent [PySqrt K] {sp : Sp} (hsp : ShortestPaths sp) {g : AG K} (hg : Reach false g) {v : Str → K} (hv : Consistent g v)
    {incl excl : Option (List Nat)} (hi : ∀ l, incl = some l → ∀ n ∈ l, n ∈ g.nodes) {data : List (List K)} {labels : List Str}
    (h : g.pricetable sp incl excl = .ok (data, labels)) {i j k : Nat} {ri rj : List K} {x y z : K} (h1 : data[i]? = some ri)
    (h2 : data[j]? = some rj) (hx : ri[j]? = some x) (hy : rj[k]? = some y) (hz : ri[k]? = some z) : x * y = z := by
  obtain ⟨-, h5, h6, h7⟩ := C111_table sp hg hi h
  have lt : ∀ {i : Nat} {r : List K}, data[i]? = some r → i < labels.length := by
    intro i r hr
    rw [← h5]
    exact (List.getElem?_eq_some_iff.1 hr).1
  have lk : k < labels.length := by
    rw [← h6 ri (List.mem_of_getElem? h1)]
    exact (List.getElem?_eq_some_iff.1 hz).1
  have li := List.getElem?_eq_getElem (lt h1)
  have lj := List.getElem?_eq_getElem (lt h2)
  have lk := List.getElem?_eq_getElem lk
  have e1 := C110_consistent hsp hg hv (h7 _ _ _ _ _ _ h1 hx li lj)
  have e2 := C110_consistent hsp hg hv (h7 _ _ _ _ _ _ h2 hy lj lk)
  have e3 := C110_consistent hsp hg hv (h7 _ _ _ _ _ _ h1 hz li lk)
  rw [e1, e2, e3]
  have := hv.1 (labels[j]'(lt h2))
  field_simp

/-- C111: a table exists exactly if the price of every two of its tokens exists. -/
theorem C111_exists [PySqrt K] (sp : Sp) {g : AG K} (hg : Reach false g) (excl : Option (List Nat)) :
    (∃ r, g.pricetable sp none excl = .ok r) ↔ ∀ a ∈ g.nodes, ∀ b ∈ g.nodes, a ∉ excl.getD [] → b ∉ excl.getD [] → ∀ s t,
      g.tknOf a = some s → g.tknOf b = some t → ∃ x, g.price sp s t = .ok x := by
  have w := C45_consistent hg
  constructor
  · rintro ⟨⟨data, labels⟩, h⟩ a ha b hb hax hbx s t hs ht
    obtain ⟨h1, h2, h3, h4⟩ := C111_table sp hg (fun l hl => by cases hl) h
    have idx : ∀ {a : Nat} {s : Str}, a ∈ g.nodes → a ∉ excl.getD [] → g.tknOf a = some s → ∃ i : Nat, labels[i]? = some s := by
      intro a s ha hax hs
      have : some s ∈ labels.map some := by
        rw [h1, List.mem_map]
        exact ⟨a, List.mem_filter.2 ⟨ha, by simpa using hax⟩, hs⟩
      obtain ⟨s', hs', he⟩ := List.mem_map.1 this
      rw [← Option.some.inj he]
      exact List.mem_iff_getElem?.1 hs'
    obtain ⟨i, hi⟩ := idx ha hax hs
    obtain ⟨j, hj⟩ := idx hb hbx ht
    have li : i < data.length := by
      rw [h2]
      exact (List.getElem?_eq_some_iff.1 hi).1
    have lj : j < data[i].length := by
      rw [h3 _ (List.getElem_mem li)]
      exact (List.getElem?_eq_some_iff.1 hj).1
    exact ⟨_, h4 i j _ _ s t (List.getElem?_eq_getElem li) (List.getElem?_eq_getElem lj) hi hj⟩
  · intro h
    obtain ⟨tk, htk⟩ : ∃ tk : Nat → Str, ∀ n ∈ g.nodes, g.tknOf n = some (tk n) :=
      ⟨fun n => (g.tknOf n).getD [], fun n hn => by obtain ⟨t, ht⟩ := tknOf_mem w hn; simp [ht]⟩
    unfold AG.pricetable
    dsimp only
    rw [tableNodes_eq, Option.getD_none]
    have hin : ∀ n ∈ g.nodes.filter (fun n => n ∉ excl.getD []), n ∈ g.nodes ∧ n ∉ excl.getD [] := by
      intro n hn
      simpa using List.mem_filter.1 hn
    rw [mapM_ok (h := tk) fun n hn => by rw [htk n (hin n hn).1], Py.ok_bind]
    rw [mapM_ok (h := fun a => (g.nodes.filter fun n => n ∉ excl.getD []).map fun b => ((g.priceObj sp a b).toOption).getD 0)]
    · exact ⟨_, rfl⟩
    · intro a ha
      apply mapM_ok
      intro b hb
      obtain ⟨ma, xa⟩ := hin a ha
      obtain ⟨mb, xb⟩ := hin b hb
      obtain ⟨x, hx⟩ := h a ma b mb xa xb _ _ (htk a ma) (htk b mb)
      rw [priceObj_eq sp hg ma mb (htk a ma) (htk b mb), hx]
      rfl

end

/-! ## Examples -/

/-- Three tokens in a row, A worth 2 B and B worth 3 C. -/
def exLine : AG ℚ :=
  (((AG.empty : AG ℚ).addConnection { tknIn := "A".toList, tknOut := "B".toList, price := some 2 }).2.addConnection
    { tknIn := "B".toList, tknOut := "C".toList, price := some 3 }).2

theorem exLine_reach [PySqrt ℚ] : Reach false exLine := .addConnection _ (.addConnection _ .empty)

example : exLine.price bfs "A".toList "C".toList = .ok 6 ∧ exLine.price bfs "C".toList "A".toList = .ok (1 / 6) ∧
    exLine.priceUnits bfs "A".toList "B".toList = .ok (2, "B per A [A/B]".toList) := by decide +kernel

example : exLine.pricetable bfs none none =
    .ok ([[1, 2, 6], [1 / 2, 1, 3], [1 / 6, 1 / 3, 1]], ["A".toList, "B".toList, "C".toList]) ∧
    exLine.pricetable bfs (some [0, 1, 2]) (some [1]) = .ok ([[1, 6], [1 / 6, 1]], ["A".toList, "C".toList]) := by decide +kernel

/-- The values of the tokens that price the edges of the example. -/
def exValue (s : Str) : ℚ := if s = "A".toList then 6 else if s = "B".toList then 3 else 1

example : Consistent exLine exValue := by
  refine ⟨fun s => ?_, ?_⟩
  · unfold exValue; split
    · norm_num
    · split <;> norm_num
  · have : ∀ e ∈ exLine.edgeList, e.amountOut / e.amountIn =
        exValue ((exLine.tknOf e.nodeIn).getD []) / exValue ((exLine.tknOf e.nodeOut).getD []) := by decide +kernel
    intro e he s t hs ht
    have := this e he
    rwa [hs, ht] at this

/-- Two curves between the same tokens at prices 2 and 8: there and back gives 25/16. -/
example : ((AG.empty : AG ℚ).addCurves [⟨2, 1, 1, 2, "A/B".toList, none, []⟩, ⟨8, 1, 1, 8, "A/B".toList, none, []⟩]).2.price bfs
      "A".toList "B".toList = .ok 5 ∧
    ((AG.empty : AG ℚ).addCurves [⟨2, 1, 1, 2, "A/B".toList, none, []⟩, ⟨8, 1, 1, 8, "A/B".toList, none, []⟩]).2.price bfs
      "B".toList "A".toList = .ok (5 / 16) := by decide +kernel

/-- A direct connection beats a better way through a third token; a token in another part of the graph has no price. -/
example : ((exLine.addConnection { tknIn := "A".toList, tknOut := "C".toList, price := some 5 }).2.addNode "D".toList).price bfs
      "A".toList "C".toList = .ok 5 ∧
    ((exLine.addConnection { tknIn := "A".toList, tknOut := "C".toList, price := some 5 }).2.addNode "D".toList).price bfs
      "A".toList "D".toList = .error (.custom "NetworkXNoPath") := by decide +kernel

end Arb

end Carbon
