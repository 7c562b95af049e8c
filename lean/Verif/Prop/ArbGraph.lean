import Verif.Prop.CpcContainer
import Verif.Prop.ArbRun

/-!
# C45: the bookkeeping of arbitrage graphs

`Reach` collects the graphs that can be obtained from the empty one by any sequence of the operations on tokens, amounts and curves.
-/

set_option linter.unusedSectionVars false

namespace Carbon

open CarbonPair (pyDiv)

namespace Arb

section
variable {K : Type} [Field K] [LinearOrder K] [IsStrictOrderedRing K]

theorem modify_concat {α : Type} (l : List α) (a : α) (f : α → α) : (l ++ [a]).modify l.length f = l ++ [f a] := by
  induction l with
  | nil => rfl
  | cons b l ih => simp [ih]

/-- The consistency of a graph. -/
structure WF (g : AG K) : Prop where
  /-- Every node is stored at the position given by its index. -/
  nodeIx : ∀ i n : Nat, g.nodes[i]? = some n → ∃ v : Node K, g.nodeObjs[n]? = some v ∧ v.ix = some i
  /-- Every edge is stored at the position given by its index. -/
  edgeIx : ∀ i k : Nat, g.edges[i]? = some k → ∃ e : Edge K, g.edgeObjs[k]? = some e ∧ e.ix = some i
  /-- A token is looked up as a node of the graph with that name. -/
  lookup : ∀ t n, dictGet g.byTkn t = some n → n ∈ g.nodes ∧ g.tknOf n = some t
  /-- The token of every node of the graph can be looked up. -/
  complete : ∀ n ∈ g.nodes, ∀ t, g.tknOf n = some t → ∃ m, dictGet g.byTkn t = some m
  /-- All edges are of one type. -/
  oneType : ∀ e ∈ g.edgeList, ∀ f ∈ g.edgeList, e.isAmount = f.isAmount
  /-- The ends of all edges are nodes of the graph. -/
  ends : ∀ e ∈ g.edgeList, e.nodeIn ∈ g.nodes ∧ e.nodeOut ∈ g.nodes
  /-- Exactly the amount-type edges have a remaining capacity. -/
  state : ∀ e ∈ g.edgeList, e.remaining.isSome = e.isAmount

theorem WF.nodes_nodup {g : AG K} (h : WF g) : g.nodes.Nodup := by
  rw [List.nodup_iff_getElem?_ne_getElem?]
  intro i j hij hj he
  have hi : i < g.nodes.length := by omega
  obtain ⟨v, hv, hvi⟩ := h.nodeIx i _ (List.getElem?_eq_getElem hi)
  obtain ⟨w, hw, hwj⟩ := h.nodeIx j _ (List.getElem?_eq_getElem hj)
  rw [List.getElem?_eq_getElem hi, List.getElem?_eq_getElem hj] at he
  rw [Option.some.inj he, hw] at hv
  rw [← Option.some.inj hv, hwj] at hvi
  have := Option.some.inj hvi
  omega

theorem WF.edges_nodup {g : AG K} (h : WF g) : g.edges.Nodup := by
  rw [List.nodup_iff_getElem?_ne_getElem?]
  intro i j hij hj he
  have hi : i < g.edges.length := by omega
  obtain ⟨v, hv, hvi⟩ := h.edgeIx i _ (List.getElem?_eq_getElem hi)
  obtain ⟨w, hw, hwj⟩ := h.edgeIx j _ (List.getElem?_eq_getElem hj)
  rw [List.getElem?_eq_getElem hi, List.getElem?_eq_getElem hj] at he
  rw [Option.some.inj he, hw] at hv
  rw [← Option.some.inj hv, hwj] at hvi
  have := Option.some.inj hvi
  omega

theorem WF.node_lt {g : AG K} (h : WF g) {n : Nat} (hn : n ∈ g.nodes) : n < g.nodeObjs.length := by
  obtain ⟨i, hi⟩ := List.mem_iff_getElem?.1 hn
  obtain ⟨v, hv, -⟩ := h.nodeIx i n hi
  exact (List.getElem?_eq_some_iff.1 hv).1

theorem WF.edge_lt {g : AG K} (h : WF g) {k : Nat} (hk : k ∈ g.edges) : k < g.edgeObjs.length := by
  obtain ⟨i, hi⟩ := List.mem_iff_getElem?.1 hk
  obtain ⟨v, hv, -⟩ := h.edgeIx i k hi
  exact (List.getElem?_eq_some_iff.1 hv).1

theorem mem_edgeList {g : AG K} {e : Edge K} : e ∈ g.edgeList ↔ ∃ k ∈ g.edges, g.edgeObjs[k]? = some e := by
  unfold AG.edgeList
  rw [List.mem_filterMap]

theorem WF.empty : WF (AG.empty : AG K) := by
  constructor <;> intro x y <;> simp [AG.empty, AG.edgeList, dictGet] at *

theorem addNode_eq (g : AG K) (t : Str) :
    g.addNode t = { g with
      nodeObjs := g.nodeObjs ++ [⟨t, some g.nodes.length, 0⟩]
      nodes := g.nodes ++ [g.nodeObjs.length]
      byTkn := dictSet g.byTkn t g.nodeObjs.length } := by
  unfold AG.addNode AG.newNode AG.addNodeObj
  dsimp only
  rw [List.getElem?_concat_length]
  dsimp only
  rw [modify_concat]
  rfl

theorem tknOf_append {g : AG K} {l : List (Node K)} {n : Nat} (h : n < g.nodeObjs.length) :
    ((g.nodeObjs ++ l)[n]?).map Node.tkn = g.tknOf n := by
  unfold AG.tknOf
  rw [List.getElem?_append_left h]

theorem WF.addNode {g : AG K} (h : WF g) (t : Str) : WF (g.addNode t) := by
  rw [addNode_eq]
  constructor
  · intro i n hi
    dsimp only at hi ⊢
    rw [List.getElem?_append] at hi
    split at hi
    · obtain ⟨v, hv, hvi⟩ := h.nodeIx i n hi
      refine ⟨v, ?_, hvi⟩
      rw [List.getElem?_append_left (List.getElem?_eq_some_iff.1 hv).1, hv]
    · rename_i hlt
      have hi0 : i - g.nodes.length = 0 := by
        by_contra hne
        rw [List.getElem?_eq_none (by simp; omega)] at hi
        cases hi
      rw [hi0] at hi
      have : g.nodeObjs.length = n := by simpa using hi
      subst this
      refine ⟨_, List.getElem?_concat_length, ?_⟩
      dsimp only
      congr 1
      omega
  · exact h.edgeIx
  · intro s n hs
    dsimp only at hs ⊢
    rw [dictGet_set] at hs
    split at hs
    · rename_i he
      have := Option.some.inj hs
      subst this
      subst he
      refine ⟨by simp, ?_⟩
      unfold AG.tknOf
      dsimp only
      rw [List.getElem?_concat_length]
      rfl
    · obtain ⟨h1, h2⟩ := h.lookup s n hs
      refine ⟨by simp [h1], ?_⟩
      unfold AG.tknOf
      exact (tknOf_append (h.node_lt h1)).trans h2
  · intro n hn s hs
    dsimp only at hn hs ⊢
    rw [dictGet_set]
    split
    · exact ⟨_, rfl⟩
    · rename_i hne
      rcases List.mem_append.1 hn with hn | hn
      · refine h.complete n hn s ?_
        rw [← hs]
        exact (tknOf_append (h.node_lt hn)).symm
      · exfalso
        have := List.mem_singleton.1 hn
        subst this
        unfold AG.tknOf at hs
        dsimp only at hs
        rw [List.getElem?_concat_length] at hs
        exact hne (Option.some.inj hs)
  · exact h.oneType
  · intro e he
    have := h.ends e he
    exact ⟨by simp [this.1], by simp [this.2]⟩
  · exact h.state

/-- What changes when nodes are added. -/
structure Extends (g g' : AG K) : Prop where
  nodes : ∀ n ∈ g.nodes, n ∈ g'.nodes
  tkn : ∀ n ∈ g.nodes, g'.tknOf n = g.tknOf n
  edges : g'.edges = g.edges
  edgeObjs : g'.edgeObjs = g.edgeObjs

theorem Extends.refl (g : AG K) : Extends g g := ⟨fun _ h => h, fun _ _ => rfl, rfl, rfl⟩

theorem Extends.trans {a b c : AG K} (h : Extends a b) (k : Extends b c) : Extends a c :=
  ⟨fun n hn => k.nodes n (h.nodes n hn), fun n hn => (k.tkn n (h.nodes n hn)).trans (h.tkn n hn), k.edges.trans h.edges,
    k.edgeObjs.trans h.edgeObjs⟩

theorem Extends.addNode {g : AG K} (h : WF g) (t : Str) : Extends g (g.addNode t) := by
  rw [addNode_eq]
  refine ⟨fun n hn => by simp [hn], fun n hn => ?_, rfl, rfl⟩
  unfold AG.tknOf
  exact tknOf_append (h.node_lt hn)

/-- Looking up a token, creating its node if necessary. -/
theorem nodeByTkn_create {g : AG K} (h : WF g) (t : Str) :
    ∃ n g', g.nodeByTkn t true = (.ok n, g') ∧ WF g' ∧ Extends g g' ∧ n ∈ g'.nodes ∧ g'.tknOf n = some t := by
  unfold AG.nodeByTkn
  cases ht : dictGet g.byTkn t with
  | some n => exact ⟨n, g, rfl, h, Extends.refl g, (h.lookup t n ht).1, (h.lookup t n ht).2⟩
  | none =>
    have hg : dictGet (g.addNode t).byTkn t = some g.nodeObjs.length := by
      rw [addNode_eq]
      dsimp only
      rw [dictGet_set, if_pos rfl]
    simp only [if_true, hg]
    exact ⟨_, _, rfl, h.addNode t, Extends.addNode h t, ((h.addNode t).lookup t _ hg).1, ((h.addNode t).lookup t _ hg).2⟩

theorem edgeList_append {g : AG K} (h : WF g) (e : Edge K) :
    AG.edgeList { g with edgeObjs := g.edgeObjs ++ [e] } = g.edgeList := by
  unfold AG.edgeList
  dsimp only
  apply List.filterMap_congr
  intro k hk
  rw [List.getElem?_append_left (h.edge_lt hk)]

theorem WF.newEdge {g : AG K} (h : WF g) (e : Edge K) : WF (g.newEdge e).2 := by
  unfold AG.newEdge
  dsimp only
  constructor
  · exact h.nodeIx
  · intro i k hk
    obtain ⟨f, hf, hfi⟩ := h.edgeIx i k hk
    exact ⟨f, by dsimp only; rw [List.getElem?_append_left (List.getElem?_eq_some_iff.1 hf).1, hf], hfi⟩
  · exact h.lookup
  · exact h.complete
  · rw [edgeList_append h]; exact h.oneType
  · rw [edgeList_append h]; exact h.ends
  · rw [edgeList_append h]; exact h.state

theorem edgeList_add {g : AG K} (h : WF g) (e : Edge K) :
    AG.edgeList { g with edgeObjs := g.edgeObjs ++ [e], edges := g.edges ++ [g.edgeObjs.length] } = g.edgeList ++ [e] := by
  have := edgeList_append h e
  unfold AG.edgeList at this ⊢
  dsimp only at this ⊢
  rw [List.filterMap_append, this]
  simp

/-- Adding a new edge. -/
theorem addNew_eq {g : AG K} (h : WF g) (e : Edge K) :
    (g.newEdge e).2.addEdgeObj (g.newEdge e).1 =
      if some e.isAmount ≠ g.edgeType ∧ g.edgeType ≠ none then (.error .value, { g with edgeObjs := g.edgeObjs ++ [e] })
      else (.ok (), { g with
        edgeObjs := g.edgeObjs ++ [{ e with ix := some g.edges.length }], edges := g.edges ++ [g.edgeObjs.length] }) := by
  have ht : AG.edgeType (g.newEdge e).2 = g.edgeType := by
    unfold AG.edgeType AG.newEdge
    dsimp only
    rw [edgeList_append h]
  unfold AG.addEdgeObj
  rw [ht]
  unfold AG.newEdge
  dsimp only
  rw [List.getElem?_concat_length]
  dsimp only
  rw [modify_concat]

theorem type_ok {g : AG K} (h : WF g) {b : Bool} (hb : ¬ (some b ≠ g.edgeType ∧ g.edgeType ≠ none)) :
    ∀ f ∈ g.edgeList, f.isAmount = b := by
  intro f hf
  unfold AG.edgeType at hb
  cases hl : g.edgeList with
  | nil => rw [hl] at hf; simp at hf
  | cons a l =>
    rw [hl] at hb
    simp at hb
    rw [hb]
    exact h.oneType f hf a (by rw [hl]; simp)

theorem WF.addNew {g : AG K} (h : WF g) {e : Edge K} (hin : e.nodeIn ∈ g.nodes) (hout : e.nodeOut ∈ g.nodes)
    (hs : e.remaining.isSome = e.isAmount) : WF ((g.newEdge e).2.addEdgeObj (g.newEdge e).1).2 := by
  rw [addNew_eq h]
  split
  · exact h.newEdge e
  · rename_i hb
    have ht := type_ok h hb
    have hl := edgeList_add h { e with ix := some g.edges.length }
    constructor
    · exact h.nodeIx
    · intro i k hi
      dsimp only at hi ⊢
      rw [List.getElem?_append] at hi
      split at hi
      · obtain ⟨v, hv, hvi⟩ := h.edgeIx i k hi
        refine ⟨v, ?_, hvi⟩
        rw [List.getElem?_append_left (List.getElem?_eq_some_iff.1 hv).1, hv]
      · rename_i hlt
        have hi0 : i - g.edges.length = 0 := by
          by_contra hne
          rw [List.getElem?_eq_none (by simp; omega)] at hi
          cases hi
        rw [hi0] at hi
        have : g.edgeObjs.length = k := by simpa using hi
        subst this
        refine ⟨_, List.getElem?_concat_length, ?_⟩
        dsimp only
        congr 1
        omega
    · exact h.lookup
    · exact h.complete
    · dsimp only
      rw [hl]
      have key : ∀ f ∈ g.edgeList ++ [{ e with ix := some g.edges.length }], f.isAmount = e.isAmount := by
        intro f hf
        rcases List.mem_append.1 hf with hf | hf
        · exact ht f hf
        · rw [List.mem_singleton.1 hf]; rfl
      intro f hf f' hf'
      rw [key f hf, key f' hf']
    · dsimp only
      rw [hl]
      intro f hf
      rcases List.mem_append.1 hf with hf | hf
      · exact h.ends f hf
      · rw [List.mem_singleton.1 hf]; exact ⟨hin, hout⟩
    · dsimp only
      rw [hl]
      intro f hf
      rcases List.mem_append.1 hf with hf | hf
      · exact h.state f hf
      · rw [List.mem_singleton.1 hf]; exact hs

theorem make_state (a : Nat) (x : K) (b : Nat) (y : K) (inv : Bool) (uid : Option Str) :
    (Edge.make a x b y inv uid).remaining.isSome = (Edge.make a x b y inv uid).isAmount := by
  unfold Edge.make Edge.isAmount
  dsimp only
  split <;> simp [*]

/-- Two lookups with creation. -/
theorem twoNodes {g : AG K} (h : WF g) (s t : Str) :
    ∃ a b g1 g2, g.nodeByTkn s true = (.ok a, g1) ∧ g1.nodeByTkn t true = (.ok b, g2) ∧ WF g2 ∧ Extends g g2 ∧
      a ∈ g2.nodes ∧ b ∈ g2.nodes ∧ g2.tknOf a = some s ∧ g2.tknOf b = some t := by
  obtain ⟨a, g1, h1, w1, e1, m1, t1⟩ := nodeByTkn_create h s
  obtain ⟨b, g2, h2, w2, e2, m2, t2⟩ := nodeByTkn_create w1 t
  exact ⟨a, b, g1, g2, h1, h2, w2, e1.trans e2, e2.nodes a m1, m2, (e2.tkn a m1).trans t1, t2⟩

theorem addEdge_cases {g : AG K} (h : WF g) (s : Str) (x : K) (t : Str) (y : K) (inv : Bool) (uid : Option Str) :
    (¬ (0 < x ∧ 0 < y) ∧ g.addEdge s x t y inv uid = (.error .assertion, g)) ∨
    (0 < x ∧ 0 < y ∧ ∃ a b g2, WF g2 ∧ Extends g g2 ∧ a ∈ g2.nodes ∧ b ∈ g2.nodes ∧ g2.tknOf a = some s ∧ g2.tknOf b = some t ∧
      g.addEdge s x t y inv uid = (g2.newEdge (Edge.make a x b y inv uid)).2.addEdgeObj (g2.newEdge (Edge.make a x b y inv uid)).1) := by
  unfold AG.addEdge
  by_cases hx : 0 < x
  · by_cases hy : 0 < y
    · right
      rw [if_neg (not_not.2 hx), if_neg (not_not.2 hy)]
      obtain ⟨a, b, g1, g2, h1, h2, w, ex, ma, mb, ta, tb⟩ := twoNodes h s t
      refine ⟨hx, hy, a, b, g2, w, ex, ma, mb, ta, tb, ?_⟩
      rw [h1]
      unfold andThen
      dsimp only
      rw [h2]
    · left
      rw [if_neg (not_not.2 hx), if_pos hy]
      exact ⟨fun h => hy h.2, rfl⟩
  · left
    rw [if_pos hx]
    exact ⟨fun h => hx h.1, rfl⟩

theorem WF.addEdge {g : AG K} (h : WF g) (s : Str) (x : K) (t : Str) (y : K) (inv : Bool) (uid : Option Str) :
    WF (g.addEdge s x t y inv uid).2 := by
  rcases addEdge_cases h s x t y inv uid with ⟨-, he⟩ | ⟨-, -, a, b, g2, w, -, ma, mb, -, -, he⟩
  · rw [he]; exact h
  · rw [he]; exact w.addNew ma mb (make_state _ _ _ _ _ _)

theorem WF.addEdgeDxdy {g : AG K} (h : WF g) (s : Str) (x : K) (t : Str) (y : K) (inv : Bool) (uid : Option Str) :
    WF (g.addEdgeDxdy s x t y inv uid).2 := by
  unfold AG.addEdgeDxdy
  split
  · split <;> exact h
  · split
    · exact h.addEdge _ _ _ _ _ _
    · exact h.addEdge _ _ _ _ _ _

/-- The price of an edge in the quotation of `connection_edge`. -/
def quoted (p : K) (inverse : Bool) : K := if inverse = true ∧ p ≠ 0 then 1 / p else p

theorem connection_eq (a b : Nat) (p : K) (inv : Bool) {w : K} (hw : 0 < w) (uid : Option Str) :
    Edge.connection a b (some p) inv (some w) uid = .ok (Edge.make a (-w) b (-quoted p inv * w) inv uid) := by
  unfold Edge.connection quoted
  dsimp only [Option.getD_some]
  rw [if_pos hw]

theorem addConnection1_eq {g : AG K} (h : WF g) (s t : Str) (swap : Bool) (p : K) (inv : Bool) {w : K} (hw : 0 < w) (uid : Str) :
    ∃ a b g2, WF g2 ∧ Extends g g2 ∧ a ∈ g2.nodes ∧ b ∈ g2.nodes ∧ g2.tknOf a = some s ∧ g2.tknOf b = some t ∧
      g.addConnection1 s t swap p inv w uid =
        (g2.newEdge (Edge.make (if swap then b else a) (-w) (if swap then a else b) (-quoted p inv * w) inv (some uid))).2.addEdgeObj
        (g2.newEdge (Edge.make (if swap then b else a) (-w) (if swap then a else b) (-quoted p inv * w) inv (some uid))).1 := by
  obtain ⟨a, b, g1, g2, h1, h2, wf, ex, ma, mb, ta, tb⟩ := twoNodes h s t
  refine ⟨a, b, g2, wf, ex, ma, mb, ta, tb, ?_⟩
  unfold AG.addConnection1
  rw [h1]
  unfold andThen
  dsimp only
  rw [h2]
  dsimp only
  cases swap
  · simp only [Bool.false_eq_true, if_false]
    rw [connection_eq _ _ _ _ hw]
  · simp only [if_true]
    rw [connection_eq _ _ _ _ hw]

theorem WF.addConnection1 {g : AG K} (h : WF g) (s t : Str) (swap : Bool) (p : K) (inv : Bool) {w : K} (hw : 0 < w) (uid : Str) :
    WF (g.addConnection1 s t swap p inv w uid).2 := by
  obtain ⟨a, b, g2, wf, -, ma, mb, -, -, he⟩ := addConnection1_eq h s t swap p inv hw uid
  rw [he]
  refine wf.addNew ?_ ?_ (make_state _ _ _ _ _ _)
  · cases swap
    · exact ma
    · exact mb
  · cases swap
    · exact mb
    · exact ma

theorem WF.addConnection {g : AG K} (h : WF g) (a : AG.ConnArgs K) : WF (g.addConnection a).2 := by
  unfold AG.addConnection
  cases AG.connPrice a with
  | error e => exact h
  | ok price =>
    dsimp only
    by_cases hw : 0 < a.weight.getD 1
    · rw [if_neg (not_not.2 hw)]
      have w1 := h.addConnection1 a.tknIn a.tknOut false price a.inverse hw (a.uid.getD "None".toList)
      generalize g.addConnection1 a.tknIn a.tknOut false price a.inverse (a.weight.getD 1) (a.uid.getD "None".toList) = r at w1
      obtain ⟨r, g1⟩ := r
      cases r with
      | error e => exact w1
      | ok u =>
        unfold andThen
        dsimp only
        split
        · exact WF.addConnection1 w1 _ _ _ _ _ hw _
        · exact w1
    · rw [if_pos hw]; exact h

theorem WF.addCurves [PySqrt K] {g : AG K} (h : WF g) (cs : List (CPC K)) : WF (g.addCurves cs).2 := by
  induction cs generalizing g with
  | nil => exact h
  | cons c cs ih =>
    unfold AG.addCurves
    have w1 := h.addConnection
      { tknIn := c.tknb, tknOut := c.tknq, priceOutPerIn := some c.p, uid := some (Cid.show c.cid) }
    generalize g.addConnection
      { tknIn := c.tknb, tknOut := c.tknq, priceOutPerIn := some c.p, uid := some (Cid.show c.cid) } = r at w1
    obtain ⟨r, g1⟩ := r
    cases r with
    | error e => exact w1
    | ok u => exact ih w1

theorem WF.addTrades {g : AG K} (h : WF g) (ts : List (CPC K × K × K)) : WF (g.addTrades ts).2 := by
  induction ts generalizing g with
  | nil => exact h
  | cons t ts ih =>
    obtain ⟨c, dx, dy⟩ := t
    unfold AG.addTrades
    split
    · exact ih h
    · have w1 := h.addEdgeDxdy c.tknb dx c.tknq dy false (some (Cid.show c.cid))
      generalize g.addEdgeDxdy c.tknb dx c.tknq dy false (some (Cid.show c.cid)) = r at w1
      obtain ⟨r, g1⟩ := r
      cases r with
      | error e => exact w1
      | ok u => exact ih w1

/-! ## Operations that change amounts only -/

/-- An edge without the number in its state. -/
def Edge.shape (e : Edge K) : Edge K := { e with remaining := e.remaining.map fun _ => 0 }

/-- Two states of a graph that differ in the amounts of nodes and the remaining capacities only. -/
structure SameShape (g g' : AG K) : Prop where
  nodes : g'.nodes = g.nodes
  edges : g'.edges = g.edges
  byTkn : g'.byTkn = g.byTkn
  node : ∀ n : Nat, (g'.nodeObjs[n]?).map (fun v => (v.tkn, v.ix)) = (g.nodeObjs[n]?).map fun v => (v.tkn, v.ix)
  edge : ∀ k : Nat, (g'.edgeObjs[k]?).map Edge.shape = (g.edgeObjs[k]?).map Edge.shape

theorem SameShape.refl (g : AG K) : SameShape g g := ⟨rfl, rfl, rfl, fun _ => rfl, fun _ => rfl⟩

theorem SameShape.trans {a b c : AG K} (h : SameShape a b) (k : SameShape b c) : SameShape a c :=
  ⟨k.nodes.trans h.nodes, k.edges.trans h.edges, k.byTkn.trans h.byTkn, fun n => (k.node n).trans (h.node n),
    fun n => (k.edge n).trans (h.edge n)⟩

theorem SameShape.symm {a b : AG K} (h : SameShape a b) : SameShape b a :=
  ⟨h.nodes.symm, h.edges.symm, h.byTkn.symm, fun n => (h.node n).symm, fun n => (h.edge n).symm⟩

theorem SameShape.tknOf {g g' : AG K} (h : SameShape g g') (n : Nat) : g'.tknOf n = g.tknOf n := by
  have := congrArg (Option.map Prod.fst) (h.node n)
  rw [Option.map_map, Option.map_map] at this
  exact this

theorem SameShape.edge_some {g g' : AG K} (h : SameShape g g') {k : Nat} {e' : Edge K} (he : g'.edgeObjs[k]? = some e') :
    ∃ e, g.edgeObjs[k]? = some e ∧ e.shape = e'.shape := by
  have := h.edge k
  rw [he] at this
  cases hk : g.edgeObjs[k]? with
  | none => rw [hk] at this; cases this
  | some e =>
    rw [hk] at this
    exact ⟨e, rfl, (Option.some.inj this).symm⟩

theorem WF.of_sameShape {g g' : AG K} (h : WF g) (hs : SameShape g g') : WF g' := by
  have hel : ∀ e' ∈ g'.edgeList, ∃ e ∈ g.edgeList, e.shape = e'.shape := by
    intro e' he'
    obtain ⟨k, hk, he⟩ := mem_edgeList.1 he'
    obtain ⟨e, h1, h2⟩ := hs.edge_some he
    exact ⟨e, mem_edgeList.2 ⟨k, hs.edges ▸ hk, h1⟩, h2⟩
  constructor
  · intro i n hi
    rw [hs.nodes] at hi
    obtain ⟨v, hv, hvi⟩ := h.nodeIx i n hi
    have := hs.node n
    rw [hv] at this
    cases hk : g'.nodeObjs[n]? with
    | none => rw [hk] at this; cases this
    | some w =>
      rw [hk] at this
      exact ⟨w, rfl, (congrArg Prod.snd (Option.some.inj this)).trans hvi⟩
  · intro i k hi
    rw [hs.edges] at hi
    obtain ⟨v, hv, hvi⟩ := h.edgeIx i k hi
    obtain ⟨w, hw, hsh⟩ := hs.symm.edge_some hv
    exact ⟨w, hw, (congrArg Edge.ix hsh).trans hvi⟩
  · intro t n ht
    rw [hs.byTkn] at ht
    rw [hs.nodes, hs.tknOf]
    exact h.lookup t n ht
  · intro n hn t ht
    rw [hs.nodes] at hn
    rw [hs.tknOf] at ht
    rw [hs.byTkn]
    exact h.complete n hn t ht
  · intro e he f hf
    obtain ⟨e0, he0, h1⟩ := hel e he
    obtain ⟨f0, hf0, h2⟩ := hel f hf
    have := h.oneType e0 he0 f0 hf0
    have k1 : e0.isAmount = e.isAmount := by show e0.shape.isAmount = e.shape.isAmount; rw [h1]
    have k2 : f0.isAmount = f.isAmount := by show f0.shape.isAmount = f.shape.isAmount; rw [h2]
    rw [← k1, ← k2, this]
  · intro e he
    obtain ⟨e0, he0, h1⟩ := hel e he
    have := h.ends e0 he0
    rw [hs.nodes]
    exact ⟨(congrArg Edge.nodeIn h1) ▸ this.1, (congrArg Edge.nodeOut h1) ▸ this.2⟩
  · intro e he
    obtain ⟨e0, he0, h1⟩ := hel e he
    have := h.state e0 he0
    have k1 : e0.isAmount = e.isAmount := by show e0.shape.isAmount = e.shape.isAmount; rw [h1]
    have k2 := congrArg (fun e => e.remaining.isSome) h1
    simp only [Edge.shape, Option.isSome_map] at k2
    rw [← k1, ← k2, this]

theorem sameShape_setNode (g : AG K) (n : Nat) (f : Node K → Node K) (hf : ∀ v, (f v).tkn = v.tkn ∧ (f v).ix = v.ix) :
    SameShape g { g with nodeObjs := g.nodeObjs.modify n f } := by
  refine ⟨rfl, rfl, rfl, fun m => ?_, fun _ => rfl⟩
  dsimp only
  rw [List.getElem?_modify]
  cases g.nodeObjs[m]? with
  | none => rfl
  | some v =>
    simp only [Option.map_eq_map, Option.map_some, Option.some.injEq, Prod.mk.injEq]
    split
    · exact hf v
    · exact ⟨rfl, rfl⟩

theorem sameShape_setRemaining {g : AG K} {i : Nat} {e : Edge K} (he : g.edgeObjs[i]? = some e) {r : K} (hr : e.remaining = some r)
    (x : K) : SameShape g { g with edgeObjs := g.edgeObjs.modify i fun e => { e with remaining := some x } } := by
  refine ⟨rfl, rfl, rfl, fun _ => rfl, fun k => ?_⟩
  dsimp only
  rw [List.getElem?_modify]
  by_cases hk : i = k
  · subst hk
    rw [he]
    simp [Edge.shape, hr]
  · cases g.edgeObjs[k]? with
    | none => rfl
    | some v => simp [hk]

theorem sameShape_edgeTransport (g : AG K) (i : Nat) (a : Option K) (record raise : Bool) :
    SameShape g (g.edgeTransport i a record raise).2 := by
  unfold AG.edgeTransport
  cases he : g.edgeObjs[i]? with
  | none => exact SameShape.refl g
  | some e =>
    dsimp only
    split
    · exact SameShape.refl g
    · generalize a.getD (if e.isAmount = true then e.amountIn else 1) = amt
      cases e.out amt with
      | error err => exact SameShape.refl g
      | ok o =>
        dsimp only
        split
        · exact SameShape.refl g
        · cases hr : e.remaining with
          | none => exact SameShape.refl g
          | some r =>
            dsimp only
            have h1 := sameShape_setRemaining he hr (r - amt)
            have h2 := (h1.trans (sameShape_setNode _ e.nodeOut (fun v => { v with amount := v.amount + o })
              fun v => ⟨rfl, rfl⟩)).trans (sameShape_setNode _ e.nodeIn (fun v => { v with amount := v.amount - amt })
              fun v => ⟨rfl, rfl⟩)
            split
            · exact h1
            · split
              · exact h2
              · exact h2

theorem sameShape_transportLoop (g : AG K) (record raise : Bool) (l : List (Nat × K)) :
    SameShape g (g.transportLoop record raise l).2 := by
  induction l generalizing g with
  | nil => exact SameShape.refl g
  | cons p l ih =>
    obtain ⟨i, a⟩ := p
    unfold AG.transportLoop
    have h1 := sameShape_edgeTransport g i (some a) record raise
    generalize g.edgeTransport i (some a) record raise = r at h1
    obtain ⟨r, g1⟩ := r
    cases r with
    | error e => exact h1
    | ok o =>
      have h2 := ih g1
      unfold andThen
      dsimp only
      generalize g1.transportLoop record raise l = r at h2
      obtain ⟨r, g2⟩ := r
      cases r with
      | error e => exact h1.trans h2
      | ok os => exact h1.trans h2

theorem sameShape_transport (g : AG K) (a : K) (s t : Str) (record raise : Bool) :
    SameShape g (g.transport a s t record raise).2 := by
  unfold AG.transport
  split
  · exact SameShape.refl g
  · rename_i es amts _
    have h1 := sameShape_transportLoop g record raise (es.zip amts)
    generalize g.transportLoop record raise (es.zip amts) = r at h1
    obtain ⟨r, g1⟩ := r
    cases r with
    | error e => exact h1
    | ok o => exact h1

theorem sameShape_resetState {g : AG K} (h : WF g) : SameShape g g.resetState := by
  have hlk : ∀ k : Nat, g.resetState.edgeObjs[k]? = (g.edgeObjs[k]?).map fun e => if k ∈ g.edges then e.resetState else e := by
    intro k
    unfold AG.resetState
    dsimp only
    rw [List.getElem?_mapIdx]
  refine ⟨rfl, rfl, rfl, fun n => ?_, fun k => ?_⟩
  · unfold AG.resetState
    dsimp only
    rw [List.getElem?_mapIdx, Option.map_map]
    cases g.nodeObjs[n]? with
    | none => rfl
    | some v =>
      simp only [Option.map_some, Function.comp]
      split <;> rfl
  · rw [hlk]
    cases hk : g.edgeObjs[k]? with
    | none => rfl
    | some e =>
      simp only [Option.map_some]
      split
      · rename_i hm
        have := h.state e (mem_edgeList.2 ⟨k, hm, hk⟩)
        unfold Edge.resetState
        split
        · rename_i ha
          rw [ha] at this
          obtain ⟨r, hr⟩ := Option.isSome_iff_exists.1 this
          simp [Edge.shape, hr]
        · rfl
      · rfl

theorem WF.resetState {g : AG K} (h : WF g) : WF g.resetState := h.of_sameShape (sameShape_resetState h)

/-! ## Histories -/

/-- The graphs obtained by any sequence of operations, including those that raise. With `dup` false, `add_node` is only used for tokens
that are not in the graph yet; the other operations create nodes themselves. -/
inductive Reach [PySqrt K] (dup : Bool) : AG K → Prop
  | empty : Reach dup AG.empty
  | addNode {g : AG K} (t : Str) : (dup = true ∨ ∀ n ∈ g.nodes, g.tknOf n ≠ some t) → Reach dup g → Reach dup (g.addNode t)
  | addEdge {g : AG K} (s : Str) (x : K) (t : Str) (y : K) (inv : Bool) (uid : Option Str) : Reach dup g →
      Reach dup (g.addEdge s x t y inv uid).2
  | addEdgeDxdy {g : AG K} (s : Str) (x : K) (t : Str) (y : K) (inv : Bool) (uid : Option Str) : Reach dup g →
      Reach dup (g.addEdgeDxdy s x t y inv uid).2
  | addConnection {g : AG K} (a : AG.ConnArgs K) : Reach dup g → Reach dup (g.addConnection a).2
  | addCurves {g : AG K} (cs : List (CPC K)) : Reach dup g → Reach dup (g.addCurves cs).2
  | addTrades {g : AG K} (ts : List (CPC K × K × K)) : Reach dup g → Reach dup (g.addTrades ts).2
  | transport {g : AG K} (a : K) (s t : Str) (record raise : Bool) : Reach dup g → Reach dup (g.transport a s t record raise).2
  | edgeTransport {g : AG K} (i : Nat) (a : Option K) (record raise : Bool) : Reach dup g →
      Reach dup (g.edgeTransport i a record raise).2
  | setAmount {g : AG K} (n : Nat) (v : K) : Reach dup g → Reach dup (g.setAmount n v)
  | resetState {g : AG K} : Reach dup g → Reach dup g.resetState

/-- C45: every graph that can be reached is consistent. -/
theorem C45_consistent [PySqrt K] {g : AG K} {dup : Bool} (h : Reach dup g) : WF g := by
  induction h with
  | empty => exact WF.empty
  | addNode t _ _ ih => exact ih.addNode t
  | addEdge s x t y inv uid _ ih => exact ih.addEdge s x t y inv uid
  | addEdgeDxdy s x t y inv uid _ ih => exact ih.addEdgeDxdy s x t y inv uid
  | addConnection a _ ih => exact ih.addConnection a
  | addCurves cs _ ih => exact ih.addCurves cs
  | addTrades ts _ ih => exact ih.addTrades ts
  | transport a s t record raise _ ih => exact ih.of_sameShape (sameShape_transport _ a s t record raise)
  | edgeTransport i a record raise _ ih => exact ih.of_sameShape (sameShape_edgeTransport _ i a record raise)
  | setAmount n v _ ih => exact ih.of_sameShape (sameShape_setNode _ n _ fun v => ⟨rfl, rfl⟩)
  | resetState _ ih => exact ih.resetState

/-- C45: nodes and edges are stored at the position given by their index. -/
theorem C45_index [PySqrt K] {g : AG K} {dup : Bool} (h : Reach dup g) :
    (∀ (i n : Nat) (v : Node K), g.nodes[i]? = some n → g.nodeObjs[n]? = some v → v.ix = some i) ∧
      (∀ (i k : Nat) (e : Edge K), g.edges[i]? = some k → g.edgeObjs[k]? = some e → e.ix = some i) := by
  have w := C45_consistent h
  constructor
  · intro i n v hi hv
    obtain ⟨u, hu, hui⟩ := w.nodeIx i n hi
    rw [hv] at hu
    rw [Option.some.inj hu]; exact hui
  · intro i k e hi he
    obtain ⟨u, hu, hui⟩ := w.edgeIx i k hi
    rw [he] at hu
    rw [Option.some.inj hu]; exact hui

/-- C45: a token can be looked up exactly if some node of the graph has that name, and the lookup yields such a node. -/
theorem C45_lookup [PySqrt K] {g : AG K} {dup : Bool} (h : Reach dup g) (t : Str) :
    ((g.nodeByTkn t).1 = .error .key ↔ ∀ n ∈ g.nodes, g.tknOf n ≠ some t) ∧
      (∀ n, (g.nodeByTkn t).1 = .ok n → n ∈ g.nodes ∧ g.tknOf n = some t) := by
  have w := C45_consistent h
  unfold AG.nodeByTkn
  cases ht : dictGet g.byTkn t with
  | none =>
    simp only [Bool.false_eq_true, if_false, true_iff]
    refine ⟨fun n hn he => ?_, fun n hn => by cases hn⟩
    obtain ⟨m, hm⟩ := w.complete n hn t he
    rw [ht] at hm
    cases hm
  | some n =>
    have := w.lookup t n ht
    dsimp only
    refine ⟨⟨fun hc => (by cases hc), fun hc => absurd this.2 (hc n this.1)⟩, fun m hm => ?_⟩
    rw [← Except.ok.inj hm]
    exact this

/-- C45: all edges are of one type, and adding an edge of the other type raises. -/
theorem C45_type [PySqrt K] {g : AG K} {dup : Bool} (h : Reach dup g) :
    (∀ e ∈ g.edgeList, ∀ f ∈ g.edgeList, (e.amountIn < 0 ↔ f.amountIn < 0)) := by
  intro e he f hf
  have := (C45_consistent h).oneType e he f hf
  unfold Edge.isAmount at this
  simpa using this

/-- C45: an amount-type edge cannot be added to a graph of connections. -/
theorem C45_type_rejected [PySqrt K] {g : AG K} {dup : Bool} (h : Reach dup g) {f : Edge K} (hf : f ∈ g.edgeList) (hneg : f.amountIn < 0) (s : Str)
    (x : K) (t : Str) (y : K) (inv : Bool) (uid : Option Str) :
    ∃ err, (g.addEdge s x t y inv uid).1 = .error err ∧ (g.addEdge s x t y inv uid).2.edgeList = g.edgeList := by
  have w := C45_consistent h
  rcases addEdge_cases w s x t y inv uid with ⟨-, he⟩ | ⟨hx, -, a, b, g2, w2, ex, -, -, -, -, he⟩
  · rw [he]; exact ⟨_, rfl, rfl⟩
  · rw [he, addNew_eq w2]
    have hl : g2.edgeList = g.edgeList := by
      unfold AG.edgeList
      rw [ex.edges, ex.edgeObjs]
    have hb : some (Edge.make a x b y inv uid).isAmount ≠ g2.edgeType ∧ g2.edgeType ≠ none := by
      have htrue : (Edge.make a x b y inv uid).isAmount = true := by
        unfold Edge.make Edge.isAmount
        simp [hx.le]
      by_contra hc
      have := type_ok w2 hc f (hl ▸ hf)
      rw [htrue] at this
      unfold Edge.isAmount at this
      simp at this
      exact absurd hneg (not_lt.2 this)
    rw [if_pos hb]
    refine ⟨_, rfl, ?_⟩
    rw [edgeList_append w2, hl]

/-- C45: the ends of every edge are nodes of the graph. -/
theorem C45_ends [PySqrt K] {g : AG K} {dup : Bool} (h : Reach dup g) : ∀ e ∈ g.edgeList, e.nodeIn ∈ g.nodes ∧ e.nodeOut ∈ g.nodes :=
  (C45_consistent h).ends

/-! ## Unique names -/

/-- No two nodes of the graph have the same name. -/
def Unique (g : AG K) : Prop := ∀ n ∈ g.nodes, ∀ m ∈ g.nodes, g.tknOf n = g.tknOf m → n = m

theorem Unique.addNode {g : AG K} (w : WF g) (h : Unique g) {t : Str} (ht : ∀ n ∈ g.nodes, g.tknOf n ≠ some t) :
    Unique (g.addNode t) := by
  have ex := Extends.addNode w t
  have hnew : (g.addNode t).tknOf g.nodeObjs.length = some t := by
    rw [addNode_eq]
    unfold AG.tknOf
    dsimp only
    rw [List.getElem?_concat_length]
    rfl
  intro n hn m hm he
  have hcases : ∀ k ∈ (g.addNode t).nodes, k ∈ g.nodes ∨ k = g.nodeObjs.length := by
    intro k hk
    rw [addNode_eq] at hk
    simpa using hk
  rcases hcases n hn with h1 | h1 <;> rcases hcases m hm with h2 | h2
  · rw [ex.tkn n h1, ex.tkn m h2] at he
    exact h n h1 m h2 he
  · rw [h2, hnew, ex.tkn n h1] at he
    exact absurd he (ht n h1)
  · rw [h1, hnew, ex.tkn m h2] at he
    exact absurd he.symm (ht m h2)
  · rw [h1, h2]

theorem Unique.nodeByTkn {g : AG K} (w : WF g) (h : Unique g) (t : Str) : Unique (g.nodeByTkn t true).2 := by
  unfold AG.nodeByTkn
  cases ht : dictGet g.byTkn t with
  | some n => exact h
  | none =>
    have hu : Unique (g.addNode t) := h.addNode w (by
      intro n hn he
      obtain ⟨m, hm⟩ := w.complete n hn t he
      rw [ht] at hm
      cases hm)
    simp only [if_true]
    split <;> exact hu

theorem Unique.addNew {g : AG K} (w : WF g) (h : Unique g) (e : Edge K) :
    Unique ((g.newEdge e).2.addEdgeObj (g.newEdge e).1).2 := by
  rw [addNew_eq w]
  split <;> exact h

theorem Unique.of_sameShape {g g' : AG K} (h : Unique g) (hs : SameShape g g') : Unique g' := by
  intro n hn m hm he
  rw [hs.nodes] at hn hm
  rw [hs.tknOf, hs.tknOf] at he
  exact h n hn m hm he

theorem Unique.twoNodes {g : AG K} (w : WF g) (h : Unique g) (s t : Str) {a b : Nat} {g1 g2 : AG K}
    (h1 : g.nodeByTkn s true = (.ok a, g1)) (h2 : g1.nodeByTkn t true = (.ok b, g2)) : Unique g2 := by
  obtain ⟨a', g1', h1', w1, -⟩ := nodeByTkn_create w s
  have he : g1' = g1 := by rw [h1] at h1'; exact (congrArg Prod.snd h1').symm
  subst he
  have u1 := h.nodeByTkn w s
  rw [h1] at u1
  have u2 := Unique.nodeByTkn w1 u1 t
  rw [h2] at u2
  exact u2

theorem Unique.addEdge {g : AG K} (w : WF g) (h : Unique g) (s : Str) (x : K) (t : Str) (y : K) (inv : Bool) (uid : Option Str) :
    Unique (g.addEdge s x t y inv uid).2 := by
  obtain ⟨a, b, g1, g2, h1, h2, w2, -⟩ := Arb.twoNodes w s t
  unfold AG.addEdge
  split
  · exact h
  · split
    · exact h
    · rw [h1]
      unfold andThen
      dsimp only
      rw [h2]
      exact Unique.addNew w2 (h.twoNodes w s t h1 h2) _

theorem Unique.addEdgeDxdy {g : AG K} (w : WF g) (h : Unique g) (s : Str) (x : K) (t : Str) (y : K) (inv : Bool)
    (uid : Option Str) : Unique (g.addEdgeDxdy s x t y inv uid).2 := by
  unfold AG.addEdgeDxdy
  split
  · split <;> exact h
  · split
    · exact h.addEdge w _ _ _ _ _ _
    · exact h.addEdge w _ _ _ _ _ _

theorem Unique.addConnection1 {g : AG K} (w : WF g) (h : Unique g) (s t : Str) (swap : Bool) (p : K) (inv : Bool) {wt : K}
    (hw : 0 < wt) (uid : Str) : Unique (g.addConnection1 s t swap p inv wt uid).2 := by
  obtain ⟨a, b, g1, g2, h1, h2, w2, -⟩ := Arb.twoNodes w s t
  unfold AG.addConnection1
  rw [h1]
  unfold andThen
  dsimp only
  rw [h2]
  dsimp only
  cases swap
  · simp only [Bool.false_eq_true, if_false]
    rw [connection_eq _ _ _ _ hw]
    exact Unique.addNew w2 (h.twoNodes w s t h1 h2) _
  · simp only [if_true]
    rw [connection_eq _ _ _ _ hw]
    exact Unique.addNew w2 (h.twoNodes w s t h1 h2) _

theorem Unique.addConnection {g : AG K} (w : WF g) (h : Unique g) (a : AG.ConnArgs K) : Unique (g.addConnection a).2 := by
  unfold AG.addConnection
  cases AG.connPrice a with
  | error e => exact h
  | ok price =>
    dsimp only
    by_cases hw : 0 < a.weight.getD 1
    · rw [if_neg (not_not.2 hw)]
      have w1 := w.addConnection1 a.tknIn a.tknOut false price a.inverse hw (a.uid.getD "None".toList)
      have u1 := h.addConnection1 w a.tknIn a.tknOut false price a.inverse hw (a.uid.getD "None".toList)
      generalize g.addConnection1 a.tknIn a.tknOut false price a.inverse (a.weight.getD 1) (a.uid.getD "None".toList) = r at w1 u1
      obtain ⟨r, g1⟩ := r
      cases r with
      | error e => exact u1
      | ok u =>
        unfold andThen
        dsimp only
        split
        · exact Unique.addConnection1 w1 u1 _ _ _ _ _ hw _
        · exact u1
    · rw [if_pos hw]; exact h

theorem Unique.addCurves [PySqrt K] {g : AG K} (w : WF g) (h : Unique g) (cs : List (CPC K)) : Unique (g.addCurves cs).2 := by
  induction cs generalizing g with
  | nil => exact h
  | cons c cs ih =>
    unfold AG.addCurves
    have w1 := w.addConnection
      { tknIn := c.tknb, tknOut := c.tknq, priceOutPerIn := some c.p, uid := some (Cid.show c.cid) }
    have u1 := h.addConnection w
      { tknIn := c.tknb, tknOut := c.tknq, priceOutPerIn := some c.p, uid := some (Cid.show c.cid) }
    generalize g.addConnection
      { tknIn := c.tknb, tknOut := c.tknq, priceOutPerIn := some c.p, uid := some (Cid.show c.cid) } = r at w1 u1
    obtain ⟨r, g1⟩ := r
    cases r with
    | error e => exact u1
    | ok u => exact ih w1 u1

theorem Unique.addTrades {g : AG K} (w : WF g) (h : Unique g) (ts : List (CPC K × K × K)) : Unique (g.addTrades ts).2 := by
  induction ts generalizing g with
  | nil => exact h
  | cons t ts ih =>
    obtain ⟨c, dx, dy⟩ := t
    unfold AG.addTrades
    split
    · exact ih w h
    · have w1 := w.addEdgeDxdy c.tknb dx c.tknq dy false (some (Cid.show c.cid))
      have u1 := h.addEdgeDxdy w c.tknb dx c.tknq dy false (some (Cid.show c.cid))
      generalize g.addEdgeDxdy c.tknb dx c.tknq dy false (some (Cid.show c.cid)) = r at w1 u1
      obtain ⟨r, g1⟩ := r
      cases r with
      | error e => exact u1
      | ok u => exact ih w1 u1

theorem unique_of_reach [PySqrt K] {g : AG K} (h : Reach false g) : Unique g := by
  induction h with
  | empty => intro n hn; simp [AG.empty] at hn
  | addNode t ht h ih => exact ih.addNode (C45_consistent h) (ht.resolve_left (by simp))
  | addEdge s x t y inv uid h ih => exact ih.addEdge (C45_consistent h) s x t y inv uid
  | addEdgeDxdy s x t y inv uid h ih => exact ih.addEdgeDxdy (C45_consistent h) s x t y inv uid
  | addConnection a h ih => exact ih.addConnection (C45_consistent h) a
  | addCurves cs h ih => exact ih.addCurves (C45_consistent h) cs
  | addTrades ts h ih => exact ih.addTrades (C45_consistent h) ts
  | transport a s t record raise _ ih => exact ih.of_sameShape (sameShape_transport _ a s t record raise)
  | edgeTransport i a record raise _ ih => exact ih.of_sameShape (sameShape_edgeTransport _ i a record raise)
  | setAmount n v _ ih => exact ih.of_sameShape (sameShape_setNode _ n _ fun v => ⟨rfl, rfl⟩)
  | @resetState g _ ih =>
    intro n hn m hm he
    have hk : ∀ n, g.resetState.tknOf n = g.tknOf n := by
      intro n
      unfold AG.tknOf AG.resetState
      dsimp only
      rw [List.getElem?_mapIdx, Option.map_map]
      congr 1
      funext v
      simp only [Function.comp]
      split <;> rfl
    rw [hk, hk] at he
    exact ih n hn m hm he

/-- C45, as long as `add_node` is not used for a token that has a node: every node of the graph is found under its token. -/
theorem C45_found_partial [PySqrt K] {g : AG K} (h : Reach false g) {n : Nat} (hn : n ∈ g.nodes) {t : Str}
    (ht : g.tknOf n = some t) : (g.nodeByTkn t).1 = .ok n := by
  have w := C45_consistent h
  obtain ⟨m, hm⟩ := w.complete n hn t ht
  have hm' := w.lookup t m hm
  have := unique_of_reach h m hm'.1 n hn (hm'.2.trans ht.symm)
  subst this
  unfold AG.nodeByTkn
  rw [hm]

end

/-- C45 fails after adding a token twice: the first of its nodes is no longer found. -/
theorem C45_found_violated : ∃ (g : AG ℚ) (n : Nat) (t : Str), Reach true g ∧ n ∈ g.nodes ∧ g.tknOf n = some t ∧
    (g.nodeByTkn t).1 ≠ .ok n :=
  ⟨(AG.empty.addNode "A".toList).addNode "A".toList, 0, "A".toList,
    .addNode _ (.inl rfl) (.addNode _ (.inl rfl) .empty), by decide +kernel, by decide +kernel, by decide +kernel⟩

/-- C45 fails if the same node object is added twice: its index is the second position. -/
theorem C45_index_violated : ∃ (g : AG ℚ) (i n : Nat), g.nodes[i]? = some n ∧ (g.nodeObjs[n]?).map Node.ix ≠ some (some i) :=
  ⟨(AG.empty.addNode "A".toList).addNodeObj 0, 0, 0, by decide +kernel, by decide +kernel⟩

example : exGraph.nodes = [0, 1, 2] ∧ exGraph.edges = [0, 1, 2, 3] ∧ (exGraph.nodeByTkn "C".toList).1 = .ok 2 ∧
    (exGraph.addConnection { tknIn := "A".toList, tknOut := "D".toList }).1 = .error .value := by decide +kernel

theorem exGraph_reach : Reach false exGraph :=
  .addEdge _ _ _ _ _ _ (.addEdge _ _ _ _ _ _ (.addEdge _ _ _ _ _ _ (.addEdge _ _ _ _ _ _ .empty)))

end Arb

end Carbon
