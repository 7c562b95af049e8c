import Verif.Prop.EdgeAlgebra
import Verif.Prop.OptimizerBase

/-!
# C89: duplicates of arbitrage graphs

A duplicate has new node and edge objects, so it is compared by what can be read off the edges: token names, amounts, quotation,
identifier and remaining capacity.
-/

set_option linter.unusedSectionVars false

namespace Carbon

open CarbonPair (pyDiv)

namespace Arb

section
variable {K : Type} [Field K] [LinearOrder K] [IsStrictOrderedRing K]

/-- What can be read off an edge without looking at the identity of its nodes. -/
structure EdgeData (K : Type) where
  tknIn : Option Str
  amountIn : K
  tknOut : Option Str
  amountOut : K
  inverse : Bool
  uid : Option Str
  remaining : Option K
  deriving DecidableEq

/-- The data of an edge of a graph. -/
def dataOf (g : AG K) (e : Edge K) : EdgeData K :=
  ⟨g.tknOf e.nodeIn, e.amountIn, g.tknOf e.nodeOut, e.amountOut, e.inverse, e.uid, e.remaining⟩

/-- The data of all edges of a graph. -/
def datas (g : AG K) : List (EdgeData K) := g.edgeList.map (dataOf g)

/-- The edges that lead from one token to another. -/
def link (g : AG K) (s t : Str) : List (EdgeData K) := (datas g).filter fun d => d.tknIn = some s ∧ d.tknOut = some t

/-- The token names of the nodes, in order. -/
def names (g : AG K) : List Str := g.nodes.filterMap g.tknOf

theorem mapM_ok {α β : Type} {f : α → Py β} {h : α → β} {l : List α} (hl : ∀ a ∈ l, f a = .ok (h a)) : l.mapM f = .ok (l.map h) := by
  induction l with
  | nil => rfl
  | cons a l ih =>
    rw [List.mapM_cons, hl a (by simp), Py.ok_bind, ih fun b hb => hl b (by simp [hb]), Py.ok_bind]
    rfl

theorem filterMap_range {α : Type} (l : List α) : ((List.range l.length).filterMap fun i => l[i]?) = l := by
  induction l using List.reverseRecOn with
  | nil => rfl
  | append_singleton l a ih =>
    rw [List.length_append, List.length_singleton, List.range_succ, List.filterMap_append]
    have : ((List.range l.length).filterMap fun i => (l ++ [a])[i]?) = (List.range l.length).filterMap fun i => l[i]? := by
      apply List.filterMap_congr
      intro i hi
      rw [List.mem_range] at hi
      exact List.getElem?_append_left hi
    rw [this, ih]
    simp

/-! ## The assembled graph -/

/-- The graph built by `assemble` when it does not raise. -/
def assembled (tkns : List Str) (es : List (Edge K)) : AG K :=
  { nodeObjs := tkns.mapIdx fun i t => ⟨t, some i, 0⟩
    edgeObjs := es.mapIdx fun i e => { e with ix := some i }
    nodes := List.range tkns.length
    edges := List.range es.length
    byTkn := tkns.mapIdx fun i t => (t, i) }

theorem assemble_ok {tkns : List Str} {es : List (Edge K)} (h : ∀ e ∈ es, ∀ f ∈ es, e.isAmount = f.isAmount) :
    AG.assemble tkns es = .ok (assembled tkns es) := by
  unfold AG.assemble
  rw [if_neg]
  · rfl
  · intro hc
    rw [Bool.and_eq_true, List.any_eq_true, List.any_eq_true] at hc
    obtain ⟨⟨e, he, h1⟩, f, hf, h2⟩ := hc
    rw [h e he f hf] at h1
    rw [h1] at h2
    cases h2

theorem assembled_edgeList (tkns : List Str) (es : List (Edge K)) :
    (assembled tkns es).edgeList = es.mapIdx fun i e => { e with ix := some i } := by
  unfold AG.edgeList assembled
  dsimp only
  have := filterMap_range (es.mapIdx fun i e => ({ e with ix := some i } : Edge K))
  rw [List.length_mapIdx] at this
  exact this

theorem assembled_tknOf (tkns : List Str) (es : List (Edge K)) (n : Nat) : (assembled tkns es).tknOf n = tkns[n]? := by
  unfold AG.tknOf assembled
  dsimp only
  rw [List.getElem?_mapIdx]
  cases tkns[n]? <;> rfl

theorem assembled_names (tkns : List Str) (es : List (Edge K)) : names (assembled tkns es) = tkns := by
  unfold names
  have : (assembled tkns es).tknOf = fun n => tkns[n]? := funext (assembled_tknOf tkns es)
  rw [this]
  exact filterMap_range tkns

theorem mem_mapIdx_edge {es : List (Edge K)} {e : Edge K} (h : e ∈ es.mapIdx fun i e => ({ e with ix := some i } : Edge K)) :
    ∃ f ∈ es, ∃ i, e = { f with ix := some i } := by
  rw [List.mem_mapIdx] at h
  obtain ⟨i, hi, h⟩ := h
  exact ⟨es[i], List.getElem_mem hi, i, h.symm⟩

theorem assembled_unique {tkns : List Str} (es : List (Edge K)) (hn : tkns.Nodup) : Unique (assembled tkns es) := by
  intro n h1 m h2 h
  rw [assembled_tknOf, assembled_tknOf] at h
  have h1 : n < tkns.length := List.mem_range.1 h1
  exact (List.getElem?_inj h1 hn).1 h

theorem assembled_wf {tkns : List Str} {es : List (Edge K)} (hn : tkns.Nodup) (ht : ∀ e ∈ es, ∀ f ∈ es, e.isAmount = f.isAmount)
    (hends : ∀ e ∈ es, e.nodeIn < tkns.length ∧ e.nodeOut < tkns.length) (hs : ∀ e ∈ es, e.remaining.isSome = e.isAmount) :
    WF (assembled tkns es) where
  nodeIx i n h := by
    have h : (List.range tkns.length)[i]? = some n := h
    rw [List.getElem?_eq_some_iff] at h
    obtain ⟨hl, h⟩ := h
    rw [List.getElem_range] at h
    subst h
    rw [List.length_range] at hl
    refine ⟨⟨tkns[i], some i, 0⟩, ?_, rfl⟩
    unfold assembled
    dsimp only
    rw [List.getElem?_mapIdx, List.getElem?_eq_getElem hl]
    rfl
  edgeIx i k h := by
    have h : (List.range es.length)[i]? = some k := h
    rw [List.getElem?_eq_some_iff] at h
    obtain ⟨hl, h⟩ := h
    rw [List.getElem_range] at h
    subst h
    rw [List.length_range] at hl
    refine ⟨{ es[i] with ix := some i }, ?_, rfl⟩
    unfold assembled
    dsimp only
    rw [List.getElem?_mapIdx, List.getElem?_eq_getElem hl]
    rfl
  lookup t n h := by
    have := Opt.dictGet_mem h
    have : (t, n) ∈ tkns.mapIdx fun i t => (t, i) := this
    rw [List.mem_mapIdx] at this
    obtain ⟨i, hi, h⟩ := this
    cases h
    rw [assembled_tknOf]
    exact ⟨List.mem_range.2 hi, List.getElem?_eq_getElem hi⟩
  complete n hm t h := by
    rw [assembled_tknOf] at h
    refine ⟨n, Opt.dictGet_of_mem ?_ ?_⟩
    · show ((tkns.mapIdx fun i t => (t, i)).map Prod.fst).Nodup
      have : (tkns.mapIdx fun i t => (t, i)).map Prod.fst = tkns := by
        apply List.ext_getElem?
        intro i
        rw [List.getElem?_map, List.getElem?_mapIdx]
        cases tkns[i]? <;> rfl
      rw [this]
      exact hn
    · show (t, n) ∈ tkns.mapIdx fun i t => (t, i)
      rw [List.mem_mapIdx]
      rw [List.getElem?_eq_some_iff] at h
      obtain ⟨hl, h⟩ := h
      exact ⟨n, hl, by rw [h]⟩
  oneType e he f hf := by
    rw [assembled_edgeList] at he hf
    obtain ⟨e', he', i, rfl⟩ := mem_mapIdx_edge he
    obtain ⟨f', hf', j, rfl⟩ := mem_mapIdx_edge hf
    exact ht e' he' f' hf'
  ends e he := by
    rw [assembled_edgeList] at he
    obtain ⟨e', he', i, rfl⟩ := mem_mapIdx_edge he
    exact ⟨List.mem_range.2 (hends e' he').1, List.mem_range.2 (hends e' he').2⟩
  state e he := by
    rw [assembled_edgeList] at he
    obtain ⟨e', he', i, rfl⟩ := mem_mapIdx_edge he
    exact hs e' he'

theorem assembled_datas (tkns : List Str) (es : List (Edge K)) :
    datas (assembled tkns es) = es.map (dataOf (assembled tkns es)) := by
  unfold datas
  rw [assembled_edgeList]
  apply List.ext_getElem?
  intro i
  rw [List.getElem?_map, List.getElem?_mapIdx, List.getElem?_map]
  cases es[i]? <;> rfl

/-! ## Relinking -/

theorem mem_dupTkns {g : AG K} {t : Str} : t ∈ g.dupTkns ↔ ∃ n ∈ g.nodes, g.tknOf n = some t := by
  unfold AG.dupTkns
  rw [List.mem_reverse, List.mem_dedup, List.mem_reverse, List.mem_filterMap]

theorem nodup_dupTkns (g : AG K) : g.dupTkns.Nodup := by
  unfold AG.dupTkns
  rw [List.nodup_reverse]
  exact List.nodup_dedup _

theorem WF.tkn {g : AG K} (h : WF g) {n : Nat} (hn : n ∈ g.nodes) : ∃ t, g.tknOf n = some t := by
  have := h.node_lt hn
  unfold AG.tknOf
  rw [List.getElem?_eq_getElem this]
  exact ⟨_, rfl⟩

/-- The edge with the nodes of the duplicate. -/
def relinked (g : AG K) (e : Edge K) : Edge K :=
  { e with
    nodeIn := g.dupTkns.idxOf ((g.tknOf e.nodeIn).getD [])
    nodeOut := g.dupTkns.idxOf ((g.tknOf e.nodeOut).getD []) }

theorem relink_ok {g : AG K} (h : WF g) {e : Edge K} (he : e.nodeIn ∈ g.nodes ∧ e.nodeOut ∈ g.nodes) :
    AG.relink g.dupTkns g e = .ok (relinked g e) ∧ (relinked g e).nodeIn < g.dupTkns.length ∧
      (relinked g e).nodeOut < g.dupTkns.length ∧ g.dupTkns[(relinked g e).nodeIn]? = g.tknOf e.nodeIn ∧
      g.dupTkns[(relinked g e).nodeOut]? = g.tknOf e.nodeOut := by
  obtain ⟨a, ha⟩ := h.tkn he.1
  obtain ⟨b, hb⟩ := h.tkn he.2
  have ma : a ∈ g.dupTkns := mem_dupTkns.2 ⟨_, he.1, ha⟩
  have mb : b ∈ g.dupTkns := mem_dupTkns.2 ⟨_, he.2, hb⟩
  have la := List.idxOf_lt_length_iff.2 ma
  have lb := List.idxOf_lt_length_iff.2 mb
  unfold AG.relink relinked
  rw [ha, hb]
  dsimp only [Option.getD_some]
  rw [if_pos ma, if_pos mb]
  refine ⟨rfl, la, lb, ?_, ?_⟩
  · rw [List.getElem?_eq_getElem la, List.getElem_idxOf]
  · rw [List.getElem?_eq_getElem lb, List.getElem_idxOf]

/-- Relinking and assembling a list of edges of the graph. -/
theorem rebuild_ok {g : AG K} (h : WF g) {es : List (Edge K)} (hends : ∀ e ∈ es, e.nodeIn ∈ g.nodes ∧ e.nodeOut ∈ g.nodes)
    (ht : ∀ e ∈ es, ∀ f ∈ es, e.isAmount = f.isAmount) (hs : ∀ e ∈ es, e.remaining.isSome = e.isAmount) :
    ∃ g', (es.mapM (AG.relink g.dupTkns g) >>= AG.assemble g.dupTkns) = .ok g' ∧ WF g' ∧ Unique g' ∧ names g' = g.dupTkns ∧
      datas g' = es.map (dataOf g) := by
  have hmem : ∀ e ∈ es.map (relinked g), ∃ f ∈ es, relinked g f = e := fun e he => List.mem_map.1 he
  have ht' : ∀ e ∈ es.map (relinked g), ∀ f ∈ es.map (relinked g), e.isAmount = f.isAmount := by
    intro e he f hf
    obtain ⟨e', he', rfl⟩ := hmem e he
    obtain ⟨f', hf', rfl⟩ := hmem f hf
    exact ht e' he' f' hf'
  refine ⟨assembled g.dupTkns (es.map (relinked g)), ?_, ?_, assembled_unique _ (nodup_dupTkns g), assembled_names _ _, ?_⟩
  · rw [mapM_ok fun e he => (relink_ok h (hends e he)).1, Py.ok_bind, assemble_ok ht']
  · refine assembled_wf (nodup_dupTkns g) ht' ?_ ?_
    · intro e he
      obtain ⟨e', he', rfl⟩ := hmem e he
      exact ⟨(relink_ok h (hends e' he')).2.1, (relink_ok h (hends e' he')).2.2.1⟩
    · intro e he
      obtain ⟨e', he', rfl⟩ := hmem e he
      exact hs e' he'
  · rw [assembled_datas, List.map_map]
    apply List.map_congr_left
    intro e he
    have := (relink_ok h (hends e he)).2.2.2
    show dataOf _ (relinked g e) = _
    unfold dataOf
    rw [assembled_tknOf, assembled_tknOf, this.1, this.2]
    rfl

/-! ## Duplicates without consolidation -/

/-- C89: a duplicate without consolidation succeeds, is consistent, and has the same token names and, in the same order, edges between
the same tokens with the same amounts and identifiers; the edges are quoted out per in and have their full capacity. -/
theorem C89_plain_partial {g : AG K} (h : WF g) : ∃ g', g.duplicate false = .ok g' ∧ WF g' ∧ Unique g' ∧ (∀ t, t ∈ names g' ↔ t ∈ names g) ∧
    datas g' = (datas g).map fun d =>
      { d with inverse := false, remaining := if d.amountIn < 0 then none else some d.amountIn } := by
  have hm : ∀ e ∈ g.edgeList.map (fun e => Edge.make e.nodeIn e.amountIn e.nodeOut e.amountOut false e.uid),
      ∃ f ∈ g.edgeList, Edge.make f.nodeIn f.amountIn f.nodeOut f.amountOut false f.uid = e := fun e he => List.mem_map.1 he
  obtain ⟨g', h1, h2, h3, h4, h5⟩ := rebuild_ok h
    (es := g.edgeList.map fun e => Edge.make e.nodeIn e.amountIn e.nodeOut e.amountOut false e.uid)
    (fun e he => by obtain ⟨f, hf, rfl⟩ := hm e he; exact h.ends f hf)
    (fun e he f hf => by
      obtain ⟨e', he', rfl⟩ := hm e he
      obtain ⟨f', hf', rfl⟩ := hm f hf
      exact h.oneType e' he' f' hf')
    (fun e he => by obtain ⟨f, hf, rfl⟩ := hm e he; exact make_state _ _ _ _ _ _)
  refine ⟨g', ?_, h2, h3, fun t => ?_, ?_⟩
  · unfold AG.duplicate
    rw [if_neg (by simp), Py.ok_bind]
    exact h1
  · rw [h4, mem_dupTkns]
    unfold names
    rw [List.mem_filterMap]
  · rw [h5]
    unfold datas
    rw [List.map_map, List.map_map]
    rfl

/-! ## Consolidated duplicates -/

/-- The sum of a list of edges, if there are any. -/
def totalOf : List (Edge K) → Option (Edge K)
  | [] => none
  | e :: es => some (total e es)

theorem sumList_edgesFrom {g : AG K} (h : WF g) (p : Nat × Nat) :
    Edge.sumList (g.between p) = .ok (totalOf (edgesFrom g p.1 p.2)) ∧
      ∀ s, totalOf (edgesFrom g p.1 p.2) = some s → s.nodeIn = p.1 ∧ s.nodeOut = p.2 ∧
        ∃ e ∈ edgesFrom g p.1 p.2, s.isAmount = e.isAmount := by
  rw [between_eq]
  have hm : ∀ e ∈ edgesFrom g p.1 p.2, e ∈ g.edgeList ∧ e.nodeIn = p.1 ∧ e.nodeOut = p.2 := by
    intro e he
    unfold edgesFrom at he
    rw [List.mem_filter] at he
    exact ⟨he.1, by simpa using he.2⟩
  cases hl : edgesFrom g p.1 p.2 with
  | nil => exact ⟨rfl, fun s hs => by cases hs⟩
  | cons e es =>
    rw [hl] at hm
    have he := hm e (by simp)
    have := sumList_eq (e := e) (es := es) fun f hf => by
      have hf' := hm f (by simp [hf])
      exact ⟨hf'.2.1.trans he.2.1.symm, hf'.2.2.trans he.2.2.symm, h.oneType f hf'.1 e he.1⟩
    refine ⟨this.1, fun s hs => ?_⟩
    have hs := Option.some.inj hs
    subst hs
    exact ⟨he.2.1, he.2.2, e, by simp, this.2⟩

theorem consolidated_eq {g : AG K} (h : WF g) (ps : List (Nat × Nat)) :
    g.consolidated ps = .ok (ps.filterMap fun p => totalOf (edgesFrom g p.1 p.2)) := by
  induction ps with
  | nil => rfl
  | cons p ps ih =>
    unfold AG.consolidated
    rw [(sumList_edgesFrom h p).1, Py.ok_bind, ih, Py.ok_bind]
    cases hp : totalOf (edgesFrom g p.1 p.2) <;> simp [hp]

theorem filter_singleton {α : Type} {l : List α} (hn : l.Nodup) {q : α → Bool} {x : α} (hx : x ∈ l) (hq : q x = true)
    (h : ∀ y ∈ l, q y = true → y = x) : l.filter q = [x] := by
  have h1 : ∀ y, y ∈ l.filter q ↔ y ∈ [x] := by
    intro y
    rw [List.mem_filter, List.mem_singleton]
    exact ⟨fun hy => h y hy.1 hy.2, fun hy => by rw [hy]; exact ⟨hx, hq⟩⟩
  have := (List.perm_ext_iff_of_nodup (hn.filter q) (List.nodup_singleton x)).2 h1
  exact List.perm_singleton.1 this

theorem mem_nodePairs {g : AG K} {p : Nat × Nat} : p ∈ g.nodePairs ↔ p.1 ∈ g.nodes ∧ p.2 ∈ g.nodes ∧ p.1 ≠ p.2 := by
  unfold AG.nodePairs
  rw [List.mem_filter, List.mem_flatMap]
  simp only [List.mem_map, decide_eq_true_eq]
  constructor
  · rintro ⟨⟨a, ha, b, hb, rfl⟩, hne⟩
    exact ⟨ha, hb, hne⟩
  · rintro ⟨h1, h2, h3⟩
    exact ⟨⟨p.1, h1, p.2, h2, rfl⟩, h3⟩

theorem nodup_nodePairs {g : AG K} (h : WF g) : g.nodePairs.Nodup := by
  unfold AG.nodePairs
  apply List.Nodup.filter
  have := List.Nodup.product h.nodes_nodup h.nodes_nodup
  exact this

theorem link_eq {g : AG K} (h : WF g) (hu : Unique g) {a b : Nat} {s t : Str} (ma : a ∈ g.nodes) (mb : b ∈ g.nodes)
    (ha : g.tknOf a = some s) (hb : g.tknOf b = some t) : link g s t = (edgesFrom g a b).map (dataOf g) := by
  unfold link datas edgesFrom
  rw [List.filter_map]
  congr 1
  apply List.filter_congr
  intro e he
  have hends := h.ends e he
  show decide (g.tknOf e.nodeIn = some s ∧ g.tknOf e.nodeOut = some t) = decide (e.nodeIn = a ∧ e.nodeOut = b)
  have h1 : g.tknOf e.nodeIn = some s ↔ e.nodeIn = a :=
    ⟨fun hc => hu _ hends.1 _ ma (hc.trans ha.symm), fun hc => by rw [hc, ha]⟩
  have h2 : g.tknOf e.nodeOut = some t ↔ e.nodeOut = b :=
    ⟨fun hc => hu _ hends.2 _ mb (hc.trans hb.symm), fun hc => by rw [hc, hb]⟩
  simp only [h1, h2]

theorem dupTkns_unique {g : AG K} (h : WF g) (hu : Unique g) : g.dupTkns = names g := by
  have hn : (g.nodes.filterMap g.tknOf).Nodup := by
    unfold List.Nodup
    rw [List.pairwise_filterMap]
    refine List.Pairwise.imp_of_mem ?_ h.nodes_nodup
    intro a b ha hb hab x hx y hy hxy
    exact hab (hu a ha b hb (by rw [hx, hy, hxy]))
  unfold AG.dupTkns names
  rw [List.dedup_eq_self.2 (List.nodup_reverse.2 hn), List.reverse_reverse]

/-- C89: a consolidated duplicate succeeds, is consistent and has the same token names in the same order. Between two different
tokens there is no edge if there was none, and otherwise exactly one, whose amounts are the sums of the amounts of the original edges
and which has its full capacity. -/
theorem C89_consolidated_partial {g : AG K} (h : WF g) (hu : Unique g) :
    ∃ g', g.duplicate true = .ok g' ∧ WF g' ∧ Unique g' ∧ names g' = names g ∧
      (∀ s t, s = t ∨ link g s t = [] → link g' s t = []) ∧
      ∀ s t, s ≠ t → link g s t ≠ [] → ∃ d, link g' s t = [d] ∧
        d.amountIn = ((link g s t).map EdgeData.amountIn).sum ∧ d.amountOut = ((link g s t).map EdgeData.amountOut).sum ∧
        d.remaining = if d.amountIn < 0 then none else some d.amountIn := by
  have hm : ∀ e ∈ g.nodePairs.filterMap fun p => totalOf (edgesFrom g p.1 p.2), ∃ p ∈ g.nodePairs,
      totalOf (edgesFrom g p.1 p.2) = some e ∧ e.nodeIn = p.1 ∧ e.nodeOut = p.2 ∧ ∃ f ∈ g.edgeList, e.isAmount = f.isAmount := by
    intro e he
    rw [List.mem_filterMap] at he
    obtain ⟨p, hp, hpe⟩ := he
    obtain ⟨h1, h2, f, hf, h3⟩ := (sumList_edgesFrom h p).2 e hpe
    unfold edgesFrom at hf
    exact ⟨p, hp, hpe, h1, h2, f, (List.mem_filter.1 hf).1, h3⟩
  obtain ⟨g', h1, h2, h3, h4, h5⟩ := rebuild_ok h (es := g.nodePairs.filterMap fun p => totalOf (edgesFrom g p.1 p.2))
    (fun e he => by
      obtain ⟨p, hp, -, h1, h2, -⟩ := hm e he
      rw [h1, h2]
      exact ⟨(mem_nodePairs.1 hp).1, (mem_nodePairs.1 hp).2.1⟩)
    (fun e he f hf => by
      obtain ⟨-, -, -, -, -, e', he', h1⟩ := hm e he
      obtain ⟨-, -, -, -, -, f', hf', h2⟩ := hm f hf
      rw [h1, h2]
      exact h.oneType e' he' f' hf')
    (fun e he => by
      obtain ⟨p, -, h1, -⟩ := hm e he
      cases hl : edgesFrom g p.1 p.2 with
      | nil => rw [hl] at h1; cases h1
      | cons f fs =>
        rw [hl] at h1
        rw [← Option.some.inj h1]
        exact make_state _ _ _ _ _ _)
  have hlink : ∀ s t, link g' s t = ((g.nodePairs.filter fun p => g.tknOf p.1 = some s ∧ g.tknOf p.2 = some t).filterMap fun p =>
      totalOf (edgesFrom g p.1 p.2)).map (dataOf g) := by
    intro s t
    unfold link
    rw [h5, List.filter_map]
    congr 1
    have : ∀ ps : List (Nat × Nat), (ps.filterMap fun p => totalOf (edgesFrom g p.1 p.2)).filter
        ((fun d : EdgeData K => decide (d.tknIn = some s ∧ d.tknOut = some t)) ∘ dataOf g) =
        (ps.filter fun p => g.tknOf p.1 = some s ∧ g.tknOf p.2 = some t).filterMap fun p => totalOf (edgesFrom g p.1 p.2) := by
      intro ps
      induction ps with
      | nil => rfl
      | cons p ps ih =>
        cases hp : totalOf (edgesFrom g p.1 p.2) with
        | none =>
          rw [List.filterMap_cons_none (f := fun p : Nat × Nat => totalOf (edgesFrom g p.1 p.2)) hp, ih, List.filter_cons]
          split
          · rw [List.filterMap_cons_none (f := fun p : Nat × Nat => totalOf (edgesFrom g p.1 p.2)) hp]
          · rfl
        | some e =>
          obtain ⟨e1, e2, -⟩ := (sumList_edgesFrom h p).2 e hp
          rw [List.filterMap_cons_some (f := fun p : Nat × Nat => totalOf (edgesFrom g p.1 p.2)) hp, List.filter_cons, List.filter_cons]
          have : ((fun d : EdgeData K => decide (d.tknIn = some s ∧ d.tknOut = some t)) ∘ dataOf g) e =
              decide (g.tknOf p.1 = some s ∧ g.tknOf p.2 = some t) := by
            show decide (g.tknOf e.nodeIn = some s ∧ g.tknOf e.nodeOut = some t) = _
            rw [e1, e2]
          rw [this]
          split
          · rw [List.filterMap_cons_some (f := fun p : Nat × Nat => totalOf (edgesFrom g p.1 p.2)) hp, ih]
          · exact ih
    exact this _
  refine ⟨g', ?_, h2, h3, h4.trans (dupTkns_unique h hu), fun s t hst => ?_, fun s t hst hne => ?_⟩
  · unfold AG.duplicate
    rw [if_pos rfl, consolidated_eq h, Py.ok_bind]
    exact h1
  · rw [hlink, List.map_eq_nil_iff, List.filterMap_eq_nil_iff]
    intro p hp
    rw [List.mem_filter, mem_nodePairs] at hp
    obtain ⟨⟨m1, m2, hne⟩, hp⟩ := hp
    have hp : g.tknOf p.1 = some s ∧ g.tknOf p.2 = some t := by simpa using hp
    rcases hst with hst | hst
    · exact absurd (hu _ m1 _ m2 (by rw [hp.1, hp.2, hst])) hne
    · rw [link_eq h hu m1 m2 hp.1 hp.2, List.map_eq_nil_iff] at hst
      rw [hst]
      rfl
  · obtain ⟨d, hd⟩ := List.exists_mem_of_ne_nil _ hne
    unfold link datas at hd
    rw [List.mem_filter, List.mem_map] at hd
    obtain ⟨⟨e, he, rfl⟩, hd⟩ := hd
    have hd : g.tknOf e.nodeIn = some s ∧ g.tknOf e.nodeOut = some t := of_decide_eq_true hd
    have hends := h.ends e he
    have hab : e.nodeIn ≠ e.nodeOut := by
      intro hc
      rw [hc, hd.2] at hd
      exact hst (Option.some.inj hd.1).symm
    have hfil : (g.nodePairs.filter fun p => g.tknOf p.1 = some s ∧ g.tknOf p.2 = some t) = [(e.nodeIn, e.nodeOut)] := by
      refine filter_singleton (nodup_nodePairs h) (mem_nodePairs.2 ⟨hends.1, hends.2, hab⟩) (decide_eq_true hd) ?_
      intro y hy hq
      have hq : g.tknOf y.1 = some s ∧ g.tknOf y.2 = some t := by simpa using hq
      rw [mem_nodePairs] at hy
      exact Prod.ext (hu _ hy.1 _ hends.1 (by rw [hq.1, hd.1])) (hu _ hy.2.1 _ hends.2 (by rw [hq.2, hd.2]))
    have hl := link_eq h hu hends.1 hends.2 hd.1 hd.2
    rw [hlink, hfil, hl]
    cases hf : edgesFrom g e.nodeIn e.nodeOut with
    | nil =>
      rw [hf] at hl
      exact absurd hl hne
    | cons f fs =>
      refine ⟨dataOf g (total f fs), ?_, ?_, ?_, rfl⟩
      · simp [hf, totalOf]
      · simp only [List.map_map, List.map_cons, List.sum_cons]
        rfl
      · simp only [List.map_map, List.map_cons, List.sum_cons]
        rfl

/-! ## What gets lost -/

/-- C89: a duplicate without consolidation loses the quotation of the edges: the price quoted for the same edge is another one. -/
theorem C89_quotation_violated : ∃ g g' : AG ℚ, Reach false g ∧ g.duplicate false = .ok g' ∧
    g.edgeList.map (fun e => e.price) = [.ok (1 / 2)] ∧ g'.edgeList.map (fun e => e.price) = [.ok 2] :=
  ⟨(AG.empty.addEdge "A".toList 1 "B".toList 2 true none).2,
    assembled ["A".toList, "B".toList] [Edge.make 0 1 1 2],
    .addEdge _ _ _ _ _ _ .empty, by decide +kernel⟩

/-- C89: a consolidated duplicate loses the identifiers of the edges and every edge from a token to itself. -/
theorem C89_loops_violated : ∃ g g' : AG ℚ, Reach false g ∧ g.duplicate true = .ok g' ∧
    (datas g).map (fun d => (d.tknIn, d.tknOut, d.uid)) =
      [(some "A".toList, some "A".toList, some "u".toList), (some "A".toList, some "B".toList, some "v".toList)] ∧
    (datas g').map (fun d => (d.tknIn, d.tknOut, d.uid)) = [(some "A".toList, some "B".toList, none)] :=
  ⟨((AG.empty.addEdge "A".toList 1 "A".toList 2 false (some "u".toList)).2.addEdge "A".toList 1 "B".toList 2 false
      (some "v".toList)).2,
    assembled ["A".toList, "B".toList] [Edge.make 0 1 1 2],
    .addEdge _ _ _ _ _ _ (.addEdge _ _ _ _ _ _ .empty), by decide +kernel⟩

end

example : (exParallel.duplicate true).map datas = .ok [⟨some "A".toList, 15, some "B".toList, 35, false, none, some 15⟩] := by
  decide +kernel

end Arb

end Carbon
