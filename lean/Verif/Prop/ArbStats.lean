import Verif.Prop.ArbConn

/-!
# C91: statistics and capacities of edges
-/

set_option linter.unusedSectionVars false

namespace Carbon

open CarbonPair (pyDiv)

namespace Arb

section
variable {K : Type} [Field K] [LinearOrder K] [IsStrictOrderedRing K]

/-! ## Amounts are positive -/

/-- Both amounts of every edge with amounts are positive. -/
def Positive (g : AG K) : Prop := ∀ e ∈ g.edgeList, e.isAmount = true → 0 < e.amountIn ∧ 0 < e.amountOut

theorem Positive.extends {g g2 : AG K} (h : Positive g) (ex : Extends g g2) : Positive g2 := by
  unfold Positive AG.edgeList
  rw [ex.edges, ex.edgeObjs]
  exact h

theorem Positive.addNew {g : AG K} (w : WF g) (h : Positive g) {e : Edge K} (he : e.isAmount = true → 0 < e.amountIn ∧ 0 < e.amountOut) :
    Positive ((g.newEdge e).2.addEdgeObj (g.newEdge e).1).2 := by
  rw [addNew_eq w]
  split
  · unfold Positive
    rw [edgeList_append w]
    exact h
  · unfold Positive
    rw [edgeList_add w]
    intro f hf
    rw [List.mem_append, List.mem_singleton] at hf
    rcases hf with hf | rfl
    · exact h f hf
    · exact he

theorem shape_inj {e f : Edge K} (h : e.shape = f.shape) :
    e.nodeIn = f.nodeIn ∧ e.amountIn = f.amountIn ∧ e.nodeOut = f.nodeOut ∧ e.amountOut = f.amountOut := by
  unfold Edge.shape at h
  rw [Edge.mk.injEq] at h
  exact ⟨h.1, h.2.1, h.2.2.1, h.2.2.2.1⟩

theorem Positive.of_sameShape {g g' : AG K} (h : Positive g) (hs : SameShape g g') : Positive g' := by
  intro e' he' ha
  rw [mem_edgeList] at he'
  obtain ⟨k, hk, he'⟩ := he'
  rw [hs.edges] at hk
  obtain ⟨e, he, hsh⟩ := hs.edge_some he'
  have h1 : e.amountIn = e'.amountIn := (shape_inj hsh).2.1
  have h2 : e.amountOut = e'.amountOut := (shape_inj hsh).2.2.2
  rw [← h1, ← h2]
  refine h e (mem_edgeList.2 ⟨k, hk, he⟩) ?_
  unfold Edge.isAmount at ha ⊢
  rw [h1]
  exact ha

theorem Positive.addEdge {g : AG K} (w : WF g) (h : Positive g) (s : Str) (x : K) (t : Str) (y : K) (inv : Bool) (uid : Option Str) :
    Positive (g.addEdge s x t y inv uid).2 := by
  rcases addEdge_cases w s x t y inv uid with ⟨-, he⟩ | ⟨hx, hy, a, b, g2, w2, ex, -, -, -, -, he⟩
  · rw [he]; exact h
  · rw [he]; exact (h.extends ex).addNew w2 fun _ => ⟨hx, hy⟩

theorem Positive.addEdgeDxdy {g : AG K} (w : WF g) (h : Positive g) (s : Str) (x : K) (t : Str) (y : K) (inv : Bool)
    (uid : Option Str) : Positive (g.addEdgeDxdy s x t y inv uid).2 := by
  unfold AG.addEdgeDxdy
  split
  · split <;> exact h
  · split
    · exact h.addEdge w _ _ _ _ _ _
    · exact h.addEdge w _ _ _ _ _ _

theorem Positive.addConnection1 {g : AG K} (w : WF g) (h : Positive g) (s t : Str) (swap : Bool) (p : K) (inv : Bool) {wt : K}
    (hw : 0 < wt) (uid : Str) : Positive (g.addConnection1 s t swap p inv wt uid).2 := by
  obtain ⟨a, b, g2, w2, ex, -, -, -, -, he⟩ := addConnection1_eq w s t swap p inv hw uid
  rw [he]
  refine (h.extends ex).addNew w2 fun hc => ?_
  rw [make_isAmount] at hc
  simp [hw] at hc

theorem Positive.addConnection {g : AG K} (w : WF g) (h : Positive g) (a : AG.ConnArgs K) : Positive (g.addConnection a).2 := by
  unfold AG.addConnection
  cases AG.connPrice a with
  | error e => exact h
  | ok price =>
    dsimp only
    by_cases hw : 0 < a.weight.getD 1
    · rw [if_neg (not_not.2 hw)]
      have w1 := w.addConnection1 a.tknIn a.tknOut false price a.inverse hw (a.uid.getD "None".toList)
      have u1 := h.addConnection1 w a.tknIn a.tknOut false price a.inverse hw (a.uid.getD "None".toList)
      generalize g.addConnection1 a.tknIn a.tknOut false price a.inverse (a.weight.getD 1) (a.uid.getD "None".toList) = r at w1 u1
      obtain ⟨r, g1⟩ := r
      cases r with
      | error e => exact u1
      | ok u =>
        unfold andThen
        dsimp only
        split
        · exact Positive.addConnection1 w1 u1 _ _ _ _ _ hw _
        · exact u1
    · rw [if_pos hw]; exact h

theorem Positive.addCurves [PySqrt K] {g : AG K} (w : WF g) (h : Positive g) (cs : List (CPC K)) : Positive (g.addCurves cs).2 := by
  induction cs generalizing g with
  | nil => exact h
  | cons c cs ih =>
    unfold AG.addCurves
    have w1 := w.addConnection
      { tknIn := c.tknb, tknOut := c.tknq, priceOutPerIn := some c.p, uid := some (Cid.show c.cid) }
    have u1 := h.addConnection w
      { tknIn := c.tknb, tknOut := c.tknq, priceOutPerIn := some c.p, uid := some (Cid.show c.cid) }
    generalize g.addConnection
      { tknIn := c.tknb, tknOut := c.tknq, priceOutPerIn := some c.p, uid := some (Cid.show c.cid) } = r at w1 u1
    obtain ⟨r, g1⟩ := r
    cases r with
    | error e => exact u1
    | ok u => exact ih w1 u1

theorem Positive.addTrades {g : AG K} (w : WF g) (h : Positive g) (ts : List (CPC K × K × K)) : Positive (g.addTrades ts).2 := by
  induction ts generalizing g with
  | nil => exact h
  | cons t ts ih =>
    obtain ⟨c, dx, dy⟩ := t
    unfold AG.addTrades
    split
    · exact ih w h
    · have w1 := w.addEdgeDxdy c.tknb dx c.tknq dy false (some (Cid.show c.cid))
      have u1 := h.addEdgeDxdy w c.tknb dx c.tknq dy false (some (Cid.show c.cid))
      generalize g.addEdgeDxdy c.tknb dx c.tknq dy false (some (Cid.show c.cid)) = r at w1 u1
      obtain ⟨r, g1⟩ := r
      cases r with
      | error e => exact u1
      | ok u => exact ih w1 u1

/-- C91: in every graph that can be reached, both amounts of every edge with amounts are positive. -/
theorem C91_positive [PySqrt K] {dup : Bool} {g : AG K} (h : Reach dup g) : Positive g := by
  induction h with
  | empty => intro e he; cases he
  | addNode t ht h ih => exact ih.extends (Extends.addNode (C45_consistent h) t)
  | addEdge s x t y inv uid h ih => exact ih.addEdge (C45_consistent h) s x t y inv uid
  | addEdgeDxdy s x t y inv uid h ih => exact ih.addEdgeDxdy (C45_consistent h) s x t y inv uid
  | addConnection a h ih => exact ih.addConnection (C45_consistent h) a
  | addCurves cs h ih => exact ih.addCurves (C45_consistent h) cs
  | addTrades ts h ih => exact ih.addTrades (C45_consistent h) ts
  | transport a s t record raise _ ih => exact ih.of_sameShape (sameShape_transport _ a s t record raise)
  | edgeTransport i a record raise _ ih => exact ih.of_sameShape (sameShape_edgeTransport _ i a record raise)
  | setAmount n v _ ih => exact ih.of_sameShape (sameShape_setNode _ n _ fun v => ⟨rfl, rfl⟩)
  | resetState h ih => exact ih.of_sameShape (sameShape_resetState (C45_consistent h))

/-! ## Statistics -/

/-- What is left of the capacity of an edge, zero if it has none. -/
def left (e : Edge K) : K := e.remaining.getD 0

theorem between_filter (g : AG K) (a b : Nat) :
    (g.filterEdges (some a) (some b)).filterMap (fun i => g.edgeObjs[i]?) = edgesFrom g a b := between_eq g (a, b)

theorem mapM_left {g : AG K} {l : List Nat} (h : ∀ i ∈ l, ∃ e, g.edgeObjs[i]? = some e ∧ e.remaining.isSome = true) :
    l.mapM g.remainingOf = .ok ((l.filterMap fun i => g.edgeObjs[i]?).map left) := by
  induction l with
  | nil => rfl
  | cons i l ih =>
    obtain ⟨e, he, hr⟩ := h i (by simp)
    obtain ⟨r, hr⟩ := Option.isSome_iff_exists.1 hr
    rw [List.mapM_cons, remainingOf_eq.2 ⟨e, he, hr⟩, Py.ok_bind, ih fun j hj => h j (by simp [hj]), Py.ok_bind,
      List.filterMap_cons_some (f := fun i => g.edgeObjs[i]?) he, List.map_cons]
    show Except.ok _ = _
    rw [show left e = r by unfold left; rw [hr]; rfl]

theorem mem_edgesFrom {g : AG K} {a b : Nat} {e : Edge K} : e ∈ edgesFrom g a b ↔ e ∈ g.edgeList ∧ e.nodeIn = a ∧ e.nodeOut = b := by
  unfold edgesFrom
  rw [List.mem_filter, decide_eq_true_eq]

theorem amountType {g : AG K} (w : WF g) (h : g.edgeType = some true) : ∀ e ∈ g.edgeList, e.isAmount = true := by
  intro e he
  unfold AG.edgeType at h
  cases hl : g.edgeList with
  | nil => rw [hl] at he; cases he
  | cons f fs =>
    rw [hl] at h
    have : f.isAmount = true := Option.some.inj h
    rw [← this]
    exact w.oneType e he f (by rw [hl]; simp)

/-- The statistics of a list of edges. -/
def statsOf (es : List (Edge K)) : AG.EdgeStats K :=
  { len := es.length
    amountIn := (es.map Edge.amountIn).sum
    amountInRemaining := (es.map left).sum
    amountOut := (es.map Edge.amountOut).sum
    price := (es.map Edge.amountOut).sum / (es.map Edge.amountIn).sum
    utilization := some (1 - (es.map left).sum / (es.map Edge.amountIn).sum) }

/-- C91: in a graph with amounts, the statistics of the edges from one known token to another are none exactly if there are no edges;
otherwise they are the number of edges, the sums of their amounts and of what is left, the ratio of the sums and the used share of the
capacity. -/
theorem C91_stats [PySqrt K] {dup : Bool} {g : AG K} (hg : Reach dup g) (ht : g.edgeType = some true) {s t : Str} {a b : Nat}
    (ha : (g.nodeByTkn s).1 = .ok a) (hb : (g.nodeByTkn t).1 = .ok b) :
    g.edgeStatistics s t = .ok (if edgesFrom g a b = [] then none else some (statsOf (edgesFrom g a b))) := by
  have w := C45_consistent hg
  have hp := C91_positive hg
  have hpos : ∀ e ∈ edgesFrom g a b, 0 < e.amountIn := fun e he =>
    (hp e (mem_edgesFrom.1 he).1 (amountType w ht e (mem_edgesFrom.1 he).1)).1
  unfold AG.edgeStatistics
  rw [if_neg (not_not.2 ht), ha, Py.ok_bind, hb, Py.ok_bind]
  dsimp only
  rw [between_filter]
  by_cases hne : edgesFrom g a b = []
  · rw [if_pos hne, if_pos hne]
  · rw [if_neg hne, if_neg hne, mapM_left, between_filter, Py.ok_bind]
    · have h1 : ∃ l, (((edgesFrom g a b).zip ((edgesFrom g a b).map left)).mapM fun p => pyDiv p.2 p.1.amountIn) = .ok l :=
        ⟨_, mapM_ok fun p hp => UICurve.pyDiv_ok (hpos p.1 (List.of_mem_zip hp).1).ne'⟩
      obtain ⟨l1, h1⟩ := h1
      have h2 : ∃ l, ((edgesFrom g a b).mapM fun e => pyDiv e.amountOut e.amountIn) = .ok l :=
        ⟨_, mapM_ok fun e he => UICurve.pyDiv_ok (hpos e he).ne'⟩
      obtain ⟨l2, h2⟩ := h2
      have hs := sum_map_pos hne hpos
      rw [h1, Py.ok_bind, h2, Py.ok_bind, UICurve.pyDiv_ok hs.ne', Py.ok_bind, if_pos hs]
      rfl
    · intro i hi
      obtain ⟨hi, e, he, -⟩ := mem_filterEdges.1 hi
      have hm := mem_edgeList.2 ⟨i, hi, he⟩
      exact ⟨e, he, (w.state e hm).trans (amountType w ht e hm)⟩

/-- C91: graphs without amounts and unknown tokens have no statistics. -/
theorem C91_rejected (g : AG K) (s t : Str) : (g.edgeType ≠ some true → g.edgeStatistics s t = .error .value) ∧
    (g.edgeType = some true → ∀ err, (g.nodeByTkn s).1 = .error err → g.edgeStatistics s t = .error err) := by
  unfold AG.edgeStatistics
  constructor
  · intro h
    rw [if_pos h]
  · intro h err he
    rw [if_neg (not_not.2 h), he]
    rfl

/-- C91: as long as no edge is overdrawn, the utilization is between zero and one, and the price is between the lowest and the highest
price of the edges. -/
theorem C91_bounds {es : List (Edge K)} (hne : es ≠ []) (hpos : ∀ e ∈ es, 0 < e.amountIn)
    (hr : ∀ e ∈ es, 0 ≤ left e ∧ left e ≤ e.amountIn) {lo hi : K}
    (hp : ∀ e ∈ es, lo ≤ e.amountOut / e.amountIn ∧ e.amountOut / e.amountIn ≤ hi) :
    (∃ u, (statsOf es).utilization = some u ∧ 0 ≤ u ∧ u ≤ 1) ∧ lo ≤ (statsOf es).price ∧ (statsOf es).price ≤ hi := by
  have hs := sum_map_pos hne hpos
  have h1 : 0 ≤ (es.map left).sum := List.sum_nonneg (by
    intro x hx
    obtain ⟨e, he, rfl⟩ := List.mem_map.1 hx
    exact (hr e he).1)
  have h2 : (es.map left).sum ≤ (es.map Edge.amountIn).sum := List.sum_le_sum fun e he => (hr e he).2
  have h3 := sum_between (lo := lo) (hi := hi) fun e he =>
    ⟨(le_div_iff₀ (hpos e he)).1 (hp e he).1, (div_le_iff₀ (hpos e he)).1 (hp e he).2⟩
  refine ⟨⟨_, rfl, ?_, ?_⟩, (le_div_iff₀ hs).2 h3.1, (div_le_iff₀ hs).2 h3.2⟩
  · rw [sub_nonneg]; exact (div_le_one hs).2 h2
  · rw [sub_le_self_iff]; positivity

theorem map_edges {g : AG K} {l : List Nat} (h : ∀ i ∈ l, ∃ e, g.edgeObjs[i]? = some e) (f : Edge K → K) :
    (l.filterMap fun i => g.edgeObjs[i]?).map f = l.map fun i => (g.edgeObjs[i]?).elim 0 f := by
  induction l with
  | nil => rfl
  | cons i l ih =>
    obtain ⟨e, he⟩ := h i (by simp)
    rw [List.filterMap_cons_some (f := fun i => g.edgeObjs[i]?) he, List.map_cons, List.map_cons, ih fun j hj => h j (by simp [hj]), he]
    rfl

theorem SameShape.filterEdges {g g' : AG K} (h : SameShape g g') (a b : Nat) :
    g'.filterEdges (some a) (some b) = g.filterEdges (some a) (some b) := by
  unfold AG.filterEdges
  rw [h.edges]
  apply List.filter_congr
  intro i _
  have := h.edge i
  cases h1 : g'.edgeObjs[i]? with
  | none =>
    cases h2 : g.edgeObjs[i]? with
    | none => rfl
    | some e => rw [h1, h2] at this; cases this
  | some e' =>
    cases h2 : g.edgeObjs[i]? with
    | none => rw [h1, h2] at this; cases this
    | some e =>
      rw [h1, h2] at this
      have hsh := Option.some.inj this
      have k1 : e'.nodeIn = e.nodeIn := (shape_inj hsh).1
      have k2 : e'.nodeOut = e.nodeOut := (shape_inj hsh).2.2.1
      dsimp only
      rw [k1, k2]

/-- C91: a recorded transport lowers what is left between the two tokens by exactly the amount and leaves the other statistics alone. -/
theorem C91_transport [PySqrt K] {dup : Bool} {g g' : AG K} (hg : Reach dup g) (ht : g.edgeType = some true) {amt : K} {s t : Str}
    {raise : Bool} {res : AG.TransportResult K} (h : g.transport amt s t true raise = (.ok res, g')) :
    ∃ st st', g.edgeStatistics s t = .ok (some st) ∧ g'.edgeStatistics s t = .ok (some st') ∧
      st'.amountInRemaining = st.amountInRemaining - amt ∧ st'.len = st.len ∧ st'.amountIn = st.amountIn ∧
      st'.amountOut = st.amountOut ∧ st'.price = st.price := by
  have hsh := sameShape_transport g amt s t true raise
  have hg' := Reach.transport amt s t true raise hg
  rw [h] at hsh hg'
  have hsh : SameShape g g' := hsh
  have hg' : Reach dup g' := hg'
  obtain ⟨a, b, rem, ha, hb, hmem, hnd, hne, hrem, hz, -, hins, hsum, -, -, -, hrem', -⟩ := C46_transport hg h
  have w := C45_consistent hg
  have ha' : (g'.nodeByTkn s).1 = .ok a := by
    rw [← ha]; unfold AG.nodeByTkn; rw [hsh.byTkn]; split <;> rfl
  have hb' : (g'.nodeByTkn t).1 = .ok b := by
    rw [← hb]; unfold AG.nodeByTkn; rw [hsh.byTkn]; split <;> rfl
  have hperm : (g.filterEdges (some a) (some b)).Perm res.edges := by
    have hn : (g.filterEdges (some a) (some b)).Nodup := w.edges_nodup.filter _
    rw [List.perm_ext_iff_of_nodup hn hnd]
    intro i
    rw [mem_filterEdges, hmem]
  have hex : ∀ i ∈ g.filterEdges (some a) (some b), ∃ e, g.edgeObjs[i]? = some e := fun i hi => by
    obtain ⟨-, e, he, -⟩ := mem_filterEdges.1 hi
    exact ⟨e, he⟩
  have hex' : ∀ i ∈ g.filterEdges (some a) (some b), ∃ e, g'.edgeObjs[i]? = some e := fun i hi => by
    obtain ⟨e, he⟩ := hex i hi
    obtain ⟨e', he', -⟩ := hsh.symm.edge_some he
    exact ⟨e', he'⟩
  have hE := between_filter g a b
  have hE' := between_filter g' a b
  rw [hsh.filterEdges] at hE'
  generalize g.filterEdges (some a) (some b) = F at *
  have hFne : F ≠ [] := by
    rintro rfl
    exact hne (List.nil_perm.1 hperm)
  have hamount : ∀ f : Edge K → K, (∀ e e' : Edge K, e.shape = e'.shape → f e = f e') →
      (edgesFrom g' a b).map f = (edgesFrom g a b).map f := by
    intro f hf
    rw [← hE, ← hE', map_edges hex, map_edges hex']
    apply List.map_congr_left
    intro i hi
    obtain ⟨e', he'⟩ := hex' i hi
    obtain ⟨e, he, hs⟩ := hsh.edge_some he'
    rw [he, he']
    exact (hf e e' hs).symm
  have hin := hamount Edge.amountIn fun e e' h => (shape_inj h).2.1
  have hout := hamount Edge.amountOut fun e e' h => (shape_inj h).2.2.2
  have hlen : (edgesFrom g' a b).length = (edgesFrom g a b).length := by
    have := congrArg List.length hin
    rwa [List.length_map, List.length_map] at this
  have hl1 : (edgesFrom g a b).map left = F.map rem := by
    rw [← hE, map_edges hex]
    apply List.map_congr_left
    intro i hi
    obtain ⟨e, he, hr⟩ := remainingOf_eq.1 (hrem i (hperm.mem_iff.1 hi))
    rw [he]
    show e.remaining.getD 0 = _
    rw [hr]; rfl
  have hl2 : (edgesFrom g' a b).map left = F.map fun i => rem i - rem i * (amt / (res.edges.map rem).sum) := by
    rw [← hE', map_edges hex']
    apply List.map_congr_left
    intro i hi
    obtain ⟨e, he, hr⟩ := remainingOf_eq.1 (hrem' i (hperm.mem_iff.1 hi)).1
    rw [he]
    show e.remaining.getD 0 = _
    rw [hr]; rfl
  have hEne : edgesFrom g a b ≠ [] := by
    intro hc
    have := congrArg List.length hl1
    rw [hc, List.map_nil, List.length_map] at this
    exact hFne (List.length_eq_zero_iff.1 this.symm)
  have hEne' : edgesFrom g' a b ≠ [] := by
    intro hc
    rw [hc] at hlen
    exact hEne (List.length_eq_zero_iff.1 hlen.symm)
  have ht' : g'.edgeType = some true := by
    cases hl : edgesFrom g' a b with
    | nil => exact absurd hl hEne'
    | cons e es =>
      have he : e ∈ g'.edgeList := (mem_edgesFrom.1 (by rw [hl]; simp : e ∈ edgesFrom g' a b)).1
      obtain ⟨k, hk, hke⟩ := mem_edgeList.1 he
      obtain ⟨e0, he0, hs⟩ := hsh.edge_some hke
      rw [hsh.edges] at hk
      have hA := amountType w ht e0 (mem_edgeList.2 ⟨k, hk, he0⟩)
      have hA' : e.isAmount = true := by
        rw [← hA]
        have : e0.amountIn = e.amountIn := (shape_inj hs).2.1
        unfold Edge.isAmount
        rw [this]
      unfold AG.edgeType
      cases hl2 : g'.edgeList with
      | nil => rw [hl2] at he; cases he
      | cons f fs =>
        have := (C45_consistent hg').oneType f (by rw [hl2]; simp) e he
        simp [this, hA']
  refine ⟨statsOf (edgesFrom g a b), statsOf (edgesFrom g' a b), ?_, ?_, ?_, hlen, ?_, ?_, ?_⟩
  · rw [C91_stats hg ht ha hb, if_neg hEne]
  · rw [C91_stats hg' ht' ha' hb', if_neg hEne']
  · show ((edgesFrom g' a b).map left).sum = ((edgesFrom g a b).map left).sum - amt
    rw [hl1, hl2]
    have hF : ∀ (c : K) (l : List Nat), (l.map fun i => rem i - rem i * c).sum = (l.map rem).sum - (l.map rem).sum * c := by
      intro c l
      induction l with
      | nil => simp
      | cons i l ih => simp only [List.map_cons, List.sum_cons, ih]; ring
    rw [hF, (hperm.map rem).sum_eq]
    field_simp
  · show ((edgesFrom g' a b).map Edge.amountIn).sum = ((edgesFrom g a b).map Edge.amountIn).sum
    rw [hin]
  · show ((edgesFrom g' a b).map Edge.amountOut).sum = ((edgesFrom g a b).map Edge.amountOut).sum
    rw [hout]
  · show ((edgesFrom g' a b).map Edge.amountOut).sum / ((edgesFrom g' a b).map Edge.amountIn).sum =
      ((edgesFrom g a b).map Edge.amountOut).sum / ((edgesFrom g a b).map Edge.amountIn).sum
    rw [hin, hout]

/-- C91: a set of edges with amounts has capacity exactly if more than the tolerance is left of one of them. -/
theorem C91_capacity {g : AG K} {l : List Nat} {rem : Nat → K} (h : ∀ i ∈ l, g.remainingOf i = .ok (rem i)) :
    ∃ b, g.hasCapacity l = .ok b ∧ (b = true ↔ ∃ i ∈ l, eps < rem i) := by
  induction l with
  | nil => exact ⟨false, rfl, by simp⟩
  | cons i l ih =>
    unfold AG.hasCapacity
    rw [h i (by simp), Py.ok_bind]
    by_cases hi : eps < rem i
    · rw [if_pos hi]; exact ⟨true, rfl, by simp [hi]⟩
    · rw [if_neg hi]
      obtain ⟨b, hb, hb'⟩ := ih fun j hj => h j (by simp [hj])
      exact ⟨b, hb, by rw [hb']; simp [hi]⟩

/-! ## Filtering by pair -/

/-- C91: filtering by a pair gives the edges from the first token to the second, followed, if both ways are asked for, by those from the
second to the first. -/
theorem C91_pair {g : AG K} {pair s t : Str} (hp : CarbonPair.unpack pair = .ok (s, t)) {a b : Nat} (ha : (g.nodeByTkn s).1 = .ok a)
    (hb : (g.nodeByTkn t).1 = .ok b) (bothways : Bool) : ∃ l, g.filterPair pair bothways = .ok l ∧
      ∀ i, i ∈ l ↔ i ∈ g.edges ∧ (Connects g a b i ∨ (bothways = true ∧ Connects g b a i)) := by
  unfold AG.filterPair
  rw [hp, Py.ok_bind, ha, Py.ok_bind, hb, Py.ok_bind]
  refine ⟨_, rfl, fun i => ?_⟩
  rw [List.mem_append, mem_filterEdges]
  cases bothways
  · simp
  · simp only [if_true, mem_filterEdges, true_and]
    tauto

/-- C91: filtering by a node gives the edges that start or end there. -/
theorem C91_node (g : AG K) (n i : Nat) : i ∈ g.filterNode n ↔ i ∈ g.edges ∧ ∃ m, Connects g n m i ∨ Connects g m n i := by
  unfold AG.filterNode
  rw [List.mem_filter]
  constructor
  · rintro ⟨h1, h2⟩
    cases he : g.edgeObjs[i]? with
    | none => rw [he] at h2; cases h2
    | some e =>
      rw [he] at h2
      simp only [Bool.or_eq_true, beq_iff_eq] at h2
      rcases h2 with h2 | h2
      · exact ⟨h1, e.nodeOut, Or.inl ⟨e, he, h2, rfl⟩⟩
      · exact ⟨h1, e.nodeIn, Or.inr ⟨e, he, rfl, h2⟩⟩
  · rintro ⟨h1, m, ⟨e, he, h2, h3⟩ | ⟨e, he, h2, h3⟩⟩
    · refine ⟨h1, ?_⟩; rw [he]; simp [h2]
    · refine ⟨h1, ?_⟩; rw [he]; simp [h3]

end

/-- C91: without errors raised edges can be overdrawn, and the utilization exceeds one. -/
theorem C91_utilization_violated : ∃ (g : AG ℚ) (st : AG.EdgeStats ℚ), Reach false g ∧
    g.edgeStatistics "A".toList "B".toList = .ok (some st) ∧ st.utilization = some (4 / 3) :=
  ⟨((exParallel.edgeTransport 0 (some 10) true false).2.edgeTransport 0 (some 10) true false).2,
    ⟨2, 15, -5, 35, 7 / 3, some (4 / 3)⟩, .edgeTransport _ _ _ _ (.edgeTransport _ _ _ _ exParallel_reach), by decide +kernel,
    by decide +kernel⟩

example : exParallel.edgeStatistics "A".toList "B".toList = .ok (some ⟨2, 15, 15, 35, 7 / 3, some 0⟩) ∧
    (exParallel.transport 6 "A".toList "B".toList).2.edgeStatistics "A".toList "B".toList =
      .ok (some ⟨2, 15, 9, 35, 7 / 3, some (2 / 5)⟩) := by decide +kernel

example : exParallel.filterPair "B/A".toList true = .ok [0, 1] ∧ exParallel.filterPair "B/A".toList false = .ok [] := by
  decide +kernel

end Arb

end Carbon
