import Verif.Prop.ArbPrice

/-!
# C112 - C115: amounts of tokens, tracked values, node statistics and degrees
-/

set_option linter.unusedSectionVars false

namespace Carbon

open CarbonPair (pyDiv)

namespace Arb

section
variable {K : Type} [Field K] [LinearOrder K] [IsStrictOrderedRing K]

/-! ## C112: amounts -/

/-- C112: amounts of one token add, subtract and compare like numbers, and the result is an amount of that token. -/
theorem C112_same (x y : K) (n : Nat) :
    (⟨x, n⟩ : Amt K).add (.amt ⟨y, n⟩) = .ok ⟨x + y, n⟩ ∧ (⟨x, n⟩ : Amt K).sub (.amt ⟨y, n⟩) = .ok ⟨x - y, n⟩ ∧
      (⟨x, n⟩ : Amt K).lt (.amt ⟨y, n⟩) = .ok (decide (x < y)) ∧ (⟨x, n⟩ : Amt K).le (.amt ⟨y, n⟩) = .ok (decide (x ≤ y)) ∧
      (⟨x, n⟩ : Amt K).gt (.amt ⟨y, n⟩) = .ok (decide (x > y)) ∧ (⟨x, n⟩ : Amt K).ge (.amt ⟨y, n⟩) = .ok (decide (x ≥ y)) := by
  simp [Amt.add, Amt.sub, Amt.lt, Amt.le, Amt.gt, Amt.ge, Amt.cmp]

/-- C112: amounts of different tokens, and amounts and numbers, cannot be added, subtracted or compared, in either order. -/
theorem C112_mixed (a : Amt K) (o : Operand K) (h : ∀ b, o = .amt b → b.node ≠ a.node) :
    a.add o = .error .value ∧ a.sub o = .error .value ∧ a.rsub o = .error .value ∧ a.lt o = .error .value ∧ a.le o = .error .value ∧
      a.gt o = .error .value ∧ a.ge o = .error .value := by
  cases o with
  | num x => exact ⟨rfl, rfl, rfl, rfl, rfl, rfl, rfl⟩
  | amt b =>
    have := (h b rfl).symm
    simp [Amt.add, Amt.sub, Amt.rsub, Amt.neg, Amt.lt, Amt.le, Amt.gt, Amt.ge, Amt.cmp, this]

/-- C112: an amount and its negative add up to nothing of the token; the absolute amount is the amount or its negative, whichever is not
negative. -/
theorem C112_neg (a : Amt K) : a.add (.amt a.neg) = .ok ⟨0, a.node⟩ ∧ a.abs.node = a.node ∧ 0 ≤ a.abs.amount ∧
    (a.abs = a ∨ a.abs = a.neg) := by
  refine ⟨by simp [Amt.add, Amt.neg], rfl, abs_nonneg _, ?_⟩
  rcases abs_choice a.amount with h | h
  · exact .inl (by unfold Amt.abs; rw [h])
  · exact .inr (by unfold Amt.abs Amt.neg; rw [h])

/-- C112: subtracting undoes adding. -/
theorem C112_undo {a b c : Amt K} (h : a.add (.amt b) = .ok c) : c.sub (.amt b) = .ok a ∧ b.add (.amt a) = .ok c := by
  unfold Amt.add at h ⊢
  dsimp only at h ⊢
  by_cases hn : a.node = b.node
  · rw [if_pos hn] at h
    have := Except.ok.inj h
    subst this
    unfold Amt.sub
    dsimp only
    rw [if_pos hn, if_pos hn.symm, add_comm b.amount, ← hn]
    simp
  · rw [if_neg hn] at h; cases h

/-- C112: addition is associative, also in that one order raises exactly if the other does. -/
theorem C112_assoc (a b c : Amt K) :
    (do let s ← a.add (.amt b); s.add (.amt c)) = (do let s ← b.add (.amt c); a.add (.amt s)) := by
  unfold Amt.add
  by_cases h1 : a.node = b.node
  · by_cases h2 : b.node = c.node
    · simp [h1, h2, add_assoc]
    · simp [h1, h2]
  · by_cases h2 : b.node = c.node
    · have h3 : ¬ a.node = c.node := h2 ▸ h1
      simp [h2, h3]
    · simp [h1, h2]

/-- C112: the ratio of two amounts of a token is the number that scales the one to the other; amounts of different tokens have no
ratio. -/
theorem C112_ratio {a b : Amt K} :
    (∀ q, a.div (.amt b) = .ok (.num q) → b.mul (.num q) = .ok a) ∧ (∀ c, a.div (.amt b) ≠ .ok (.amt c)) ∧
      (a.node ≠ b.node → a.div (.amt b) = .error .value) ∧ (a.node = b.node → b.amount = 0 → a.div (.amt b) = .error .zeroDiv) := by
  unfold Amt.div Amt.mul
  dsimp only
  refine ⟨?_, ?_, ?_, ?_⟩
  · intro q h
    by_cases hn : a.node = b.node
    · rw [if_pos hn, Py.bind_eq_ok] at h
      obtain ⟨r, hr, h⟩ := h
      have := Operand.num.inj (Except.ok.inj h)
      subst this
      unfold pyDiv at hr
      split at hr
      · cases hr
      · rename_i hb
        have := Except.ok.inj hr
        subst this
        rw [mul_div_cancel₀ _ hb, ← hn]
    · rw [if_neg hn] at h; cases h
  · intro c h
    split at h
    · rw [Py.bind_eq_ok] at h
      obtain ⟨r, hr, h⟩ := h
      cases h
    · cases h
  · intro hn
    rw [if_neg hn]
  · intro hn hb
    rw [if_pos hn]
    unfold pyDiv
    rw [if_pos hb]
    rfl

/-- C112: scaling by a number and dividing by it are inverse, and amounts cannot be multiplied with each other. -/
theorem C112_scale (a b : Amt K) {x : K} (hx : x ≠ 0) :
    (∃ c, a.mul (.num x) = .ok c ∧ c.div (.num x) = .ok (.amt a) ∧ c.node = a.node) ∧ a.mul (.amt b) = .error .value := by
  refine ⟨⟨_, rfl, ?_, rfl⟩, rfl⟩
  unfold Amt.div
  dsimp only
  rw [UICurve.pyDiv_ok hx, mul_div_cancel_right₀ _ hx]
  rfl

/-- C112: adding up amounts from a given amount succeeds exactly if all are of the same token, and gives the total of that token. -/
theorem C112_total (a : Amt K) (l : List (Amt K)) :
    ((∀ b ∈ l, b.node = a.node) → Amt.total a l = .ok ⟨a.amount + (l.map Amt.amount).sum, a.node⟩) ∧
      ((∃ b ∈ l, b.node ≠ a.node) → Amt.total a l = .error .value) := by
  induction l generalizing a with
  | nil =>
    constructor
    · intro _; simp [Amt.total]
    · rintro ⟨b, hb, -⟩; cases hb
  | cons c l ih =>
    unfold Amt.total Amt.add
    dsimp only
    by_cases hn : a.node = c.node
    · rw [if_pos hn, Py.ok_bind]
      obtain ⟨i1, i2⟩ := ih ⟨a.amount + c.amount, a.node⟩
      constructor
      · intro h
        rw [i1 fun b hb => h b (by simp [hb])]
        simp [add_assoc]
      · rintro ⟨b, hb, hne⟩
        rcases List.mem_cons.1 hb with rfl | hb
        · exact absurd hn.symm hne
        · exact i2 ⟨b, hb, hne⟩
    · rw [if_neg hn]
      constructor
      · intro h
        exact absurd (h c (by simp)).symm hn
      · intro _; rfl

/-- C112 fails for the plain sum: `sum(amounts)` starts from the number zero and raises for every non-empty list, although the amounts
may all be of one token. -/
theorem C112_sum_violated (a : Amt K) (l : List (Amt K)) : Amt.sum (a :: l) = .error .value := rfl

/-! ## C113: tracked values -/

/-- Any sequence of changes: each gives a value, or none to keep it, and says whether to clear the history. -/
def Tracked.run (t : Tracked K) (ops : List (Option K × Bool)) : Tracked K := ops.foldl (fun t o => t.reset o.1 o.2) t

/-- C113: whatever has been done to it, the last entry of the history of a tracked value is its current value. -/
theorem C113_last (i : Option K) (ops : List (Option K × Bool)) :
    ((Tracked.make i).run ops).history.getLast? = some ((Tracked.make i).run ops).value := by
  have : ∀ (ops : List (Option K × Bool)) (t : Tracked K), t.history.getLast? = some t.value →
      (t.run ops).history.getLast? = some (t.run ops).value := by
    intro ops
    induction ops with
    | nil => intro t h; exact h
    | cons o ops ih =>
      intro t h
      refine ih (t.reset o.1 o.2) ?_
      unfold Tracked.reset
      simp
  exact this ops _ (by simp [Tracked.make, Tracked.reset])

/-- C113: after setting it to a list of values the history consists of the initial value, zero by default, and these values. -/
theorem C113_history (i : Option K) (vs : List K) :
    ((Tracked.make i).run (vs.map fun v => (some v, false))).history = i.getD 0 :: vs ∧
      ((Tracked.make i).run (vs.map fun v => (some v, false))).value = (i.getD 0 :: vs).getLast (by simp) := by
  have : ∀ (vs : List K) (t : Tracked K), (t.run (vs.map fun v => (some v, false))).history = t.history ++ vs := by
    intro vs
    induction vs with
    | nil => intro t; simp [Tracked.run]
    | cons v vs ih =>
      intro t
      show (Tracked.run (t.reset (some v) false) (vs.map fun v => (some v, false))).history = _
      rw [ih]
      simp [Tracked.reset]
  have h1 : ((Tracked.make i).run (vs.map fun v => (some v, false))).history = i.getD 0 :: vs := by
    rw [this]
    simp [Tracked.make, Tracked.reset]
  refine ⟨h1, ?_⟩
  have := C113_last i (vs.map fun v => (some v, false))
  rw [h1, List.getLast?_eq_getLast_of_ne_nil (by simp)] at this
  exact (Option.some.inj this).symm

/-- C113: resetting forgets everything before: afterwards the history consists of the current value only, which is the given one or, if
none is given, the previous one. -/
theorem C113_reset (t : Tracked K) (v : Option K) : (t.reset v).history = [(t.reset v).value] ∧ (t.reset v).value = v.getD t.value := by
  simp [Tracked.reset]

/-- C113 fails for setting without a value, which according to its description clears the history: it adds the current value to it. -/
theorem C113_set_none_violated (t : Tracked K) : (t.set none).value = t.value ∧ (t.set none).history = t.history ++ [t.value] := by
  simp [Tracked.set, Tracked.reset]

/-! ## C114: node statistics -/

theorem filter_in (g : AG K) (n : Nat) : (g.filterEdges none (some n)).filterMap (fun i => g.edgeObjs[i]?) =
    g.edgeList.filter fun e => e.nodeOut = n := by
  unfold AG.filterEdges AG.edgeList
  induction g.edges with
  | nil => rfl
  | cons i is ih =>
    simp only [List.filter_cons, List.filterMap_cons]
    cases h : g.edgeObjs[i]? with
    | none => simpa using ih
    | some e =>
      by_cases he : e.nodeOut = n
      · simp [he, h] at ih ⊢; exact ih
      · simp [he] at ih ⊢; exact ih

theorem filter_out (g : AG K) (n : Nat) : (g.filterEdges (some n) none).filterMap (fun i => g.edgeObjs[i]?) =
    g.edgeList.filter fun e => e.nodeIn = n := by
  unfold AG.filterEdges AG.edgeList
  induction g.edges with
  | nil => rfl
  | cons i is ih =>
    simp only [List.filter_cons, List.filterMap_cons]
    cases h : g.edgeObjs[i]? with
    | none => simpa using ih
    | some e =>
      by_cases he : e.nodeIn = n
      · simp [he, h] at ih ⊢; exact ih
      · simp [he] at ih ⊢; exact ih

theorem mem_filterOut {g : AG K} {n i : Nat} : i ∈ g.filterEdges (some n) none ↔ i ∈ g.edges ∧ ∃ e, g.edgeObjs[i]? = some e ∧ e.nodeIn = n := by
  unfold AG.filterEdges
  rw [List.mem_filter]
  refine and_congr_right fun _ => ?_
  cases g.edgeObjs[i]? with
  | none => simp
  | some e => simp

/-- C114: the statistics of a known token of a graph with amounts consist of the sums of the amounts that its incoming edges deliver, of
the amounts that its outgoing edges take and of what is left of these, and of the tokens at the other ends. -/
theorem C114_stats [PySqrt K] {dup : Bool} {g : AG K} (hg : Reach dup g) (ht : g.edgeType = some true) {s : Str} {n : Nat}
    (hn : (g.nodeByTkn s).1 = .ok n) : ∃ st, g.nodeStatistics s = .ok st ∧
      st.amountIn = ((g.edgeList.filter fun e => e.nodeOut = n).map Edge.amountOut).sum ∧
      st.amountOut = ((g.edgeList.filter fun e => e.nodeIn = n).map Edge.amountIn).sum ∧
      st.amountOutRemaining = ((g.edgeList.filter fun e => e.nodeIn = n).map left).sum ∧
      (∀ t, some t ∈ st.nodesIn ↔ ∃ e ∈ g.edgeList, e.nodeOut = n ∧ g.tknOf e.nodeIn = some t) ∧
      (∀ t, some t ∈ st.nodesOut ↔ ∃ e ∈ g.edgeList, e.nodeIn = n ∧ g.tknOf e.nodeOut = some t) ∧ st.nodesIn.Nodup ∧
      st.nodesOut.Nodup := by
  have w := C45_consistent hg
  unfold AG.nodeStatistics
  rw [hn, Py.ok_bind]
  dsimp only
  rw [mapM_left, Py.ok_bind]
  · refine ⟨_, rfl, ?_, ?_, ?_, ?_, ?_, List.nodup_dedup _, List.nodup_dedup _⟩
    · dsimp only; rw [filter_in]
    · dsimp only; rw [filter_out]
    · dsimp only; rw [filter_out]
    · intro t
      dsimp only
      rw [List.mem_dedup]
      have : (g.filterEdges none (some n)).filterMap (fun i => (g.edgeObjs[i]?).map fun e => g.tknOf e.nodeIn) =
          ((g.filterEdges none (some n)).filterMap fun i => g.edgeObjs[i]?).map fun e => g.tknOf e.nodeIn := by
        rw [List.map_filterMap]
      rw [this, filter_in, List.mem_map]
      simp only [List.mem_filter, decide_eq_true_eq]
      constructor
      · rintro ⟨e, ⟨he, hn⟩, hx⟩; exact ⟨e, he, hn, hx⟩
      · rintro ⟨e, he, hn, hx⟩; exact ⟨e, ⟨he, hn⟩, hx⟩
    · intro t
      dsimp only
      rw [List.mem_dedup]
      have : (g.filterEdges (some n) none).filterMap (fun i => (g.edgeObjs[i]?).map fun e => g.tknOf e.nodeOut) =
          ((g.filterEdges (some n) none).filterMap fun i => g.edgeObjs[i]?).map fun e => g.tknOf e.nodeOut := by
        rw [List.map_filterMap]
      rw [this, filter_out, List.mem_map]
      simp only [List.mem_filter, decide_eq_true_eq]
      constructor
      · rintro ⟨e, ⟨he, hn⟩, hx⟩; exact ⟨e, he, hn, hx⟩
      · rintro ⟨e, he, hn, hx⟩; exact ⟨e, ⟨he, hn⟩, hx⟩
  · intro i hi
    obtain ⟨hi, e, he, -⟩ := mem_filterOut.1 hi
    have hm := mem_edgeList.2 ⟨i, hi, he⟩
    exact ⟨e, he, (w.state e hm).trans (amountType w ht e hm)⟩

/-- C114: nothing is lost or counted twice: over all tokens the amounts taken add up to the input amounts of all edges, and the amounts
delivered to their output amounts. -/
theorem C114_total [PySqrt K] {g : AG K} (hg : Reach false g) (ht : g.edgeType = some true) :
    ∃ sts, (g.nodes.filterMap g.tknOf).mapM g.nodeStatistics = .ok sts ∧
      (sts.map AG.NodeStats.amountOut).sum = (g.edgeList.map Edge.amountIn).sum ∧
      (sts.map AG.NodeStats.amountIn).sum = (g.edgeList.map Edge.amountOut).sum := by
  have w := C45_consistent hg
  have split : ∀ (l : List Nat) (es : List (Edge K)) (key : Edge K → Nat) (f : Edge K → K), l.Nodup → (∀ e ∈ es, key e ∈ l) →
      (l.map fun n => ((es.filter fun e => key e = n).map f).sum).sum = (es.map f).sum := by
    intro l es key f hl hk
    induction es with
    | nil => simp
    | cons e es ih =>
      rw [List.map_cons, List.sum_cons, ← ih fun e he => hk e (by simp [he])]
      have he := hk e (by simp)
      clear ih hk
      induction l with
      | nil => cases he
      | cons m l ihl =>
        rw [List.nodup_cons] at hl
        simp only [List.map_cons, List.sum_cons]
        by_cases hm : key e = m
        · have hsame : (l.map fun n => (((e :: es).filter fun e => key e = n).map f).sum) =
              l.map fun n => ((es.filter fun e => key e = n).map f).sum := by
            apply List.map_congr_left
            intro n hn
            have : key e ≠ n := fun h => hl.1 (hm ▸ h ▸ hn)
            simp [this]
          rw [hsame]
          simp [hm]
          ring
        · rw [ihl hl.2 ((List.mem_cons.1 he).resolve_left hm)]
          simp [hm]
          ring
  obtain ⟨tk, htk⟩ : ∃ tk : Nat → Str, ∀ n ∈ g.nodes, g.tknOf n = some (tk n) :=
    ⟨fun n => (g.tknOf n).getD [], fun n hn => by obtain ⟨t, ht⟩ := tknOf_mem w hn; simp [ht]⟩
  have hnames : g.nodes.filterMap g.tknOf = g.nodes.map tk := by
    rw [← List.filterMap_eq_map]
    exact List.filterMap_congr fun n hn => htk n hn
  have hex : ∀ n ∈ g.nodes, ∃ st, g.nodeStatistics (tk n) = .ok st ∧
      st.amountIn = ((g.edgeList.filter fun e => e.nodeOut = n).map Edge.amountOut).sum ∧
      st.amountOut = ((g.edgeList.filter fun e => e.nodeIn = n).map Edge.amountIn).sum := by
    intro n hn
    obtain ⟨st, h1, h2, h3, -⟩ := C114_stats hg ht (C45_found_partial hg hn (htk n hn))
    exact ⟨st, h1, h2, h3⟩
  have hm : ∀ l : List Nat, (∀ n ∈ l, n ∈ g.nodes) → ∃ sts, (l.map tk).mapM g.nodeStatistics = .ok sts ∧
      sts.map AG.NodeStats.amountOut = l.map (fun n => ((g.edgeList.filter fun e => e.nodeIn = n).map Edge.amountIn).sum) ∧
      sts.map AG.NodeStats.amountIn = l.map (fun n => ((g.edgeList.filter fun e => e.nodeOut = n).map Edge.amountOut).sum) := by
    intro l
    induction l with
    | nil => intro _; exact ⟨[], rfl, rfl, rfl⟩
    | cons n l ih =>
      intro hl
      obtain ⟨st, h1, h2, h3⟩ := hex n (hl n (by simp))
      obtain ⟨sts, k1, k2, k3⟩ := ih fun m hm => hl m (by simp [hm])
      refine ⟨st :: sts, ?_, ?_, ?_⟩
      · rw [List.map_cons, List.mapM_cons, h1, Py.ok_bind, k1]
        rfl
      · rw [List.map_cons, List.map_cons, k2, h3]
      · rw [List.map_cons, List.map_cons, k3, h2]
  obtain ⟨sts, k1, k2, k3⟩ := hm g.nodes fun _ h => h
  refine ⟨sts, by rw [hnames]; exact k1, ?_, ?_⟩
  · rw [k2]
    exact split _ _ _ _ w.nodes_nodup fun e he => (w.ends e he).1
  · rw [k3]
    exact split _ _ _ _ w.nodes_nodup fun e he => (w.ends e he).2

theorem SameShape.nodeByTkn {g g' : AG K} (h : SameShape g g') (s : Str) : (g'.nodeByTkn s).1 = (g.nodeByTkn s).1 := by
  unfold AG.nodeByTkn
  rw [h.byTkn]
  split <;> rfl

/-- C114: a recorded transport from one token to another lowers what is left of the edges out of the first by exactly the amount; what
is left of the edges out of every other token does not change. -/
theorem C114_transport [PySqrt K] {dup : Bool} {g g' : AG K} (hg : Reach dup g) (ht : g.edgeType = some true) {amt : K} {s t : Str}
    {raise : Bool} {res : AG.TransportResult K} (h : g.transport amt s t true raise = (.ok res, g')) {u : Str} {n : Nat}
    (hn : (g.nodeByTkn u).1 = .ok n) :
    ∃ st st', g.nodeStatistics u = .ok st ∧ g'.nodeStatistics u = .ok st' ∧
      st'.amountOutRemaining = st.amountOutRemaining - (if u = s then amt else 0) := by
  have hsh := sameShape_transport g amt s t true raise
  rw [h] at hsh
  have hsh : SameShape g g' := hsh
  obtain ⟨a, b, rem, ha, hb, hmem, hnd, hne, hrem, hz, -, hins, hsum, -, -, -, hrem', hother, ⟨-, hedges, -⟩, -⟩ := C46_transport hg h
  have w := C45_consistent hg
  have hsu : (g.nodeByTkn u).1 = (g.nodeByTkn s).1 ↔ u = s := by
    refine ⟨fun hc => ?_, fun hc => by rw [hc]⟩
    rw [hn, ha] at hc
    obtain rfl := Except.ok.inj hc
    have h1 := ((C45_lookup hg u).2 n hn).2
    rw [((C45_lookup hg s).2 n ha).2] at h1
    exact (Option.some.inj h1).symm
  have hn' : (g'.nodeByTkn u).1 = .ok n := by rw [hsh.nodeByTkn, hn]
  have hstate : ∀ i ∈ g.edges, ∃ e x, g.edgeObjs[i]? = some e ∧ e.remaining = some x := by
    intro i hi
    obtain ⟨k, hk⟩ := List.mem_iff_getElem?.1 hi
    obtain ⟨e, he, -⟩ := w.edgeIx k i hk
    have hm := mem_edgeList.2 ⟨i, hi, he⟩
    have := (w.state e hm).trans (amountType w ht e hm)
    obtain ⟨x, hx⟩ := Option.isSome_iff_exists.1 this
    exact ⟨e, x, he, hx⟩
  obtain ⟨c, hc⟩ : ∃ c, c = amt / (res.edges.map rem).sum := ⟨_, rfl⟩
  have hF : g'.filterEdges (some n) none = g.filterEdges (some n) none := by
    unfold AG.filterEdges
    rw [hedges]
    apply List.filter_congr
    intro i _
    have := hsh.edge i
    cases h1 : g'.edgeObjs[i]? with
    | none =>
      cases h2 : g.edgeObjs[i]? with
      | none => rfl
      | some e => rw [h1, h2] at this; cases this
    | some e' =>
      cases h2 : g.edgeObjs[i]? with
      | none => rw [h1, h2] at this; cases this
      | some e =>
        rw [h1, h2] at this
        have k1 : e'.nodeIn = e.nodeIn := (shape_inj (Option.some.inj this)).1
        simp [k1]
  obtain ⟨F, hFe⟩ : ∃ F, F = g.filterEdges (some n) none := ⟨_, rfl⟩
  have hFg : ∀ i ∈ F, i ∈ g.edges := by
    intro i hi
    rw [hFe] at hi
    exact (mem_filterOut.1 hi).1
  obtain ⟨r, hr⟩ : ∃ r : Nat → K, ∀ i ∈ g.edges, g.remainingOf i = .ok (r i) :=
    ⟨fun i => ((g.remainingOf i).toOption).getD 0, fun i hi => by
      obtain ⟨e, x, he, hx⟩ := hstate i hi
      have hk := remainingOf_eq.2 ⟨e, he, hx⟩
      dsimp only
      rw [hk]
      rfl⟩
  have hrr : ∀ i ∈ res.edges, rem i = r i := by
    intro i hi
    have h1 := hrem i hi
    rw [hr i ((hmem i).1 hi).1] at h1
    exact (Except.ok.inj h1).symm
  have hr' : ∀ i ∈ F, g'.remainingOf i = .ok (r i - if i ∈ res.edges then r i * c else 0) := by
    intro i hi
    by_cases hm : i ∈ res.edges
    · rw [if_pos hm, (hrem' i hm).1, hrr i hm, hc]
    · rw [if_neg hm, sub_zero]
      unfold AG.remainingOf
      rw [hother i hm]
      exact hr i (hFg i hi)
  have hs1 : g.nodeStatistics u = .ok
      { edgesIn := g.filterEdges none (some n), edgesOut := F,
        nodesIn := ((g.filterEdges none (some n)).filterMap fun i => (g.edgeObjs[i]?).map fun e => g.tknOf e.nodeIn).dedup,
        nodesOut := (F.filterMap fun i => (g.edgeObjs[i]?).map fun e => g.tknOf e.nodeOut).dedup,
        amountIn := (((g.filterEdges none (some n)).filterMap fun i => g.edgeObjs[i]?).map Edge.amountOut).sum,
        amountOut := ((F.filterMap fun i => g.edgeObjs[i]?).map Edge.amountIn).sum,
        amountOutRemaining := (F.map r).sum } := by
    unfold AG.nodeStatistics
    rw [hn, Py.ok_bind]
    dsimp only
    rw [← hFe, mapM_ok fun i hi => hr i (hFg i hi)]
    rfl
  have hs2 : g'.nodeStatistics u = .ok
      { edgesIn := g'.filterEdges none (some n), edgesOut := F,
        nodesIn := ((g'.filterEdges none (some n)).filterMap fun i => (g'.edgeObjs[i]?).map fun e => g'.tknOf e.nodeIn).dedup,
        nodesOut := (F.filterMap fun i => (g'.edgeObjs[i]?).map fun e => g'.tknOf e.nodeOut).dedup,
        amountIn := (((g'.filterEdges none (some n)).filterMap fun i => g'.edgeObjs[i]?).map Edge.amountOut).sum,
        amountOut := ((F.filterMap fun i => g'.edgeObjs[i]?).map Edge.amountIn).sum,
        amountOutRemaining := (F.map fun i => r i - if i ∈ res.edges then r i * c else 0).sum } := by
    unfold AG.nodeStatistics
    rw [hn', Py.ok_bind]
    dsimp only
    rw [hF, ← hFe, mapM_ok hr']
    rfl
  refine ⟨_, _, hs1, hs2, ?_⟩
  dsimp only
  have hsplit : (F.map fun i => r i - if i ∈ res.edges then r i * c else 0).sum =
      (F.map r).sum - ((F.filter fun i => i ∈ res.edges).map fun i => r i * c).sum := by
    clear hFe hFg hr' hs1 hs2 hF
    induction F with
    | nil => simp
    | cons i F ih =>
      simp only [List.map_cons, List.sum_cons, ih, List.filter_cons]
      by_cases hi : i ∈ res.edges
      · simp [hi]; ring
      · simp [hi]; ring
  rw [hsplit]
  congr 1
  by_cases hus : u = s
  · rw [if_pos hus]
    have hna : n = a := by
      have := hsu.2 hus
      rw [hn, ha] at this
      exact Except.ok.inj this
    have hperm : (F.filter fun i => i ∈ res.edges).Perm res.edges := by
      have h1 : (F.filter fun i => i ∈ res.edges).Nodup := by
        rw [hFe]
        exact (w.edges_nodup.filter _).filter _
      rw [List.perm_ext_iff_of_nodup h1 hnd]
      intro i
      rw [List.mem_filter, decide_eq_true_eq]
      refine ⟨fun h => h.2, fun hi => ⟨?_, hi⟩⟩
      obtain ⟨h1, e, he, h2, -⟩ := (hmem i).1 hi
      rw [hFe]
      exact mem_filterOut.2 ⟨h1, e, he, by rw [h2, hna]⟩
    rw [(hperm.map _).sum_eq]
    have : res.edges.map (fun i => r i * c) = res.edges.map fun i => rem i * c := List.map_congr_left fun i hi => by rw [hrr i hi]
    rw [this, List.sum_map_mul_right, hc]
    field_simp
  · rw [if_neg hus]
    have : F.filter (fun i => i ∈ res.edges) = [] := by
      rw [List.filter_eq_nil_iff]
      intro i hi hm
      rw [decide_eq_true_eq] at hm
      rw [hFe] at hi
      obtain ⟨-, e, he, h1⟩ := mem_filterOut.1 hi
      obtain ⟨-, e', he', h2, -⟩ := (hmem i).1 hm
      rw [he] at he'
      have := Option.some.inj he'
      subst this
      apply hus
      apply hsu.1
      rw [hn, ha, ← h1, h2]
    rw [this]
    rfl

/-- C114: there are no statistics for unknown tokens, nor for tokens with an outgoing edge in a graph of connections. -/
theorem C114_rejected [PySqrt K] {dup : Bool} {g : AG K} (hg : Reach dup g) (s : Str) :
    ((∀ n ∈ g.nodes, g.tknOf n ≠ some s) → g.nodeStatistics s = .error .key) ∧
      (∀ n, (g.nodeByTkn s).1 = .ok n → g.edgeType ≠ some true → (∃ e ∈ g.edgeList, e.nodeIn = n) →
        ∃ x, g.nodeStatistics s = .error x) := by
  constructor
  · intro h
    unfold AG.nodeStatistics
    rw [(C45_lookup hg s).1.2 h]
    rfl
  · intro n hn ht ⟨e, he, hen⟩
    have w := C45_consistent hg
    obtain ⟨i, hi, hie⟩ := mem_edgeList.1 he
    cases hst : g.nodeStatistics s with
    | error x => exact ⟨x, rfl⟩
    | ok st =>
      exfalso
      unfold AG.nodeStatistics at hst
      rw [hn, Py.ok_bind] at hst
      dsimp only at hst
      rw [Py.bind_eq_ok] at hst
      obtain ⟨rem, hrem, -⟩ := hst
      have hF : i ∈ g.filterEdges (some n) none := mem_filterOut.2 ⟨hi, e, hie, hen⟩
      obtain ⟨x, hx⟩ : ∃ x, g.remainingOf i = .ok x := by
        clear hen hn
        revert rem
        generalize g.filterEdges (some n) none = F at hF
        induction F with
        | nil => cases hF
        | cons j F ih =>
          intro rem hrem
          rw [List.mapM_cons, Py.bind_eq_ok] at hrem
          obtain ⟨x, hx, hrem⟩ := hrem
          rw [Py.bind_eq_ok] at hrem
          obtain ⟨xs, hxs, -⟩ := hrem
          rcases List.mem_cons.1 hF with rfl | hF
          · exact ⟨x, hx⟩
          · exact ih hF xs hxs
      obtain ⟨e', he', hr⟩ := remainingOf_eq.1 hx
      rw [hie] at he'
      obtain rfl := Option.some.inj he'
      have h1 := w.state e he
      rw [hr] at h1
      apply ht
      unfold AG.edgeType
      cases hl : g.edgeList with
      | nil => rw [hl] at he; cases he
      | cons f fs =>
        have := w.oneType f (by rw [hl]; simp) e he
        rw [← h1] at this
        simp [this]

/-! ## Lists of cycles -/

/-- C78: of the given cycles exactly the subcycles are kept, in their order. -/
theorem C78_filter {α : Type} [DecidableEq α] {self : List α} (hself : self.Nodup) {cs : List (List α)} (h : ∀ c ∈ cs, c ≠ []) :
    ∃ r, Cycle.filterSubcycles self cs = .ok r ∧ r.Sublist cs ∧ ∀ c ∈ cs, (c ∈ r ↔ Cycle.CyclicSub c self) := by
  classical
  have key : ∀ c ∈ cs, Cycle.isSubcycleOf c self = .ok (decide (Cycle.CyclicSub c self)) := by
    intro c hc
    obtain ⟨r, hr, hiff⟩ := Cycle.C78_subcycle (h c hc) hself
    rw [hr]
    congr 1
    cases r
    · simp [← hiff]
    · simp [← hiff]
  refine ⟨cs.filter fun c => decide (Cycle.CyclicSub c self), ?_, List.filter_sublist, fun c hc => by simp [hc]⟩
  clear h
  induction cs with
  | nil => rfl
  | cons c cs ih =>
    rw [Cycle.filterSubcycles, key c (by simp), Py.ok_bind, ih fun d hd => key d (by simp [hd]), Py.ok_bind]
    by_cases hc : Cycle.CyclicSub c self
    · simp [hc]
    · simp [hc]

/-- C47: running several cycles gives one result for each, in order, the one of running it on its own: none uses up the capacity of another. -/
theorem C47_cycles (g : AG K) (cycles : List (List Nat)) (token : Option Str) (any : Bool) (rs : List (AG.ArbResult K)) :
    g.runCycles cycles token any = .ok rs ↔ List.Forall₂ (fun c r => g.runCycle c token any = .ok r) cycles rs := by
  unfold AG.runCycles
  induction cycles generalizing rs with
  | nil =>
    simp only [List.mapM_nil, List.forall₂_nil_left_iff]
    exact ⟨fun h => (Except.ok.inj h).symm, fun h => by rw [h]; rfl⟩
  | cons c cs ih =>
    rw [List.mapM_cons, Py.bind_eq_ok, List.forall₂_cons_left_iff]
    constructor
    · rintro ⟨r, hr, h⟩
      rw [Py.bind_eq_ok] at h
      obtain ⟨rs', hrs, h⟩ := h
      exact ⟨r, rs', hr, (ih rs').1 hrs, (Except.ok.inj h).symm⟩
    · rintro ⟨r, rs', hr, hrs, rfl⟩
      exact ⟨r, hr, by rw [(ih rs').2 hrs]; rfl⟩

/-! ## C115: degrees -/

/-- The nodes with an edge to the given one. -/
def sources (g : AG K) (n : Nat) : List Nat := g.nodes.filter fun m => edgesFrom g m n ≠ []

/-- The nodes that the given one has an edge to. -/
def targets (g : AG K) (n : Nat) : List Nat := g.nodes.filter fun m => edgesFrom g n m ≠ []

theorem ixs_eq {g : AG K} (w : WF g) : g.ixs = List.range g.nodes.length := by
  unfold AG.ixs
  apply List.ext_getElem?
  intro i
  have : g.nodes.filterMap g.ixOf = g.nodes.mapIdx fun i _ => i := by
    rw [← List.filterMap_some (l := g.nodes.mapIdx fun i _ => i)]
    have key : ∀ (l : List Nat) (k : Nat), (∀ i n : Nat, l[i]? = some n → g.ixOf n = some (k + i)) →
        l.filterMap g.ixOf = (l.mapIdx fun i _ => k + i) := by
      intro l
      induction l with
      | nil => intro k _; rfl
      | cons n l ih =>
        intro k hk
        have h0 := hk 0 n rfl
        rw [Nat.add_zero] at h0
        rw [List.filterMap_cons_some h0, ih (k + 1) (fun i m hm => by rw [hk (i + 1) m hm]; congr 1; omega), List.mapIdx_cons]
        simp [Nat.add_comm, Nat.add_left_comm]
    rw [List.filterMap_some, key g.nodes 0 fun i n hn => by rw [Nat.zero_add]; exact ixOf_node w hn]
    simp
  rw [this, List.getElem?_mapIdx]
  by_cases hi : i < g.nodes.length
  · rw [List.getElem?_eq_getElem hi, List.getElem?_range hi]; rfl
  · rw [List.getElem?_eq_none (not_lt.1 hi), List.getElem?_eq_none (by simpa using hi)]; rfl

theorem arcs_nodup (g : AG K) : g.arcs.Nodup := List.nodup_dedup _

theorem arcs_into {g : AG K} (w : WF g) {j n : Nat} (hj : g.nodes[j]? = some n) :
    ((g.arcs.filter fun a => a.2 = j).map Prod.fst).Perm ((sources g n).map fun m => g.nodes.idxOf m) := by
  have hix : ∀ {i n : Nat}, g.nodes[i]? = some n → g.nodes.idxOf n = i := by
    intro i n hn
    obtain ⟨hlt, he⟩ := List.getElem?_eq_some_iff.1 hn
    rw [← he]
    exact w.nodes_nodup.idxOf_getElem i hlt
  rw [List.perm_ext_iff_of_nodup]
  · intro i
    simp only [List.mem_map, List.mem_filter, decide_eq_true_eq]
    constructor
    · rintro ⟨⟨i', j'⟩, ⟨ha, rfl⟩, rfl⟩
      obtain ⟨x, y, hx, hy, hne⟩ := (mem_arcs w).1 ha
      rw [hj] at hy
      have := Option.some.inj hy
      subst this
      exact ⟨x, List.mem_filter.2 ⟨List.mem_of_getElem? hx, by simpa using hne⟩, hix hx⟩
    · rintro ⟨m, hm, rfl⟩
      unfold sources at hm
      obtain ⟨h1, h2⟩ := List.mem_filter.1 hm
      have h2 : edgesFrom g m n ≠ [] := by simpa using h2
      exact ⟨(g.nodes.idxOf m, j), ⟨(mem_arcs w).2 ⟨m, n, List.getElem?_idxOf h1, hj, h2⟩, rfl⟩, rfl⟩
  · refine List.Nodup.map_on ?_ ((arcs_nodup g).filter _)
    rintro ⟨a, b⟩ ha ⟨c, d⟩ hc he
    have h1 := (List.mem_filter.1 ha).2
    have h2 := (List.mem_filter.1 hc).2
    simp only [decide_eq_true_eq] at h1 h2 he
    rw [h1, h2, he]
  · refine List.Nodup.map_on ?_ (w.nodes_nodup.filter _)
    intro x hx y hy he
    have hx := (List.mem_filter.1 hx).1
    have h1 := List.getElem?_idxOf hx
    rw [he, List.getElem?_idxOf ((List.mem_filter.1 hy).1)] at h1
    exact (Option.some.inj h1).symm

theorem arcs_from {g : AG K} (w : WF g) {j n : Nat} (hj : g.nodes[j]? = some n) :
    ((g.arcs.filter fun a => a.1 = j).map Prod.snd).Perm ((targets g n).map fun m => g.nodes.idxOf m) := by
  have hix : ∀ {i n : Nat}, g.nodes[i]? = some n → g.nodes.idxOf n = i := by
    intro i n hn
    obtain ⟨hlt, he⟩ := List.getElem?_eq_some_iff.1 hn
    rw [← he]
    exact w.nodes_nodup.idxOf_getElem i hlt
  rw [List.perm_ext_iff_of_nodup]
  · intro i
    simp only [List.mem_map, List.mem_filter, decide_eq_true_eq]
    constructor
    · rintro ⟨⟨j', i'⟩, ⟨ha, rfl⟩, rfl⟩
      obtain ⟨x, y, hx, hy, hne⟩ := (mem_arcs w).1 ha
      rw [hj] at hx
      have := Option.some.inj hx
      subst this
      exact ⟨y, List.mem_filter.2 ⟨List.mem_of_getElem? hy, by simpa using hne⟩, hix hy⟩
    · rintro ⟨m, hm, rfl⟩
      unfold targets at hm
      obtain ⟨h1, h2⟩ := List.mem_filter.1 hm
      have h2 : edgesFrom g n m ≠ [] := by simpa using h2
      exact ⟨(j, g.nodes.idxOf m), ⟨(mem_arcs w).2 ⟨n, m, hj, List.getElem?_idxOf h1, h2⟩, rfl⟩, rfl⟩
  · refine List.Nodup.map_on ?_ ((arcs_nodup g).filter _)
    rintro ⟨a, b⟩ ha ⟨c, d⟩ hc he
    have h1 := (List.mem_filter.1 ha).2
    have h2 := (List.mem_filter.1 hc).2
    simp only [decide_eq_true_eq] at h1 h2 he
    rw [h1, h2, he]
  · refine List.Nodup.map_on ?_ (w.nodes_nodup.filter _)
    intro x hx y hy he
    have hx := (List.mem_filter.1 hx).1
    have h1 := List.getElem?_idxOf hx
    rw [he, List.getElem?_idxOf ((List.mem_filter.1 hy).1)] at h1
    exact (Option.some.inj h1).symm

/-- C115: the degrees list every token once, at its index: the incoming degree is the number of tokens with an edge to it, the outgoing
degree the number of tokens that it has an edge to, however many edges there are between two tokens. -/
theorem C115_counts [PySqrt K] {dup : Bool} {g : AG K} (hg : Reach dup g) (i d : Nat) :
    ((i, d) ∈ g.inDegree ↔ ∃ n, g.nodes[i]? = some n ∧ d = (sources g n).length) ∧
      ((i, d) ∈ g.outDegree ↔ ∃ n, g.nodes[i]? = some n ∧ d = (targets g n).length) := by
  have w := C45_consistent hg
  unfold AG.inDegree AG.outDegree
  rw [ixs_eq w]
  simp only [List.mem_map, List.mem_range, Prod.mk.injEq]
  constructor
  · constructor
    · rintro ⟨i, hi, rfl, rfl⟩
      refine ⟨_, List.getElem?_eq_getElem hi, ?_⟩
      have := (arcs_into w (List.getElem?_eq_getElem hi)).length_eq
      rwa [List.length_map, List.length_map] at this
    · rintro ⟨n, hn, rfl⟩
      refine ⟨i, (List.getElem?_eq_some_iff.1 hn).1, rfl, ?_⟩
      have := (arcs_into w hn).length_eq
      rwa [List.length_map, List.length_map] at this
  · constructor
    · rintro ⟨i, hi, rfl, rfl⟩
      refine ⟨_, List.getElem?_eq_getElem hi, ?_⟩
      have := (arcs_from w (List.getElem?_eq_getElem hi)).length_eq
      rwa [List.length_map, List.length_map] at this
    · rintro ⟨n, hn, rfl⟩
      refine ⟨i, (List.getElem?_eq_some_iff.1 hn).1, rfl, ?_⟩
      have := (arcs_from w hn).length_eq
      rwa [List.length_map, List.length_map] at this

theorem sum_counts {α : Type} (l : List α) (key : α → Nat) (n : Nat) (h : ∀ a ∈ l, key a < n) :
    ((List.range n).map fun i => (l.filter fun a => key a = i).length).sum = l.length := by
  induction l with
  | nil => simp
  | cons a l ih =>
    have ih := ih fun b hb => h b (by simp [hb])
    rw [List.length_cons, ← ih]
    have ha := h a (by simp)
    have : ∀ (r : List Nat), r.Nodup → key a ∈ r → (r.map fun i => ((a :: l).filter fun a => key a = i).length).sum =
        (r.map fun i => (l.filter fun a => key a = i).length).sum + 1 := by
      intro r
      induction r with
      | nil => intro _ h; cases h
      | cons j r ihr =>
        intro hn hm
        rw [List.nodup_cons] at hn
        simp only [List.map_cons, List.sum_cons]
        by_cases hj : key a = j
        · have hsame : (r.map fun i => ((a :: l).filter fun a => key a = i).length) = r.map fun i => (l.filter fun a => key a = i).length := by
            apply List.map_congr_left
            intro i hi
            have : key a ≠ i := fun hc => hn.1 (hj ▸ hc ▸ hi)
            simp [this]
          rw [hsame]
          simp [hj]
          omega
        · rw [ihr hn.2 ((List.mem_cons.1 hm).resolve_left hj)]
          simp [hj]
          omega
    exact this _ List.nodup_range (List.mem_range.2 ha)

/-- C115: the incoming degrees and the outgoing degrees have the same sum. -/
theorem C115_sum [PySqrt K] {dup : Bool} {g : AG K} (hg : Reach dup g) :
    (g.inDegree.map Prod.snd).sum = (g.outDegree.map Prod.snd).sum := by
  have w := C45_consistent hg
  have hlt : ∀ a ∈ g.arcs, a.1 < g.nodes.length ∧ a.2 < g.nodes.length := by
    rintro ⟨i, j⟩ ha
    obtain ⟨x, y, hx, hy, -⟩ := (mem_arcs w).1 ha
    exact ⟨(List.getElem?_eq_some_iff.1 hx).1, (List.getElem?_eq_some_iff.1 hy).1⟩
  unfold AG.inDegree AG.outDegree
  rw [ixs_eq w, List.map_map, List.map_map]
  exact (sum_counts g.arcs Prod.snd _ fun a ha => (hlt a ha).2).trans (sum_counts g.arcs Prod.fst _ fun a ha => (hlt a ha).1).symm

/-- C115: the undirected degree of a token is the number of tokens that it has an edge to or from, where a loop counts once more. -/
theorem C115_degree [PySqrt K] {dup : Bool} {g : AG K} (hg : Reach dup g) (i d : Nat) :
    (i, d) ∈ g.degree ↔ ∃ n, g.nodes[i]? = some n ∧
      d = (g.nodes.filter fun m => edgesFrom g n m ≠ [] ∨ edgesFrom g m n ≠ []).length + if edgesFrom g n n ≠ [] then 1 else 0 := by
  have w := C45_consistent hg
  have key : ∀ {i n : Nat}, g.nodes[i]? = some n → (g.neighbours i).length + (if (i, i) ∈ g.arcs then 1 else 0) =
      (g.nodes.filter fun m => edgesFrom g n m ≠ [] ∨ edgesFrom g m n ≠ []).length + if edgesFrom g n n ≠ [] then 1 else 0 := by
    intro i n hn
    have hp : (g.neighbours i).Perm ((g.nodes.filter fun m => edgesFrom g n m ≠ [] ∨ edgesFrom g m n ≠ []).map fun m => g.nodes.idxOf m) := by
      unfold AG.neighbours
      rw [List.perm_ext_iff_of_nodup (List.nodup_dedup _)]
      · intro j
        rw [List.mem_dedup, List.mem_append, (arcs_from w hn).mem_iff, (arcs_into w hn).mem_iff]
        unfold targets sources
        simp only [List.mem_map, List.mem_filter, decide_eq_true_eq]
        constructor
        · rintro (⟨m, ⟨h1, h2⟩, h3⟩ | ⟨m, ⟨h1, h2⟩, h3⟩)
          · exact ⟨m, ⟨h1, .inl h2⟩, h3⟩
          · exact ⟨m, ⟨h1, .inr h2⟩, h3⟩
        · rintro ⟨m, ⟨h1, h2 | h2⟩, h3⟩
          · exact .inl ⟨m, ⟨h1, h2⟩, h3⟩
          · exact .inr ⟨m, ⟨h1, h2⟩, h3⟩
      · refine List.Nodup.map_on ?_ (w.nodes_nodup.filter _)
        intro x hx y hy he
        have hx := (List.mem_filter.1 hx).1
        have h1 := List.getElem?_idxOf hx
        rw [he, List.getElem?_idxOf ((List.mem_filter.1 hy).1)] at h1
        exact (Option.some.inj h1).symm
    have h1 := hp.length_eq
    rw [List.length_map] at h1
    rw [h1]
    congr 1
    by_cases hl : edgesFrom g n n ≠ []
    · rw [if_pos hl, if_pos ((mem_arcs w).2 ⟨n, n, hn, hn, hl⟩)]
    · rw [if_neg hl, if_neg]
      intro hc
      obtain ⟨x, y, hx, hy, hne⟩ := (mem_arcs w).1 hc
      rw [hn] at hx hy
      obtain rfl := Option.some.inj hx
      obtain rfl := Option.some.inj hy
      exact hl hne
  unfold AG.degree
  rw [ixs_eq w]
  simp only [List.mem_map, List.mem_range, Prod.mk.injEq]
  constructor
  · rintro ⟨i, hi, rfl, rfl⟩
    exact ⟨_, List.getElem?_eq_getElem hi, key (List.getElem?_eq_getElem hi)⟩
  · rintro ⟨n, hn, rfl⟩
    exact ⟨i, (List.getElem?_eq_some_iff.1 hn).1, rfl, key hn⟩

/-- C115: in the graph of a list of curves every token has as many tokens coming in as going out. -/
theorem C115_curves [PySqrt K] {cs : List (CPC K)} {g : AG K} (hg : AG.empty.addCurves cs = (.ok (), g)) : g.inDegree = g.outDegree := by
  obtain ⟨g', hg', w, hc, hd⟩ := C90_curves (K := K) WF.empty (by intro d hd; cases hd) cs
  rw [hg] at hg'
  obtain rfl := (Prod.mk.inj hg').2
  have hu : Unique g := by
    have := Unique.addCurves (K := K) WF.empty (by intro n hn; cases hn) cs
    rw [hg] at this
    exact this
  have hd : datas g = cs.flatMap curveEdges := by simpa [datas, AG.edgeList, AG.empty] using hd
  have hsym : ∀ x y, edgesFrom g x y ≠ [] → edgesFrom g y x ≠ [] := by
    intro x y hne hnil
    obtain ⟨e, he⟩ := List.exists_mem_of_ne_nil _ hne
    obtain ⟨he', rfl, rfl⟩ := mem_edgesFrom.1 he
    have hm : dataOf g e ∈ datas g := List.mem_map.2 ⟨e, he', rfl⟩
    rw [hd] at hm
    obtain ⟨c, hcm, hm⟩ := List.mem_flatMap.1 hm
    have back : ∀ d ∈ curveEdges c, d.tknIn = g.tknOf e.nodeOut → d.tknOut = g.tknOf e.nodeIn → False := by
      intro d hdm h1 h2
      have : d ∈ datas g := by
        rw [hd]
        exact List.mem_flatMap.2 ⟨c, hcm, hdm⟩
      obtain ⟨f, hf, hfd⟩ := List.mem_map.1 this
      obtain ⟨m1, m2⟩ := w.ends f hf
      obtain ⟨k1, k2⟩ := w.ends e he'
      have e1 : g.tknOf f.nodeIn = g.tknOf e.nodeOut := by rw [← h1, ← hfd]; rfl
      have e2 : g.tknOf f.nodeOut = g.tknOf e.nodeIn := by rw [← h2, ← hfd]; rfl
      have : f ∈ edgesFrom g e.nodeOut e.nodeIn :=
        mem_edgesFrom.2 ⟨hf, hu _ m1 _ k2 e1, hu _ m2 _ k1 e2⟩
      rw [hnil] at this
      cases this
    have hin : g.tknOf e.nodeIn = (dataOf g e).tknIn := rfl
    have hout : g.tknOf e.nodeOut = (dataOf g e).tknOut := rfl
    unfold curveEdges at hm back
    rcases List.mem_pair.1 hm with hm | hm
    · rw [hm] at hin hout
      exact back _ (List.mem_pair.2 (.inr rfl)) hout.symm hin.symm
    · rw [hm] at hin hout
      exact back _ (List.mem_pair.2 (.inl rfl)) hout.symm hin.symm
  unfold AG.inDegree AG.outDegree
  rw [ixs_eq w]
  apply List.map_congr_left
  intro i hi
  have hi := List.mem_range.1 hi
  have h1 := (arcs_into w (List.getElem?_eq_getElem hi)).length_eq
  have h2 := (arcs_from w (List.getElem?_eq_getElem hi)).length_eq
  rw [List.length_map, List.length_map] at h1 h2
  rw [h1, h2]
  congr 2
  unfold sources targets
  apply List.filter_congr
  intro m _
  rw [decide_eq_decide]
  exact ⟨hsym _ _, hsym _ _⟩

end

/-! ## Examples -/

example : (⟨3, 0⟩ : Amt ℚ).add (.amt ⟨4, 0⟩) = .ok ⟨7, 0⟩ ∧ (⟨3, 0⟩ : Amt ℚ).add (.amt ⟨4, 1⟩) = .error .value ∧
    (⟨3, 0⟩ : Amt ℚ).div (.amt ⟨4, 0⟩) = .ok (.num (3 / 4)) ∧ (⟨3, 0⟩ : Amt ℚ).rsub (.num 1) = .error .value ∧
    Amt.total ⟨0, 2⟩ [⟨1, 2⟩, ⟨(5 : ℚ), 2⟩] = .ok ⟨6, 2⟩ ∧ Amt.sum [⟨1, 2⟩, ⟨(5 : ℚ), 2⟩] = .error .value := by decide +kernel

example : (Tracked.make (some (10 : ℚ))).run [(some 20, false), (none, false), (some 5, true), (some 6, false)] = ⟨6, [5, 6]⟩ := by
  decide +kernel

/-- Node statistics before and after a transport of 6. -/
example : (exParallel.nodeStatistics "A".toList) = .ok ⟨[], [0, 1], [], [some "B".toList], 0, 15, 15⟩ ∧
    ((exParallel.transport 6 "A".toList "B".toList).2.nodeStatistics "A".toList) = .ok ⟨[], [0, 1], [], [some "B".toList], 0, 15, 9⟩ ∧
    (exParallel.nodeStatistics "B".toList) = .ok ⟨[0, 1], [], [some "A".toList], [], 35, 0, 0⟩ := by decide +kernel

example : Cycle.filterSubcycles [1, 2, 3, 4] [[2, 4], [3, 1], [3, 2, 1], [5]] = .ok [[2, 4], [3, 1]] := by decide +kernel

/-- Two parallel edges count once, and the middle of a line has degree two. -/
example : exParallel.inDegree = [(0, 0), (1, 1)] ∧ exParallel.outDegree = [(0, 1), (1, 0)] ∧ exParallel.degree = [(0, 1), (1, 1)] ∧
    exLine.inDegree = [(0, 1), (1, 2), (2, 1)] ∧ exLine.degree = [(0, 1), (1, 2), (2, 1)] := by decide +kernel

end Arb

end Carbon
