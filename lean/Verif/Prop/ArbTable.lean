import Verif.Tools.ArbTable
import Verif.Prop.ArbNode
import Verif.Prop.CpcTrade

/-!
# C135: the table of the edges of a graph
-/

set_option linter.unusedSectionVars false

namespace Carbon

open CarbonPair (pyDiv)

namespace Arb

/-! ## Groups -/

theorem mem_sortedKeys {ks : List (List Str)} {k : List Str} : k ∈ sortedKeys ks ↔ k ∈ ks := by
  unfold sortedKeys
  rw [(List.perm_insertionSort _ _).mem_iff, List.mem_dedup]

theorem sortedKeys_pairwise (ks : List (List Str)) : (sortedKeys ks).Pairwise (· < ·) := by
  have h1 : (sortedKeys ks).Pairwise (· ≤ ·) := List.pairwise_insertionSort _ _
  have h2 : (sortedKeys ks).Nodup := (List.perm_insertionSort _ _).nodup_iff.2 (List.nodup_dedup _)
  exact (h1.and h2).imp fun h => lt_of_le_of_ne h.1 h.2

section
variable {R : Type} (key : R → List Str) (upd : List Str → R → R)

/-- One line per key that occurs: the first line with that key, with some of its columns replaced. -/
def groupLines (rows : List R) : List R :=
  (sortedKeys (rows.map key)).filterMap fun k => (rows.find? fun r => decide (key r = k)).map (upd k)

theorem find_key {rows : List R} {k : List Str} (h : k ∈ rows.map key) :
    ∃ r, (rows.find? fun r => decide (key r = k)) = some r ∧ r ∈ rows ∧ key r = k := by
  cases hf : rows.find? fun r => decide (key r = k) with
  | none =>
    obtain ⟨r, hr, rfl⟩ := List.mem_map.1 h
    have := List.find?_eq_none.1 hf r hr
    simp at this
  | some r => exact ⟨r, rfl, List.mem_of_find?_eq_some hf, by simpa using List.find?_some hf⟩

theorem groupLines_keys (hu : ∀ k r, key (upd k r) = key r) (rows : List R) :
    (groupLines key upd rows).map key = sortedKeys (rows.map key) := by
  have : ∀ ks : List (List Str), (∀ k ∈ ks, k ∈ rows.map key) →
      (ks.filterMap fun k => (rows.find? fun r => decide (key r = k)).map (upd k)).map key = ks := by
    intro ks
    induction ks with
    | nil => intro _; rfl
    | cons k ks ih =>
      intro h
      obtain ⟨r, hf, hr, hk⟩ := find_key key (h k (by simp))
      rw [List.filterMap_cons, hf]
      simp only [Option.map_some, List.map_cons, hu, hk]
      rw [ih fun k hk => h k (by simp [hk])]
  exact this _ fun k hk => mem_sortedKeys.1 hk

theorem groupLines_pairwise (hu : ∀ k r, key (upd k r) = key r) (rows : List R) :
    (groupLines key upd rows).Pairwise fun a b => key a < key b := by
  have := sortedKeys_pairwise (rows.map key)
  rw [← groupLines_keys key upd hu, List.pairwise_map] at this
  exact this

theorem mem_groupLines {rows : List R} {a : R} (h : a ∈ groupLines key upd rows) : ∃ r ∈ rows, a = upd (key r) r := by
  unfold groupLines at h
  obtain ⟨k, hk, ha⟩ := List.mem_filterMap.1 h
  obtain ⟨r, hf, hr, rfl⟩ := find_key key (mem_sortedKeys.1 hk)
  rw [hf] at ha
  exact ⟨r, hr, (Option.some.inj ha).symm⟩

theorem exists_groupLine (hu : ∀ k r, key (upd k r) = key r) {rows : List R} {r : R} (h : r ∈ rows) :
    ∃ a ∈ groupLines key upd rows, key a = key r := by
  have : key r ∈ (groupLines key upd rows).map key := by
    rw [groupLines_keys key upd hu]
    exact mem_sortedKeys.2 (List.mem_map.2 ⟨r, h, rfl⟩)
  obtain ⟨a, ha, hk⟩ := List.mem_map.1 this
  exact ⟨a, ha, hk⟩

theorem sum_by_key {K : Type} [Field K] (f : R → K) (l : List R) {ks : List (List Str)} (hn : ks.Nodup) :
    (ks.map fun k => ((l.filter fun r => decide (key r = k)).map f).sum).sum = ((l.filter fun r => decide (key r ∈ ks)).map f).sum := by
  induction ks with
  | nil => simp
  | cons k ks ih =>
    rw [List.nodup_cons] at hn
    rw [List.map_cons, List.sum_cons, ih hn.2]
    clear ih
    induction l with
    | nil => simp
    | cons a l ihl =>
      simp only [List.filter_cons]
      by_cases h1 : key a = k
      · have h2 : key a ∉ ks := fun h => hn.1 (h1 ▸ h)
        simp only [h1, decide_true, if_true, List.mem_cons, true_or, List.map_cons, List.sum_cons]
        rw [h1] at h2
        rw [if_neg (by simpa using h2), add_assoc, ihl]
        simp only [List.mem_cons]
      · by_cases h2 : key a ∈ ks
        · simp only [h1, h2, decide_false, decide_true, if_true, List.mem_cons, or_true, List.map_cons, List.sum_cons,
            Bool.false_eq_true, if_false]
          rw [add_left_comm, ihl]
          simp only [List.mem_cons]
        · simp only [h1, h2, decide_false, List.mem_cons, or_self, Bool.false_eq_true, if_false]
          rw [ihl]
          simp only [List.mem_cons]

theorem groupLines_sum {K : Type} [Field K] (hu : ∀ k r, key (upd k r) = key r) (rows : List R) (p : List Str → Bool) (f : R → K)
    (hf : ∀ r, f (upd (key r) r) = ((rows.filter fun s => decide (key s = key r)).map f).sum) :
    (((groupLines key upd rows).filter fun a => p (key a)).map f).sum = ((rows.filter fun a => p (key a)).map f).sum := by
  have h1 : ((groupLines key upd rows).filter fun a => p (key a)).map f =
      (((groupLines key upd rows).filter fun a => p (key a)).map key).map fun k =>
        ((rows.filter fun s => decide (key s = k)).map f).sum := by
    rw [List.map_map]
    apply List.map_congr_left
    intro a ha
    obtain ⟨r, hr, rfl⟩ := mem_groupLines key upd (List.mem_filter.1 ha).1
    rw [hf, Function.comp_apply, hu]
  have h2 : ((groupLines key upd rows).filter fun a => p (key a)).map key = (sortedKeys (rows.map key)).filter p := by
    rw [← groupLines_keys key upd hu, List.filter_map]
    rfl
  rw [h1, h2, sum_by_key key f rows ((sortedKeys_pairwise _).imp (fun h => h.ne) |>.filter p)]
  congr 2
  apply List.filter_congr
  intro r hr
  have : key r ∈ rows.map key := List.mem_map.2 ⟨r, hr, rfl⟩
  by_cases hp : p (key r) = true
  · simp [mem_sortedKeys, hp, List.mem_filter]
    exact ⟨r, hr, rfl⟩
  · simp [hp, List.mem_filter]

end

section
variable {K : Type} [Field K] [LinearOrder K] [IsStrictOrderedRing K]

/-- The edges of a list that lead from one token to another. -/
def linkOf (g : AG K) (es : List (Edge K)) (s t : Str) : List (EdgeData K) :=
  (es.map (dataOf g)).filter fun d => d.tknIn = some s ∧ d.tknOut = some t

/-- The ends of the edges are nodes with names. -/
def Named (g : AG K) (es : List (Edge K)) : Prop := ∀ e ∈ es, (∃ s, g.tknOf e.nodeIn = some s) ∧ ∃ t, g.tknOf e.nodeOut = some t

/-- The name of a pair in its primary order, with the order of the tokens that arbitrage graphs use. -/
def pairName (s t : Str) : Str := (TPair.fromTokens s t).primary TPair.normalize

/-- Whether the primary order of a pair is that of the given tokens. -/
def isPrimary (s t : Str) : Bool := (TPair.fromTokens s t).isprimary TPair.normalize

theorem Named.of_wf {g : AG K} (w : WF g) : Named g g.edgeList := fun e he =>
  ⟨w.tkn (w.ends e he).1, w.tkn (w.ends e he).2⟩

/-- The name of the input token of an edge. -/
def inName (g : AG K) (e : Edge K) : Str := (g.tknOf e.nodeIn).getD []

/-- The name of the output token of an edge. -/
def outName (g : AG K) (e : Edge K) : Str := (g.tknOf e.nodeOut).getD []

/-- The line of an edge in the table of an amount-type graph. -/
def amtLine (g : AG K) (e : Edge K) : AmtRow K :=
  ⟨pairName (inName g e) (outName g e), inName g e, outName g e, e.amountIn, e.amountOut⟩

/-- The line of an edge in the table of a connection-type graph. -/
def connLineOf (g : AG K) (e : Edge K) : ConnRow K :=
  ⟨pairName (inName g e) (outName g e), inName g e, outName g e, -e.amountIn, !isPrimary (inName g e) (outName g e),
    e.amountOut / e.amountIn, primaryPrice ⟨inName g e, outName g e⟩ (e.amountOut / e.amountIn)⟩

theorem amtRow_eq {g : AG K} {es : List (Edge K)} (h : Named g es) : es.mapM g.amtRow = .ok (es.map (amtLine g)) := by
  apply mapM_ok
  intro e he
  obtain ⟨⟨s, hs⟩, t, ht⟩ := h e he
  unfold AG.amtRow amtLine inName outName
  rw [hs, ht]
  rfl

theorem connRow_eq {g : AG K} {es : List (Edge K)} (h : Named g es) (hn : ∀ e ∈ es, e.amountIn ≠ 0) :
    es.mapM g.connRow = .ok (es.map (connLineOf g)) := by
  apply mapM_ok
  intro e he
  obtain ⟨⟨s, hs⟩, t, ht⟩ := h e he
  unfold AG.connRow connLineOf inName outName
  rw [hs, ht]
  dsimp only
  rw [UICurve.pyDiv_ok (hn e he), Py.ok_bind]
  rfl

theorem filter_link {R : Type} {g : AG K} {es : List (Edge K)} (h : Named g es) (line : Edge K → R) (f : R → Bool) {s t : Str}
    (hf : ∀ e ∈ es, f (line e) = true ↔ inName g e = s ∧ outName g e = t) {X : Type} (c : R → X) (d : EdgeData K → X)
    (hc : ∀ e ∈ es, c (line e) = d (dataOf g e)) :
    ((es.map line).filter f).map c = (linkOf g es s t).map d := by
  unfold linkOf
  induction es with
  | nil => rfl
  | cons e es ih =>
    have hr := ih (fun e he => h e (by simp [he])) (fun e he => hf e (by simp [he])) (fun e he => hc e (by simp [he]))
    obtain ⟨⟨a, ha⟩, b, hb⟩ := h e (by simp)
    have h1 := hf e (by simp)
    have h2 : (decide ((dataOf g e).tknIn = some s ∧ (dataOf g e).tknOut = some t) = true) ↔ inName g e = s ∧ outName g e = t := by
      unfold dataOf inName outName
      simp [ha, hb]
    simp only [List.map_cons, List.filter_cons]
    by_cases hk : inName g e = s ∧ outName g e = t
    · rw [if_pos (h1.2 hk), if_pos (h2.2 hk), List.map_cons, List.map_cons, hr, hc e (by simp)]
    · rw [if_neg (fun hh => hk (h1.1 hh)), if_neg (fun hh => hk (h2.1 hh)), hr]

theorem linkOf_ne_nil {g : AG K} {es : List (Edge K)} (h : Named g es) {s t : Str} :
    linkOf g es s t ≠ [] ↔ ∃ e ∈ es, inName g e = s ∧ outName g e = t := by
  constructor
  · intro hne
    obtain ⟨d, hd⟩ := List.exists_mem_of_ne_nil _ hne
    obtain ⟨h1, h2⟩ := List.mem_filter.1 hd
    obtain ⟨e, he, rfl⟩ := List.mem_map.1 h1
    have h2 : g.tknOf e.nodeIn = some s ∧ g.tknOf e.nodeOut = some t := of_decide_eq_true h2
    exact ⟨e, he, by simp [inName, h2.1], by simp [outName, h2.2]⟩
  · rintro ⟨e, he, rfl, rfl⟩
    obtain ⟨⟨a, ha⟩, b, hb⟩ := h e he
    apply List.ne_nil_of_mem (a := dataOf g e)
    apply List.mem_filter.2
    refine ⟨List.mem_map.2 ⟨e, he, rfl⟩, ?_⟩
    simp [dataOf, inName, outName, ha, hb]

/-! ## Amount-type graphs -/

/-- The sums of a group of lines. -/
def amtUpd (rows : List (AmtRow K)) (k : List Str) (r : AmtRow K) : AmtRow K :=
  { r with
    amountIn := ((rows.filter fun r => decide (r.key = k)).map AmtRow.amountIn).sum
    amountOut := ((rows.filter fun r => decide (r.key = k)).map AmtRow.amountOut).sum }

theorem AmtRow.grouped_eq (rows : List (AmtRow K)) : AmtRow.grouped rows = groupLines AmtRow.key (amtUpd rows) rows := rfl

/-- C135: the consolidated table of an amount-type graph (or of a selection of its edges) has one line for each pair of tokens connected by an
edge in this direction, in the order of the names, with the primary name of the pair and the sums of the amounts of these edges. -/
theorem C135_amounts_of {g : AG K} (ht : g.edgeType = some true) {es : List (Edge K)} (h : Named g es) (hne : es ≠ []) :
    ∃ rows, g.edgedf (some es) = .ok (.amounts rows) ∧
      rows.Pairwise (fun a b => [a.pair, a.tknIn, a.tknOut] < [b.pair, b.tknIn, b.tknOut]) ∧
      (∀ r ∈ rows, r.pair = pairName r.tknIn r.tknOut ∧ linkOf g es r.tknIn r.tknOut ≠ [] ∧
        r.amountIn = ((linkOf g es r.tknIn r.tknOut).map EdgeData.amountIn).sum ∧
        r.amountOut = ((linkOf g es r.tknIn r.tknOut).map EdgeData.amountOut).sum) ∧
      ∀ s t, linkOf g es s t ≠ [] → ∃ r ∈ rows, r.tknIn = s ∧ r.tknOut = t := by
  refine ⟨AmtRow.grouped (es.map (amtLine g)), ?_, ?_, ?_, ?_⟩
  · unfold AG.edgedf
    rw [if_pos ht]
    dsimp only [Option.getD_some]
    rw [amtRow_eq h, Py.ok_bind, if_neg (by simp), if_neg (by simpa using hne)]
  · rw [AmtRow.grouped_eq]
    exact groupLines_pairwise AmtRow.key (amtUpd _) (fun _ _ => rfl) _
  · intro r hr
    rw [AmtRow.grouped_eq] at hr
    obtain ⟨r0, h0, rfl⟩ := mem_groupLines _ _ hr
    obtain ⟨e, he, rfl⟩ := List.mem_map.1 h0
    have hf : ∀ e' ∈ es, decide ((amtLine g e').key = (amtLine g e).key) = true ↔ inName g e' = inName g e ∧ outName g e' = outName g e := by
      intro e' _
      simp only [AmtRow.key, amtLine, decide_eq_true_eq, List.cons.injEq, and_true]
      constructor
      · rintro ⟨_, h1, h2⟩; exact ⟨h1, h2⟩
      · rintro ⟨h1, h2⟩; exact ⟨by rw [h1, h2], h1, h2⟩
    refine ⟨rfl, (linkOf_ne_nil h).2 ⟨e, he, rfl, rfl⟩, ?_, ?_⟩
    · exact congrArg List.sum (filter_link h _ _ hf _ _ fun _ _ => rfl)
    · exact congrArg List.sum (filter_link h _ _ hf _ _ fun _ _ => rfl)
  · intro s t hst
    obtain ⟨e, he, rfl, rfl⟩ := (linkOf_ne_nil h).1 hst
    rw [AmtRow.grouped_eq]
    obtain ⟨a, ha, hk⟩ := exists_groupLine AmtRow.key (amtUpd (es.map (amtLine g))) (fun _ _ => rfl) (List.mem_map.2 ⟨e, he, rfl⟩)
    refine ⟨a, ha, ?_⟩
    simp only [AmtRow.key, amtLine, List.cons.injEq] at hk
    exact ⟨hk.2.1, hk.2.2.1⟩

/-- C135: the same for all edges of a graph. -/
theorem C135_amounts [PySqrt K] {dup : Bool} {g : AG K} (hg : Reach dup g) (ht : g.edgeType = some true) :
    ∃ rows, g.edgedf = .ok (.amounts rows) ∧
      rows.Pairwise (fun a b => [a.pair, a.tknIn, a.tknOut] < [b.pair, b.tknIn, b.tknOut]) ∧
      (∀ r ∈ rows, r.pair = pairName r.tknIn r.tknOut ∧ link g r.tknIn r.tknOut ≠ [] ∧
        r.amountIn = ((link g r.tknIn r.tknOut).map EdgeData.amountIn).sum ∧
        r.amountOut = ((link g r.tknIn r.tknOut).map EdgeData.amountOut).sum) ∧
      ∀ s t, link g s t ≠ [] → ∃ r ∈ rows, r.tknIn = s ∧ r.tknOut = t := by
  have w := C45_consistent hg
  refine C135_amounts_of ht (Named.of_wf w) ?_
  intro hc
  unfold AG.edgeType at ht
  rw [hc] at ht
  cases ht

/-! ## Connection-type graphs -/

/-- The number of connections from one token to another: the sum of their weights. -/
def weight (g : AG K) (es : List (Edge K)) (s t : Str) : K := ((linkOf g es s t).map fun d => -d.amountIn).sum

/-- The mean of the prices, other than zero, of the edges from one token to another, if there are any. -/
def meanPrice (g : AG K) (es : List (Edge K)) (s t : Str) : Option K :=
  let l := ((linkOf g es s t).map fun d => d.amountOut / d.amountIn).filter fun x => decide (x ≠ 0)
  if l = [] then none else some (l.sum / l.length)

/-- The sum and the mean of a group of lines. -/
def connUpd (rows : List (ConnRow K)) (k : List Str) (r : ConnRow K) : ConnRow K :=
  { r with
    n := ((rows.filter fun r => decide (r.key = k)).map ConnRow.n).sum
    price := nanmean ((rows.filter fun r => decide (r.key = k)).map ConnRow.price) }

theorem ConnRow.pivot_eq (rows : List (ConnRow K)) : ConnRow.pivot rows = groupLines ConnRow.key (connUpd rows) rows := rfl

theorem connKey_iff (g : AG K) (e e' : Edge K) :
    decide ((connLineOf g e').key = (connLineOf g e).key) = true ↔ inName g e' = inName g e ∧ outName g e' = outName g e := by
  rw [decide_eq_true_eq]
  constructor
  · intro hk
    simp only [ConnRow.key, connLineOf, List.cons.injEq, and_true] at hk
    exact ⟨hk.2.1, hk.2.2.1⟩
  · rintro ⟨h1, h2⟩
    have i1 : (connLineOf g e').pair = (connLineOf g e).pair := by simp [connLineOf, h1, h2]
    have i2 : (connLineOf g e').tknIn = (connLineOf g e).tknIn := h1
    have i3 : (connLineOf g e').tknOut = (connLineOf g e).tknOut := h2
    have i4 : (connLineOf g e').isReverse = (connLineOf g e).isReverse := by simp [connLineOf, h1, h2]
    unfold ConnRow.key
    rw [i1, i2, i3, i4]

theorem nanmean_primary {s t : Str} (h : isPrimary s t = true) (l : List K) :
    nanmean (l.map (primaryPrice ⟨s, t⟩)) =
      if (l.filter fun x => decide (x ≠ 0)) = [] then none
      else some ((l.filter fun x => decide (x ≠ 0)).sum / (l.filter fun x => decide (x ≠ 0)).length) := by
  have : (l.map (primaryPrice ⟨s, t⟩)).filterMap id = l.filter fun x => decide (x ≠ 0) := by
    induction l with
    | nil => rfl
    | cons x l ih =>
      rw [List.map_cons, List.filterMap_cons, List.filter_cons, ih]
      unfold primaryPrice
      have h' : (TPair.isprimary TPair.normalize ⟨s, t⟩) = true := h
      by_cases hx : x = 0
      · simp [hx]
      · simp [hx, h']
  unfold nanmean
  rw [this]

/-- What a line of the pivot table says. -/
theorem pivot_line {g : AG K} {es : List (Edge K)} (h : Named g es) {r : ConnRow K}
    (hr : r ∈ ConnRow.pivot (es.map (connLineOf g))) :
    linkOf g es r.tknIn r.tknOut ≠ [] ∧ r.pair = pairName r.tknIn r.tknOut ∧ r.isReverse = !isPrimary r.tknIn r.tknOut ∧
      r.n = weight g es r.tknIn r.tknOut ∧ (isPrimary r.tknIn r.tknOut = true → r.price = meanPrice g es r.tknIn r.tknOut) := by
  rw [ConnRow.pivot_eq] at hr
  obtain ⟨r0, h0, rfl⟩ := mem_groupLines _ _ hr
  obtain ⟨e, he, rfl⟩ := List.mem_map.1 h0
  refine ⟨(linkOf_ne_nil h).2 ⟨e, he, rfl, rfl⟩, rfl, rfl, ?_, ?_⟩
  · exact congrArg List.sum (filter_link h _ _ (fun e' _ => connKey_iff g e e') _ (fun d => -d.amountIn) fun _ _ => rfl)
  · intro hp
    have hp : isPrimary (inName g e) (outName g e) = true := hp
    have hk : ((es.map (connLineOf g)).filter fun r => decide (r.key = (connLineOf g e).key)).map ConnRow.price =
        ((linkOf g es (inName g e) (outName g e)).map fun d => d.amountOut / d.amountIn).map
          (primaryPrice ⟨inName g e, outName g e⟩) := by
      have h1 : ((es.map (connLineOf g)).filter fun r => decide (r.key = (connLineOf g e).key)).map ConnRow.price =
          ((es.map (connLineOf g)).filter fun r => decide (r.key = (connLineOf g e).key)).map
            fun r => primaryPrice ⟨inName g e, outName g e⟩ r.priceOutIn := by
        apply List.map_congr_left
        intro r hr
        obtain ⟨hm, hk⟩ := List.mem_filter.1 hr
        obtain ⟨e', he', rfl⟩ := List.mem_map.1 hm
        obtain ⟨k1, k2⟩ := (connKey_iff g e e').1 hk
        rw [← k1, ← k2]
        rfl
      rw [h1, filter_link h (connLineOf g) _ (fun e' _ => connKey_iff g e e') (fun r => primaryPrice ⟨inName g e, outName g e⟩ r.priceOutIn)
        (fun d => primaryPrice ⟨inName g e, outName g e⟩ (d.amountOut / d.amountIn)) fun _ _ => rfl, List.map_map]
      rfl
    show nanmean _ = _
    rw [hk, nanmean_primary hp]
    rfl

theorem exists_pivot {g : AG K} {es : List (Edge K)} (h : Named g es) {s t : Str} (hst : linkOf g es s t ≠ []) :
    ∃ r ∈ ConnRow.pivot (es.map (connLineOf g)), r.tknIn = s ∧ r.tknOut = t := by
  obtain ⟨e, he, rfl, rfl⟩ := (linkOf_ne_nil h).1 hst
  obtain ⟨a, ha, hk⟩ := exists_groupLine ConnRow.key (connUpd (es.map (connLineOf g))) (fun _ _ => rfl)
    (List.mem_map.2 ⟨e, he, rfl⟩)
  refine ⟨a, ha, ?_⟩
  simp only [ConnRow.key, connLineOf, List.cons.injEq] at hk
  exact ⟨hk.2.1, hk.2.2.1⟩

theorem edgedf_connections {g : AG K} (ht : g.edgeType ≠ some true) {es : List (Edge K)} (h : Named g es) (hne : es ≠ [])
    (hn : ∀ e ∈ es, e.amountIn ≠ 0) :
    g.edgedf (some es) = .ok (.connections (ConnRow.sideBySide (ConnRow.pivot (es.map (connLineOf g))))) := by
  unfold AG.edgedf
  rw [if_neg ht]
  dsimp only [Option.getD_some]
  rw [connRow_eq h hn, Py.ok_bind, if_neg (by simp), if_neg (by simpa using hne)]

theorem key_lt_pair {a b : ConnRow K} (h : a.key < b.key) (hi : a.pair = b.pair → a.key = b.key) : a.pair < b.pair := by
  have h1 : a.pair ≤ b.pair := List.head_le_of_lt h
  refine lt_of_le_of_ne h1 fun hc => ?_
  exact h.ne (hi hc)

theorem isPrimary_swap {s t : Str} (h : s ≠ t) : isPrimary t s = !isPrimary s t := TPair.C44_exactly_one _ _ _ h

theorem pairName_of {s t : Str} (h : isPrimary s t = true) : pairName s t = s ++ '/' :: t := by
  unfold pairName TPair.primary
  unfold isPrimary at h
  rw [if_pos h]
  rfl

theorem pairName_of_not {s t : Str} (h : isPrimary s t = false) : pairName s t = t ++ '/' :: s := by
  unfold pairName TPair.primary
  unfold isPrimary at h
  rw [h, if_neg (by simp)]
  rfl

/-- C135: if there is no connection of a token to itself and every pair of tokens that is connected is connected both ways, the consolidated
table of a connection-type graph has one line for each pair, in the order of the names of the pairs: the name, the number of connections in the
primary direction, the number in the opposite direction and the mean of the prices of the former. Missing: graphs with pairs
connected one way only, for which the lines of different pairs are mixed (`C135_oneway_violated`). -/
theorem C135_connections_partial {g : AG K} (ht : g.edgeType ≠ some true) {es : List (Edge K)} (h : Named g es) (hne : es ≠ [])
    (hn : ∀ e ∈ es, e.amountIn ≠ 0) (hs : ∀ e ∈ es, '/' ∉ inName g e ∧ '/' ∉ outName g e)
    (hl : ∀ s, linkOf g es s s = []) (hb : ∀ s t, linkOf g es s t ≠ [] → linkOf g es t s ≠ []) :
    ∃ ps : List (Str × Str),
      g.edgedf (some es) = .ok (.connections (ps.map fun p =>
        ⟨some (p.1 ++ '/' :: p.2), some (weight g es p.1 p.2), some (weight g es p.2 p.1), meanPrice g es p.1 p.2⟩)) ∧
      ps.Pairwise (fun p q => p.1 ++ '/' :: p.2 < q.1 ++ '/' :: q.2) ∧
      ∀ s t, (s, t) ∈ ps ↔ isPrimary s t = true ∧ linkOf g es s t ≠ [] := by
  obtain ⟨P, hP⟩ : ∃ P, P = ConnRow.pivot (es.map (connLineOf g)) := ⟨_, rfl⟩
  have hline : ∀ r ∈ P, linkOf g es r.tknIn r.tknOut ≠ [] ∧ r.pair = pairName r.tknIn r.tknOut ∧
      r.isReverse = !isPrimary r.tknIn r.tknOut ∧ r.n = weight g es r.tknIn r.tknOut ∧
      (isPrimary r.tknIn r.tknOut = true → r.price = meanPrice g es r.tknIn r.tknOut) := fun r hr => pivot_line h (hP ▸ hr)
  have hex : ∀ s t, linkOf g es s t ≠ [] → ∃ r ∈ P, r.tknIn = s ∧ r.tknOut = t := fun s t hst => hP ▸ exists_pivot h hst
  have hkeys : P.Pairwise fun a b => a.key < b.key := by
    rw [hP, ConnRow.pivot_eq]
    exact groupLines_pairwise ConnRow.key (connUpd _) (fun _ _ => rfl) _
  have hslash : ∀ r ∈ P, '/' ∉ r.tknIn ∧ '/' ∉ r.tknOut := by
    intro r hr
    obtain ⟨e, he, h1, h2⟩ := (linkOf_ne_nil h).1 (hline r hr).1
    rw [← h1, ← h2]
    exact hs e he
  have hdiff : ∀ r ∈ P, r.tknIn ≠ r.tknOut := by
    intro r hr hc
    have := (hline r hr).1
    rw [hc] at this
    exact this (hl _)
  obtain ⟨F, hF⟩ : ∃ F, F = P.filter fun r => !r.isReverse := ⟨_, rfl⟩
  obtain ⟨B, hB⟩ : ∃ B, B = P.filter fun r => r.isReverse := ⟨_, rfl⟩
  have hFm : ∀ r, r ∈ F ↔ r ∈ P ∧ isPrimary r.tknIn r.tknOut = true := by
    intro r
    rw [hF, List.mem_filter]
    constructor
    · rintro ⟨h1, h2⟩
      refine ⟨h1, ?_⟩
      rw [(hline r h1).2.2.1, Bool.not_not] at h2
      exact h2
    · rintro ⟨h1, h2⟩
      refine ⟨h1, ?_⟩
      rw [(hline r h1).2.2.1, Bool.not_not]
      exact h2
  have hBm : ∀ r, r ∈ B ↔ r ∈ P ∧ isPrimary r.tknIn r.tknOut = false := by
    intro r
    rw [hB, List.mem_filter]
    constructor
    · rintro ⟨h1, h2⟩
      refine ⟨h1, ?_⟩
      rw [(hline r h1).2.2.1] at h2
      simpa using h2
    · rintro ⟨h1, h2⟩
      refine ⟨h1, ?_⟩
      rw [(hline r h1).2.2.1, h2]
      rfl
  have hFs : F.Pairwise fun a b => a.tknIn ++ '/' :: a.tknOut < b.tknIn ++ '/' :: b.tknOut := by
    have := (hkeys.sublist (hF ▸ List.filter_sublist : F.Sublist P))
    refine List.Pairwise.imp_of_mem ?_ this
    intro a b ha hb hab
    obtain ⟨pa, qa⟩ := (hFm a).1 ha
    obtain ⟨pb, qb⟩ := (hFm b).1 hb
    have ea : a.pair = a.tknIn ++ '/' :: a.tknOut := by rw [(hline a pa).2.1, pairName_of qa]
    have eb : b.pair = b.tknIn ++ '/' :: b.tknOut := by rw [(hline b pb).2.1, pairName_of qb]
    have := key_lt_pair hab fun hc => by
      rw [ea, eb] at hc
      obtain ⟨i1, i2⟩ := CC.sep_inj (hslash a pa).1 (hslash a pa).2 hc
      unfold ConnRow.key
      rw [(hline a pa).2.1, (hline b pb).2.1, (hline a pa).2.2.1, (hline b pb).2.2.1, i1, i2]
    rwa [ea, eb] at this
  have hBs : B.Pairwise fun a b => a.tknOut ++ '/' :: a.tknIn < b.tknOut ++ '/' :: b.tknIn := by
    have := (hkeys.sublist (hB ▸ List.filter_sublist : B.Sublist P))
    refine List.Pairwise.imp_of_mem ?_ this
    intro a b ha hb hab
    obtain ⟨pa, qa⟩ := (hBm a).1 ha
    obtain ⟨pb, qb⟩ := (hBm b).1 hb
    have ea : a.pair = a.tknOut ++ '/' :: a.tknIn := by rw [(hline a pa).2.1, pairName_of_not qa]
    have eb : b.pair = b.tknOut ++ '/' :: b.tknIn := by rw [(hline b pb).2.1, pairName_of_not qb]
    have := key_lt_pair hab fun hc => by
      rw [ea, eb] at hc
      obtain ⟨i1, i2⟩ := CC.sep_inj (hslash a pa).2 (hslash a pa).1 hc
      unfold ConnRow.key
      rw [(hline a pa).2.1, (hline b pb).2.1, (hline a pa).2.2.1, (hline b pb).2.2.1, i1, i2]
    rwa [ea, eb] at this
  obtain ⟨ps, hps⟩ : ∃ ps, ps = F.map fun r => (r.tknIn, r.tknOut) := ⟨_, rfl⟩
  have hmem : ∀ s t, (s, t) ∈ ps ↔ isPrimary s t = true ∧ linkOf g es s t ≠ [] := by
    intro s t
    rw [hps, List.mem_map]
    constructor
    · rintro ⟨r, hr, he⟩
      obtain ⟨rfl, rfl⟩ := Prod.mk.inj he
      exact ⟨((hFm r).1 hr).2, (hline r ((hFm r).1 hr).1).1⟩
    · rintro ⟨h1, h2⟩
      obtain ⟨r, hr, rfl, rfl⟩ := hex s t h2
      exact ⟨r, (hFm r).2 ⟨hr, h1⟩, rfl⟩
  have hpss : ps.Pairwise fun p q => p.1 ++ '/' :: p.2 < q.1 ++ '/' :: q.2 := by
    rw [hps, List.pairwise_map]
    exact hFs
  have hBps : B.map (fun r => (r.tknOut, r.tknIn)) = ps := by
    have h1 : (B.map fun r => (r.tknOut, r.tknIn)).Pairwise fun p q => p.1 ++ '/' :: p.2 < q.1 ++ '/' :: q.2 := by
      rw [List.pairwise_map]
      exact hBs
    have : Std.Irrefl fun p q : Str × Str => p.1 ++ '/' :: p.2 < q.1 ++ '/' :: q.2 := ⟨fun _ => lt_irrefl _⟩
    have : Std.Antisymm fun p q : Str × Str => p.1 ++ '/' :: p.2 < q.1 ++ '/' :: q.2 := ⟨fun _ _ h1 h2 => absurd h1 (lt_asymm h2)⟩
    refine List.Pairwise.eq_of_mem_iff h1 hpss ?_
    rintro ⟨s, t⟩
    rw [hmem, List.mem_map]
    constructor
    · rintro ⟨r, hr, he⟩
      obtain ⟨rfl, rfl⟩ := Prod.mk.inj he
      obtain ⟨k1, k2⟩ := (hBm r).1 hr
      exact ⟨by rw [isPrimary_swap (hdiff r k1), k2]; rfl, hb _ _ (hline r k1).1⟩
    · rintro ⟨k1, k2⟩
      obtain ⟨r, hr, rfl, rfl⟩ := hex t s (hb _ _ k2)
      refine ⟨r, (hBm r).2 ⟨hr, ?_⟩, rfl⟩
      rw [isPrimary_swap (hdiff r hr).symm, k1]
      rfl
  refine ⟨ps, ?_, hpss, hmem⟩
  rw [edgedf_connections ht h hne hn, ← hP]
  congr 2
  unfold ConnRow.sideBySide
  dsimp only
  rw [← hF, ← hB]
  have l1 : ps.length = F.length := by rw [hps, List.length_map]
  have l2 : ps.length = B.length := by rw [← hBps, List.length_map]
  rw [← l1, ← l2, max_self]
  apply List.ext_getElem
  · simp
  intro i h1 h2
  have hi : i < ps.length := by simpa using h2
  have hiF : i < F.length := l1 ▸ hi
  have hiB : i < B.length := l2 ▸ hi
  have mF : F[i] ∈ F := List.getElem_mem _
  have mB : B[i] ∈ B := List.getElem_mem _
  have e1 : ps[i] = (F[i].tknIn, F[i].tknOut) := by simp [hps]
  have e2 : ps[i] = (B[i].tknOut, B[i].tknIn) := by simp [← hBps]
  obtain ⟨pF, qF⟩ := (hFm _).1 mF
  obtain ⟨pB, qB⟩ := (hBm _).1 mB
  rw [List.getElem_map, List.getElem_map, List.getElem_range, List.getElem?_eq_getElem hiF, List.getElem?_eq_getElem hiB]
  simp only [Option.map_some, Option.bind_some, ConnLine.mk.injEq, Option.some.injEq]
  refine ⟨?_, ?_, ?_, ?_⟩
  · rw [(hline _ pF).2.1, pairName_of qF, e1]
  · rw [(hline _ pF).2.2.2.1, e1]
  · rw [(hline _ pB).2.2.2.1, e2]
  · rw [(hline _ pF).2.2.2.2 qF, e1]

theorem range_get {α β : Type} (l : List α) {m : Nat} (h : l.length ≤ m) (f : α → β) :
    (List.range m).filterMap (fun i => (l[i]?).map f) = l.map f := by
  induction l generalizing m with
  | nil => simp
  | cons a l ih =>
    obtain ⟨k, rfl⟩ : ∃ k, m = k + 1 := ⟨m - 1, by simp at h; omega⟩
    rw [List.range_succ_eq_map, List.filterMap_cons]
    simp only [List.getElem?_cons_zero, Option.map_some, List.map_cons, List.filterMap_map]
    congr 1
    rw [← ih (m := k) (by simpa using h)]
    rfl

theorem sideBySide_n (P : List (ConnRow K)) :
    (ConnRow.sideBySide P).filterMap ConnLine.n = (P.filter fun r => !r.isReverse).map ConnRow.n := by
  unfold ConnRow.sideBySide
  rw [List.filterMap_map]
  exact range_get _ (le_max_left _ _) _

theorem sideBySide_pair (P : List (ConnRow K)) :
    (ConnRow.sideBySide P).filterMap ConnLine.pair = (P.filter fun r => !r.isReverse).map ConnRow.pair := by
  unfold ConnRow.sideBySide
  rw [List.filterMap_map]
  exact range_get _ (le_max_left _ _) _

theorem sideBySide_nRev (P : List (ConnRow K)) :
    (ConnRow.sideBySide P).filterMap ConnLine.nRev = (P.filter fun r => r.isReverse).map ConnRow.n := by
  unfold ConnRow.sideBySide
  rw [List.filterMap_map]
  exact range_get _ (le_max_right _ _) _

theorem key_reverse (r : ConnRow K) : decide (r.key[3]? = some "True".toList) = r.isReverse := by
  unfold ConnRow.key
  cases r.isReverse
  · simp
  · simp

theorem pivot_sum (rows : List (ConnRow K)) (p : Bool → Bool) :
    (((ConnRow.pivot rows).filter fun r => p r.isReverse).map ConnRow.n).sum = ((rows.filter fun r => p r.isReverse).map ConnRow.n).sum := by
  have := groupLines_sum ConnRow.key (connUpd rows) (fun _ _ => rfl) rows (fun k => p (decide (k[3]? = some "True".toList))) ConnRow.n
    (fun _ => rfl)
  simp only [key_reverse] at this
  exact this

/-- C135: whatever the graph, the two columns of numbers add up to the numbers of connections in and against the primary direction of
their pairs, and the pairs listed are those with a connection in the primary direction. -/
theorem C135_totals {g : AG K} (ht : g.edgeType ≠ some true) {es : List (Edge K)} (h : Named g es) (hne : es ≠ [])
    (hn : ∀ e ∈ es, e.amountIn ≠ 0) :
    ∃ lines, g.edgedf (some es) = .ok (.connections lines) ∧
      (lines.filterMap ConnLine.n).sum = ((es.filter fun e => isPrimary (inName g e) (outName g e)).map fun e => -e.amountIn).sum ∧
      (lines.filterMap ConnLine.nRev).sum = ((es.filter fun e => !isPrimary (inName g e) (outName g e)).map fun e => -e.amountIn).sum ∧
      ∀ p, p ∈ lines.filterMap ConnLine.pair ↔ ∃ e ∈ es, isPrimary (inName g e) (outName g e) = true ∧ pairName (inName g e) (outName g e) = p := by
  refine ⟨_, edgedf_connections ht h hne hn, ?_, ?_, ?_⟩
  · rw [sideBySide_n, pivot_sum _ fun b => !b, List.filter_map, List.map_map]
    congr 2
    apply List.filter_congr
    intro e _
    simp [connLineOf]
  · rw [sideBySide_nRev, pivot_sum _ fun b => b, List.filter_map, List.map_map]
    rfl
  · intro p
    rw [sideBySide_pair, List.mem_map]
    constructor
    · rintro ⟨r, hr, rfl⟩
      obtain ⟨h1, h2⟩ := List.mem_filter.1 hr
      obtain ⟨k1, k2, k3, -⟩ := pivot_line h h1
      obtain ⟨e, he, i1, i2⟩ := (linkOf_ne_nil h).1 k1
      rw [k3, Bool.not_not, ← i1, ← i2] at h2
      exact ⟨e, he, h2, by rw [k2, i1, i2]⟩
    · rintro ⟨e, he, h1, rfl⟩
      obtain ⟨r, hr, i1, i2⟩ := exists_pivot h ((linkOf_ne_nil h).2 ⟨e, he, rfl, rfl⟩)
      obtain ⟨k1, k2, k3, -⟩ := pivot_line h hr
      refine ⟨r, List.mem_filter.2 ⟨hr, ?_⟩, by rw [k2, i1, i2]⟩
      rw [k3, i1, i2, h1]
      rfl

/-- C135: without consolidation the table has one line per edge, in order: identifier, primary name of the pair, tokens and amounts, or
primary name, tokens, weight, direction, price and price in the primary direction (a NaN for the price zero). -/
theorem C135_edges {g : AG K} {es : List (Edge K)} (h : Named g es) :
    (g.edgeType = some true → g.edgedf (some es) false = .ok (.amountEdges (es.map fun e =>
      (e.uid, ⟨pairName (inName g e) (outName g e), inName g e, outName g e, e.amountIn, e.amountOut⟩)))) ∧
    (g.edgeType ≠ some true → (∀ e ∈ es, e.amountIn ≠ 0) → g.edgedf (some es) false = .ok (.connectionEdges (es.map fun e =>
      { pair := pairName (inName g e) (outName g e), tknIn := inName g e, tknOut := outName g e, n := -e.amountIn
        isReverse := !isPrimary (inName g e) (outName g e), priceOutIn := e.amountOut / e.amountIn
        price := if e.amountOut = 0 then none
          else some (if isPrimary (inName g e) (outName g e) then e.amountOut / e.amountIn else e.amountIn / e.amountOut) }))) := by
  constructor
  · intro ht
    unfold AG.edgedf
    rw [if_pos ht]
    dsimp only [Option.getD_some]
    rw [amtRow_eq h, Py.ok_bind, if_pos (by simp)]
    congr 2
    rw [List.zip_map']
    rfl
  · intro ht hn
    unfold AG.edgedf
    rw [if_neg ht]
    dsimp only [Option.getD_some]
    rw [connRow_eq h hn, Py.ok_bind, if_pos (by simp)]
    congr 2
    apply List.map_congr_left
    intro e he
    unfold connLineOf primaryPrice isPrimary TPair.fromTokens
    by_cases h0 : e.amountOut = 0
    · simp [h0]
    · simp only [div_eq_zero_iff, h0, hn e he, or_self, if_false, one_div_div]
      split <;> rfl

/-- C135: an empty selection of edges has an empty table without consolidation, and raises with it. -/
theorem C135_empty (g : AG K) : g.edgedf (some []) = .error .key ∧
    ∃ t, g.edgedf (some []) false = .ok t ∧ (t = .amountEdges [] ∨ t = .connectionEdges []) := by
  unfold AG.edgedf
  by_cases h : g.edgeType = some true
  · rw [if_pos h, if_pos h]
    exact ⟨rfl, _, rfl, Or.inl rfl⟩
  · rw [if_neg h, if_neg h]
    exact ⟨rfl, _, rfl, Or.inr rfl⟩

/-! ## Curves -/

theorem splitSlash_parts (s : Str) : ∀ p ∈ splitSlash s, '/' ∉ p := by
  induction s with
  | nil => simp [splitSlash]
  | cons c s ih =>
    unfold splitSlash
    split
    · intro p hp
      rcases List.mem_cons.1 hp with rfl | hp
      · simp
      · exact ih p hp
    · rename_i hc
      cases hsp : splitSlash s with
      | nil => intro p hp; simp at hp; subst hp; simpa using Ne.symm hc
      | cons h t =>
        intro p hp
        rcases List.mem_cons.1 hp with rfl | hp
        · have := ih h (by rw [hsp]; simp)
          simp only [List.mem_cons, not_or]
          exact ⟨Ne.symm hc, this⟩
        · exact ih p (by rw [hsp]; simp [hp])

theorem tkns_slash [PySqrt K] (c : CPC K) : '/' ∉ c.tknb ∧ '/' ∉ c.tknq := by
  have : ∀ i, '/' ∉ (splitSlash c.pair).getD i [] := by
    intro i
    rw [List.getD_eq_getElem?_getD]
    cases h : (splitSlash c.pair)[i]? with
    | none => simp
    | some p => exact splitSlash_parts _ p (List.mem_of_getElem? h)
  exact ⟨this 0, this 1⟩

/-- C135: for the graph of a list of curves the table has one line for each pair of tokens traded by a curve, in the order of the names: the
primary name, twice the number of curves of that pair in either order, and the mean of their prices, taken in the primary order. -/
theorem C135_curves [PySqrt K] {cs : List (CPC K)} (hne : cs ≠ []) (hp : ∀ c ∈ cs, 0 < c.p) (hd : ∀ c ∈ cs, c.tknb ≠ c.tknq) :
    ∃ (g : AG K) (ps : List (Str × Str)), AG.empty.addCurves cs = (.ok (), g) ∧
      g.edgedf = .ok (.connections (ps.map fun p =>
        { pair := some (p.1 ++ '/' :: p.2), n := some ((cs.filterMap (quoteTo p.1 p.2)).length : K)
          nRev := some ((cs.filterMap (quoteTo p.1 p.2)).length : K)
          price := some ((cs.filterMap (quoteTo p.1 p.2)).sum / (cs.filterMap (quoteTo p.1 p.2)).length) })) ∧
      ps.Pairwise (fun p q => p.1 ++ '/' :: p.2 < q.1 ++ '/' :: q.2) ∧
      ∀ s t, (s, t) ∈ ps ↔ isPrimary s t = true ∧ ∃ c ∈ cs, (c.tknb = s ∧ c.tknq = t) ∨ (c.tknb = t ∧ c.tknq = s) := by
  obtain ⟨g, hg, w, hc, hda⟩ := C90_curves (K := K) WF.empty (by intro d hd; cases hd) cs
  have hda : datas g = cs.flatMap curveEdges := hda
  have hlk : ∀ s t, linkOf g g.edgeList s t = link g s t := fun _ _ => rfl
  have hmem : ∀ e ∈ g.edgeList, ∃ c ∈ cs, e.amountIn = -1 ∧
      ((inName g e = c.tknb ∧ outName g e = c.tknq) ∨ (inName g e = c.tknq ∧ outName g e = c.tknb)) := by
    intro e he
    have : dataOf g e ∈ datas g := List.mem_map.2 ⟨e, he, rfl⟩
    rw [hda] at this
    obtain ⟨c, hcm, hm⟩ := List.mem_flatMap.1 this
    refine ⟨c, hcm, ?_⟩
    unfold inName outName
    simp only [curveEdges, dataOf, List.mem_cons, List.not_mem_nil, or_false, EdgeData.mk.injEq] at hm
    rcases hm with ⟨h1, h2, h3, -⟩ | ⟨h1, h2, h3, -⟩
    · exact ⟨h2, Or.inl (by simp [h1, h3])⟩
    · exact ⟨h2, Or.inr (by simp [h1, h3])⟩
  have hn := Named.of_wf w
  have hq : ∀ s t, s ≠ t → (linkOf g g.edgeList s t).map (fun d => d.amountOut / d.amountIn) = cs.filterMap (quoteTo s t) :=
    fun s t hst => link_prices hda hst
  have hloop : ∀ s, linkOf g g.edgeList s s = [] := by
    intro s
    by_contra hc
    obtain ⟨e, he, h1, h2⟩ := (linkOf_ne_nil hn).1 hc
    obtain ⟨c, hcm, -, h⟩ := hmem e he
    rcases h with ⟨h3, h4⟩ | ⟨h3, h4⟩
    · exact hd c hcm (by rw [← h3, ← h4, h1, h2])
    · exact hd c hcm (by rw [← h3, ← h4, h1, h2])
  have hlen : ∀ s t, s ≠ t → (cs.filterMap (quoteTo t s)).length = (cs.filterMap (quoteTo s t)).length := by
    intro s t hst
    have : quoteTo (K := K) t s = fun c => (quoteTo s t c).map (·⁻¹) := funext fun c => quoteTo_symm hst c
    rw [this, ← List.map_filterMap, List.length_map]
  have hlink : ∀ s t, linkOf g g.edgeList s t ≠ [] ↔ s ≠ t ∧ cs.filterMap (quoteTo s t) ≠ [] := by
    intro s t
    by_cases hst : s = t
    · subst hst; simp [hloop]
    · rw [← hq s t hst]; simp [hst]
  have hback : ∀ s t, linkOf g g.edgeList s t ≠ [] → linkOf g g.edgeList t s ≠ [] := by
    intro s t h
    obtain ⟨hst, h⟩ := (hlink s t).1 h
    refine (hlink t s).2 ⟨hst.symm, ?_⟩
    rw [← List.length_pos_iff] at h ⊢
    rw [hlen s t hst]
    exact h
  have hedge : g.edgeList ≠ [] := by
    intro hc
    obtain ⟨c, hcm⟩ := List.exists_mem_of_ne_nil _ hne
    have : datas g = [] := by unfold datas; rw [hc]; rfl
    rw [hda, List.flatMap_eq_nil_iff] at this
    exact absurd (this c hcm) (by simp [curveEdges])
  have ht : g.edgeType ≠ some true := by
    unfold AG.edgeType
    cases hl : g.edgeList with
    | nil => simp
    | cons e es =>
      obtain ⟨c, -, h1, -⟩ := hmem e (by rw [hl]; simp)
      simp [Edge.isAmount, h1]
  obtain ⟨ps, he, hs, hm⟩ := C135_connections_partial ht hn hedge
    (fun e he => by obtain ⟨c, -, h1, -⟩ := hmem e he; rw [h1]; simp)
    (fun e he => by
      obtain ⟨c, -, -, h⟩ := hmem e he
      rcases h with ⟨h1, h2⟩ | ⟨h1, h2⟩
      · rw [h1, h2]; exact tkns_slash c
      · rw [h1, h2]; exact (tkns_slash c).symm)
    hloop hback
  have hex : ∀ s t, cs.filterMap (quoteTo s t) ≠ [] ↔ ∃ c ∈ cs, (c.tknb = s ∧ c.tknq = t) ∨ (c.tknb = t ∧ c.tknq = s) := by
    intro s t
    rw [ne_eq, List.filterMap_eq_nil_iff]
    push Not
    refine exists_congr fun c => and_congr_right fun _ => ?_
    unfold quoteTo
    by_cases h1 : c.tknb = s ∧ c.tknq = t
    · simp [h1]
    · by_cases h2 : c.tknb = t ∧ c.tknq = s
      · rw [if_neg h1, if_pos h2]; simp [h2]
      · simp [h1, h2]
  refine ⟨g, ps, hg, ?_, hs, ?_⟩
  · have he' : g.edgedf = g.edgedf (some g.edgeList) := rfl
    rw [he', he]
    congr 2
    apply List.map_congr_left
    rintro ⟨s, t⟩ hst
    obtain ⟨h1, h2⟩ := (hm s t).1 hst
    obtain ⟨hne', h3⟩ := (hlink s t).1 h2
    have hw : ∀ s t, s ≠ t → weight g g.edgeList s t = ((cs.filterMap (quoteTo s t)).length : K) := by
      intro s t hst
      unfold weight
      rw [← hq s t hst, List.length_map]
      have : ∀ d ∈ linkOf g g.edgeList s t, -d.amountIn = 1 := by
        intro d hd
        obtain ⟨e, he, rfl⟩ := List.mem_map.1 (List.mem_filter.1 hd).1
        obtain ⟨c, -, h1, -⟩ := hmem e he
        show -e.amountIn = 1
        rw [h1, neg_neg]
      rw [List.map_congr_left this]
      simp
    have hpr : ∀ x ∈ cs.filterMap (quoteTo s t), x ≠ 0 := by
      intro x hx
      obtain ⟨c, hcm, hx⟩ := List.mem_filterMap.1 hx
      unfold quoteTo at hx
      have := hp c hcm
      split at hx
      · rw [← Option.some.inj hx]; exact this.ne'
      · split at hx
        · rw [← Option.some.inj hx]; exact inv_ne_zero this.ne'
        · cases hx
    dsimp only
    rw [hw s t hne', hw t s hne'.symm, hlen s t hne']
    unfold meanPrice
    dsimp only
    rw [hq s t hne', List.filter_eq_self.2 (fun x hx => by simpa using hpr x hx), if_neg h3]
  · intro s t
    rw [hm, hlink, ← hex]
    constructor
    · rintro ⟨h1, h2, h3⟩; exact ⟨h1, h3⟩
    · rintro ⟨h1, h3⟩
      refine ⟨h1, ?_, h3⟩
      rintro rfl
      obtain ⟨c, hcm, h⟩ := (hex _ _).1 h3
      rcases h with ⟨k1, k2⟩ | ⟨k1, k2⟩ <;> exact hd c hcm (k1.trans k2.symm)

end

/-! ## Examples -/

/-- Trades of ETH and WBTC, two of them in parallel. -/
def tradeGraph : AG ℚ :=
  (((((AG.empty : AG ℚ).addEdge "USDC".toList 2000 "ETH".toList 1).2.addEdge "USDC".toList 1000 "ETH".toList (1/2)).2.addEdge
    "ETH".toList 10 "WBTC".toList (1/2)).2.addEdge "WBTC".toList (1/2) "ETH".toList 11).2

theorem tradeGraph_reach : Reach false tradeGraph := .addEdge _ _ _ _ _ _ (.addEdge _ _ _ _ _ _ (.addEdge _ _ _ _ _ _
  (.addEdge _ _ _ _ _ _ .empty)))

example : Reach false tradeGraph ∧ tradeGraph.edgeType = some true ∧ tradeGraph.edgedf = .ok (.amounts
    [⟨"ETH/USDC".toList, "USDC".toList, "ETH".toList, 3000, 3/2⟩, ⟨"WBTC/ETH".toList, "ETH".toList, "WBTC".toList, 10, 1/2⟩,
      ⟨"WBTC/ETH".toList, "WBTC".toList, "ETH".toList, 1/2, 11⟩]) := ⟨tradeGraph_reach, by decide +kernel, by decide +kernel⟩

/-- Two symmetric connections of one pair in different quotations, and one of another pair. -/
def bothWays : AG ℚ :=
  ((((AG.empty : AG ℚ).addConnection { tknIn := "ETH".toList, tknOut := "USDC".toList, price := some 2000 }).2.addConnection
    { tknIn := "USDC".toList, tknOut := "ETH".toList, price := some (1/2100), weight := some 2 }).2.addConnection
    { tknIn := "BNT".toList, tknOut := "ETH".toList, price := some (1/4000) }).2

example : bothWays.edgeType ≠ some true ∧ Named bothWays bothWays.edgeList ∧ bothWays.edgeList ≠ [] ∧
    (∀ e ∈ bothWays.edgeList, e.amountIn ≠ 0) ∧ (∀ e ∈ bothWays.edgeList, '/' ∉ inName bothWays e ∧ '/' ∉ outName bothWays e) ∧
    bothWays.edgedf = .ok (.connections
      [⟨some "BNT/ETH".toList, some 1, some 1, some (1/4000)⟩, ⟨some "ETH/USDC".toList, some 3, some 3, some 2050⟩]) := by
  refine ⟨by decide +kernel, Named.of_wf (WF.addConnection (WF.addConnection (WF.addConnection WF.empty _) _) _), by decide +kernel,
    by decide +kernel, by decide +kernel, by decide +kernel⟩

example : bothWays.edgedf none false = .ok (.connectionEdges
    [⟨"ETH/USDC".toList, "ETH".toList, "USDC".toList, 1, false, 2000, some 2000⟩,
      ⟨"ETH/USDC".toList, "USDC".toList, "ETH".toList, 1, true, 1/2000, some 2000⟩,
      ⟨"ETH/USDC".toList, "USDC".toList, "ETH".toList, 2, true, 1/2100, some 2100⟩,
      ⟨"ETH/USDC".toList, "ETH".toList, "USDC".toList, 2, false, 2100, some 2100⟩,
      ⟨"BNT/ETH".toList, "BNT".toList, "ETH".toList, 1, false, 1/4000, some (1/4000)⟩,
      ⟨"BNT/ETH".toList, "ETH".toList, "BNT".toList, 1, true, 4000, some (1/4000)⟩]) := by decide +kernel

/-- One connection from ETH to USDC, and one from USDC to WBTC. -/
def oneWay : AG ℚ :=
  (((AG.empty : AG ℚ).addConnection { tknIn := "ETH".toList, tknOut := "USDC".toList, price := some 2000, symmetric := false }).2.addConnection
    { tknIn := "USDC".toList, tknOut := "WBTC".toList, price := some (1/30000), weight := some 5, symmetric := false }).2

/-- C135: with connections in one direction only the table reports for a pair the number of connections of another pair, and that other pair
is missing. -/
theorem C135_oneway_violated : ∃ (g : AG ℚ) (s t u : Str), Reach false g ∧ isPrimary s t = true ∧ isPrimary u t = true ∧
    g.edgedf = .ok (.connections [⟨some (s ++ '/' :: t), some 1, some 5, some 2000⟩]) ∧
    link g t s = [] ∧ link g t u ≠ [] :=
  ⟨oneWay, "ETH".toList, "USDC".toList, "WBTC".toList, .addConnection _ (.addConnection _ .empty), by decide +kernel, by decide +kernel,
    by decide +kernel, by decide +kernel, by decide +kernel⟩


end Arb

end Carbon
