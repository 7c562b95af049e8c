import Verif.Carbon.AlphaRouterOrig
import Verif.Prop.AlphaRouter

/-!
# The previous alpha router (C154)
-/

set_option linter.unusedSectionVars false

namespace Carbon.AlphaRouterOrig

open ExactRouter
open CarbonPair (pyDiv)
open UICurve (pyDiv_ok)
open AlphaRouter (rank rank_perm rank_sorted mapM_ok byTarget_ok bySrc_ok counted countedAt availableValue Choice positions_of)

/-- Specification: `n` consecutive entries of a list, from position `s`. -/
def window {α : Type} (n : Nat) (l : List α) (s : Nat) : List α := (l.drop s).take n

section Generic
variable {K : Type} [Field K] [LinearOrder K] [IsStrictOrderedRing K]

theorem sliding_window {α : Type} (n : Nat) (l : List α) (s : Nat) (hn : 1 ≤ n) :
    (l.take (s + n - 1 + 1)).drop (s + n - 1 + 1 - n) = window n l s := by
  have h1 : s + n - 1 + 1 = s + n := by omega
  have h2 : s + n - n = s := by omega
  unfold window
  rw [h1, h2, List.drop_take]
  congr 1; omega

theorem topN_none (n : Nat) (hn : 1 ≤ n) (rows : List Nat) (col : List K) (t : K) (ht : 0 < t)
    (h : ∀ s, s + n ≤ rows.length → (window n col s).sum < t) : topN n rows col t = .error .index := by
  have : (List.range rows.length).find? (fun i => decide (t ≤ slidingValue n col i)) = none := by
    rw [List.find?_eq_none]
    intro i hi
    rw [List.mem_range] at hi
    simp only [decide_eq_true_eq, not_le]
    unfold slidingValue
    split
    · exact ht
    · rename_i hin
      have := h (i + 1 - n) (by omega)
      rw [← sliding_window n col _ hn] at this
      have e : i + 1 - n + n - 1 = i := by omega
      rwa [e] at this
  unfold topN
  rw [this]

theorem topN_some (n : Nat) (hn : 1 ≤ n) (rows : List Nat) (col : List K) (t : K) (ht : 0 < t) (s : Nat) (hs : s + n ≤ rows.length)
    (h1 : t ≤ (window n col s).sum) (h2 : ∀ r, r < s → (window n col r).sum < t) : topN n rows col t = .ok (window n rows s) := by
  have : (List.range rows.length).find? (fun i => decide (t ≤ slidingValue n col i)) = some (s + n - 1) := by
    rw [List.find?_range_eq_some]
    refine ⟨?_, List.mem_range.mpr (by omega), fun j hj => ?_⟩
    · simp only [decide_eq_true_eq]
      unfold slidingValue
      rw [if_neg (by omega), sliding_window n col s hn]
      exact h1
    · simp only [Bool.not_eq_eq_eq_not, Bool.not_true, decide_eq_false_iff_not, not_le]
      unfold slidingValue
      split
      · exact ht
      · rename_i hin
        have := h2 (j + 1 - n) (by omega)
        rw [← sliding_window n col _ hn] at this
        have e : j + 1 - n + n - 1 = j := by omega
        rwa [e] at this
  unfold topN
  rw [this]
  dsimp only
  unfold slidingIndex
  rw [sliding_window n rows s hn]

theorem window_map {α β : Type} (n : Nat) (f : α → β) (l : List α) (s : Nat) : window n (l.map f) s = (window n l s).map f := by
  unfold window
  rw [← List.map_drop, ← List.map_take]

end Generic

/-- Specification: positions from the best price to the worst, for buying the amount `-x`. -/
def RankedTarget (orders : List (Curve ℝ)) (x : ℝ) (rk : List Nat) : Prop :=
  List.Perm rk (List.range orders.length) ∧
    rk.Pairwise fun i j => ∀ a b u v, orders[i]? = some a → orders[j]? = some b → a.alphaByTarget x = .ok u → b.alphaByTarget x = .ok v → v ≤ u

/-- Specification: positions from the best price to the worst, for selling the amount `x`. -/
def RankedSource (orders : List (Curve ℝ)) (x : ℝ) (rk : List Nat) : Prop :=
  List.Perm rk (List.range orders.length) ∧
    rk.Pairwise fun i j => ∀ a b u v, orders[i]? = some a → orders[j]? = some b → a.alphaBySrc x = .ok u → b.alphaBySrc x = .ok v → v ≤ u

theorem perm_facts {n : Nat} {rk : List Nat} (h : List.Perm rk (List.range n)) : rk.length = n ∧ rk.Nodup ∧ ∀ i ∈ rk, i < n :=
  ⟨by rw [h.length_eq, List.length_range], h.nodup_iff.mpr List.nodup_range, fun i hi => List.mem_range.mp (h.mem_iff.mp hi)⟩

theorem window_facts {n : Nat} {rk : List Nat} (h : List.Perm rk (List.range n)) (k s : Nat) (hk : 1 ≤ k) (hs : s + k ≤ n) :
    (window k rk s).Nodup ∧ (∀ i ∈ window k rk s, i < n) ∧ (window k rk s).length = k ∧ window k rk s ≠ [] := by
  obtain ⟨h1, h2, h3⟩ := perm_facts h
  have hl : (window k rk s).length = k := by unfold window; rw [List.length_take, List.length_drop]; omega
  refine ⟨h2.sublist ((List.take_sublist _ _).trans (List.drop_sublist _ _)), fun i hi => h3 i ?_, hl, ?_⟩
  · exact List.mem_of_mem_drop (List.mem_of_mem_take hi)
  · intro e; rw [e] at hl; simp at hl; omega

theorem sorted_of {orders : List (Curve ℝ)} {f : Curve ℝ → Py ℝ} {hyp : List ℝ}
    (hi : ∀ (i : Nat) (a : Curve ℝ), orders[i]? = some a → ∃ b, hyp[i]? = some b ∧ f a = .ok b) :
    (rank hyp).Pairwise fun i j => ∀ a b u v, orders[i]? = some a → orders[j]? = some b → f a = .ok u → f b = .ok v → v ≤ u := by
  refine (rank_sorted hyp).imp ?_
  intro i j h a b u v ha hb hu hv
  obtain ⟨u', eu, hu'⟩ := hi i a ha
  obtain ⟨v', ev, hv'⟩ := hi j b hb
  rw [hu] at hu'; rw [hv] at hv'
  cases hu'; cases hv'
  simpa [List.getD, eu, ev] using h

/-! ## By target -/

/-- What the router does by target: in the ranking it takes the first window that reaches the amount when counting, at each place, the holdings
of another order. -/
theorem byTarget_step (orders : List (Curve ℝ)) (hg : ∀ c ∈ orders, c.Good) (x : ℝ) (hx : x < 0) (thr : Option Nat) :
    ∃ rk, RankedTarget orders x rk ∧ matchByTarget orders x thr =
      (do let ps ← topN (thr.getD 10) rk (rk.map fun r => yAt orders (rk.getD r 0)) |x|
          matchExact orders x true ps false) := by
  obtain ⟨hyp, eh, hl, hi⟩ := mapM_ok (f := fun c : Curve ℝ => c.alphaByTarget x) (l := orders) fun c hc => byTarget_ok (hg c hc) hx
  have hr := rank_perm hyp
  rw [hl] at hr
  refine ⟨rank hyp, ⟨hr, sorted_of hi⟩, ?_⟩
  unfold matchByTarget
  rw [eh]
  simp only [Py.ok_bind]
  obtain ⟨h1, _, h3⟩ := perm_facts hr
  have : ((rank hyp).map fun r => ((rank hyp).map fun i => ((orders[i]?).map (·.y)).getD 0).getD r 0) =
      (rank hyp).map fun r => yAt orders ((rank hyp).getD r 0) := by
    refine List.map_congr_left fun r hr' => ?_
    have : r < (rank hyp).length := by rw [h1]; exact h3 r hr'
    simp [List.getD, this, yAt]
  rw [this]

/-- If the orders are listed from the best price to the worst, without ties, the router finds the first window of so many orders that hold the
amount, buys it exactly and most cheaply from these; there is no other case in which it succeeds. -/
theorem C154_sorted_partial (orders : List (Curve ℝ)) (hg : ∀ c ∈ orders, c.Good) (x : ℝ) (hx : x < 0) (thr : Option Nat)
    (hk : 1 ≤ thr.getD 10)
    (hs : ∀ (i j : Nat) (a b : Curve ℝ) (u v : ℝ), i < j → orders[i]? = some a → orders[j]? = some b → a.alphaByTarget x = .ok u →
      b.alphaByTarget x = .ok v → v < u) :
    ((∀ s, s + thr.getD 10 ≤ orders.length → total (List.range' s (thr.getD 10)) (yAt orders) < -x) →
      matchByTarget orders x thr = .error .index) ∧
    ∀ s, s + thr.getD 10 ≤ orders.length → -x ≤ total (List.range' s (thr.getD 10)) (yAt orders) →
      (∀ r, r < s → total (List.range' r (thr.getD 10)) (yAt orders) < -x) →
      ∃ acts, matchByTarget orders x thr = .ok acts ∧ Executable orders acts ∧
        (∀ a ∈ acts, s ≤ a.index ∧ a.index < s + thr.getD 10) ∧ (acts.map (·.output)).sum = x ∧
        ∀ w z, Alternative orders (List.range' s (thr.getD 10)) w z → total (List.range' s (thr.getD 10)) w = x →
          (acts.map (·.input)).sum ≤ total (List.range' s (thr.getD 10)) z := by
  obtain ⟨rk, ⟨hp, hsort⟩, e⟩ := byTarget_step orders hg x hx thr
  obtain ⟨hlen, hnd, hmem⟩ := perm_facts hp
  generalize thr.getD 10 = k at *
  have habs : |x| = -x := abs_of_neg hx
  have hrk : rk = List.range orders.length := by
    refine hp.eq_of_pairwise (le := fun i j => i ≤ j) (fun a b _ _ h1 h2 => le_antisymm h1 h2) ?_ List.pairwise_le_range
    refine List.Pairwise.imp_of_mem ?_ hsort
    intro i j hi hj h
    by_contra hc
    have hij : j < i := by omega
    have hi' := hmem i hi
    have hj' := hmem j hj
    obtain ⟨u, hu⟩ := byTarget_ok (hg _ (List.getElem_mem hi')) hx
    obtain ⟨v, hv⟩ := byTarget_ok (hg _ (List.getElem_mem hj')) hx
    have h1 := h _ _ u v (List.getElem?_eq_getElem hi') (List.getElem?_eq_getElem hj') hu hv
    have h2 := hs j i _ _ v u hij (List.getElem?_eq_getElem hj') (List.getElem?_eq_getElem hi') hv hu
    linarith
  have hcol : (rk.map fun r => yAt orders (rk.getD r 0)) = (List.range orders.length).map (yAt orders) := by
    rw [hrk]
    refine List.map_congr_left fun r hr => ?_
    have : r < orders.length := List.mem_range.mp hr
    simp [List.getD, this]
  have hwin : ∀ s, s + k ≤ orders.length → window k (List.range orders.length) s = List.range' s k := by
    intro s hsk
    unfold window
    apply List.ext_getElem
    · simp; omega
    · intro i h1 h2; simp
  rw [hcol, hrk] at e
  constructor
  · intro h
    rw [e, topN_none k hk _ _ _ (by rw [habs]; linarith)]
    · rfl
    · intro s hsk
      rw [List.length_range] at hsk
      rw [window_map, hwin s hsk, habs]
      exact h s hsk
  · intro s hsk h1 h2
    obtain ⟨w1, w2, w3, w4⟩ := window_facts (List.Perm.refl (List.range orders.length)) k s hk hsk
    rw [hwin s hsk] at w1 w2 w3 w4
    have ht : topN k (List.range orders.length) ((List.range orders.length).map (yAt orders)) |x| = .ok (List.range' s k) := by
      rw [← hwin s hsk]
      refine topN_some k hk _ _ _ (by rw [habs]; linarith) s (by rwa [List.length_range]) ?_ fun r hr => ?_
      · rw [window_map, hwin s hsk, habs]; exact h1
      · rw [window_map, hwin r (by omega), habs]; exact h2 r hr
    obtain ⟨acts, a1, a2, a3, a4, a5⟩ := C69_by_target orders hg _ _ (positions_of w1 w2 w4) x hx h1 false
    refine ⟨acts, by rw [e, ht, Py.ok_bind, a1], a2, fun a ha => ?_, a4, a5⟩
    have := List.mem_range'_1.mp (a3 a ha)
    exact this

/-- If the number of orders allowed is the number of all orders, the amount is bought exactly and most cheaply whenever the orders hold it. -/
theorem C154_all_partial (orders : List (Curve ℝ)) (hne : orders ≠ []) (hg : ∀ c ∈ orders, c.Good) (x : ℝ) (hx : x < 0)
    (hl : -x ≤ total (List.range orders.length) (yAt orders)) :
    ∃ acts, matchByTarget orders x (some orders.length) = .ok acts ∧ Executable orders acts ∧ (acts.map (·.output)).sum = x ∧
      ∀ w z, Alternative orders (List.range orders.length) w z → total (List.range orders.length) w = x →
        (acts.map (·.input)).sum ≤ total (List.range orders.length) z := by
  obtain ⟨rk, ⟨hp, _⟩, e⟩ := byTarget_step orders hg x hx (some orders.length)
  rw [Option.getD_some] at e
  obtain ⟨hlen, hnd, hmem⟩ := perm_facts hp
  have habs : |x| = -x := abs_of_neg hx
  have hn : 1 ≤ orders.length := List.length_pos_iff.mpr hne
  have htot : ∀ f : Nat → ℝ, total rk f = total (List.range orders.length) f := fun f => (hp.map f).sum_eq
  have hwin : ∀ {α : Type} (l : List α), l.length = orders.length → window orders.length l 0 = l := by
    intro α l hl
    unfold window
    rw [List.drop_zero, ← hl, List.take_length]
  have hcol : (rk.map fun r => yAt orders (rk.getD r 0)).sum = total (List.range orders.length) (yAt orders) := by
    rw [(hp.map fun r => yAt orders (rk.getD r 0)).sum_eq]
    have : (List.range orders.length).map (fun r => yAt orders (rk.getD r 0)) = rk.map (yAt orders) := by
      apply List.ext_getElem
      · simp [hlen]
      · intro i h1 h2
        have : i < rk.length := by simpa using h2
        simp [List.getD, this]
    rw [this]
    exact htot _
  have ht : topN orders.length rk (rk.map fun r => yAt orders (rk.getD r 0)) |x| = .ok rk := by
    have := topN_some orders.length hn rk (rk.map fun r => yAt orders (rk.getD r 0)) |x| (by rw [habs]; linarith) 0 (by omega) (by
      rw [hwin _ (by simp [hlen]), hcol, habs]; exact hl) (fun r hr => by omega)
    rwa [hwin rk hlen] at this
  obtain ⟨acts, a1, a2, a3, a4, a5⟩ := C69_by_target orders hg rk rk (positions_of hnd hmem (by
    intro h0; rw [h0] at hlen; simp at hlen; omega)) x hx (by rw [htot]; exact hl) false
  refine ⟨acts, by rw [e, ht, Py.ok_bind, a1], a2, a4, fun w z hw hz => ?_⟩
  rw [← htot] at hz ⊢
  refine a5 w z ?_ hz
  intro i c hi hc
  exact hw i c (hp.mem_iff.mp hi) hc

/-- With fewer orders than allowed the router fails with an `IndexError`, however much the orders hold; by target the default is 10 orders. -/
theorem C154_few_violated (orders : List (Curve ℝ)) (hg : ∀ c ∈ orders, c.Good) (n : Nat) (hn : orders.length < n) :
    (∀ x, x < 0 → matchByTarget orders x (some n) = .error .index) ∧
    (∀ x, x < 0 → orders.length < 10 → matchByTarget orders x none = .error .index) ∧
    ∀ x, 0 < x → matchBySrc orders x (some n) = .error .index := by
  have key : ∀ (x : ℝ) (thr : Option Nat), x < 0 → orders.length < thr.getD 10 → matchByTarget orders x thr = .error .index := by
    intro x thr hx h
    obtain ⟨rk, ⟨hp, _⟩, e⟩ := byTarget_step orders hg x hx thr
    obtain ⟨hlen, _, _⟩ := perm_facts hp
    rw [e, topN_none _ (by omega) _ _ _ (abs_pos.mpr hx.ne) fun s hs => by omega]
    rfl
  refine ⟨fun x hx => key x (some n) hx hn, fun x hx h => key x none hx h, fun x hx => ?_⟩
  obtain ⟨hyp, eh, hl, hi⟩ := mapM_ok (f := fun c : Curve ℝ => c.alphaBySrc x) (l := orders) fun c hc => by
    obtain ⟨v, e, _⟩ := bySrc_ok (hg c hc) hx
    exact ⟨v, e⟩
  obtain ⟨vals, ev, _⟩ := mapM_ok (f := fun p : Curve ℝ × ℝ => availableValue p.1 x p.2) (l := orders.zip hyp) (by
    intro p hp
    obtain ⟨i, hp⟩ := List.mem_iff_getElem?.mp hp
    obtain ⟨h1, h2⟩ := List.getElem?_zip_eq_some.mp hp
    obtain ⟨v, hv, ev⟩ := hi i p.1 h1
    rw [h2] at hv
    cases hv
    obtain ⟨v', ev', _, ea⟩ := bySrc_ok (hg p.1 (List.mem_of_getElem? h1)) hx
    rw [ev] at ev'
    cases ev'
    exact ⟨_, ea⟩)
  unfold matchBySrc
  rw [eh]
  simp only [Py.ok_bind]
  rw [ev]
  simp only [Py.ok_bind]
  have hlen : (rank hyp).length = orders.length := by rw [(rank_perm hyp).length_eq, List.length_range, hl]
  rw [topN_none _ (by omega) _ _ _ (abs_pos.mpr hx.ne') fun s hs => by omega]
  rfl

/-- By source there is no default number of orders: leaving it out is a `ValueError` for every book and amount. -/
theorem C154_no_default_violated (orders : List (Curve ℝ)) (hg : ∀ c ∈ orders, c.Good) (x : ℝ) (hx : 0 < x) :
    matchBySrc orders x none = .error .value := by
  obtain ⟨hyp, eh, hl, hi⟩ := mapM_ok (f := fun c : Curve ℝ => c.alphaBySrc x) (l := orders) fun c hc => by
    obtain ⟨v, e, _⟩ := bySrc_ok (hg c hc) hx
    exact ⟨v, e⟩
  obtain ⟨vals, ev, _⟩ := mapM_ok (f := fun p : Curve ℝ × ℝ => availableValue p.1 x p.2) (l := orders.zip hyp) (by
    intro p hp
    obtain ⟨i, hp⟩ := List.mem_iff_getElem?.mp hp
    obtain ⟨h1, h2⟩ := List.getElem?_zip_eq_some.mp hp
    obtain ⟨v, hv, ev⟩ := hi i p.1 h1
    rw [h2] at hv
    cases hv
    obtain ⟨v', ev', _, ea⟩ := bySrc_ok (hg p.1 (List.mem_of_getElem? h1)) hx
    rw [ev] at ev'
    cases ev'
    exact ⟨_, ea⟩)
  unfold matchBySrc
  rw [eh]
  simp only [Py.ok_bind]
  rw [ev]
  rfl

/-! ## By source -/

/-- By source the router takes the first window in the ranking that is counted for the amount: it sells the amount exactly for the most that
these orders give, or fails with an `IndexError` if there is none. -/
theorem C154_source_partial (orders : List (Curve ℝ)) (hg : ∀ c ∈ orders, c.Good) (x : ℝ) (hx : 0 < x) (k : Nat) (hk : 1 ≤ k) :
    ∃ rk, RankedSource orders x rk ∧
      ((∀ s, s + k ≤ orders.length → total (window k rk s) (countedAt orders x) < x) → matchBySrc orders x (some k) = .error .index) ∧
      ∀ s, s + k ≤ orders.length → x ≤ total (window k rk s) (countedAt orders x) →
        (∀ r, r < s → total (window k rk r) (countedAt orders x) < x) →
        ∃ acts, matchBySrc orders x (some k) = .ok acts ∧ Executable orders acts ∧ (∀ a ∈ acts, a.index ∈ window k rk s) ∧
          (acts.map (·.input)).sum = x ∧
          ∀ w z, Alternative orders (window k rk s) w z → total (window k rk s) z ≤ x →
            (acts.map (·.output)).sum ≤ total (window k rk s) w := by
  obtain ⟨q, hq⟩ := C70_capital_exists orders hg
  obtain ⟨hyp, eh, hl, hi⟩ := mapM_ok (f := fun c : Curve ℝ => c.alphaBySrc x) (l := orders) fun c hc => by
    obtain ⟨v, e, _⟩ := bySrc_ok (hg c hc) hx
    exact ⟨v, e⟩
  have hzip : ∀ (i : Nat) (p : Curve ℝ × ℝ), (orders.zip hyp)[i]? = some p →
      availableValue p.1 x p.2 = .ok (counted p.1 x) ∧ orders[i]? = some p.1 := by
    intro i p hp
    obtain ⟨h1, h2⟩ := List.getElem?_zip_eq_some.mp hp
    obtain ⟨v, hv, ev⟩ := hi i p.1 h1
    rw [h2] at hv
    cases hv
    obtain ⟨v', ev', _, ea⟩ := bySrc_ok (hg p.1 (List.mem_of_getElem? h1)) hx
    rw [ev] at ev'
    cases ev'
    exact ⟨ea, h1⟩
  obtain ⟨vals, ev, hvl, hvi⟩ := mapM_ok (f := fun p : Curve ℝ × ℝ => availableValue p.1 x p.2) (l := orders.zip hyp) (by
    intro p hp
    obtain ⟨i, hi⟩ := List.mem_iff_getElem?.mp hp
    exact ⟨_, (hzip i p hi).1⟩)
  have hr := rank_perm hyp
  rw [hl] at hr
  obtain ⟨hlen, hnd, hmem⟩ := perm_facts hr
  have hval : ∀ i, i < orders.length → vals.getD i 0 = countedAt orders x i := by
    intro i hi
    have hi' : i < (orders.zip hyp).length := by rw [List.length_zip, hl, min_self]; exact hi
    obtain ⟨b, hb, eb⟩ := hvi i _ (List.getElem?_eq_getElem hi')
    obtain ⟨h1, h2⟩ := hzip i _ (List.getElem?_eq_getElem hi')
    rw [h1] at eb
    cases eb
    rw [List.getD, hb, countedAt, h2]
    rfl
  have hmap : (rank hyp).map (fun i => vals.getD i 0) = (rank hyp).map (countedAt orders x) :=
    List.map_congr_left fun i hi => hval i (hmem i hi)
  have habs : |x| = x := abs_of_pos hx
  have e : matchBySrc orders x (some k) = (do
      let ps ← topN k (rank hyp) ((rank hyp).map (countedAt orders x)) x
      matchExact orders x false ps false) := by
    unfold matchBySrc
    rw [eh]
    simp only [Py.ok_bind]
    rw [ev]
    simp only [Py.ok_bind]
    rw [hmap, habs]
  refine ⟨rank hyp, ⟨hr, sorted_of hi⟩, fun h => ?_, fun s hs h1 h2 => ?_⟩
  · rw [e, topN_none k hk _ _ _ hx]
    · rfl
    · intro s hs
      rw [window_map]
      exact h s (by omega)
  · have ht : topN k (rank hyp) ((rank hyp).map (countedAt orders x)) x = .ok (window k (rank hyp) s) := by
      refine topN_some k hk _ _ _ hx s (by omega) ?_ fun r hr => ?_
      · rw [window_map]; exact h1
      · rw [window_map]; exact h2 r hr
    obtain ⟨w1, w2, w3, w4⟩ := window_facts hr k s hk hs
    have hcap : x ≤ total (window k (rank hyp) s) q := by
      refine h1.trans ?_
      unfold total
      refine List.sum_le_sum fun i hi => ?_
      have hlt := w2 i hi
      have ei : orders[i]? = some orders[i] := List.getElem?_eq_getElem hlt
      rw [countedAt, ei]
      exact (AlphaRouter.C71_counted_le _ (hg _ (List.getElem_mem _)) x hx _ (hq i _ ei)).2
    obtain ⟨acts, a1, a2, a3, a4, a5⟩ := (C70_by_source orders hg _ _ (positions_of w1 w2 w4) x hx q hq).1 hcap false
    exact ⟨acts, by rw [e, ht, Py.ok_bind, a1], a2, a3, a4, a5⟩

/-! ## Instances -/

/-- An order at the single price `b ^ 2` that holds `y`. -/
noncomputable def flat (b y : ℝ) : Curve ℝ := ⟨b, 0, 100, b ^ 2, (b + 0) ^ 2, y, decide ((b + 0) ^ 2 = b ^ 2)⟩

theorem flat_good {b y : ℝ} (hb : 0 < b) (hy : 0 ≤ y) (hy1 : y ≤ 100) : (flat b y).Good := by
  unfold flat; constructor <;> first | assumption | norm_num

theorem flat_target {b y x : ℝ} (hb : 0 < b) : (flat b y).alphaByTarget x = .ok (x / b ^ 2) := by
  unfold Curve.alphaByTarget flat
  dsimp only
  rw [pyDiv_ok (by simp [hb.ne'])]
  congr 1
  field_simp
  ring

theorem flat_source {b y x : ℝ} : (flat b y).alphaBySrc x = .ok (x * b ^ 2) := by
  unfold Curve.alphaBySrc flat
  dsimp only
  rw [pyDiv_ok (by norm_num)]
  congr 1
  field_simp
  ring

/-- The router fails although each of two of the three orders holds the amount and one order is allowed: it takes the order with the best price,
which holds less, for one that holds the amount. -/
theorem C154_target_violated : ∃ orders : List (Curve ℝ), (∀ c ∈ orders, c.Good) ∧ Choice orders 1 [0] ∧ Choice orders 1 [2] ∧
    10 ≤ total [0] (yAt orders) ∧ 10 ≤ total [2] (yAt orders) ∧ matchByTarget orders (-10) (some 1) = .error .assertion := by
  have hg : ∀ c ∈ [flat 1 20, flat 3 1, flat 2 20], c.Good := by
    intro c hc
    simp only [List.mem_cons, List.not_mem_nil, or_false] at hc
    rcases hc with rfl | rfl | rfl <;> apply flat_good <;> norm_num
  refine ⟨[flat 1 20, flat 3 1, flat 2 20], hg, ⟨by simp, by simp, by simp⟩, ⟨by simp, by simp, by simp⟩, ?_, ?_, ?_⟩
  · norm_num [total, yAt, flat]
  · norm_num [total, yAt, flat]
  · have hh : [flat 1 20, flat 3 1, flat 2 20].mapM (fun c : Curve ℝ => c.alphaByTarget (-10)) = .ok [-10 / 1 ^ 2, -10 / 3 ^ 2, -10 / 2 ^ 2] := by
      simp only [List.mapM_cons, List.mapM_nil, flat_target (show (0:ℝ) < 1 by norm_num), flat_target (show (0:ℝ) < 3 by norm_num),
        flat_target (show (0:ℝ) < 2 by norm_num)]
      rfl
    have hr : rank ([-10 / 1 ^ 2, -10 / 3 ^ 2, -10 / 2 ^ 2] : List ℝ) = [1, 2, 0] := by
      unfold rank
      have : List.range ([-10 / 1 ^ 2, -10 / 3 ^ 2, -10 / 2 ^ 2] : List ℝ).length = [0, 1, 2] := rfl
      rw [this]
      norm_num [List.insertionSort, List.orderedInsert]
    have ht : topN 1 [1, 2, 0] ([20, 20, 1] : List ℝ) |(-10 : ℝ)| = .ok [1] := by
      have := topN_some 1 le_rfl [1, 2, 0] ([20, 20, 1] : List ℝ) |(-10 : ℝ)| (by norm_num) 0 (by simp) (by norm_num [window])
        (fun r hr => by omega)
      simpa [window] using this
    have h1 := (C69_insufficient [flat 1 20, flat 3 1, flat 2 20] hg [1] [1] ⟨by simp, by simp, by simp⟩ (-10) (by norm_num)
      (by norm_num [total, yAt, flat])).1
    unfold matchByTarget
    rw [hh]
    simp only [Py.ok_bind]
    rw [hr]
    simp only [List.map_cons, List.map_nil, Option.getD_some]
    simp only [List.getElem?_cons_succ, List.getElem?_cons_zero, Option.map_some, Option.getD_some, List.getD_cons_succ, List.getD_cons_zero, flat]
    rw [ht, Py.ok_bind]
    exact h1

/-- By source the router fails although two of the three orders can take the amount and two are allowed: they are not next to each other in the
ranking. -/
theorem C154_source_violated : ∃ (orders : List (Curve ℝ)) (acts : List (Action ℝ)), (∀ c ∈ orders, c.Good) ∧ Choice orders 2 [0, 2] ∧
    matchExact orders 9 false [0, 2] false = .ok acts ∧ (acts.map (·.input)).sum = 9 ∧ matchBySrc orders 9 (some 2) = .error .index := by
  have hg : ∀ c ∈ [flat 3 45, flat 2 4, flat 1 5], c.Good := by
    intro c hc
    simp only [List.mem_cons, List.not_mem_nil, or_false] at hc
    rcases hc with rfl | rfl | rfl <;> apply flat_good <;> norm_num
  obtain ⟨q, hq⟩ := C70_capital_exists _ hg
  have c0 : countedAt [flat 3 45, flat 2 4, flat 1 5] 9 0 = 5 := by norm_num [countedAt, counted, flat]
  have c1 : countedAt [flat 3 45, flat 2 4, flat 1 5] 9 1 = 1 := by norm_num [countedAt, counted, flat]
  have c2 : countedAt [flat 3 45, flat 2 4, flat 1 5] 9 2 = 5 := by norm_num [countedAt, counted, flat]
  have q0 : 5 ≤ q 0 := by
    have := (AlphaRouter.C71_counted_le (flat 3 45) (hg _ (by simp)) 9 (by norm_num) _ (hq 0 _ rfl)).2
    have h : counted (flat 3 45) 9 = 5 := c0
    rwa [h] at this
  have q2 : 5 ≤ q 2 := by
    have := (AlphaRouter.C71_counted_le (flat 1 5) (hg _ (by simp)) 9 (by norm_num) _ (hq 2 _ rfl)).2
    have h : counted (flat 1 5) 9 = 5 := c2
    rwa [h] at this
  obtain ⟨acts, a1, _, _, a4, _⟩ := (C70_by_source _ hg [0, 2] [0, 2] ⟨by simp, by simp, by simp⟩ 9 (by norm_num) q hq).1
    (by simp only [total, List.map_cons, List.map_nil, List.sum_cons, List.sum_nil]; linarith) false
  refine ⟨_, acts, hg, ⟨by simp, by simp, by simp⟩, a1, a4, ?_⟩
  obtain ⟨rk, ⟨hp, hs⟩, h1, _⟩ := C154_source_partial _ hg 9 (by norm_num) 2 (by norm_num)
  have hrk : rk = [0, 1, 2] := by
    refine hp.eq_of_pairwise (le := fun i j => i ≤ j) (fun a b _ _ h1 h2 => le_antisymm h1 h2) ?_ (by decide)
    refine List.Pairwise.imp_of_mem ?_ hs
    intro i j hi hj h
    have hi : i < 3 := List.mem_range.mp (hp.mem_iff.mp hi)
    have hj : j < 3 := List.mem_range.mp (hp.mem_iff.mp hj)
    by_contra hc
    have hcases : (i = 1 ∧ j = 0) ∨ (i = 2 ∧ j = 0) ∨ (i = 2 ∧ j = 1) := by omega
    rcases hcases with ⟨rfl, rfl⟩ | ⟨rfl, rfl⟩ | ⟨rfl, rfl⟩
    · have := h _ _ _ _ rfl rfl flat_source flat_source; norm_num at this
    · have := h _ _ _ _ rfl rfl flat_source flat_source; norm_num at this
    · have := h _ _ _ _ rfl rfl flat_source flat_source; norm_num at this
  apply h1
  intro s hsl
  simp only [List.length_cons, List.length_nil] at hsl
  have : s = 0 ∨ s = 1 := by omega
  rw [hrk]
  rcases this with rfl | rfl
  · simp only [window, total, List.drop_zero, List.take_succ_cons, List.take_zero, List.map_cons, List.map_nil, List.sum_cons, List.sum_nil, c0, c1]
    norm_num
  · simp only [window, total, List.drop_succ_cons, List.drop_zero, List.take_succ_cons, List.take_zero, List.map_cons, List.map_nil, List.sum_cons,
      List.sum_nil, c1, c2]
    norm_num

/-- Three orders from the best price to the worst; the second and third hold the amount, the first two do not. -/
example : ∃ acts, matchByTarget [flat 3 1, flat 2 4, flat 1 20] (-10) (some 2) = .ok acts ∧ (acts.map (·.output)).sum = -10 := by
  have hg : ∀ c ∈ [flat 3 1, flat 2 4, flat 1 20], c.Good := by
    intro c hc
    simp only [List.mem_cons, List.not_mem_nil, or_false] at hc
    rcases hc with rfl | rfl | rfl <;> apply flat_good <;> norm_num
  have h := (C154_sorted_partial _ hg (-10) (by norm_num) (some 2) (by simp) (by
    intro i j a b u v hij ha hb hu hv
    have hj := (List.getElem?_eq_some_iff.mp hb).1
    simp only [List.length_cons, List.length_nil] at hj
    have hcases : (i = 0 ∧ j = 1) ∨ (i = 0 ∧ j = 2) ∨ (i = 1 ∧ j = 2) := by omega
    rcases hcases with ⟨rfl, rfl⟩ | ⟨rfl, rfl⟩ | ⟨rfl, rfl⟩ <;> simp at ha hb <;> subst ha <;> subst hb <;>
      rw [flat_target (by norm_num)] at hu hv <;> cases hu <;> cases hv <;> norm_num)).2 1 (by simp)
    (by norm_num [total, yAt, flat, List.range']) (by
      intro r hr
      have : r = 0 := by omega
      subst this
      norm_num [total, yAt, flat, List.range'])
  obtain ⟨acts, a1, _, _, a2, _⟩ := h
  exact ⟨acts, a1, a2⟩

end Carbon.AlphaRouterOrig
