import Verif.Carbon.AlphaRouterLemmas
import Verif.Prop.ExactRouter

/-!
# Properties of the alpha router (C27, C71)
-/

set_option linter.unusedSectionVars false

namespace Carbon.AlphaRouter

open ExactRouter
open CarbonPair (pyDiv)
open UICurve (pyDiv_ok)

/-! ## C27: the selection -/

/-- The selector returns distinct positions, as many as asked for (or all if there are fewer), which reach the threshold
if any choice of at most as many positions does; otherwise no choice has more. -/
theorem C27_selector {K : Type} [Field K] [LinearOrder K] [IsStrictOrderedRing K] (numbers : List K) (hne : numbers ≠ [])
    (h0 : ∀ v ∈ numbers, 0 ≤ v) (threshold : K) (num : Nat) (hnum : 1 ≤ num) :
    ∃ l, selector numbers threshold num = .ok (some l) ∧ l.Nodup ∧ (∀ i ∈ l, i < numbers.length) ∧
      l.length = min num numbers.length ∧
      ∀ c : List Nat, c.Nodup → (∀ i ∈ c, i < numbers.length) → c.length ≤ num →
        (threshold ≤ (c.map fun i => numbers.getD i 0).sum → threshold ≤ (l.map fun i => numbers.getD i 0).sum) ∧
        ((l.map fun i => numbers.getD i 0).sum < threshold →
          (c.map fun i => numbers.getD i 0).sum ≤ (l.map fun i => numbers.getD i 0).sum) := by
  obtain ⟨l, e1, e2, e3, e4, e5, _⟩ := selector_ok numbers hne h0 threshold num hnum
  refine ⟨l, e1, e2, e3, e4, fun c hc hr hl => ?_⟩
  have := e5 c hc hr hl
  change threshold ≤ (l.map fun i => numbers.getD i 0).sum ∨
    (c.map fun i => numbers.getD i 0).sum ≤ (l.map fun i => numbers.getD i 0).sum at this
  constructor
  · intro h
    rcases this with h1 | h1
    · exact h1
    · exact h.trans h1
  · intro h
    rcases this with h1 | h1
    · exact absurd h1 (not_le.mpr h)
    · exact h1

/-- If the best ranked positions reach the threshold, they are the ones chosen. -/
theorem C27_first_window {K : Type} [Field K] [LinearOrder K] [IsStrictOrderedRing K] (numbers : List K)
    (hne : numbers ≠ []) (h0 : ∀ v ∈ numbers, 0 ≤ v) (threshold : K) (num : Nat) (hnum : 1 ≤ num)
    (h : threshold ≤ (numbers.take num).sum) :
    selector numbers threshold num = .ok (some (List.range (min num numbers.length))) := by
  obtain ⟨l, e1, _, _, _, _, e6⟩ := selector_ok numbers hne h0 threshold num hnum
  rw [e1, e6 h]

example : selector ([3, 1, 4, 1, 5] : List ℚ) 8 2 = .ok (some [2, 4]) := by decide +kernel
example : selector ([3, 1, 4, 1, 5] : List ℚ) 10 2 = .ok (some [2, 4]) := by decide +kernel
example : selector ([3, 1, 4, 1, 5] : List ℚ) 7 2 = .ok (some [0, 2]) := by decide +kernel
example : selector ([3, 1, 4, 1, 5] : List ℚ) 4 2 = .ok (some [0, 1]) := by decide +kernel
example : selector ([3, 1] : List ℚ) 8 5 = .ok (some [0, 1]) := by decide +kernel

/-! ## Ranking and selecting orders -/

section Rank
variable {K : Type} [Field K] [LinearOrder K] [IsStrictOrderedRing K]

theorem rank_perm (hyp : List K) : List.Perm (rank hyp) (List.range hyp.length) := List.perm_insertionSort _ _

theorem rank_sorted (hyp : List K) : (rank hyp).Pairwise fun i j => hyp.getD j 0 ≤ hyp.getD i 0 := by
  have : Std.Total (fun i j : Nat => hyp.getD j 0 < hyp.getD i 0 ∨ (hyp.getD i 0 = hyp.getD j 0 ∧ i ≤ j)) := ⟨fun a b => by
    rcases lt_trichotomy (hyp.getD a 0) (hyp.getD b 0) with h | h | h
    · exact Or.inr (Or.inl h)
    · rcases le_total a b with h' | h'
      · exact Or.inl (Or.inr ⟨h, h'⟩)
      · exact Or.inr (Or.inr ⟨h.symm, h'⟩)
    · exact Or.inl (Or.inl h)⟩
  have : IsTrans Nat (fun i j : Nat => hyp.getD j 0 < hyp.getD i 0 ∨ (hyp.getD i 0 = hyp.getD j 0 ∧ i ≤ j)) := ⟨fun a b c h1 h2 => by
    rcases h1 with h1 | ⟨h1, h1'⟩
    · rcases h2 with h2 | ⟨h2, _⟩
      · exact Or.inl (h2.trans h1)
      · exact Or.inl (h2 ▸ h1)
    · rcases h2 with h2 | ⟨h2, h2'⟩
      · exact Or.inl (h1 ▸ h2)
      · exact Or.inr ⟨h1.trans h2, h1'.trans h2'⟩⟩
  refine (List.pairwise_insertionSort (fun i j : Nat => hyp.getD j 0 < hyp.getD i 0 ∨ (hyp.getD i 0 = hyp.getD j 0 ∧ i ≤ j))
    (List.range hyp.length)).imp ?_
  intro a b h
  rcases h with h | ⟨h, _⟩
  · exact h.le
  · exact h.symm.le

/-- The selector applied to the values of ranked positions. -/
theorem select_ok {n : Nat} {ranked : List Nat} (hr : List.Perm ranked (List.range n)) (hn : n ≠ 0) (f : Nat → K)
    (h0 : ∀ i, i < n → 0 ≤ f i) (t : K) (k : Nat) (hk : 1 ≤ k) :
    ∃ l ps, selector (ranked.map f) t k = .ok (some l) ∧ selected ranked (some l) = .ok ps ∧ ps.Nodup ∧
      (∀ i ∈ ps, i < n) ∧ ps.length = min k n ∧
      (∀ c : List Nat, c.Nodup → (∀ i ∈ c, i < n) → c.length ≤ k → t ≤ (ps.map f).sum ∨ (c.map f).sum ≤ (ps.map f).sum) ∧
      (t ≤ ((ranked.take k).map f).sum → ps = ranked.take k) := by
  have hlen : ranked.length = n := by rw [hr.length_eq, List.length_range]
  have hnd : ranked.Nodup := hr.nodup_iff.mpr List.nodup_range
  have hmem : ∀ i ∈ ranked, i < n := fun i hi => List.mem_range.mp (hr.mem_iff.mp hi)
  have hget : ∀ j, j < n → ranked.getD j 0 ∈ ranked ∧ at' (ranked.map f) j = f (ranked.getD j 0) := by
    intro j hj
    have hj' : j < ranked.length := by omega
    have e : ranked.getD j 0 = ranked[j] := by simp [List.getD, hj']
    refine ⟨e ▸ List.getElem_mem hj', ?_⟩
    rw [e]
    simp [at', List.getD, hj']
  obtain ⟨l, e1, e2, e3, e4, e5, e6⟩ := selector_ok (ranked.map f) (by
      intro e
      have := congrArg List.length e
      rw [List.length_map, hlen] at this
      exact hn this) (by
      intro v hv
      obtain ⟨i, hi, rfl⟩ := List.mem_map.mp hv
      exact h0 i (hmem i hi)) t k hk
  rw [List.length_map, hlen] at e3 e4 e6
  have hsum : ∀ l : List Nat, (∀ j ∈ l, j < n) → (l.map (at' (ranked.map f))).sum = ((l.map fun i => ranked.getD i 0).map f).sum := by
    intro l hl
    rw [List.map_map]
    congr 1
    exact List.map_congr_left fun j hj => (hget j (hl j hj)).2
  refine ⟨l, l.map fun i => ranked.getD i 0, e1, rfl, ?_, ?_, by rw [List.length_map, e4], ?_, ?_⟩
  · apply List.Nodup.map_on _ e2
    intro a ha b hb e
    have ha' : a < ranked.length := by have := e3 a ha; omega
    have hb' : b < ranked.length := by have := e3 b hb; omega
    simp only [List.getD, List.getElem?_eq_getElem ha', List.getElem?_eq_getElem hb', Option.getD_some] at e
    exact (hnd.getElem_inj_iff).mp e
  · intro i hi
    obtain ⟨j, hj, rfl⟩ := List.mem_map.mp hi
    exact hmem _ (hget j (e3 j hj)).1
  · intro c hc hcr hcl
    have hin : ∀ i ∈ c, i ∈ ranked := fun i hi => hr.mem_iff.mpr (List.mem_range.mpr (hcr i hi))
    have hidx : ∀ j ∈ c.map ranked.idxOf, j < n := by
      intro j hj
      obtain ⟨i, hi, rfl⟩ := List.mem_map.mp hj
      rw [← hlen]
      exact List.idxOf_lt_length_iff.mpr (hin i hi)
    have := e5 (c.map ranked.idxOf) (by
      apply List.Nodup.map_on _ hc
      intro a ha b hb e
      exact (List.idxOf_inj (hin a ha)).mp e) (by rw [List.length_map, hlen]; exact hidx) (by rwa [List.length_map])
    rw [hsum l e3, hsum _ hidx] at this
    rw [List.map_map (l := c)] at this
    have ec : c.map ((fun i => ranked.getD i 0) ∘ ranked.idxOf) = c := by
      conv_rhs => rw [← List.map_id c]
      apply List.map_congr_left
      intro i hi
      have hlt := List.idxOf_lt_length_iff.mpr (hin i hi)
      simp [List.getD, hlt]
    rwa [ec] at this
  · intro h
    rw [← List.map_take] at e6
    rw [e6 h]
    apply List.ext_getElem?
    intro i
    rw [List.getElem?_map, List.getElem?_take]
    by_cases hi : i < min k n
    · rw [if_pos (by omega), List.getElem?_range hi]
      have : i < ranked.length := by omega
      simp [List.getD, this]
    · rw [List.getElem?_eq_none (by rw [List.length_range]; omega)]
      split
      · rw [List.getElem?_eq_none (by omega)]; rfl
      · rfl

end Rank

/-! ## C71: matching within the number of orders -/

/-- A choice of at most `k` of the orders. -/
def Choice (orders : List (Curve ℝ)) (k : Nat) (c : List Nat) : Prop :=
  c.Nodup ∧ (∀ i ∈ c, i < orders.length) ∧ c.length ≤ k

theorem mapM_ok {α β : Type} {f : α → Py β} {l : List α} (h : ∀ a ∈ l, ∃ b, f a = .ok b) :
    ∃ bs, l.mapM f = .ok bs ∧ bs.length = l.length ∧ ∀ (i : Nat) (a : α), l[i]? = some a → ∃ b, bs[i]? = some b ∧ f a = .ok b := by
  induction l with
  | nil => exact ⟨[], rfl, rfl, by simp⟩
  | cons a l ih =>
    obtain ⟨b, hb⟩ := h a List.mem_cons_self
    obtain ⟨bs, e, hl, hi⟩ := ih fun a ha => h a (List.mem_cons_of_mem _ ha)
    refine ⟨b :: bs, ?_, by simp [hl], ?_⟩
    · rw [List.mapM_cons, hb, e]; rfl
    · intro i a' ha'
      cases i with
      | zero => simp at ha'; subst ha'; exact ⟨b, by simp, hb⟩
      | succ i => simpa using hi i a' (by simpa using ha')

theorem byTarget_ok {c : Curve ℝ} (h : c.Good) {x : ℝ} (hx : x < 0) : ∃ v, c.alphaByTarget x = .ok v := by
  have hM : 0 < c.S * c.y + c.B * c.yint := by
    have := mul_nonneg h.hS h.hy0
    have := mul_pos h.hB h.hz
    linarith
  have : 0 ≤ c.S * -x := mul_nonneg h.hS (by linarith)
  have h2 : 0 < c.S * c.y + c.B * c.yint - c.S * x := by linarith
  exact ⟨_, pyDiv_ok (mul_pos hM h2).ne'⟩

private theorem yAt_nonneg {orders : List (Curve ℝ)} (hg : ∀ c ∈ orders, c.Good) (i : Nat) : 0 ≤ yAt orders i := by
  unfold yAt
  cases h : orders[i]? with
  | none => simp
  | some c => simpa using (hg c (List.mem_of_getElem? h)).hy0

/-- What the router does by target: it picks positions and hands the (possibly adjusted) amount to the exact router. -/
theorem byTarget_step (orders : List (Curve ℝ)) (hne : orders ≠ []) (hg : ∀ c ∈ orders, c.Good) (x : ℝ) (hx : x < 0)
    (thr : Option Nat) (hk : 1 ≤ thr.getD 10) (sp : Bool) (x' : ℝ)
    (hx' : x' = adjust x (total (List.range orders.length) (yAt orders)) sp) :
    ∃ ps, matchByTarget orders x thr sp = matchExact orders x' true ps sp ∧
      ps.Nodup ∧ (∀ i ∈ ps, i < orders.length) ∧ ps.length = min (thr.getD 10) orders.length ∧
      (∀ c, Choice orders (thr.getD 10) c → |x'| ≤ total ps (yAt orders) ∨ total c (yAt orders) ≤ total ps (yAt orders)) ∧
      ∃ best, best.Nodup ∧ (∀ i ∈ best, i < orders.length) ∧ best.length = min (thr.getD 10) orders.length ∧
        (∀ (i j : Nat) (a b : Curve ℝ), i ∈ best → j ∉ best → orders[i]? = some a → orders[j]? = some b →
          ∃ u v, a.alphaByTarget x = .ok u ∧ b.alphaByTarget x = .ok v ∧ v ≤ u) ∧
        (|x'| ≤ total best (yAt orders) → ps = best) := by
  obtain ⟨hyp, eh, hl, hi⟩ := mapM_ok (f := fun c : Curve ℝ => c.alphaByTarget x) (l := orders)
    fun c hc => byTarget_ok (hg c hc) hx
  have hr := rank_perm hyp
  rw [hl] at hr
  have hn : orders.length ≠ 0 := fun e => hne (List.length_eq_zero_iff.mp e)
  obtain ⟨l, ps, e1, e2, e3, e4, e5, e6, e7⟩ := select_ok hr hn (yAt orders) (fun i _ => yAt_nonneg hg i) |x'| _ hk
  have hsum : ((rank hyp).map (yAt orders)).sum = total (List.range orders.length) (yAt orders) := (hr.map _).sum_eq
  have hnd : (rank hyp).Nodup := hr.nodup_iff.mpr List.nodup_range
  refine ⟨ps, ?_, e3, e4, e5, fun c hc => e6 c hc.1 hc.2.1 hc.2.2, (rank hyp).take (thr.getD 10), ?_, ?_, ?_, ?_, e7⟩
  · unfold matchByTarget
    rw [eh]
    simp only [Py.ok_bind]
    change (do
      let sel ← selector ((rank hyp).map (yAt orders)) |adjust x ((rank hyp).map (yAt orders)).sum sp| (thr.getD 10)
      let ps ← selected (rank hyp) sel
      matchExact orders (adjust x ((rank hyp).map (yAt orders)).sum sp) true ps sp) = _
    rw [hsum, ← hx', e1, Py.ok_bind, e2, Py.ok_bind]
  · exact hnd.sublist (List.take_sublist _ _)
  · intro i hi
    exact List.mem_range.mp (hr.mem_iff.mp (List.mem_of_mem_take hi))
  · rw [List.length_take, hr.length_eq, List.length_range]
  · intro i j a b hib hjb ha hb
    obtain ⟨u, hu, eu⟩ := hi i a ha
    obtain ⟨v, hv, ev⟩ := hi j b hb
    refine ⟨u, v, eu, ev, ?_⟩
    have hj : j ∈ (rank hyp).drop (thr.getD 10) := by
      have : j ∈ rank hyp := hr.mem_iff.mpr (List.mem_range.mpr (List.getElem?_eq_some_iff.mp hb).1)
      rw [← List.take_append_drop (thr.getD 10) (rank hyp), List.mem_append] at this
      exact this.resolve_left hjb
    have hs := rank_sorted hyp
    rw [← List.take_append_drop (thr.getD 10) (rank hyp), List.pairwise_append] at hs
    have := hs.2.2 i hib j hj
    simpa [List.getD, hu, hv] using this

private theorem total_nonpos {ps : List Nat} {f : Nat → ℝ} (h : ∀ i ∈ ps, f i ≤ 0) : total ps f ≤ 0 := by
  unfold total
  induction ps with
  | nil => simp
  | cons i ps ih =>
    have h1 := h i List.mem_cons_self
    have h2 := ih fun j hj => h j (List.mem_cons_of_mem _ hj)
    simp only [List.map_cons, List.sum_cons]
    linarith

private theorem total_le {ps : List Nat} {f g : Nat → ℝ} (h : ∀ i ∈ ps, f i ≤ g i) : total ps f ≤ total ps g := by
  unfold total
  induction ps with
  | nil => simp
  | cons i ps ih =>
    have h1 := h i List.mem_cons_self
    have h2 := ih fun j hj => h j (List.mem_cons_of_mem _ hj)
    simp only [List.map_cons, List.sum_cons]
    linarith

theorem positions_of {orders : List (Curve ℝ)} {ps : List Nat} (h1 : ps.Nodup) (h2 : ∀ i ∈ ps, i < orders.length)
    (h3 : ps ≠ []) : Positions orders ps ps := by
  refine ⟨h1, h2, ?_⟩
  rw [if_neg]
  simpa using h3

/-- By target: whenever some choice of at most `threshold_orders` (10 by default) orders holds the amount, the match
succeeds, uses at most so many orders, delivers the amount exactly and is the cheapest within the orders it selected. -/
theorem C71_by_target (orders : List (Curve ℝ)) (hne : orders ≠ []) (hg : ∀ c ∈ orders, c.Good) (x : ℝ) (hx : x < 0)
    (thr : Option Nat) (hk : 1 ≤ thr.getD 10) (sp : Bool) (c : List Nat) (hc : Choice orders (thr.getD 10) c)
    (hl : -x ≤ total c (yAt orders)) :
    ∃ ps acts, Choice orders (thr.getD 10) ps ∧ matchByTarget orders x thr sp = .ok acts ∧ Executable orders acts ∧
      (∀ a ∈ acts, a.index ∈ ps) ∧ (acts.map (·.output)).sum = x ∧
      ∀ w z, Alternative orders ps w z → total ps w = x → (acts.map (·.input)).sum ≤ total ps z := by
  have hall : total c (yAt orders) ≤ total (List.range orders.length) (yAt orders) := by
    unfold total
    have hs : List.Subperm c (List.range orders.length) := hc.1.subperm fun i hi => List.mem_range.mpr (hc.2.1 i hi)
    obtain ⟨l', hp, hsub⟩ := hs
    rw [← (hp.map (yAt orders)).sum_eq]
    exact (hsub.map _).sum_le_sum (fun v hv => by
      obtain ⟨i, _, rfl⟩ := List.mem_map.mp hv
      exact yAt_nonneg hg i)
  have habs : |x| = -x := abs_of_neg hx
  have hadj : x = adjust x (total (List.range orders.length) (yAt orders)) sp := by
    unfold adjust
    rw [if_neg]
    rintro ⟨_, h⟩
    rw [habs] at h
    linarith
  obtain ⟨ps, e, h1, h2, h3, h4, _⟩ := byTarget_step orders hne hg x hx thr hk sp x hadj
  have hn : orders.length ≠ 0 := fun e => hne (List.length_eq_zero_iff.mp e)
  have hpne : ps ≠ [] := by
    intro h0
    rw [h0, List.length_nil] at h3
    omega
  have hge : -x ≤ total ps (yAt orders) := by
    rcases h4 c hc with h | h
    · rwa [habs] at h
    · linarith
  obtain ⟨acts, a1, a2, a3, a4, a5⟩ := C69_by_target orders hg ps ps (positions_of h1 h2 hpne) x hx hge sp
  exact ⟨ps, acts, ⟨h1, h2, by rw [h3]; exact min_le_left _ _⟩, by rw [e, a1], a2, a3, a4, a5⟩

/-- If no choice of at most `threshold_orders` orders holds the amount, the match fails unless partial matches are
allowed. -/
theorem C71_by_target_insufficient (orders : List (Curve ℝ)) (hne : orders ≠ []) (hg : ∀ c ∈ orders, c.Good) (x : ℝ)
    (hx : x < 0) (thr : Option Nat) (hk : 1 ≤ thr.getD 10)
    (hl : ∀ c, Choice orders (thr.getD 10) c → total c (yAt orders) < -x) :
    matchByTarget orders x thr false = .error .assertion := by
  obtain ⟨ps, e, h1, h2, h3, _, _⟩ := byTarget_step orders hne hg x hx thr hk false x (by unfold adjust; simp)
  have hn : orders.length ≠ 0 := fun e => hne (List.length_eq_zero_iff.mp e)
  have hpne : ps ≠ [] := by
    intro h0
    rw [h0, List.length_nil] at h3
    omega
  rw [e]
  exact (C69_insufficient orders hg ps ps (positions_of h1 h2 hpne) x hx
    (hl ps ⟨h1, h2, by rw [h3]; exact min_le_left _ _⟩)).1

/-- With partial matches allowed and enough in the book as a whole, but not in any choice of `threshold_orders` orders:
everything held by the choice with the most is sold. -/
theorem C71_by_target_most (orders : List (Curve ℝ)) (hne : orders ≠ []) (hg : ∀ c ∈ orders, c.Good) (x : ℝ)
    (hx : x < 0) (thr : Option Nat) (hk : 1 ≤ thr.getD 10)
    (hl : ∀ c, Choice orders (thr.getD 10) c → total c (yAt orders) < -x)
    (hb : -x ≤ total (List.range orders.length) (yAt orders)) :
    ∃ ps acts, Choice orders (thr.getD 10) ps ∧ matchByTarget orders x thr true = .ok acts ∧ Executable orders acts ∧
      (∀ a ∈ acts, a.index ∈ ps) ∧ (acts.map (·.output)).sum = -total ps (yAt orders) ∧
      ∀ c, Choice orders (thr.getD 10) c → total c (yAt orders) ≤ total ps (yAt orders) := by
  have habs : |x| = -x := abs_of_neg hx
  obtain ⟨ps, e, h1, h2, h3, h4, _⟩ := byTarget_step orders hne hg x hx thr hk true x (by
    unfold adjust
    rw [if_neg]
    rintro ⟨_, h⟩
    rw [habs] at h
    linarith)
  have hn : orders.length ≠ 0 := fun e => hne (List.length_eq_zero_iff.mp e)
  have hpne : ps ≠ [] := by
    intro h0
    rw [h0, List.length_nil] at h3
    omega
  have hps : Choice orders (thr.getD 10) ps := ⟨h1, h2, by rw [h3]; exact min_le_left _ _⟩
  have hmax : ∀ c, Choice orders (thr.getD 10) c → total c (yAt orders) ≤ total ps (yAt orders) := by
    intro c hc
    rcases h4 c hc with h | h
    · have := hl ps hps
      rw [habs] at h
      linarith
    · exact h
  have hpos : 0 < total ps (yAt orders) := by
    -- some order holds something
    have : ∃ i, i < orders.length ∧ 0 < yAt orders i := by
      by_contra hno
      push Not at hno
      have : total (List.range orders.length) (yAt orders) ≤ 0 := by
        exact total_nonpos fun i hi => hno i (List.mem_range.mp hi)
      linarith
    obtain ⟨i, hi, hyi⟩ := this
    have := hmax [i] ⟨List.nodup_singleton i, by simpa using hi, by simpa using hk⟩
    simp only [total, List.map_cons, List.map_nil, List.sum_cons, List.sum_nil, add_zero] at this
    exact lt_of_lt_of_le hyi this
  obtain ⟨acts, a1, a2, a3, a4⟩ := (C69_insufficient orders hg ps ps (positions_of h1 h2 hpne) x hx (hl ps hps)).2 hpos
  exact ⟨ps, acts, hps, by rw [e, a1], a2, a3, a4, hmax⟩

/-- The orders used are the ones with the best prices for the amount, if these hold it. -/
theorem C71_best_priced (orders : List (Curve ℝ)) (hne : orders ≠ []) (hg : ∀ c ∈ orders, c.Good) (x : ℝ)
    (hx : x < 0) (thr : Option Nat) (hk : 1 ≤ thr.getD 10) :
    ∃ best, best.Nodup ∧ (∀ i ∈ best, i < orders.length) ∧ best.length = min (thr.getD 10) orders.length ∧
      (∀ (i j : Nat) (a b : Curve ℝ), i ∈ best → j ∉ best → orders[i]? = some a → orders[j]? = some b →
        ∃ u v, a.alphaByTarget x = .ok u ∧ b.alphaByTarget x = .ok v ∧ v ≤ u) ∧
      (-x ≤ total best (yAt orders) → matchByTarget orders x thr false = matchExact orders x true best false) := by
  obtain ⟨ps, e, _, _, _, _, best, b1, b2, b3, b4, b5⟩ := byTarget_step orders hne hg x hx thr hk false x (by unfold adjust; simp)
  refine ⟨best, b1, b2, b3, b4, fun h => ?_⟩
  rw [e, b5 (by rw [abs_of_neg hx]; exact h)]

/-! ### By source -/

/-- What an order with a proper range charges for everything it holds. -/
theorem full_charge {c : Curve ℝ} (h : c.Good) (hS : 0 < c.S) :
    c.dxdy (-c.y) = .ok (c.y * c.yint1 / (c.B * (c.S * c.y + c.B * c.yint1))) := by
  have hB := h.hB
  have hy := h.hy0
  have hz1 : 0 < c.yint1 := lt_of_lt_of_le one_pos (le_max_right _ _)
  obtain ⟨g, hg0, hg1, hn, hBg⟩ := h.n_ok hS
  rw [Curve.dxdy_of hn h.p_ok (by linarith) (by linarith) (by positivity) hy (by simp)]
  congr 1
  have e1 : 1 - (1 - g) = g := by ring
  have e2 : 2 - (1 - g) = 1 + g := by ring
  rw [e1, e2, add_neg_cancel, mul_zero, zero_add]
  generalize c.yint1 = Z at hz1 ⊢
  obtain ⟨P, hP⟩ : ∃ P, P = c.B + c.S := ⟨_, rfl⟩
  have hPp : 0 < P := by rw [hP]; positivity
  have hSP : c.S = (1 - g ^ 2) * P := by
    have : c.S = P - c.B := by rw [hP]; ring
    rw [this, hBg, ← hP]; ring
  rw [← hP] at hBg ⊢
  rw [hSP, hBg]
  have hg2 : 0 < 1 - g := by linarith
  have d1 : 0 < (1 - g) * c.y + Z * g / (1 + g) * g := by positivity
  have d2 : 0 < (1 - g ^ 2) * P * c.y + g ^ 2 * P * Z := by
    have : 0 < 1 - g ^ 2 := by nlinarith
    positivity
  rw [div_eq_div_iff (by positivity) (by positivity)]
  field_simp
  ring

/-- What an order charges for everything it holds is at least what the curve with the stored capacity says. -/
theorem full_charge_ge {c : Curve ℝ} (h : c.Good) {q : ℝ} (hq : c.dxdy (-c.y) = .ok q) :
    c.y * c.yint / (c.B * (c.S * c.y + c.B * c.yint)) ≤ q := by
  have hB := h.hB
  have hy := h.hy0
  have hz := h.hz
  have hzy := h.hy
  have hz1 : 0 < c.yint1 := lt_of_lt_of_le one_pos (le_max_right _ _)
  have hzz : c.yint ≤ c.yint1 := le_max_left _ _
  rcases h.hS.eq_or_lt with h0 | h0
  · have hn : c.n = .ok (1 / 10 ^ 18) := by unfold Curve.n; rw [h.adj_iff.mpr h0.symm]; rfl
    rw [Curve.dxdy_of hn h.p_ok (by positivity) (by norm_num) (by positivity) hy (by simp)] at hq
    have hq := Except.ok.inj hq
    rw [← hq, ← h0, add_zero, zero_mul, zero_add, add_neg_cancel, mul_zero, zero_add]
    obtain ⟨n, hn⟩ : ∃ n : ℝ, n = 1 / 10 ^ 18 := ⟨_, rfl⟩
    have hn0 : 0 < n := by rw [hn]; norm_num
    have hn1 : 0 < 1 - n := by rw [hn]; norm_num
    have hn2 : 0 < 2 - n := by linarith
    rw [← hn]
    generalize c.yint1 = Z at hz1 hzz ⊢
    have e : -(Z * (1 - n) / (c.B * c.B * (2 - n))) * (Z * (1 - n) / (2 - n)) * -c.y /
        ((n * c.y + Z * (1 - n) / (2 - n) * (1 - n)) * (Z * (1 - n) / (2 - n) * (1 - n))) =
        c.y * Z / (c.B ^ 2 * (n * (2 - n) * c.y + Z * (1 - n) ^ 2)) := by
      have d1 : 0 < n * c.y + Z * (1 - n) / (2 - n) * (1 - n) := by positivity
      have d2 : 0 < n * (2 - n) * c.y + Z * (1 - n) ^ 2 := by positivity
      rw [div_eq_div_iff (by positivity) (by positivity)]
      field_simp
    rw [e, show c.B * (c.B * c.yint) = c.B ^ 2 * c.yint by ring]
    rw [show c.y * c.yint / (c.B ^ 2 * c.yint) = c.y / c.B ^ 2 by field_simp]
    have d2 : 0 < n * (2 - n) * c.y + Z * (1 - n) ^ 2 := by positivity
    rw [div_le_div_iff₀ (by positivity) (by positivity)]
    have key : n * (2 - n) * c.y + Z * (1 - n) ^ 2 ≤ Z := by
      have : n * (2 - n) * c.y ≤ n * (2 - n) * Z := mul_le_mul_of_nonneg_left (by linarith) (by positivity)
      nlinarith
    have := mul_le_mul_of_nonneg_left key (mul_nonneg hy (by positivity : 0 ≤ c.B ^ 2))
    linarith
  · rw [full_charge h h0] at hq
    have hq := Except.ok.inj hq
    rw [← hq]
    generalize c.yint1 = Z at hz1 hzz ⊢
    have d1 : 0 < c.S * c.y + c.B * Z := by positivity
    have d2 : 0 < c.S * c.y + c.B * c.yint := by positivity
    rw [div_le_div_iff₀ (by positivity) (by positivity)]
    have : 0 ≤ c.y * c.B * (c.S * c.y) * (Z - c.yint) := mul_nonneg (by positivity) (by linarith)
    nlinarith

/-- What the router counts an order for when matching by source: the amount if the order alone can take it, else its
holdings at the geometric mean of its price range. -/
noncomputable def counted (c : Curve ℝ) (x : ℝ) : ℝ :=
  if c.y < x * (c.S * c.y + c.B * c.yint) ^ 2 / (c.S * x * (c.S * c.y + c.B * c.yint) + c.yint ^ 2)
  then c.y / (c.B * (c.B + c.S)) else x

/-- `counted` at a position. -/
noncomputable def countedAt (orders : List (Curve ℝ)) (x : ℝ) (i : Nat) : ℝ := (orders[i]?.map (counted · x)).getD 0

theorem bySrc_ok {c : Curve ℝ} (h : c.Good) {x : ℝ} (hx : 0 < x) :
    ∃ v, c.alphaBySrc x = .ok v ∧ 0 < v ∧ availableValue c x v = .ok (counted c x) := by
  have hB := h.hB
  have hS := h.hS
  have hy := h.hy0
  have hz := h.hz
  have hM : 0 < c.S * c.y + c.B * c.yint := by positivity
  have hD : 0 < c.S * x * (c.S * c.y + c.B * c.yint) + c.yint ^ 2 := by positivity
  have hv : 0 < x * (c.S * c.y + c.B * c.yint) ^ 2 / (c.S * x * (c.S * c.y + c.B * c.yint) + c.yint ^ 2) := by positivity
  refine ⟨_, pyDiv_ok hD.ne', hv, ?_⟩
  unfold availableValue counted
  generalize x * (c.S * c.y + c.B * c.yint) ^ 2 / (c.S * x * (c.S * c.y + c.B * c.yint) + c.yint ^ 2) = v at hv ⊢
  have hgeo : c.geoprice = .ok (1 / (c.B * (c.B + c.S))) := by
    obtain ⟨n, hn0, hn1, hn⟩ : ∃ n, 0 < n ∧ n < 1 ∧ c.n = .ok n := by
      rcases hS.eq_or_lt with h0 | h0
      · refine ⟨1 / 10 ^ 18, by norm_num, by norm_num, ?_⟩
        unfold Curve.n
        rw [if_pos (h.adj_iff.mpr h0.symm)]
      · obtain ⟨g, hg0, hg1, e, _⟩ := h.n_ok h0
        exact ⟨1 - g, by linarith, by linarith, e⟩
    have h2 : 0 < 2 - n := by linarith
    have h1 : 0 < 1 - n := by linarith
    have hz1 : 0 < c.yint1 := lt_of_lt_of_le one_pos (le_max_right _ _)
    unfold Curve.geoprice
    rw [Curve.x0_of hn h.p_ok (by positivity), Curve.y0_of hn h2.ne']
    simp only [Py.ok_bind]
    rw [pyDiv_ok (by positivity)]
    congr 1
    field_simp
  by_cases hc : c.y < v
  · rw [if_pos hc, if_pos hc, hgeo]
    simp only [Py.ok_bind]
    congr 1
    ring
  · rw [if_neg hc, if_neg hc, pyDiv_ok hv.ne']
    simp only [Py.ok_bind]
    congr 1
    field_simp

/-- The router never counts an order for more than it can really take. -/
theorem C71_counted_le (c : Curve ℝ) (h : c.Good) (x : ℝ) (hx : 0 < x) (q : ℝ) (hq : c.dxdy (-c.y) = .ok q) :
    0 ≤ counted c x ∧ counted c x ≤ q := by
  have hB := h.hB
  have hS := h.hS
  have hy := h.hy0
  have hz := h.hz
  have hzy := h.hy
  have hM : 0 < c.S * c.y + c.B * c.yint := by positivity
  have hge := full_charge_ge h hq
  unfold counted
  split
  · refine ⟨by positivity, le_trans ?_ hge⟩
    rw [div_le_div_iff₀ (by positivity) (by positivity)]
    have : 0 ≤ c.y * c.B * c.S * (c.yint - c.y) := mul_nonneg (by positivity) (by linarith)
    nlinarith
  · rename_i hc
    refine ⟨hx.le, le_trans ?_ hge⟩
    have hD : 0 < c.S * x * (c.S * c.y + c.B * c.yint) + c.yint ^ 2 := by positivity
    have hc := (div_le_iff₀ hD).mp (not_lt.mp hc)
    rw [le_div_iff₀ (by positivity)]
    have e : (c.S * c.y + c.B * c.yint) * (c.S * c.y + c.B * c.yint) - c.y * c.S * (c.S * c.y + c.B * c.yint) =
        c.B * c.yint * (c.S * c.y + c.B * c.yint) := by ring
    have h1 : x * (c.B * c.yint * (c.S * c.y + c.B * c.yint)) ≤ c.y * c.yint ^ 2 := by
      rw [← e]; nlinarith
    have h2 : c.yint * (x * (c.B * (c.S * c.y + c.B * c.yint))) ≤ c.yint * (c.y * c.yint) := by nlinarith
    exact le_of_mul_le_mul_left h2 hz

/-- What the router does by source. -/
theorem bySrc_step (orders : List (Curve ℝ)) (hne : orders ≠ []) (hg : ∀ c ∈ orders, c.Good) (x : ℝ) (hx : 0 < x)
    (k : Nat) (hk : 1 ≤ k) (sp : Bool) (x' : ℝ)
    (hx' : x' = adjust x (total (List.range orders.length) (countedAt orders x)) sp) :
    ∃ ps, matchBySrc orders x (some k) sp = matchExact orders x' false ps sp ∧
      ps.Nodup ∧ (∀ i ∈ ps, i < orders.length) ∧ ps.length = min k orders.length ∧
      (∀ c, Choice orders k c →
        |x'| ≤ total ps (countedAt orders x) ∨ total c (countedAt orders x) ≤ total ps (countedAt orders x)) := by
  obtain ⟨hyp, eh, hl, hi⟩ := mapM_ok (f := fun c : Curve ℝ => c.alphaBySrc x) (l := orders) fun c hc => by
    obtain ⟨v, e, _⟩ := bySrc_ok (hg c hc) hx
    exact ⟨v, e⟩
  have hzip : ∀ (i : Nat) (p : Curve ℝ × ℝ), (orders.zip hyp)[i]? = some p →
      availableValue p.1 x p.2 = .ok (counted p.1 x) ∧ orders[i]? = some p.1 := by
    intro i p hp
    obtain ⟨h1, h2⟩ := List.getElem?_zip_eq_some.mp hp
    obtain ⟨v, hv, ev⟩ := hi i p.1 h1
    rw [h2] at hv
    cases hv
    obtain ⟨v', ev', _, ea⟩ := bySrc_ok (hg p.1 (List.mem_of_getElem? h1)) hx
    rw [ev] at ev'
    cases ev'
    exact ⟨ea, h1⟩
  obtain ⟨vals, ev, hvl, hvi⟩ := mapM_ok (f := fun p : Curve ℝ × ℝ => availableValue p.1 x p.2) (l := orders.zip hyp) (by
    intro p hp
    obtain ⟨i, hi⟩ := List.mem_iff_getElem?.mp hp
    exact ⟨_, (hzip i p hi).1⟩)
  have hr := rank_perm hyp
  rw [hl] at hr
  have hn : orders.length ≠ 0 := fun e => hne (List.length_eq_zero_iff.mp e)
  have hval : ∀ i, i < orders.length → vals.getD i 0 = countedAt orders x i := by
    intro i hi
    have hi' : i < (orders.zip hyp).length := by rw [List.length_zip, hl, min_self]; exact hi
    obtain ⟨b, hb, eb⟩ := hvi i _ (List.getElem?_eq_getElem hi')
    obtain ⟨h1, h2⟩ := hzip i _ (List.getElem?_eq_getElem hi')
    rw [h1] at eb
    cases eb
    rw [List.getD, hb, countedAt, h2]
    rfl
  have hmap : (rank hyp).map (fun i => vals.getD i 0) = (rank hyp).map (countedAt orders x) :=
    List.map_congr_left fun i hi => hval i (List.mem_range.mp (hr.mem_iff.mp hi))
  have h0 : ∀ i, i < orders.length → 0 ≤ countedAt orders x i := by
    intro i hi
    obtain ⟨q, hq⟩ := C70_capital_exists orders hg
    have e : orders[i]? = some orders[i] := List.getElem?_eq_getElem hi
    rw [countedAt, e]
    exact (C71_counted_le _ (hg _ (List.getElem_mem hi)) x hx _ (hq i _ e)).1
  obtain ⟨l, ps, e1, e2, e3, e4, e5, e6, e7⟩ := select_ok hr hn (countedAt orders x) h0 |x'| k hk
  have hsum : ((rank hyp).map (countedAt orders x)).sum = total (List.range orders.length) (countedAt orders x) :=
    (hr.map _).sum_eq
  refine ⟨ps, ?_, e3, e4, e5, fun c hc => e6 c hc.1 hc.2.1 hc.2.2⟩
  unfold matchBySrc
  rw [eh]
  simp only [Py.ok_bind]
  rw [ev]
  simp only [Py.ok_bind]
  rw [hmap, hsum, ← hx', e1, Py.ok_bind, e2, Py.ok_bind]

/-- By source: whenever some choice of at most `k` orders is counted for the amount, the match succeeds with at most `k`
orders, spends the amount exactly and gets the most for it within the orders it selected. -/
theorem C71_by_source_partial (orders : List (Curve ℝ)) (hne : orders ≠ []) (hg : ∀ c ∈ orders, c.Good) (x : ℝ)
    (hx : 0 < x) (k : Nat) (hk : 1 ≤ k) (sp : Bool) (c : List Nat) (hc : Choice orders k c)
    (hl : x ≤ total c (countedAt orders x)) :
    ∃ ps acts, Choice orders k ps ∧ matchBySrc orders x (some k) sp = .ok acts ∧ Executable orders acts ∧
      (∀ a ∈ acts, a.index ∈ ps) ∧ (acts.map (·.input)).sum = x ∧
      ∀ w z, Alternative orders ps w z → total ps z ≤ x → (acts.map (·.output)).sum ≤ total ps w := by
  obtain ⟨q, hq⟩ := C70_capital_exists orders hg
  have h0 : ∀ i, 0 ≤ countedAt orders x i := by
    intro i
    cases e : orders[i]? with
    | none => simp [countedAt, e]
    | some d =>
      rw [countedAt, e]
      exact (C71_counted_le _ (hg _ (List.mem_of_getElem? e)) x hx _ (hq i _ e)).1
  have hall : total c (countedAt orders x) ≤ total (List.range orders.length) (countedAt orders x) := by
    unfold total
    have hs : List.Subperm c (List.range orders.length) := hc.1.subperm fun i hi => List.mem_range.mpr (hc.2.1 i hi)
    obtain ⟨l', hp, hsub⟩ := hs
    rw [← (hp.map (countedAt orders x)).sum_eq]
    exact (hsub.map _).sum_le_sum (fun v hv => by
      obtain ⟨i, _, rfl⟩ := List.mem_map.mp hv
      exact h0 i)
  have habs : |x| = x := abs_of_pos hx
  obtain ⟨ps, e, h1, h2, h3, h4⟩ := bySrc_step orders hne hg x hx k hk sp x (by
    unfold adjust
    rw [if_neg]
    rintro ⟨_, h⟩
    rw [habs] at h
    linarith)
  have hn : orders.length ≠ 0 := fun e => hne (List.length_eq_zero_iff.mp e)
  have hpne : ps ≠ [] := by
    intro h0
    rw [h0, List.length_nil] at h3
    omega
  have hge : x ≤ total ps (countedAt orders x) := by
    rcases h4 c hc with h | h
    · rwa [habs] at h
    · linarith
  have hcap : x ≤ total ps q := by
    refine hge.trans (total_le ?_)
    intro i hi
    have hlt := h2 i hi
    have ei : orders[i]? = some orders[i] := List.getElem?_eq_getElem hlt
    rw [countedAt, ei]
    exact (C71_counted_le _ (hg _ (List.getElem_mem _)) x hx _ (hq i _ ei)).2
  obtain ⟨acts, a1, a2, a3, a4, a5⟩ := (C70_by_source orders hg ps ps (positions_of h1 h2 hpne) x hx q hq).1 hcap sp
  exact ⟨ps, acts, ⟨h1, h2, by rw [h3]; exact min_le_left _ _⟩, by rw [e, a1], a2, a3, a4, a5⟩

/-! ### Concrete instances -/

/-- Selling between prices 1 and 16 (`B = 1`, `S = 3`), all of 20 left. -/
private noncomputable def exA : Curve ℝ := ⟨1, 3, 20, 1, 16, 20, decide ((16 : ℝ) = 1)⟩
/-- The same prices, nearly exhausted: 10 of 1000000 left. -/
private noncomputable def exB : Curve ℝ := ⟨1, 3, 1000000, 1, 16, 10, decide ((16 : ℝ) = 1)⟩

private theorem ex_good : ∀ c ∈ [exA, exA, exB], c.Good := by
  intro c hc
  simp only [List.mem_cons, List.not_mem_nil, or_false] at hc
  rcases hc with rfl | rfl | rfl
  · unfold exA; constructor <;> norm_num
  · unfold exA; constructor <;> norm_num
  · unfold exB; constructor <;> norm_num

example : ∃ ps acts, Choice [exA, exA, exB] 2 ps ∧ matchByTarget [exA, exA, exB] (-38) (some 2) false = .ok acts ∧
    (∀ a ∈ acts, a.index ∈ ps) ∧ (acts.map (·.output)).sum = -38 := by
  obtain ⟨ps, acts, h1, h2, _, h3, h4, _⟩ := C71_by_target [exA, exA, exB] (by simp) ex_good (-38) (by norm_num) (some 2)
    (by simp) false [0, 1] ⟨by simp, by simp, by simp⟩ (by norm_num [total, yAt, exA, exB])
  exact ⟨ps, acts, h1, h2, h3, h4⟩

example : ∃ ps acts, Choice [exA, exA, exB] 2 ps ∧ matchBySrc [exA, exA, exB] 10 (some 2) false = .ok acts ∧
    (∀ a ∈ acts, a.index ∈ ps) ∧ (acts.map (·.input)).sum = 10 := by
  obtain ⟨ps, acts, h1, h2, _, h3, h4, _⟩ := C71_by_source_partial [exA, exA, exB] (by simp) ex_good 10 (by norm_num) 2
    (by simp) false [0, 1] ⟨by simp, by simp, by simp⟩ (by norm_num [total, countedAt, counted, exA])
  exact ⟨ps, acts, h1, h2, h3, h4⟩

/-- By source the router can fail although two of the three orders could take the amount: it counts a nearly exhausted
order for less than it can take. -/
theorem C71_by_source_violated :
    ∃ (orders : List (Curve ℝ)) (c : List Nat) (acts : List (Action ℝ)), (∀ d ∈ orders, d.Good) ∧ Choice orders 2 c ∧
      matchExact orders 12 false c false = .ok acts ∧ (acts.map (·.input)).sum = 12 ∧
      matchBySrc orders 12 (some 2) false = .error .assertion := by
  obtain ⟨q, hq⟩ := C70_capital_exists _ ex_good
  have hA : exA.Good := ex_good _ (by simp)
  have hB : exB.Good := ex_good _ (by simp)
  have q0 : q 0 = 5 := by
    have h := hq 0 exA rfl
    rw [full_charge hA (by norm_num [exA])] at h
    rw [← Except.ok.inj h]
    norm_num [exA, Curve.yint1]
  have q1 : q 1 = 5 := by
    have h := hq 1 exA rfl
    rw [full_charge hA (by norm_num [exA])] at h
    rw [← Except.ok.inj h]
    norm_num [exA, Curve.yint1]
  have q2 : 9 ≤ q 2 := by
    have h := hq 2 exB rfl
    rw [full_charge hB (by norm_num [exB])] at h
    rw [← Except.ok.inj h]
    norm_num [exB, Curve.yint1]
  obtain ⟨acts, a1, _, _, a4, _⟩ := (C70_by_source _ ex_good [0, 2] [0, 2] ⟨by simp, by simp, by simp⟩ 12 (by norm_num) q hq).1
    (by simp only [total, List.map_cons, List.map_nil, List.sum_cons, List.sum_nil]; linarith) false
  refine ⟨_, [0, 2], acts, ex_good, ⟨by simp, by simp, by simp⟩, a1, a4, ?_⟩
  obtain ⟨ps, e, h1, h2, h3, h4⟩ := bySrc_step _ (by simp) ex_good 12 (by norm_num) 2 (by norm_num) false 12
    (by unfold adjust; simp)
  have hc : countedAt [exA, exA, exB] 12 0 = 5 ∧ countedAt [exA, exA, exB] 12 1 = 5 ∧ countedAt [exA, exA, exB] 12 2 = 5 / 2 := by
    refine ⟨?_, ?_, ?_⟩ <;> norm_num [countedAt, counted, exA, exB]
  have hcase : ps = [0, 1] ∨ ps = [1, 0] := by
    have hlen : ps.length = 2 := by rw [h3]; simp
    obtain ⟨a, b, rfl⟩ := List.length_eq_two.mp hlen
    have ha := h2 a (by simp)
    have hb := h2 b (by simp)
    simp only [List.length_cons, List.length_nil] at ha hb
    have hab : a ≠ b := by simpa using h1
    have := h4 [0, 1] ⟨by simp, by simp, by simp⟩
    simp only [total, List.map_cons, List.map_nil, List.sum_cons, List.sum_nil, hc.1, hc.2.1] at this
    have : a = 0 ∨ a = 1 ∨ a = 2 := by omega
    have : b = 0 ∨ b = 1 ∨ b = 2 := by omega
    rcases ‹a = 0 ∨ a = 1 ∨ a = 2› with rfl | rfl | rfl <;> rcases ‹b = 0 ∨ b = 1 ∨ b = 2› with rfl | rfl | rfl <;>
      simp_all <;> norm_num at this
  have hpos : Positions [exA, exA, exB] ps ps := positions_of h1 h2 (by rcases hcase with h | h <;> simp [h])
  have ht : total ps q = 10 := by
    rcases hcase with h | h <;> rw [h] <;>
      simp only [total, List.map_cons, List.map_nil, List.sum_cons, List.sum_nil, q0, q1] <;> norm_num
  rw [e]
  exact ((C70_by_source _ ex_good ps ps hpos 12 (by norm_num) q hq).2 (by rw [ht]; norm_num) (by rw [ht]; norm_num)).1

/-- By source there is no default number of orders: leaving it out is an error for every book and amount. -/
theorem C71_no_default_violated (orders : List (Curve ℝ)) (hne : orders ≠ []) (hg : ∀ c ∈ orders, c.Good) (x : ℝ)
    (hx : 0 < x) (sp : Bool) : matchBySrc orders x none sp = .error .type := by
  obtain ⟨hyp, eh, hl, hi⟩ := mapM_ok (f := fun c : Curve ℝ => c.alphaBySrc x) (l := orders) fun c hc => by
    obtain ⟨v, e, _⟩ := bySrc_ok (hg c hc) hx
    exact ⟨v, e⟩
  obtain ⟨vals, ev, _⟩ := mapM_ok (f := fun p : Curve ℝ × ℝ => availableValue p.1 x p.2) (l := orders.zip hyp) (by
    intro p hp
    obtain ⟨i, hp⟩ := List.mem_iff_getElem?.mp hp
    obtain ⟨h1, h2⟩ := List.getElem?_zip_eq_some.mp hp
    obtain ⟨v, hv, ev⟩ := hi i p.1 h1
    rw [h2] at hv
    cases hv
    obtain ⟨v', ev', _, ea⟩ := bySrc_ok (hg p.1 (List.mem_of_getElem? h1)) hx
    rw [ev] at ev'
    cases ev'
    exact ⟨_, ea⟩)
  unfold matchBySrc
  rw [eh]
  simp only [Py.ok_bind]
  rw [ev]
  simp only [Py.ok_bind]
  have : ¬ (rank hyp = []) := by
    intro h
    have := (rank_perm hyp).length_eq
    rw [h, hl, List.length_range, List.length_nil] at this
    exact hne (List.length_eq_zero_iff.mp this.symm)
  rw [if_neg (by simpa using this)]

end Carbon.AlphaRouter
