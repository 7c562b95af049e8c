import Verif.Carbon.Charts
import Mathlib.Tactic.FieldSimp
import Mathlib.Tactic.Ring

/-!
# The charts of the order book say in what units they are (C176)
-/

set_option linter.unusedSectionVars false

namespace Carbon

variable {K : Type} [Field K] [LinearOrder K] [IsStrictOrderedRing K]

/-- The same float in another unit: infinities and NaN are unchanged by a positive factor. -/
def Flt.rescale (c : K) : Flt K → Flt K
  | .num x => .num (c * x)
  | .inf => .inf
  | .ninf => .ninf
  | .nan => .nan

/-- The same order book with the amounts of the tokens in other units. -/
def NamedBook.rescale (a b : K) (n : NamedBook K) : NamedBook K :=
  { n with book := { n.book with src := n.book.src.map (Flt.rescale a), trg := n.book.trg.map (Flt.rescale b) } }

/-- The factor by which a quantity with the unit `u` changes, if amounts of the source token are multiplied by `a` and those of the target token
by `b`. -/
inductive Factor (src trg : Str) (a b : K) : Str → K → Prop
  | src : Factor src trg a b src a
  | trg : Factor src trg a b trg b
  | trgPerSrc : Factor src trg a b (trg ++ " per ".toList ++ src) (b / a)
  | srcPerTrg : Factor src trg a b (src ++ " per ".toList ++ trg) (a / b)

/-- A quantity is in its unit: it changes by the factor of the unit. -/
def InUnit (src trg : Str) (a b : K) (before after : Quoted K) : Prop :=
  after.unit = before.unit ∧ ∃ c, Factor src trg a b before.unit c ∧ after.values = before.values.map (Flt.rescale c)

namespace Charts

theorem rescale_num (c x : K) : (Flt.num x).rescale c = .num (c * x) := rfl
theorem rescale_inf (c : K) : (Flt.inf : Flt K).rescale c = .inf := rfl
theorem rescale_ninf (c : K) : (Flt.ninf : Flt K).rescale c = .ninf := rfl
theorem rescale_nan (c : K) : (Flt.nan : Flt K).rescale c = .nan := rfl

theorem neg_rescale (c : K) (x : Flt K) : (x.rescale c).neg = x.neg.rescale c := by
  cases x <;> simp [Flt.rescale, Flt.neg]

theorem add_rescale (c : K) (x y : Flt K) : (x.rescale c).add (y.rescale c) = (x.add y).rescale c := by
  cases x <;> cases y <;> simp [Flt.rescale, Flt.add, mul_add]

theorem sub_rescale (c : K) (x y : Flt K) : (x.rescale c).sub (y.rescale c) = (x.sub y).rescale c := by
  unfold Flt.sub
  rw [neg_rescale, add_rescale]

theorem scaled_mul {c : K} (hc : 0 < c) (x : K) : Flt.scaled (c * x) = Flt.scaled x := by
  unfold Flt.scaled
  simp [hc.ne', hc]

theorem rescale_scaled (c x : K) : (Flt.scaled x).rescale c = Flt.scaled x := by
  unfold Flt.scaled
  split_ifs <;> rfl

theorem mul_rescale {c d : K} (hc : 0 < c) (hd : 0 < d) (x y : Flt K) : (x.rescale c).mul (y.rescale d) = (x.mul y).rescale (c * d) := by
  cases x <;> cases y <;> simp only [rescale_num, rescale_inf, rescale_ninf, rescale_nan, Flt.mul, rescale_scaled, ← mul_neg, scaled_mul hc, scaled_mul hd]
  congr 1
  ring

theorem half_rescale (c : K) (x : Flt K) (h : K) : (Flt.num h).mul (x.rescale c) = ((Flt.num h).mul x).rescale c := by
  cases x <;> simp only [rescale_num, rescale_inf, rescale_ninf, rescale_nan, Flt.mul, rescale_scaled]
  congr 1
  ring

theorem div_rescale {a b : K} (ha : 0 < a) (hb : 0 < b) (x y : Flt K) :
    (x.rescale b).div (y.rescale a) = (x.div y).rescale (b / a) := by
  cases x with
  | num x =>
    cases y with
    | num y =>
      by_cases hy : y = 0
      · simp only [rescale_num, Flt.div, hy, mul_zero, if_true, rescale_scaled, scaled_mul hb]
      · simp only [Flt.rescale, Flt.div, mul_eq_zero, ha.ne', hy, or_self, if_false]
        congr 1
        field_simp
    | inf => simp [Flt.rescale, Flt.div]
    | ninf => simp [Flt.rescale, Flt.div]
    | nan => simp [Flt.rescale, Flt.div]
  | inf =>
    cases y with
    | num y =>
      have : a * y < 0 ↔ y < 0 := by simp [mul_neg_iff, ha, not_lt.mpr ha.le]
      by_cases hy : y < 0
      · simp [Flt.rescale, Flt.div, this, hy]
      · simp [Flt.rescale, Flt.div, this, hy]
    | inf => rfl
    | ninf => rfl
    | nan => rfl
  | ninf =>
    cases y with
    | num y =>
      have : a * y < 0 ↔ y < 0 := by simp [mul_neg_iff, ha, not_lt.mpr ha.le]
      by_cases hy : y < 0
      · simp [Flt.rescale, Flt.div, this, hy]
      · simp [Flt.rescale, Flt.div, this, hy]
    | inf => rfl
    | ninf => rfl
    | nan => rfl
  | nan => cases y <;> rfl

theorem one_rescale (x : Flt K) : x.rescale 1 = x := by
  cases x <;> simp [Flt.rescale]

theorem align_rescale {f : Flt K → Flt K → Flt K} {a b c : K} (h : ∀ x y, f (x.rescale a) (y.rescale b) = (f x y).rescale c) :
    ∀ xs ys : List (Flt K), Analytics.align f (xs.map (Flt.rescale a)) (ys.map (Flt.rescale b)) = (Analytics.align f xs ys).map (Flt.rescale c)
  | [], ys => by
    simp only [List.map_nil, Analytics.align, List.map_map, Function.comp_def]
    refine List.map_congr_left fun y _ => ?_
    exact h .nan y
  | x :: xs, [] => by
    simp only [List.map_nil, List.map_cons, Analytics.align, List.map_map, Function.comp_def]
    refine congrArg₂ List.cons (h x .nan) (List.map_congr_left fun y _ => h y .nan)
  | x :: xs, y :: ys => by
    simp only [List.map_cons, Analytics.align, h, align_rescale h xs ys]

theorem diff_rescale (c : K) (l : List (Flt K)) : Analytics.diff (l.map (Flt.rescale c)) = (Analytics.diff l).map (Flt.rescale c) := by
  unfold Analytics.diff
  rw [← List.map_tail, List.zipWith_map, List.map_zipWith]
  simp only [sub_rescale]

theorem midpoints_rescale (c : K) (l : List (Flt K)) :
    Analytics.midpoints (l.map (Flt.rescale c)) = (Analytics.midpoints l).map (Flt.rescale c) := by
  unfold Analytics.midpoints
  rw [← List.map_tail, List.zipWith_map, List.map_zipWith]
  simp only [add_rescale, half_rescale]

variable {a b : K} (ha : 0 < a) (hb : 0 < b) (n : NamedBook K)
include ha hb

theorem prices_rescale : (n.rescale a b).book.prices = n.book.prices.map (Flt.rescale (b / a)) :=
  align_rescale (div_rescale ha hb) _ _

theorem margPrices_rescale : (n.rescale a b).book.margPrices = n.book.margPrices.map (Flt.rescale (b / a)) := by
  unfold OrderBook.margPrices OrderBook.margTrg OrderBook.margSrc NamedBook.rescale
  dsimp only
  rw [diff_rescale, diff_rescale]
  exact align_rescale (div_rescale ha hb) _ _

theorem dmargPrices_rescale : (n.rescale a b).book.dmargPrices = n.book.dmargPrices.map (Flt.rescale (b / a)) := by
  unfold OrderBook.dmargPrices
  rw [margPrices_rescale ha hb]
  dsimp only
  have : (n.rescale a b).book.reverseBook = n.book.reverseBook := rfl
  rw [this, diff_rescale]
  by_cases h : n.book.reverseBook = true
  · rw [if_pos h, if_pos h, List.map_map, List.map_map]
    exact List.map_congr_left fun x _ => neg_rescale _ x
  · rw [if_neg h, if_neg h]

theorem reverse_rescale (l : List (Flt K)) :
    OrderBook.reverse (l.map (Flt.rescale (b / a))) = (OrderBook.reverse l).map (Flt.rescale (a / b)) := by
  unfold OrderBook.reverse
  rw [List.map_map, List.map_map]
  refine List.map_congr_left fun x _ => ?_
  have h := div_rescale (div_pos hb ha) (one_pos (α := K)) (.num 1) x
  rw [one_rescale] at h
  dsimp only [Function.comp_apply]
  rw [h, one_div_div]

theorem obLiquidity_rescale : (n.rescale a b).book.obLiquidity = n.book.obLiquidity.map (Flt.rescale a) := by
  unfold OrderBook.obLiquidity
  rw [dmargPrices_rescale ha hb]
  have : (n.rescale a b).book.margTrg = n.book.margTrg.map (Flt.rescale b) := diff_rescale b _
  rw [this, midpoints_rescale]
  have h := align_rescale (div_rescale (div_pos hb ha) hb) (Analytics.midpoints n.book.margTrg) n.book.dmargPrices
  have e : b / (b / a) = a := by field_simp
  rw [e] at h
  exact h

omit ha hb in
theorem factor_cases {src trg u : Str} {c : K} (hc : Factor src trg a b u c) :
    u = src ∨ u = trg ∧ c = b ∨ 5 + trg.length ≤ u.length := by
  have h5 : " per ".toList.length = 5 := by decide
  cases hc with
  | src => exact .inl rfl
  | trg => exact .inr (.inl ⟨rfl, rfl⟩)
  | trgPerSrc => exact .inr (.inr (by simp only [List.length_append]; omega))
  | srcPerTrg => exact .inr (.inr (by simp only [List.length_append]; omega))

omit ha hb in
theorem factor_trg {src trg : Str} (h : src ≠ trg) {c : K} (hc : Factor src trg a b trg c) : c = b := by
  rcases factor_cases hc with h' | h' | h'
  · exact absurd h'.symm h
  · exact h'.2
  · omega

end Charts

open Charts

/-- **C176** The amounts and the prices of the charts are in the units that are given with them: if the amounts of the source token are multiplied
by a factor and those of the target token by another, then every series changes as its unit says, and the units stay. This holds for the chart of
amounts, for the chart of effective and marginal prices quoted either way, and for the prices of the order book. -/
theorem C176_units {a b : K} (ha : 0 < a) (hb : 0 < b) (n : NamedBook K) (rev : Bool) :
    let m := n.rescale a b
    InUnit n.srcTkn n.trgTkn a b n.tokenChart.src m.tokenChart.src ∧ InUnit n.srcTkn n.trgTkn a b n.tokenChart.trg m.tokenChart.trg ∧
    InUnit n.srcTkn n.trgTkn a b (n.priceChart rev).size1 (m.priceChart rev).size1 ∧
    InUnit n.srcTkn n.trgTkn a b (n.priceChart rev).price1Eff (m.priceChart rev).price1Eff ∧
    InUnit n.srcTkn n.trgTkn a b (n.priceChart rev).size2 (m.priceChart rev).size2 ∧
    InUnit n.srcTkn n.trgTkn a b (n.priceChart rev).price2Marg (m.priceChart rev).price2Marg ∧
    InUnit n.srcTkn n.trgTkn a b n.bookChart.prices m.bookChart.prices := by
  intro m
  refine ⟨⟨rfl, a, .src, rfl⟩, ⟨rfl, b, .trg, rfl⟩, ⟨rfl, a, .src, rfl⟩, ?_, ⟨rfl, a, .src, midpoints_rescale a _⟩, ?_, ?_⟩
  · cases rev with
    | false => exact ⟨rfl, b / a, .trgPerSrc, prices_rescale ha hb n⟩
    | true =>
      refine ⟨rfl, a / b, .srcPerTrg, ?_⟩
      show OrderBook.reverse (n.rescale a b).book.prices = (OrderBook.reverse n.book.prices).map _
      rw [prices_rescale ha hb n, reverse_rescale ha hb]
  · cases rev with
    | false => exact ⟨rfl, b / a, .trgPerSrc, margPrices_rescale ha hb n⟩
    | true =>
      refine ⟨rfl, a / b, .srcPerTrg, ?_⟩
      show OrderBook.reverse (n.rescale a b).book.margPrices = (OrderBook.reverse n.book.margPrices).map _
      rw [margPrices_rescale ha hb n, reverse_rescale ha hb]
  · refine ⟨rfl, b / a, .trgPerSrc, ?_⟩
    show Analytics.midpoints (n.rescale a b).book.margPrices = (Analytics.midpoints n.book.margPrices).map _
    rw [margPrices_rescale ha hb n, midpoints_rescale]

/-- **C176** fails for the liquidity of the order book: it is given in the target token, but it is an amount of the source token. Multiplying the
amounts of the target token by any factor leaves it as it is; multiplying those of the source token multiplies it. -/
theorem C176_liquidity_violated {a b : K} (ha : 0 < a) (hb : 0 < b) (n : NamedBook K) :
    n.bookChart.liquidity.unit = n.trgTkn ∧ (n.rescale a b).bookChart.liquidity.values = n.bookChart.liquidity.values.map (Flt.rescale a) ∧
    ∀ x, .num x ∈ n.bookChart.liquidity.values → x ≠ 0 → a ≠ b → n.srcTkn ≠ n.trgTkn →
      ¬ InUnit n.srcTkn n.trgTkn a b n.bookChart.liquidity (n.rescale a b).bookChart.liquidity := by
  refine ⟨rfl, obLiquidity_rescale ha hb n, ?_⟩
  rintro x hx h0 hab ht ⟨-, c, hc, he⟩
  have hcb : c = b := factor_trg ht hc
  subst hcb
  have h1 : n.bookChart.liquidity.values.map (Flt.rescale a) = n.bookChart.liquidity.values.map (Flt.rescale c) :=
    (obLiquidity_rescale ha hb n).symm.trans he
  have h2 := (List.map_inj_left.mp h1) _ hx
  simp only [Flt.rescale, Flt.num.injEq] at h2
  exact hab (mul_right_cancel₀ h0 h2)

/-- **C176** The area under the order book, prices against liquidity, is an amount of the target token. -/
theorem C176_area {a b : K} (ha : 0 < a) (hb : 0 < b) (n : NamedBook K) (v : Flt K)
    (h : Analytics.vecdot n.book.dmargPrices n.bookChart.liquidity.values = .ok v) :
    Analytics.vecdot (n.rescale a b).book.dmargPrices (n.rescale a b).bookChart.liquidity.values = .ok (v.rescale b) := by
  have hl : (n.rescale a b).bookChart.liquidity.values = n.bookChart.liquidity.values.map (Flt.rescale a) := obLiquidity_rescale ha hb n
  rw [hl, dmargPrices_rescale ha hb]
  generalize n.book.dmargPrices = d at h ⊢
  generalize n.bookChart.liquidity.values = l at h ⊢
  unfold Analytics.vecdot at h ⊢
  rw [List.length_map, List.length_map]
  split_ifs at h ⊢ with hlen
  have hv := Except.ok.inj h
  rw [← hv]
  have hfill : ∀ (c : K) (x : Flt K), (x.rescale c).fill = x.fill.rescale c := by
    intro c x
    cases x <;> simp [Flt.rescale, Flt.fill]
  have e : b / a * a = b := by field_simp
  have hz : List.zipWith (fun x y : Flt K => x.fill.mul y.fill) (d.map (Flt.rescale (b / a))) (l.map (Flt.rescale a)) =
      (List.zipWith (fun x y : Flt K => x.fill.mul y.fill) d l).map (Flt.rescale b) := by
    rw [List.zipWith_map, List.map_zipWith]
    simp only [hfill, mul_rescale (div_pos hb ha) ha, e]
  rw [hz, List.foldl_map]
  have hf : ∀ (s : List (Flt K)) (x : Flt K), s.foldl (fun x y => x.add (y.rescale b)) (x.rescale b) = (s.foldl Flt.add x).rescale b := by
    intro s
    induction s with
    | nil => intro x; rfl
    | cons y s ih =>
      intro x
      rw [List.foldl_cons, List.foldl_cons, add_rescale, ih]
  have h0 : (Flt.num 0 : Flt K) = (Flt.num 0).rescale b := by simp [Flt.rescale]
  rw [h0, hf, ← h0]

theorem Charts.align_length (f : Flt K → Flt K → Flt K) : ∀ {xs ys : List (Flt K)}, xs.length = ys.length →
    (Analytics.align f xs ys).length = xs.length
  | [], [], _ => rfl
  | x :: xs, y :: ys, h => by
    simp only [Analytics.align, List.length_cons]
    rw [Charts.align_length f (by simpa using h)]

/-- **C176** What is drawn against each other has the same number of points: the amounts and the effective prices, the midpoints and the marginal
prices with one point less, and the prices and the liquidity of the order book with two points less. -/
theorem C176_points (n : NamedBook K) (h : n.book.src.length = n.book.trg.length) (rev : Bool) :
    (n.priceChart rev).price1Eff.values.length = n.book.src.length ∧ (n.priceChart rev).size1.values.length = n.book.src.length ∧
    (n.priceChart rev).price2Marg.values.length = n.book.src.length - 1 ∧ (n.priceChart rev).size2.values.length = n.book.src.length - 1 ∧
    n.bookChart.prices.values.length = n.book.src.length - 2 ∧ n.bookChart.liquidity.values.length = n.book.src.length - 2 := by
  have h1 : n.book.prices.length = n.book.src.length := by
    unfold OrderBook.prices
    rw [align_length _ h.symm, h]
  have hd : ∀ l : List (Flt K), (Analytics.diff l).length = l.length - 1 := by
    intro l
    unfold Analytics.diff
    rw [List.length_zipWith, List.length_tail]
    omega
  have hm : ∀ l : List (Flt K), (Analytics.midpoints l).length = l.length - 1 := by
    intro l
    unfold Analytics.midpoints
    rw [List.length_zipWith, List.length_tail]
    omega
  have h2 : n.book.margPrices.length = n.book.src.length - 1 := by
    unfold OrderBook.margPrices OrderBook.margTrg OrderBook.margSrc
    rw [align_length _ (by rw [hd, hd, h]), hd, h]
  have h3 : n.book.dmargPrices.length = n.book.src.length - 2 := by
    unfold OrderBook.dmargPrices
    dsimp only
    split_ifs
    · rw [List.length_map, hd, h2]; omega
    · rw [hd, h2]; omega
  refine ⟨?_, rfl, ?_, hm _, ?_, ?_⟩
  · cases rev with
    | false => exact h1
    | true => exact (List.length_map _).trans h1
  · cases rev with
    | false => exact h2
    | true => exact (List.length_map _).trans h2
  · exact (hm _).trans (by rw [h2]; omega)
  · show n.book.obLiquidity.length = _
    unfold OrderBook.obLiquidity
    rw [align_length _ (by rw [hm, h3]; unfold OrderBook.margTrg; rw [hd]; omega), hm]
    unfold OrderBook.margTrg
    rw [hd]
    omega

/-- **C176** A data frame of a chart has the columns in their order and under their names; each column starts with its series, the rest is NaN, and
all columns are of one length, that of a longest series. -/
theorem C176_frame (cols : List (Str × List (Flt K))) :
    (Quoted.frame cols).map Prod.fst = cols.map Prod.fst ∧
    ∃ len, (∀ c ∈ cols, c.2.length ≤ len) ∧ (cols ≠ [] → ∃ c ∈ cols, c.2.length = len) ∧
      List.Forall₂ (fun c d => d.2.length = len ∧ d.2.take c.2.length = c.2 ∧ ∀ x ∈ d.2.drop c.2.length, x = .nan) cols (Quoted.frame cols) := by
  have hle : ∀ (l : List (Str × List (Flt K))), ∀ c ∈ l, c.2.length ≤ (l.map fun c => c.2.length).foldr max 0 := by
    intro l
    induction l with
    | nil => intro c hc; exact absurd hc (by simp)
    | cons d l ih =>
      intro c hc
      rw [List.map_cons, List.foldr_cons]
      rcases List.mem_cons.mp hc with rfl | hc
      · exact le_max_left _ _
      · exact (ih c hc).trans (le_max_right _ _)
  have hex : ∀ (l : List (Str × List (Flt K))), l ≠ [] → ∃ c ∈ l, c.2.length = (l.map fun c => c.2.length).foldr max 0 := by
    intro l
    induction l with
    | nil => intro h; exact absurd rfl h
    | cons d l ih =>
      intro _
      rw [List.map_cons, List.foldr_cons]
      by_cases hl : l = []
      · subst hl
        exact ⟨d, by simp, by simp⟩
      · obtain ⟨c, hc, he⟩ := ih hl
        rcases le_total d.2.length ((l.map fun c => c.2.length).foldr max 0) with h | h
        · exact ⟨c, List.mem_cons_of_mem _ hc, by rw [he, max_eq_right h]⟩
        · exact ⟨d, List.mem_cons_self, by rw [max_eq_left h]⟩
  constructor
  · unfold Quoted.frame
    dsimp only
    rw [List.map_map]
    rfl
  · refine ⟨(cols.map fun c => c.2.length).foldr max 0, hle cols, hex cols, ?_⟩
    unfold Quoted.frame
    dsimp only
    rw [List.forall₂_map_right_iff, List.forall₂_same]
    intro c hc
    have := hle cols c hc
    refine ⟨?_, ?_, ?_⟩
    · rw [List.length_append, List.length_replicate]; omega
    · rw [List.take_left]
    · intro x hx
      rw [List.drop_left] at hx
      exact List.eq_of_mem_replicate hx

/-- **C176** As tables, the charts have one row per point and no gaps, except that the marginal prices and their sizes, one fewer than the trades, end with
a missing value. The columns are headed by name and unit, and prices stand under prices. -/
theorem C176_tables (n : NamedBook K) (h : n.book.src.length = n.book.trg.length) (rev : Bool) :
    n.tokenFrame = [("src_amt [".toList ++ n.srcTkn ++ "]".toList, n.book.src), ("trg_amt [".toList ++ n.trgTkn ++ "]".toList, n.book.trg)] ∧
    n.bookFrame = [("Price [".toList ++ n.trgTkn ++ " per ".toList ++ n.srcTkn ++ "]".toList, n.book.obPrices),
      ("Liquidity [".toList ++ n.trgTkn ++ "]".toList, n.book.obLiquidity)] ∧
    (n.book.src ≠ [] → ∃ u, u = (if rev then n.srcTkn ++ " per ".toList ++ n.trgTkn else n.trgTkn ++ " per ".toList ++ n.srcTkn) ∧
      n.priceFrame rev = [("size1 [".toList ++ n.srcTkn ++ "]".toList, n.book.src), ("price1_eff [".toList ++ u ++ "]".toList, n.book.pricesr rev),
        ("size2 [".toList ++ n.srcTkn ++ "]".toList, Analytics.midpoints n.book.src ++ [.nan]),
        ("price2_marg [".toList ++ u ++ "]".toList, n.book.margPricesr rev ++ [.nan])]) := by
  obtain ⟨p1, p2, p3, p4, p5, p6⟩ := C176_points n h rev
  simp only [NamedBook.priceChart, NamedBook.bookChart] at p1 p2 p3 p4 p5 p6
  refine ⟨?_, ?_, fun hne => ⟨n.pricesrU rev, ?_, ?_⟩⟩
  · simp [NamedBook.tokenFrame, Quoted.frame, Quoted.column, NamedBook.tokenChart, h]
  · simp [NamedBook.bookFrame, Quoted.frame, Quoted.column, NamedBook.bookChart, p5, p6, NamedBook.pricesU, NamedBook.obLiquidityU, perUnit]
  · cases rev <;> rfl
  · have hl : 0 < n.book.src.length := List.length_pos_iff.mpr hne
    have e : n.book.src.length - (n.book.src.length - 1) = 1 := by omega
    simp [NamedBook.priceFrame, Quoted.frame, Quoted.column, NamedBook.priceChart, p1, p3, p4, e]

/-- **C176** The side stated with a chart is that of the book: the AMM sells the source token in an ask book and buys it in a bid book. -/
theorem C176_side (s : List (Flt K)) (t : List (Option (Flt K))) (side : Analytics.BookSide) (b : OrderBook K) (h : OrderBook.make s t side = .ok b)
    (src trg : Str) (rev : Bool) : (((⟨b, src, trg⟩ : NamedBook K).priceChart rev).ammBuysellSrc = "sells".toList ↔ side = .ask) ∧
    (((⟨b, src, trg⟩ : NamedBook K).priceChart rev).ammBuysellSrc = "buys".toList ↔ side = .bid) := by
  cases side with
  | ask => cases h; exact ⟨⟨fun _ => rfl, fun _ => rfl⟩, ⟨fun e => absurd e (show "sells".toList ≠ "buys".toList by decide), fun e => by cases e⟩⟩
  | bid => cases h; exact ⟨⟨fun e => absurd e (show "buys".toList ≠ "sells".toList by decide), fun e => by cases e⟩, ⟨fun _ => rfl, fun _ => rfl⟩⟩
  | other => cases h

/-! ## Examples -/

namespace Charts

/-- Amounts 1, 2, 4, 8 of ETH for 10, 24, 60, 160 of USDC, with a rising price. -/
def some4 : NamedBook ℚ :=
  ⟨⟨[.num 1, .num 2, .num 4, .num 8], [.num 10, .num 24, .num 60, .num 160], false⟩, "ETH".toList, "USDC".toList⟩

example := C176_units (a := (1000 : ℚ)) (b := 1 / 100) (by norm_num) (by norm_num) some4 true

example : some4.bookChart.liquidity.values = [.num (25 / 4), .num (68 / 7)] := by decide +kernel

example : ¬ InUnit some4.srcTkn some4.trgTkn (1 : ℚ) 100 some4.bookChart.liquidity (some4.rescale 1 100).bookChart.liquidity :=
  (C176_liquidity_violated (by norm_num) (by norm_num) some4).2.2 (25 / 4) (by decide +kernel) (by norm_num) (by norm_num) (by decide)

example := C176_area (a := (1 : ℚ)) (b := 100) (by norm_num) (by norm_num) some4 (.num (25 / 4 * 4 + 68 / 7 * 7)) (by decide +kernel)

example := C176_points some4 rfl true

example := C176_tables some4 rfl true

example := C176_side [.num 1, .num 2] [some (.num 10), some (.num (24 : ℚ))] .bid _ rfl "ETH".toList "USDC".toList false

example : some4.tokenFrame.map Prod.fst = ["src_amt [ETH]".toList, "trg_amt [USDC]".toList] := by decide +kernel

example : some4.bookFrame = [("Price [USDC per ETH]".toList, [.num 16, .num (43 / 2)]),
    ("Liquidity [USDC]".toList, [.num (25 / 4), .num (68 / 7)])] := by decide +kernel

example : (some4.priceFrame true).map (fun c => c.2.length) = [4, 4, 4, 4] := by decide +kernel

end Charts

end Carbon
