import Verif.Carbon.SellDepth
import Verif.Prop.CurveBook

/-!
# C169: the amounts for sale per tick

Records are accepted by `importOrders` if each falls from its start price to a lower end price. Their amounts are distributed over a grid of prices.

* `C169_grid`: the grid of ticks starts at the lowest price, is spaced by the tick size and ends above the highest price by at most a tick and one.
* `C169_ticks`: each tick has the amount that the orders sell between its two prices, and the ticks together have the whole of the orders.
* `C169_buckets`: so have two or more buckets between the lowest and the highest price.
* `C169_one_bucket_violated`: a single bucket has nothing, whatever the orders hold.
* `C169_negative_tick_violated`: a negative tick size is not refused: a table with nothing is returned if it is no smaller than the prices are wide.
-/

namespace Carbon.SellDepth

open UICurve

/-- The price, moved into the range of the order. -/
noncomputable def clampTo (r : Rec) (p : ℝ) : ℝ := max (r.pb : ℝ) (min (r.pa : ℝ) p)

/-- What a full order sells while the price falls from `hi` to `lo`: the amount is spread evenly over the roots of its prices. -/
noncomputable def sold (r : Rec) (lo hi : ℝ) : ℝ :=
  r.amt * ((√(clampTo r hi) - √(clampTo r lo)) / (√(r.pa : ℝ) - √(r.pb : ℝ)))

theorem import_spec {rs : List Rec} {minp maxp : Int} (h : importOrders rs = .ok (minp, maxp)) :
    (∀ r ∈ rs, r.pb < r.pa ∧ r.pm = r.pa ∧ minp ≤ r.pb ∧ r.pa ≤ maxp) ∧ (∃ r ∈ rs, r.pb = minp) ∧ ∃ r ∈ rs, r.pa = maxp := by
  unfold importOrders at h
  split at h
  · rename_i a b ha hb
    split at h
    · cases h
    · rename_i h1
      split at h
      · cases h
      · rename_i h2
        simp only [Except.ok.injEq, Prod.mk.injEq] at h
        obtain ⟨rfl, rfl⟩ := h
        simp only [List.any_eq_true, decide_eq_true_eq, not_exists, not_and, not_le, ne_eq, not_not] at h1 h2
        rw [List.min?_eq_some_iff] at ha
        rw [List.max?_eq_some_iff] at hb
        simp only [List.mem_map] at ha hb
        refine ⟨fun r hr => ?_, ?_, ?_⟩
        · have e1 := ha.2 _ ⟨r, hr, rfl⟩
          have e2 := hb.2 _ ⟨r, hr, rfl⟩
          have e3 := h1 r hr
          have e4 := h2 r hr
          omega
        · obtain ⟨r, hr, e⟩ := ha.1
          have := h1 r hr
          exact ⟨r, hr, by omega⟩
        · obtain ⟨r, hr, e⟩ := hb.1
          have := h1 r hr
          exact ⟨r, hr, by omega⟩
  · cases h

/-- Orders of positive prices and amounts. -/
def Good (rs : List Rec) : Prop := ∀ r ∈ rs, 0 < r.pb ∧ 0 < r.amt

section One

variable {pair : CarbonPair} {r : Rec}

theorem root_lt (hb : 0 < r.pb) (h : r.pb < r.pa) : √(r.pb : ℝ) < √(r.pa : ℝ) :=
  Real.sqrt_lt_sqrt (by exact_mod_cast hb.le) (by exact_mod_cast h)

theorem curveOf_sound (hb : 0 < r.pb) (hamt : 0 < r.amt) (h : r.pb < r.pa) :
    Sound (curveOf pair r) ∧ 0 < (curveOf pair r).S ∧ (curveOf pair r).pair.hasQuote (curveOf pair r).tkn = true := by
  have := root_lt hb h
  have hz : (0 : ℝ) < r.amt := by exact_mod_cast hamt
  have hb' : (0 : ℝ) < r.pb := by exact_mod_cast hb
  refine ⟨⟨Real.sqrt_pos.mpr hb', ?_, hz, hz.le, le_refl _⟩, ?_, ?_⟩
  · simp only [curveOf]; linarith
  · simp only [curveOf]; linarith
  · simp [curveOf, CarbonPair.hasQuote]

theorem mAt_curveOf (hb : 0 < r.pb) (hamt : 0 < r.amt) (h : r.pb < r.pa) (p : ℝ) : mAt (curveOf pair r) p = √(clampTo r p) := by
  have hz : (0 : ℝ) < r.amt := by exact_mod_cast hamt
  have e0 : m0 (curveOf pair r) = √(r.pa : ℝ) := by
    simp only [m0, curveOf]; field_simp; ring
  have hlt := root_lt hb h
  have hm : Monotone Real.sqrt := fun _ _ => Real.sqrt_le_sqrt
  unfold mAt clampTo
  rw [e0, hm.map_max, hm.map_min]
  simp only [curveOf]
  rw [min_max_distrib_left, min_eq_right hlt.le]

theorem release_diff (hb : 0 < r.pb) (hamt : 0 < r.amt) (h : r.pb < r.pa) (lo hi : ℝ) :
    release (curveOf pair r) lo - release (curveOf pair r) hi = sold r lo hi := by
  unfold release sold
  rw [mAt_curveOf hb hamt h, mAt_curveOf hb hamt h]
  simp only [curveOf]
  ring

theorem sold_nonneg (hb : 0 < r.pb) (hamt : 0 < r.amt) (h : r.pb < r.pa) {lo hi : ℝ} (hl : lo ≤ hi) : 0 ≤ sold r lo hi := by
  have hz : (0 : ℝ) < r.amt := by exact_mod_cast hamt
  have := root_lt hb h
  have h2 : √(clampTo r lo) ≤ √(clampTo r hi) := Real.sqrt_le_sqrt (max_le_max le_rfl (min_le_min le_rfl hl))
  exact mul_nonneg hz.le (div_nonneg (by linarith) (by linarith))

theorem sold_all (hb : 0 < r.pb) (h : r.pb < r.pa) {lo hi : ℝ} (hl : lo ≤ r.pb) (hh : r.pa ≤ hi) : sold r lo hi = r.amt := by
  have hlt := root_lt hb h
  have h' : (r.pb : ℝ) < r.pa := by exact_mod_cast h
  unfold sold clampTo
  rw [min_eq_left hh, max_eq_right h'.le, min_eq_right (hl.trans h'.le), max_eq_left hl, div_self (by linarith), mul_one]

end One

theorem side_of {pair : CarbonPair} {rs : List Rec} {minp maxp : Int} (hi : importOrders rs = .ok (minp, maxp)) (hg : Good rs) :
    Side true (rs.map (curveOf pair)) := by
  intro c hc
  obtain ⟨r, hr, rfl⟩ := List.mem_map.mp hc
  exact curveOf_sound (hg r hr).1 (hg r hr).2 ((import_spec hi).1 r hr).1

theorem mapM_map {α β : Type} (f : α → Py β) (g : α → β) (l : List α) (h : ∀ a ∈ l, f a = .ok (g a)) : l.mapM f = .ok (l.map g) := by
  induction l with
  | nil => rfl
  | cons a l ih =>
    rw [List.mapM_cons, h a (by simp), ih fun b hb => h b (by simp [hb])]
    rfl

theorem depth_ok {cs : List (UICurve ℝ)} (hs : Side true cs) {prices : List ℝ} (hp : ∀ p ∈ prices, 0 < p) :
    ∃ dx, depth cs prices = .ok ⟨prices, prices.map fun p => (cs.map fun c => release c p).sum, dx⟩ := by
  unfold depth
  rw [mapM_map _ (fun p => (cs.map fun c => release c p).sum) prices fun p h => by rw [bookDy_eq hs (hp p h)]; rfl]
  rw [mapM_map (bookDx cs) (fun p => (cs.map fun c => cost c p).sum) prices fun p h => by rw [bookDx_eq hs (hp p h)]; rfl]
  exact ⟨_, rfl⟩

/-- The table for a grid of prices. -/
theorem decumulate_grid (g F : ℕ → ℝ) (dx : List ℝ) (n : ℕ) :
    decumulate ⟨(List.range (n + 1)).map g, (List.range (n + 1)).map F, dx⟩ =
      .ok ((List.range n).map (fun i => (⟨g (i + 1), g i, F i - F (i + 1)⟩ : Tick)) ++ [⟨g n, g n, 0⟩]) := by
  unfold decumulate
  split
  · rename_i h; simp at h
  · congr 1
    apply List.ext_getElem
    · simp
    · intro i h1 h2
      simp only [List.length_append, List.length_map, List.length_range, List.length_cons, List.length_nil] at h2
      rcases Nat.lt_or_ge i n with h | h
      · simp [h, List.getElem_zipWith]
      · obtain rfl : i = n := by omega
        simp [List.getElem_zipWith, List.getLast?_eq_getElem?]

theorem telescope (F : ℕ → ℝ) (n : ℕ) : ((List.range n).map fun i => F i - F (i + 1)).sum = F 0 - F n := by
  induction n with
  | zero => simp
  | succ n ih => rw [List.range_succ, List.map_append, List.sum_append, ih]; simp

/-- The table shows a distribution over the prices `a`, `a + h`, ..., `a + n * h`. -/
structure Shows (rs : List Rec) (a h : ℝ) (n : ℕ) (ts : List Tick) : Prop where
  rows : ts.length = n + 1
  tick : ∀ i t, ts[i]? = some t → i < n → t.stop = a + i * h ∧ t.start = a + (i + 1) * h ∧
    t.liquidity = (rs.map fun r => sold r t.stop t.start).sum ∧ 0 ≤ t.liquidity
  last : ts[n]? = some ⟨a + n * h, a + n * h, 0⟩
  whole : (ts.map Tick.liquidity).sum = (rs.map fun r => (r.amt : ℝ)).sum

theorem shows_grid (pair : CarbonPair) {rs : List Rec} {minp maxp : Int} (hi : importOrders rs = .ok (minp, maxp)) (hg : Good rs) {h : ℝ} (hh : 0 < h) (n : ℕ)
    (htop : (maxp : ℝ) ≤ minp + n * h) :
    ∃ d ts, depth (rs.map (curveOf pair)) ((List.range (n + 1)).map fun i : ℕ => (minp : ℝ) + i * h) = .ok d ∧ decumulate d = .ok ts ∧
      Shows rs minp h n ts := by
  obtain ⟨hall, ⟨r0, hr0, e0⟩, -⟩ := import_spec hi
  have hmin : (0 : ℝ) < minp := by
    have := (hg r0 hr0).1; rw [e0] at this; exact_mod_cast this
  obtain ⟨dx, hd⟩ := depth_ok (side_of (pair := pair) hi hg) (prices := (List.range (n + 1)).map fun i : ℕ => (minp : ℝ) + i * h) (by
    intro p hp
    obtain ⟨i, -, rfl⟩ := List.mem_map.mp hp
    positivity)
  have hdiff : ∀ lo hi' : ℝ, ((rs.map (curveOf pair)).map fun c => release c lo).sum - ((rs.map (curveOf pair)).map fun c => release c hi').sum
      = (rs.map fun r => sold r lo hi').sum := by
    intro lo hi'
    rw [← sum_sub, List.map_map]
    congr 1
    exact List.map_congr_left fun r hr => release_diff (hg r hr).1 (hg r hr).2 (hall r hr).1 lo hi'
  rw [List.map_map] at hd
  refine ⟨_, _, hd, decumulate_grid _ _ dx n, ?_, ?_, ?_, ?_⟩
  · simp
  · intro i t ht hin
    rw [List.getElem?_append_left (by simpa using hin), List.getElem?_map, List.getElem?_range hin] at ht
    simp only [Option.map_some, Option.some.injEq] at ht
    subst ht
    simp only [Function.comp_apply, Nat.cast_add, Nat.cast_one]
    refine ⟨trivial, trivial, hdiff _ _, ?_⟩
    rw [hdiff]
    apply List.sum_nonneg
    intro x hx
    obtain ⟨r, hr, rfl⟩ := List.mem_map.mp hx
    exact sold_nonneg (hg r hr).1 (hg r hr).2 (hall r hr).1 (by nlinarith)
  · rw [List.getElem?_append_right (by simp)]
    simp
  · rw [List.map_append, List.sum_append, List.map_map]
    have := telescope (fun i : ℕ => ((rs.map (curveOf pair)).map fun c => release c ((minp : ℝ) + i * h)).sum) n
    simp only [Function.comp_def] at this ⊢
    rw [this]
    simp only [List.map_cons, List.map_nil, List.sum_cons, List.sum_nil, add_zero]
    rw [hdiff]
    congr 1
    refine List.map_congr_left fun r hr => sold_all (hg r hr).1 (hall r hr).1 ?_ ?_
    · have := (hall r hr).2.2.1
      simp only [Nat.cast_zero, zero_mul, add_zero]
      exact_mod_cast this
    · have : (r.pa : ℝ) ≤ maxp := by exact_mod_cast (hall r hr).2.2.2
      linarith

/-- The grid of ticks. -/
theorem C169_grid {minp maxp tick : Int} (ht : 0 < tick) (hm : minp ≤ maxp) :
    ∃ n : ℕ, 1 ≤ n ∧ calcNewBuckets maxp minp tick = .ok (minp + n * tick, n + 1) ∧ maxp < minp + n * tick ∧ minp + n * tick ≤ maxp + tick + 1 ∧
      linspace (minp : ℝ) ((minp + n * tick : Int) : ℝ) (n + 1) = .ok ((List.range (n + 1)).map fun i : ℕ => (minp : ℝ) + i * (tick : ℝ)) := by
  have hq : 0 ≤ (maxp - minp + 1) / tick := Int.ediv_nonneg (by omega) ht.le
  have hd := Int.mul_ediv_add_emod (maxp - minp + 1) tick
  have h0 := Int.emod_nonneg (maxp - minp + 1) ht.ne'
  have h1 := Int.emod_lt_of_pos (maxp - minp + 1) ht
  have hf : (maxp - minp + 1).fmod tick = (maxp - minp + 1) % tick := Int.fmod_eq_emod_of_nonneg _ ht.le
  obtain ⟨q, hqe⟩ := Int.eq_ofNat_of_zero_le hq
  rw [hqe] at hd
  have hmul : tick * (q : Int) = q * tick := mul_comm _ _
  refine ⟨q + 1, by omega, ?_, ?_, ?_, ?_⟩
  · unfold calcNewBuckets
    rw [if_neg ht.ne', hf]
    dsimp only
    have e1 : maxp + (tick - (maxp - minp + 1) % tick + 1) = minp + ((q + 1 : ℕ) : Int) * tick := by push_cast; linarith
    rw [e1]
    have e2 : minp + ((q + 1 : ℕ) : Int) * tick - minp + tick = (((q + 1 : ℕ) : Int) + 1) * tick := by ring
    rw [e2, Int.mul_tdiv_cancel _ ht.ne']
  · push_cast; linarith
  · push_cast; linarith
  · unfold linspace
    rw [if_neg (by omega)]
    have : ((q + 1 : ℕ) : Int) + 1 = ((q + 1 + 1 : ℕ) : Int) := by push_cast; ring
    rw [this, Int.toNat_natCast]
    congr 1
    refine List.map_congr_left fun i _ => ?_
    push_cast
    have : (q : ℝ) + 1 ≠ 0 := by positivity
    field_simp
    ring

/-- The table by ticks. -/
theorem C169_ticks (pair : CarbonPair) {rs : List Rec} {minp maxp tick : Int} (hi : importOrders rs = .ok (minp, maxp)) (hg : Good rs) (ht : 0 < tick) :
    ∃ d ts n, byTick (rs.map (curveOf pair)) minp maxp tick = .ok d ∧ decumulate d = .ok ts ∧ Shows rs minp tick n ts ∧
      maxp < minp + n * tick ∧ minp + n * tick ≤ maxp + tick + 1 := by
  obtain ⟨hall, ⟨r0, hr0, e0⟩, -⟩ := import_spec hi
  have hm : minp ≤ maxp := by have := hall r0 hr0; omega
  obtain ⟨n, -, h1, h2, h3, h4⟩ := C169_grid ht hm
  obtain ⟨d, ts, hd, hts, hs⟩ := shows_grid pair hi hg (h := (tick : ℝ)) (by exact_mod_cast ht) n (by exact_mod_cast h2.le)
  refine ⟨d, ts, n, ?_, hts, hs, h2, h3⟩
  unfold byTick
  rw [h1, Py.ok_bind]
  dsimp only
  rw [h4, Py.ok_bind, hd]

/-- The table by buckets. -/
theorem C169_buckets (pair : CarbonPair) {rs : List Rec} {minp maxp : Int} (hi : importOrders rs = .ok (minp, maxp)) (hg : Good rs) (n : ℕ) (hn : 1 ≤ n) :
    ∃ d ts, byBuckets (rs.map (curveOf pair)) minp maxp (n + 1) = .ok d ∧ decumulate d = .ok ts ∧ Shows rs minp (((maxp : ℝ) - minp) / n) n ts := by
  obtain ⟨hall, ⟨r0, hr0, e0⟩, -⟩ := import_spec hi
  have hm : minp < maxp := by have := hall r0 hr0; omega
  have hm' : (minp : ℝ) < maxp := by exact_mod_cast hm
  have hn' : (0 : ℝ) < n := by exact_mod_cast hn
  obtain ⟨d, ts, hd, hts, hs⟩ := shows_grid pair hi hg (h := ((maxp : ℝ) - minp) / n) (div_pos (by linarith) hn') n (by
    rw [mul_div_cancel₀ _ hn'.ne']; linarith)
  refine ⟨d, ts, ?_, hts, hs⟩
  unfold byBuckets linspace
  rw [if_neg (by omega)]
  have e : ((n : Int) + 1).toNat = n + 1 := by omega
  rw [e, Py.ok_bind]
  push_cast
  rw [add_sub_cancel_right]
  exact hd

/-- C169: a tick size of zero, a negative number of buckets and a table without prices are refused. -/
theorem C169_refused (orders : List (UICurve ℝ)) (minp maxp : Int) : byTick orders minp maxp 0 = .error .zeroDiv ∧
    (∀ buckets < 0, byBuckets orders minp maxp buckets = .error .value) ∧
    ∃ d, byBuckets orders minp maxp 0 = .ok d ∧ decumulate d = .error .key := by
  refine ⟨rfl, fun b hb => ?_, ⟨⟨[], [], []⟩, rfl, rfl⟩⟩
  unfold byBuckets linspace
  rw [if_pos hb]
  rfl

/-- One price only: the table has one row with nothing. -/
theorem one_price (pair : CarbonPair) {rs : List Rec} {minp maxp : Int} (hi : importOrders rs = .ok (minp, maxp)) (hg : Good rs) (stop : ℝ) :
    ∃ d, (linspace minp stop 1 >>= fun prices => depth (rs.map (curveOf pair)) prices) = .ok d ∧ decumulate d = .ok [⟨minp, minp, 0⟩] := by
  obtain ⟨-, ⟨r0, hr0, e0⟩, -⟩ := import_spec hi
  have hmin : (0 : ℝ) < minp := by
    have := (hg r0 hr0).1; rw [e0] at this; exact_mod_cast this
  obtain ⟨dx, hd⟩ := depth_ok (side_of (pair := pair) hi hg) (prices := [(minp : ℝ)]) (by simpa using hmin)
  refine ⟨⟨[(minp : ℝ)], [(minp : ℝ)].map fun p => ((rs.map (curveOf pair)).map fun c => release c p).sum, dx⟩, ?_, ?_⟩
  · rw [← hd]
    simp [linspace, Py.ok_bind]
  · simp [decumulate]

/-- A single bucket has nothing, though the orders hold something. -/
theorem C169_one_bucket_violated (pair : CarbonPair) {rs : List Rec} {minp maxp : Int} (hi : importOrders rs = .ok (minp, maxp)) (hg : Good rs) :
    (∃ d, byBuckets (rs.map (curveOf pair)) minp maxp 1 = .ok d ∧ decumulate d = .ok [⟨minp, minp, 0⟩]) ∧
    0 < (rs.map fun r => (r.amt : ℝ)).sum := by
  refine ⟨one_price pair hi hg _, ?_⟩
  obtain ⟨-, ⟨r0, hr0, -⟩, -⟩ := import_spec hi
  refine List.sum_pos _ (fun x hx => ?_) (by rintro e; simp at e; subst e; simp at hr0)
  obtain ⟨r, hr, rfl⟩ := List.mem_map.mp hx
  exact_mod_cast (hg r hr).2

/-- A negative tick size no smaller than the prices are wide is accepted, and the table has nothing. -/
theorem C169_negative_tick_violated (pair : CarbonPair) {rs : List Rec} {minp maxp tick : Int} (hi : importOrders rs = .ok (minp, maxp)) (hg : Good rs)
    (ht : maxp - minp + 1 ≤ -tick) :
    ∃ d, byTick (rs.map (curveOf pair)) minp maxp tick = .ok d ∧ decumulate d = .ok [⟨minp, minp, 0⟩] := by
  obtain ⟨hall, ⟨r0, hr0, e0⟩, -⟩ := import_spec hi
  have hm : minp < maxp := by have := hall r0 hr0; omega
  have hneg : tick < 0 := by omega
  have hq : (maxp - minp + 1).fdiv tick = -1 := by
    rw [← Int.neg_fdiv_neg, Int.fdiv_eq_ediv_of_nonneg _ (by omega)]
    rw [Int.ediv_eq_iff_of_pos (by omega)]
    omega
  have hmod := Int.mul_fdiv_add_fmod (maxp - minp + 1) tick
  rw [hq] at hmod
  have hc : calcNewBuckets maxp minp tick = .ok (minp, 1) := by
    unfold calcNewBuckets
    rw [if_neg hneg.ne]
    dsimp only
    have e : maxp + (tick - (maxp - minp + 1).fmod tick + 1) = minp := by omega
    rw [e, sub_self, zero_add, Int.tdiv_self hneg.ne]
  unfold byTick
  rw [hc, Py.ok_bind]
  exact one_price pair hi hg _

/-- Two orders with overlapping prices. -/
def twoRecs : List Rec := [⟨9, 4, 9, 10⟩, ⟨16, 4, 16, 20⟩]

theorem twoRecs_ok : importOrders twoRecs = .ok (4, 16) ∧ Good twoRecs := by
  refine ⟨by decide, fun r hr => ?_⟩
  simp [twoRecs] at hr
  rcases hr with rfl | rfl <;> decide

/-- The hypotheses are met, and the tick from 9 to 4 of a grid of 5 has the first order whole and half of the second. -/
example : importOrders twoRecs = .ok (4, 16) ∧ Good twoRecs ∧ (twoRecs.map fun r => sold r 4 9).sum = 20 := by
  refine ⟨twoRecs_ok.1, twoRecs_ok.2, ?_⟩
  have s4 : √(4 : ℝ) = 2 := by rw [show (4 : ℝ) = 2 ^ 2 by norm_num]; exact Real.sqrt_sq (by norm_num)
  have s9 : √(9 : ℝ) = 3 := by rw [show (9 : ℝ) = 3 ^ 2 by norm_num]; exact Real.sqrt_sq (by norm_num)
  have s16 : √(16 : ℝ) = 4 := by rw [show (16 : ℝ) = 4 ^ 2 by norm_num]; exact Real.sqrt_sq (by norm_num)
  norm_num [twoRecs, sold, clampTo, s4, s9, s16]

end Carbon.SellDepth
