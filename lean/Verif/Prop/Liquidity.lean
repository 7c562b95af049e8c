import Mathlib.Algebra.BigOperators.Intervals
import Verif.Carbon.Analytics
import Verif.Prop.OrderUIPrice

/-!
# Properties of approximate order books (C103)

`calc_liquidity_approx` over a grid of prices `q 0 < q 1 < … < q n`.
-/

namespace Carbon.Analytics
open UICurve

theorem mapM_of {α β : Type} {f : α → Py β} {g : α → β} (l : List α) (h : ∀ a ∈ l, f a = .ok (g a)) :
    l.mapM f = .ok (l.map g) := by
  induction l with
  | nil => rfl
  | cons a l ih =>
    rw [List.mapM_cons, h a List.mem_cons_self, Py.ok_bind, ih fun b hb => h b (List.mem_cons_of_mem _ hb)]
    rfl

/-- A curve of the pair as the simulator reports it: it sells one of the tokens and has a range of positive prices. -/
structure Listed (p : CarbonPair) (c : UICurve ℝ) : Prop where
  pair : c.pair = p
  tkn : c.tkn = p.tknb ∨ c.tkn = p.tknq
  pos : c.disabled = false → 0 < c.pmin
  y : 0 ≤ c.y

/-- The grid covers the range of the curve. -/
structure Covered (q : ℕ → ℝ) (n : ℕ) (c : UICurve ℝ) : Prop where
  lo : q 0 ≤ c.pmin
  hi : c.pmax ≤ q n
  point : c.pmin = c.pmax → c.pmax < q n

theorem pmin_le (c : UICurve ℝ) : c.pmin ≤ c.pmax := by
  unfold pmin pmax
  split_ifs <;> linarith

theorem perc_nonneg (c : UICurve ℝ) {a b : ℝ} (h : a ≤ b) : 0 ≤ c.liquidityPerc a b := by
  by_cases hd : c.disabled = true
  · simp [liquidityPerc, hd]
  · rw [Bool.not_eq_true] at hd
    rcases (pmin_le c).lt_or_eq with hr | hr
    · exact (C63_share c hd hr a b b h le_rfl).1
    · unfold liquidityPerc
      simp only [hd, Bool.false_eq_true, if_false, hr, if_true]
      split_ifs <;> norm_num

/-- The shares of the windows add up to the whole. -/
theorem perc_sum {c : UICurve ℝ} (hd : c.disabled = false) {q : ℕ → ℝ} {n : ℕ} (hq : ∀ i < n, q i < q (i + 1))
    (hc : Covered q n c) : ∑ i ∈ Finset.range n, c.liquidityPerc (q i) (q (i + 1)) = 1 := by
  rcases (pmin_le c).lt_or_eq with hr | hr
  · have e : ∀ i ∈ Finset.range n, c.liquidityPerc (q i) (q (i + 1)) =
        max c.pmin (min (q (i + 1)) c.pmax) / (c.pmax - c.pmin) - max c.pmin (min (q i) c.pmax) / (c.pmax - c.pmin) := by
      intro i hi
      rw [perc_eq hd hr (hq i (Finset.mem_range.mp hi)).le, sub_div]
    rw [Finset.sum_congr rfl e, Finset.sum_range_sub (fun i => max c.pmin (min (q i) c.pmax) / (c.pmax - c.pmin)),
      min_eq_right hc.hi, max_eq_right hr.le, max_eq_left (le_trans (min_le_left _ _) hc.lo), ← sub_div,
      div_self (sub_pos.mpr hr).ne']
  · have e : ∀ i ∈ Finset.range n, c.liquidityPerc (q i) (q (i + 1)) =
        (if c.pmax < q (i + 1) then 1 else 0) - (if c.pmax < q i then 1 else 0) := by
      intro i hi
      have hlt := hq i (Finset.mem_range.mp hi)
      unfold liquidityPerc
      simp only [gt_iff_lt, if_neg (not_lt.mpr hlt.le), hd, Bool.false_eq_true, if_false, hr, if_true, hlt.ne]
      by_cases h1 : c.pmax < q i
      · simp [not_le.mpr h1, h1, h1.trans hlt]
      · by_cases h2 : c.pmax < q (i + 1) <;> simp [h1, not_lt.mp h1, h2]
    rw [Finset.sum_congr rfl e, Finset.sum_range_sub (fun i => if c.pmax < q i then (1 : ℝ) else 0), if_pos (hc.point hr),
      if_neg (not_lt.mpr (hr ▸ hc.lo)), sub_zero]

/-- The price at which a window is converted lies in the window and in the range. -/
theorem window_price {c : UICurve ℝ} (hd : c.disabled = false) (hp : 0 < c.pmin) {a b : ℝ} (hab : a ≤ b)
    (hz : c.liquidityPerc a b ≠ 0) :
    ∃ m, c.windowPrice a b = .ok m ∧
      c.pmin ≤ m ∧ m ≤ c.pmax ∧ a ≤ m ∧ m ≤ b ∧ m = √(max a c.pmin * min b c.pmax) := by
  unfold windowPrice
  by_cases hr : c.pmax = c.pmin
  · refine ⟨c.pmax, if_pos hr, hr.ge, le_rfl, ?_⟩
    have hz' := hz
    unfold liquidityPerc at hz'
    simp only [gt_iff_lt, if_neg (not_lt.mpr hab), hd, Bool.false_eq_true, if_false, hr, if_true] at hz'
    have h2 : a ≤ c.pmin ∧ c.pmin ≤ b := by
      split_ifs at hz' with h1 h2 h3
      · rw [← h1, h2]; exact ⟨le_rfl, le_rfl⟩
      · exact absurd rfl hz'
      · exact ⟨h3.1, h3.2.le⟩
      · exact absurd rfl hz'
    refine ⟨hr ▸ h2.1, hr ▸ h2.2, ?_⟩
    rw [hr, max_eq_right h2.1, min_eq_right h2.2, Real.sqrt_mul_self hp.le]
  · have hlt : c.pmin < c.pmax := lt_of_le_of_ne (pmin_le c) (Ne.symm hr)
    have h1 : a < c.pmax ∧ c.pmin < b := by
      by_contra hcon
      apply hz
      refine (C63_share c hd hlt a b b hab le_rfl).2.2.2.2.2 ?_
      rw [not_and_or, not_lt, not_lt] at hcon
      exact hcon.symm
    have lo : c.pmin ≤ max a c.pmin := le_max_right _ _
    have hm : max a c.pmin ≤ min b c.pmax := max_le (le_min hab h1.1.le) (le_min h1.2.le hlt.le)
    have l0 : 0 < max a c.pmin := lt_of_lt_of_le hp lo
    have s1 : max a c.pmin ≤ √(max a c.pmin * min b c.pmax) := by
      refine Real.le_sqrt_of_sq_le ?_
      rw [sq]; exact mul_le_mul_of_nonneg_left hm l0.le
    have s2 : √(max a c.pmin * min b c.pmax) ≤ min b c.pmax := by
      refine Real.sqrt_le_iff.mpr ⟨l0.le.trans hm, ?_⟩
      rw [sq]; exact mul_le_mul_of_nonneg_right hm (l0.le.trans hm)
    refine ⟨_, ?_, lo.trans s1, s2.trans (min_le_right _ _), (le_max_left _ _).trans s1, s2.trans (min_le_left _ _), rfl⟩
    rw [if_neg hr, min_eq_left hab, max_eq_right hab]
    unfold pySqrt
    rw [if_neg (not_lt.mpr (mul_nonneg l0.le (l0.le.trans hm)))]

/-- The value of one unit of the curve's token in the other token at a price. -/
noncomputable def worth (p : CarbonPair) (tkn u : Str) (price : ℝ) : ℝ :=
  if tkn = u then 1 else if tkn = p.tknb then price else 1 / price

theorem approx_ok {p : CarbonPair} {c : UICurve ℝ} (hl : Listed p c) {u : Str} (hto : u = p.tknb ∨ u = p.tknq) {a b : ℝ}
    (hab : a ≤ b) : ∃ m, c.liquidityApprox a b (some u) = .ok (c.y * worth p c.tkn u m * (if c.disabled then 0 else c.liquidityPerc a b)) ∧
      (c.disabled = false → c.liquidityPerc a b ≠ 0 →
        c.pmin ≤ m ∧ m ≤ c.pmax ∧ a ≤ m ∧ m ≤ b ∧ m = √(max a c.pmin * min b c.pmax)) := by
  unfold liquidityApprox
  dsimp only
  by_cases hd : c.disabled = true
  · exact ⟨1, by rw [if_pos hd, if_pos hd, mul_zero], fun h => by rw [hd] at h; cases h⟩
  rw [if_neg hd, if_neg hd]
  rw [Bool.not_eq_true] at hd
  by_cases hz : c.liquidityPerc a b = 0
  · exact ⟨1, by rw [if_pos hz, hz, mul_zero], fun _ h => absurd hz h⟩
  rw [if_neg hz]
  obtain ⟨m, h1, h2, h3, h4, h5, h6⟩ := window_price hd (hl.pos hd) hab hz
  refine ⟨m, ?_, fun _ _ => ⟨h2, h3, h4, h5, h6⟩⟩
  rw [h1, Py.ok_bind]
  have hm : m ≠ 0 := (lt_of_lt_of_le (hl.pos hd) h2).ne'
  have t1 : c.pair.hasToken c.tkn = true := by
    unfold CarbonPair.hasToken CarbonPair.hasQuote CarbonPair.hasBase
    rw [hl.pair]
    rcases hl.tkn with h | h <;> simp [h]
  have t2 : c.pair.hasToken u = true := by
    unfold CarbonPair.hasToken CarbonPair.hasQuote CarbonPair.hasBase
    rw [hl.pair]
    rcases hto with h | h <;> simp [h]
  have hc : c.pair.convert c.y c.tkn u m = .ok (some (c.y * worth p c.tkn u m)) := by
    unfold CarbonPair.convert worth
    simp only [t1, t2, Bool.not_true, Bool.false_eq_true, if_false]
    by_cases e1 : c.tkn = u
    · rw [if_pos e1, if_pos e1, mul_one]
    · rw [if_neg e1, if_neg e1]
      by_cases e2 : c.tkn = p.tknb
      · rw [if_pos e2, if_pos (by unfold CarbonPair.hasBase; rw [hl.pair]; exact decide_eq_true e2)]
      · rw [if_neg e2, if_neg (by unfold CarbonPair.hasBase; rw [hl.pair]; simpa using e2), pyDiv_ok hm, Py.ok_bind, mul_one_div]
  rw [show (some u).getD c.pair.tknb = u from rfl, hc, Py.ok_bind]

/-- The grid as a list. -/
def grid (q : ℕ → ℝ) (n : ℕ) : List ℝ := (List.range (n + 1)).map q

theorem windows (q : ℕ → ℝ) (n : ℕ) : (grid q n).zip (grid q n).tail = (List.range n).map fun i => (q i, q (i + 1)) := by
  unfold grid
  apply List.ext_getElem
  · simp
  · intro i h1 h2
    simp

theorem getD_purge (b : Bool) (x : ℝ) : (purge b x).getD 0 = x := by
  unfold purge
  split_ifs with h
  · simp only [Bool.and_eq_true, decide_eq_true_eq] at h
    exact h.2.symm
  · rfl

theorem sum_swap (l : List (UICurve ℝ)) (n : ℕ) (f : UICurve ℝ → ℕ → ℝ) :
    ∑ i ∈ Finset.range n, (l.map fun c => f c i).sum = (l.map fun c => ∑ i ∈ Finset.range n, f c i).sum := by
  induction l with
  | nil => simp
  | cons c l ih => simp only [List.map_cons, List.sum_cons, Finset.sum_add_distrib, ih]

/-- What the call returns, for each window. -/
theorem calc_ok (p : CarbonPair) (cs : List (UICurve ℝ)) (hcs : ∀ c ∈ cs, c.pair.pairIso = p.pairIso → Listed p c) (q : ℕ → ℝ) (n : ℕ)
    (hq : ∀ i < n, q i < q (i + 1)) (rev pz : Bool) :
    ∃ (m : UICurve ℝ → ℕ → ℝ) (r : Approx), calcLiquidityApprox cs (grid q n) p rev pz = .ok r ∧
      r.tkn = (if rev then p.tknq else p.tknb) ∧ r.prices = (List.range n).map (fun i => (q i + q (i + 1)) / 2) ∧
      (∀ c ∈ cs, c.pair.pairIso = p.pairIso → ∀ i < n, c.disabled = false → c.liquidityPerc (q i) (q (i + 1)) ≠ 0 →
        c.pmin ≤ m c i ∧ m c i ≤ c.pmax ∧ q i ≤ m c i ∧ m c i ≤ q (i + 1) ∧
          m c i = √(max (q i) c.pmin * min (q (i + 1)) c.pmax)) ∧
      ∀ isAsk : Bool, (if isAsk then r.ask else r.bid) = (List.range n).map fun i => purge pz
        ((side cs p (if isAsk then p.tknb else p.tknq)).map fun c => c.y * worth p c.tkn r.tkn (m c i) *
          (if c.disabled then 0 else c.liquidityPerc (q i) (q (i + 1))) / (q (i + 1) - q i)).sum := by
  classical
  set u := if rev then p.tknq else p.tknb with hto
  have hto' : u = p.tknb ∨ u = p.tknq := by rw [hto]; cases rev <;> simp
  have ex : ∀ (c : UICurve ℝ) (i : ℕ), ∃ m, c ∈ cs → c.pair.pairIso = p.pairIso → i < n →
      c.liquidityApprox (q i) (q (i + 1)) (some u) =
        .ok (c.y * worth p c.tkn u m * (if c.disabled then 0 else c.liquidityPerc (q i) (q (i + 1)))) ∧
      (c.disabled = false → c.liquidityPerc (q i) (q (i + 1)) ≠ 0 →
        c.pmin ≤ m ∧ m ≤ c.pmax ∧ q i ≤ m ∧ m ≤ q (i + 1) ∧ m = √(max (q i) c.pmin * min (q (i + 1)) c.pmax)) := by
    intro c i
    by_cases h : c ∈ cs ∧ c.pair.pairIso = p.pairIso ∧ i < n
    · obtain ⟨m, h1, h2⟩ := approx_ok (hcs c h.1 h.2.1) hto' (hq i h.2.2).le
      exact ⟨m, fun _ _ _ => ⟨h1, h2⟩⟩
    · exact ⟨0, fun h1 h2 h3 => absurd ⟨h1, h2, h3⟩ h⟩
  choose m hm using ex
  have dens : ∀ (t : Str) (w : ℕ), w < n → density (side cs p t) u (q w) (q (w + 1)) =
      .ok ((side cs p t).map fun c => c.y * worth p c.tkn u (m c w) *
          (if c.disabled then 0 else c.liquidityPerc (q w) (q (w + 1))) / (q (w + 1) - q w)).sum := by
    intro t w hw
    unfold density
    rw [mapM_of (g := fun c => c.y * worth p c.tkn u (m c w) *
      (if c.disabled then 0 else c.liquidityPerc (q w) (q (w + 1))) / (q (w + 1) - q w)) _ ?_, Py.ok_bind]
    intro c hc
    obtain ⟨hc1, hc2⟩ := List.mem_filter.mp hc
    simp only [Bool.and_eq_true, decide_eq_true_eq] at hc2
    rw [(hm c w hc1 hc2.1 hw).1, Py.ok_bind, pyDiv_ok (sub_pos.mpr (hq w hw)).ne']
  have lst : ∀ t : Str, ((grid q n).zip (grid q n).tail).mapM (fun w => density (side cs p t) u w.1 w.2) =
      .ok ((List.range n).map fun i => ((side cs p t).map fun c => c.y * worth p c.tkn u (m c i) *
          (if c.disabled then 0 else c.liquidityPerc (q i) (q (i + 1))) / (q (i + 1) - q i)).sum) := by
    intro t
    rw [windows]
    rw [mapM_of (g := fun w : ℝ × ℝ => (density (side cs p t) u w.1 w.2).toOption.getD 0)]
    · rw [List.map_map]
      congr 1
      refine List.map_congr_left fun i hi => ?_
      simp only [Function.comp, dens t i (List.mem_range.mp hi)]
      rfl
    · intro w hw
      obtain ⟨i, hi, rfl⟩ := List.mem_map.mp hw
      simp only [dens t i (List.mem_range.mp hi)]
      rfl
  obtain ⟨L, hL⟩ : ∃ L : Str → List ℝ, ∀ t, L t = (List.range n).map fun i => ((side cs p t).map fun c => c.y * worth p c.tkn u (m c i) *
          (if c.disabled then 0 else c.liquidityPerc (q i) (q (i + 1))) / (q (i + 1) - q i)).sum := ⟨_, fun _ => rfl⟩
  simp only [← hL] at lst
  have hcalc : calcLiquidityApprox cs (grid q n) p rev pz = .ok ⟨(L p.tknq).map (purge pz), (L p.tknb).map (purge pz),
      ((grid q n).zip (grid q n).tail).map fun w => 1 / 2 * (w.1 + w.2), u⟩ := by
    unfold calcLiquidityApprox
    dsimp only
    rw [← hto, lst, Py.ok_bind, lst, Py.ok_bind]
  refine ⟨m, _, hcalc, rfl, ?_, fun c hc hp i hi => (hm c i hc hp hi).2, ?_⟩
  · dsimp only
    rw [windows, List.map_map]
    refine List.map_congr_left fun i _ => ?_
    simp only [Function.comp]
    ring
  · intro b
    cases b
    · simp [hL, List.map_map, Function.comp_def]
    · simp [hL, List.map_map, Function.comp_def]

/-- **C103** The liquidity per price, times the width of the windows, adds up to the liquidity of the orders: asks in units of the
base token and bids in units of the quote token, for every grid that covers their ranges; disabled orders and those of other pairs do
not count. -/
theorem C103_total (p : CarbonPair) (cs : List (UICurve ℝ))
    (hcs : ∀ c ∈ cs, c.pair.pairIso = p.pairIso → Listed p c) (q : ℕ → ℝ) (n : ℕ) (hq : ∀ i < n, q i < q (i + 1))
    (hcov : ∀ c ∈ cs, c.pair.pairIso = p.pairIso → c.disabled = false → Covered q n c) (isAsk pz : Bool) :
    ∃ (r : Approx) (d : ℕ → ℝ), calcLiquidityApprox cs (grid q n) p (!isAsk) pz = .ok r ∧
      r.tkn = (if isAsk then p.tknb else p.tknq) ∧
      (if isAsk then r.ask else r.bid).map (Option.getD · 0) = (List.range n).map d ∧
      ∑ i ∈ Finset.range n, d i * (q (i + 1) - q i) =
        ((cs.filter fun c => decide (c.pair.pairIso = p.pairIso) && decide (c.tkn = r.tkn) && !c.disabled).map UICurve.y).sum := by
  obtain ⟨m, r, h1, h2, _, _, h5⟩ := calc_ok p cs hcs q n hq (!isAsk) pz
  have ht : r.tkn = (if isAsk then p.tknb else p.tknq) := by
    rw [h2]; cases isAsk <;> rfl
  refine ⟨r, _, h1, ht, by rw [h5, List.map_map], ?_⟩
  simp only [Function.comp, getD_purge]
  rw [← ht]
  have e : ∀ i ∈ Finset.range n, ((side cs p r.tkn).map fun c => c.y * worth p c.tkn r.tkn (m c i) *
          (if c.disabled then 0 else c.liquidityPerc (q i) (q (i + 1))) / (q (i + 1) - q i)).sum * (q (i + 1) - q i) =
      ((side cs p r.tkn).map fun c => c.y * (if c.disabled then 0 else c.liquidityPerc (q i) (q (i + 1)))).sum := by
    intro i hi
    have hw := (sub_pos.mpr (hq i (Finset.mem_range.mp hi))).ne'
    rw [← List.sum_map_mul_right]
    congr 1
    refine List.map_congr_left fun c hc => ?_
    have hc2 := (List.mem_filter.mp hc).2
    simp only [Bool.and_eq_true, decide_eq_true_eq] at hc2
    rw [div_mul_cancel₀ _ hw, worth, if_pos hc2.2, mul_one]
  rw [Finset.sum_congr rfl e, sum_swap (side cs p r.tkn) n fun c i => c.y * (if c.disabled then 0 else c.liquidityPerc (q i) (q (i + 1)))]
  have hfil : (cs.filter fun c => decide (c.pair.pairIso = p.pairIso) && decide (c.tkn = r.tkn) && !c.disabled) =
      (side cs p r.tkn).filter fun c => !c.disabled := by
    unfold side
    rw [List.filter_filter]
    refine List.filter_congr fun c _ => ?_
    rw [Bool.and_comm]
  rw [hfil]
  have hmem : ∀ c ∈ side cs p r.tkn, c ∈ cs ∧ c.pair.pairIso = p.pairIso := by
    intro c hc
    obtain ⟨a, b⟩ := List.mem_filter.mp hc
    simp only [Bool.and_eq_true, decide_eq_true_eq] at b
    exact ⟨a, b.1⟩
  generalize side cs p r.tkn = l at hmem
  induction l with
  | nil => rfl
  | cons c l ih =>
    have ih' := ih fun d hd => hmem d (List.mem_cons_of_mem _ hd)
    obtain ⟨c1, c2⟩ := hmem c List.mem_cons_self
    rw [List.map_cons, List.sum_cons, ih', ← Finset.mul_sum]
    by_cases hd : c.disabled = true
    · simp [hd]
    · rw [Bool.not_eq_true] at hd
      rw [List.filter_cons_of_pos (by simp [hd]), List.map_cons, List.sum_cons]
      simp only [hd, Bool.false_eq_true, if_false]
      rw [perc_sum hd hq (hcov c c1 c2 hd), mul_one]

/-- **C103** In units of the other token each order counts with a value between its amount at the lower and at the upper end of its
range; in a single window over its range with its amount at the geometric mean of the two. -/
theorem C103_converted (p : CarbonPair) (hp : p.tknb ≠ p.tknq) (c : UICurve ℝ) (hc : Listed p c) (hd : c.disabled = false) (q : ℕ → ℝ)
    (n : ℕ) (hq : ∀ i < n, q i < q (i + 1)) (hcov : Covered q n c) (pz : Bool) :
    ∃ (r : Approx) (d : ℕ → ℝ), calcLiquidityApprox [c] (grid q n) p (decide (c.tkn = p.tknb)) pz = .ok r ∧
      (if c.tkn = p.tknb then r.ask else r.bid).map (Option.getD · 0) = (List.range n).map d ∧
      (if c.tkn = p.tknb then
        c.y * c.pmin ≤ ∑ i ∈ Finset.range n, d i * (q (i + 1) - q i) ∧ ∑ i ∈ Finset.range n, d i * (q (i + 1) - q i) ≤ c.y * c.pmax ∧
          (n = 1 → d 0 * (q 1 - q 0) = c.y * √(c.pmin * c.pmax))
      else
        c.y / c.pmax ≤ ∑ i ∈ Finset.range n, d i * (q (i + 1) - q i) ∧ ∑ i ∈ Finset.range n, d i * (q (i + 1) - q i) ≤ c.y / c.pmin ∧
          (n = 1 → d 0 * (q 1 - q 0) = c.y / √(c.pmin * c.pmax))) := by
  obtain ⟨m, r, h1, h2, _, h4, h5⟩ := calc_ok p [c] (by simpa using fun _ => hc) q n hq (decide (c.tkn = p.tknb)) pz
  have iso : c.pair.pairIso = p.pairIso := by rw [hc.pair]
  have h4 := h4 c (by simp) iso
  have hside : side [c] p (if c.tkn = p.tknb then p.tknb else p.tknq) = [c] := by
    unfold side
    rw [List.filter_cons_of_pos, List.filter_nil]
    simp only [iso, decide_true, Bool.true_and, decide_eq_true_eq]
    rcases hc.tkn with h | h
    · rw [if_pos h]; exact h
    · rw [if_neg (by rw [h]; exact hp.symm)]; exact h
  have h5 := h5 (decide (c.tkn = p.tknb))
  simp only [decide_eq_true_eq] at h5
  rw [hside] at h5
  simp only [List.map_cons, List.map_nil, List.sum_cons, List.sum_nil, add_zero] at h5
  have hne : c.tkn ≠ r.tkn := by
    rw [h2]
    rcases hc.tkn with h | h
    · simp only [h, decide_true, if_true]; exact hp
    · rw [h]
      have : p.tknq ≠ p.tknb := hp.symm
      simp only [this, decide_false, Bool.false_eq_true, if_false]
      exact this
  have p0 : 0 < c.pmin := hc.pos hd
  have p1 : 0 < c.pmax := lt_of_lt_of_le p0 (pmin_le c)
  refine ⟨r, _, h1, by rw [h5, List.map_map], ?_⟩
  simp only [Function.comp, getD_purge]
  have e : ∀ i < n, c.y * worth p c.tkn r.tkn (m c i) * (if c.disabled then 0 else c.liquidityPerc (q i) (q (i + 1))) /
      (q (i + 1) - q i) * (q (i + 1) - q i) = c.y * worth p c.tkn r.tkn (m c i) * c.liquidityPerc (q i) (q (i + 1)) := by
    intro i hi
    rw [div_mul_cancel₀ _ (sub_pos.mpr (hq i hi)).ne', hd]
    simp
  have one : n = 1 → c.liquidityPerc (q 0) (q 1) = 1 ∧ m c 0 = √(c.pmin * c.pmax) := by
    intro hn
    subst hn
    have hs := perc_sum hd hq hcov
    simp only [Finset.range_one, Finset.sum_singleton, zero_add] at hs
    refine ⟨hs, ?_⟩
    have := (h4 0 one_pos hd (by rw [zero_add, hs]; exact one_ne_zero)).2.2.2.2
    rw [zero_add, max_eq_right hcov.lo, min_eq_right hcov.hi] at this
    exact this
  have bnd : ∀ lo hi : ℝ, (∀ i < n, c.liquidityPerc (q i) (q (i + 1)) ≠ 0 →
      lo ≤ worth p c.tkn r.tkn (m c i) ∧ worth p c.tkn r.tkn (m c i) ≤ hi) →
      c.y * lo ≤ ∑ i ∈ Finset.range n, c.y * worth p c.tkn r.tkn (m c i) *
        (if c.disabled then 0 else c.liquidityPerc (q i) (q (i + 1))) / (q (i + 1) - q i) * (q (i + 1) - q i) ∧
      ∑ i ∈ Finset.range n, c.y * worth p c.tkn r.tkn (m c i) *
        (if c.disabled then 0 else c.liquidityPerc (q i) (q (i + 1))) / (q (i + 1) - q i) * (q (i + 1) - q i) ≤ c.y * hi := by
    intro lo hi hb
    rw [Finset.sum_congr rfl fun i hi => e i (Finset.mem_range.mp hi)]
    have hs := perc_sum hd hq hcov
    constructor
    · calc c.y * lo = ∑ i ∈ Finset.range n, c.y * lo * c.liquidityPerc (q i) (q (i + 1)) := by rw [← Finset.mul_sum, hs, mul_one]
        _ ≤ _ := by
          refine Finset.sum_le_sum fun i hi => ?_
          have hn := perc_nonneg c (hq i (Finset.mem_range.mp hi)).le
          by_cases hz : c.liquidityPerc (q i) (q (i + 1)) = 0
          · rw [hz, mul_zero, mul_zero]
          · exact mul_le_mul_of_nonneg_right (mul_le_mul_of_nonneg_left (hb i (Finset.mem_range.mp hi) hz).1 hc.y) hn
    · calc _ ≤ ∑ i ∈ Finset.range n, c.y * hi * c.liquidityPerc (q i) (q (i + 1)) := by
            refine Finset.sum_le_sum fun i hi => ?_
            have hn := perc_nonneg c (hq i (Finset.mem_range.mp hi)).le
            by_cases hz : c.liquidityPerc (q i) (q (i + 1)) = 0
            · rw [hz, mul_zero, mul_zero]
            · exact mul_le_mul_of_nonneg_right (mul_le_mul_of_nonneg_left (hb i (Finset.mem_range.mp hi) hz).2 hc.y) hn
        _ = _ := by rw [← Finset.mul_sum, hs, mul_one]
  by_cases hb : c.tkn = p.tknb
  · simp only [if_pos hb]
    have hw : ∀ x, worth p c.tkn r.tkn x = x := fun x => by rw [worth, if_neg hne, if_pos hb]
    obtain ⟨b1, b2⟩ := bnd c.pmin c.pmax fun i hi hz => by
      rw [hw]
      obtain ⟨g1, g2, _⟩ := h4 i hi hd hz
      exact ⟨g1, g2⟩
    refine ⟨b1, b2, fun hn => ?_⟩
    have := e 0 (by omega)
    rw [zero_add] at this
    rw [this, (one hn).1, hw, (one hn).2, mul_one]
  · simp only [if_neg hb]
    have hw : ∀ x, worth p c.tkn r.tkn x = 1 / x := fun x => by rw [worth, if_neg hne, if_neg hb]
    obtain ⟨b1, b2⟩ := bnd (1 / c.pmax) (1 / c.pmin) fun i hi hz => by
      rw [hw]
      obtain ⟨g1, g2, _⟩ := h4 i hi hd hz
      exact ⟨one_div_le_one_div_of_le (lt_of_lt_of_le p0 g1) g2, one_div_le_one_div_of_le p0 g1⟩
    rw [mul_one_div] at b1 b2
    refine ⟨b1, b2, fun hn => ?_⟩
    have := e 0 (by omega)
    rw [zero_add] at this
    rw [this, (one hn).1, hw, (one hn).2, mul_one, mul_one_div]

/-- **C103** The entries belong to the windows, in their order: an entry is never negative, and it is missing exactly if no order of
the side has anything in the window. -/
theorem C103_entries (p : CarbonPair) (cs : List (UICurve ℝ)) (hcs : ∀ c ∈ cs, c.pair.pairIso = p.pairIso → Listed p c) (q : ℕ → ℝ)
    (n : ℕ) (hq : ∀ i < n, q i < q (i + 1)) (rev isAsk : Bool) :
    ∃ r, calcLiquidityApprox cs (grid q n) p rev true = .ok r ∧ r.prices.length = n ∧ (if isAsk then r.ask else r.bid).length = n ∧
      ∀ i < n, r.prices[i]? = some ((q i + q (i + 1)) / 2) ∧ ∃ e, (if isAsk then r.ask else r.bid)[i]? = some e ∧ (∀ v, e = some v → 0 < v) ∧
        (e = none ↔ ∀ c ∈ cs, c.pair.pairIso = p.pairIso → c.tkn = (if isAsk then p.tknb else p.tknq) → c.disabled = false →
          c.y = 0 ∨ c.liquidityPerc (q i) (q (i + 1)) = 0) := by
  obtain ⟨m, r, h1, _, h3, h4, h5⟩ := calc_ok p cs hcs q n hq rev true
  have h5 := h5 isAsk
  refine ⟨r, h1, by rw [h3]; simp, by rw [h5]; simp, fun i hi => ⟨by rw [h3]; simp [hi], _, by rw [h5, List.getElem?_map, List.getElem?_range hi]; rfl, ?_⟩⟩
  have hw := sub_pos.mpr (hq i hi)
  have pos : ∀ c ∈ side cs p (if isAsk then p.tknb else p.tknq), 0 ≤ c.y * worth p c.tkn r.tkn (m c i) *
      (if c.disabled then 0 else c.liquidityPerc (q i) (q (i + 1))) / (q (i + 1) - q i) ∧
      (c.y * worth p c.tkn r.tkn (m c i) * (if c.disabled then 0 else c.liquidityPerc (q i) (q (i + 1))) / (q (i + 1) - q i) = 0 ↔
        (c.disabled = false → c.y = 0 ∨ c.liquidityPerc (q i) (q (i + 1)) = 0)) := by
    intro c hc
    obtain ⟨c1, c2⟩ := List.mem_filter.mp hc
    simp only [Bool.and_eq_true, decide_eq_true_eq] at c2
    have hl := hcs c c1 c2.1
    by_cases hd : c.disabled = true
    · simp [hd]
    · rw [Bool.not_eq_true] at hd
      simp only [hd, Bool.false_eq_true, if_false]
      have hn := perc_nonneg c (hq i hi).le
      by_cases hz : c.liquidityPerc (q i) (q (i + 1)) = 0
      · simp [hz]
      · have hm := (h4 c c1 c2.1 i hi hd hz).1
        have wpos : 0 < worth p c.tkn r.tkn (m c i) := by
          have := lt_of_lt_of_le (hl.pos hd) hm
          unfold worth
          split_ifs
          · exact one_pos
          · exact this
          · exact one_div_pos.mpr this
        refine ⟨div_nonneg (mul_nonneg (mul_nonneg hl.y wpos.le) hn) hw.le, ?_⟩
        rw [div_eq_zero_iff, mul_eq_zero, mul_eq_zero]
        simp [hz, wpos.ne', hw.ne']
  have hsum : ∀ l : List (UICurve ℝ), ∀ f : UICurve ℝ → ℝ, (∀ c ∈ l, 0 ≤ f c) →
      0 ≤ (l.map f).sum ∧ ((l.map f).sum = 0 ↔ ∀ c ∈ l, f c = 0) := by
    intro l f
    induction l with
    | nil => simp
    | cons c l ih =>
      intro h
      obtain ⟨i1, i2⟩ := ih fun d hd => h d (List.mem_cons_of_mem _ hd)
      have h0 := h c List.mem_cons_self
      rw [List.map_cons, List.sum_cons]
      refine ⟨add_nonneg h0 i1, ?_⟩
      rw [add_eq_zero_iff_of_nonneg h0 i1, i2]
      simp
  obtain ⟨s1, s2⟩ := hsum _ _ fun c hc => (pos c hc).1
  have hp : ∀ x : ℝ, 0 ≤ x → (∀ v, purge true x = some v → 0 < v) ∧ (purge true x = none ↔ x = 0) := by
    intro x hx
    unfold purge
    by_cases h0 : x = 0
    · simp [h0]
    · simp only [h0, decide_false, Bool.and_false, Bool.false_eq_true, if_false, Option.some.injEq, reduceCtorEq]
      exact ⟨fun v hv => hv ▸ lt_of_le_of_ne hx (Ne.symm h0), trivial⟩
  obtain ⟨p1, p2⟩ := hp _ s1
  refine ⟨p1, p2.trans (s2.trans ⟨?_, ?_⟩)⟩
  · intro h c c1 c2 c3 hd
    have hc : c ∈ side cs p (if isAsk then p.tknb else p.tknq) := List.mem_filter.mpr ⟨c1, by simp [c2, c3]⟩
    exact (pos c hc).2.mp (h c hc) hd
  · intro h c hc
    obtain ⟨c1, c2⟩ := List.mem_filter.mp hc
    simp only [Bool.and_eq_true, decide_eq_true_eq] at c2
    exact (pos c hc).2.mpr fun hd => h c c1 c2.1 c2.2 hd

/-- **C103** Orders of other pairs change nothing. -/
theorem C103_other_pairs (p : CarbonPair) (cs ds : List (UICurve ℝ)) (c : UICurve ℝ) (hc : c.pair.pairIso ≠ p.pairIso)
    (prices : List ℝ) (rev pz : Bool) :
    calcLiquidityApprox (cs ++ c :: ds) prices p rev pz = calcLiquidityApprox (cs ++ ds) prices p rev pz := by
  have : ∀ t, side (cs ++ c :: ds) p t = side (cs ++ ds) p t := by
    intro t
    unfold side
    rw [List.filter_append, List.filter_append, List.filter_cons_of_neg (by simp [hc])]
  unfold calcLiquidityApprox
  simp only [this]

/-- An order that sells ETH from 1 to 4 and has sold three quarters: what is left is for sale above 64/25. -/
noncomputable def soldCurve : UICurve ℝ := ⟨CarbonPair.ethUsdc, "ETH".toList, 1 / 2, 1 / 2, 4, 1⟩

theorem soldCurve_facts : soldCurve.disabled = false ∧ soldCurve.pmin = 1 ∧ soldCurve.pmax = 4 := by
  have hr : soldCurve.reverseq = true := by
    show CarbonPair.hasBase CarbonPair.ethUsdc "ETH".toList = true
    decide +kernel
  have pa : soldCurve.pa = 1 := by
    unfold UICurve.pa paRaw
    rw [hr]
    norm_num [soldCurve]
  have pb : soldCurve.pb = 4 := by
    unfold UICurve.pb pbRaw
    rw [hr]
    norm_num [soldCurve]
  refine ⟨?_, ?_, ?_⟩
  · unfold disabled paRaw pbRaw
    norm_num [soldCurve]
  · unfold pmin; rw [pa, pb]; norm_num
  · unfold pmax; rw [pa, pb]; norm_num

theorem soldCurve_listed : Listed CarbonPair.ethUsdc soldCurve :=
  ⟨rfl, .inl (by decide +kernel), fun _ => by rw [soldCurve_facts.2.1]; norm_num, by norm_num [soldCurve]⟩

theorem soldCurve_covered {n : ℕ} (hn : 3 ≤ n) : Covered (fun i => (i : ℝ) + 1) n soldCurve := by
  obtain ⟨_, hmin, hmax⟩ := soldCurve_facts
  have : (3 : ℝ) ≤ n := by exact_mod_cast hn
  exact ⟨by rw [hmin]; norm_num, by rw [hmax]; linarith, fun h => by rw [hmin, hmax] at h; norm_num at h⟩

/-- Instances: the order above on the grid 1, 2, 3, 4 — its one ETH in units of ETH, and between 1 and 4 USDC. -/
example : ∃ (r : Approx) (d : ℕ → ℝ), calcLiquidityApprox [soldCurve] (grid (fun i => (i : ℝ) + 1) 3) CarbonPair.ethUsdc false true = .ok r ∧
    r.ask.map (Option.getD · 0) = (List.range 3).map d ∧ ∑ i ∈ Finset.range 3, d i = 1 := by
  obtain ⟨r, d, h1, h2, h3, h4⟩ := C103_total CarbonPair.ethUsdc [soldCurve] (by
    intro c hc _
    rw [List.mem_singleton.mp hc]; exact soldCurve_listed) (fun i => (i : ℝ) + 1) 3 (by intro i _; push_cast; linarith) (by
    intro c hc _ _
    rw [List.mem_singleton.mp hc]; exact soldCurve_covered le_rfl) true true
  refine ⟨r, d, h1, h3, ?_⟩
  simp only [Nat.cast_add, Nat.cast_one, add_sub_cancel_left, mul_one] at h4
  rw [h4, h2, List.filter_cons_of_pos]
  · simp [soldCurve]
  · have : soldCurve.tkn = CarbonPair.ethUsdc.tknb := by decide +kernel
    have hp : soldCurve.pair.pairIso = CarbonPair.ethUsdc.pairIso := rfl
    simp [this, hp, soldCurve_facts.1]

example : ∃ (r : Approx) (d : ℕ → ℝ), calcLiquidityApprox [soldCurve] (grid (fun i => (i : ℝ) + 1) 3) CarbonPair.ethUsdc true true = .ok r ∧
    r.ask.map (Option.getD · 0) = (List.range 3).map d ∧ 1 ≤ ∑ i ∈ Finset.range 3, d i ∧ ∑ i ∈ Finset.range 3, d i ≤ 4 := by
  have ht : soldCurve.tkn = CarbonPair.ethUsdc.tknb := by decide +kernel
  obtain ⟨hd, hmin, hmax⟩ := soldCurve_facts
  obtain ⟨r, d, h1, h3, h4⟩ := C103_converted CarbonPair.ethUsdc (by decide +kernel) soldCurve soldCurve_listed hd (fun i => (i : ℝ) + 1) 3
    (by intro i _; push_cast; linarith) (soldCurve_covered le_rfl) true
  rw [ht, decide_eq_true rfl] at h1
  rw [if_pos ht] at h3 h4
  simp only [Nat.cast_add, Nat.cast_one, add_sub_cancel_left, mul_one, hmin, hmax] at h4
  have hy : soldCurve.y = 1 := rfl
  rw [hy] at h4
  exact ⟨r, d, h1, h3, by linarith [h4.1], by linarith [h4.2.1]⟩

/-- **C103 violated** What is reported ignores how far an order has been traded: the order above has nothing left below 64/25, yet
liquidity is reported between 1 and 2. -/
theorem C103_traded_violated : ∃ (c : UICurve ℝ) (m : ℝ), Listed CarbonPair.ethUsdc c ∧ c.tkn = CarbonPair.ethUsdc.tknb ∧
    c.pmin ≤ 1 ∧ c.pMarg = .ok (some m) ∧ 2 < m ∧ m < c.pmax ∧
    ∃ r v, calcLiquidityApprox [c] [1, 2] CarbonPair.ethUsdc false true = .ok r ∧ r.ask = [some v] ∧ 0 < v := by
  obtain ⟨hd, hmin, hmax⟩ := soldCurve_facts
  have hl := soldCurve_listed
  refine ⟨soldCurve, 64 / 25, hl, by decide +kernel, hmin.le, ?_, by norm_num, by rw [hmax]; norm_num, ?_⟩
  · have hq : CarbonPair.hasQuote CarbonPair.ethUsdc "ETH".toList = false := by decide +kernel
    unfold pMarg pMargF quotePrice
    rw [hd]
    norm_num [soldCurve, hq, CarbonPair.pyDiv]
  · obtain ⟨r, h1, _, h3, h4⟩ := C103_entries CarbonPair.ethUsdc [soldCurve] (by
      intro c hc _
      rw [List.mem_singleton.mp hc]; exact hl) (fun i => (i : ℝ) + 1) 1 (by intro i _; push_cast; linarith) false true
    obtain ⟨_, e, h5, h6, h7⟩ := h4 0 one_pos
    have hg : grid (fun i => (i : ℝ) + 1) 1 = [1, 2] := by
      unfold grid
      norm_num [List.range_succ]
    rw [hg] at h1
    simp only [if_true] at h3 h5 h7
    obtain ⟨a, ha⟩ := List.length_eq_one_iff.mp h3
    rw [ha] at h5
    have hae : a = e := by simpa using h5
    cases e with
    | none =>
      exfalso
      have := h7.mp rfl soldCurve (List.mem_singleton_self _) rfl (by decide +kernel) hd
      rcases this with h | h
      · norm_num [soldCurve] at h
      · unfold liquidityPerc at h
        rw [hd, hmin, hmax] at h
        norm_num at h
    | some v => exact ⟨r, v, h1, by rw [ha, hae], h6 v rfl⟩

end Carbon.Analytics
