import Mathlib.Algebra.BigOperators.Group.Finset.Basic
import Mathlib.Algebra.Order.BigOperators.Group.List
import Mathlib.Data.List.Chain
import Mathlib.Data.List.Range
import Mathlib.Tactic.FieldSimp
import Mathlib.Tactic.Linarith
import Mathlib.Tactic.Positivity
import Mathlib.Tactic.Ring
import Verif.Helpers.PathInterp
import Verif.Prop.SdkBase

/-!
# Interpolated price paths: C101
-/

namespace Carbon.PathInt

open Sdk (roundHE roundHE_err)

/-! ## The bridge -/

theorem scanl_range (f : ℕ → ℝ) (n : ℕ) (a : ℝ) :
    ((List.range n).map f).scanl (· + ·) a = (List.range (n + 1)).map fun i => a + ∑ j ∈ Finset.range i, f j := by
  induction n generalizing a f with
  | zero => simp
  | succ n ih =>
    rw [List.range_succ_eq_map, List.map_cons, List.map_map, List.scanl_cons, show f ∘ Nat.succ = fun j => f (j + 1) from rfl, ih,
      List.range_succ_eq_map (n := n + 1), List.map_cons, List.map_map]
    simp only [Finset.range_zero, Finset.sum_empty, add_zero, List.cons.injEq, true_and]
    apply List.map_congr_left
    intro i _
    simp only [Function.comp_apply]
    rw [Finset.sum_range_succ' f i]
    ring

theorem sum_range_list (f : ℕ → ℝ) (n : ℕ) : ((List.range n).map f).sum = ∑ j ∈ Finset.range n, f j := by
  rw [Finset.sum_range]
  induction n with
  | zero => rfl
  | succ n ih => rw [List.range_succ, List.map_append, List.sum_append, ih, Fin.sum_univ_castSucc]; simp

/-- The scale of the draws. -/
noncomputable def scale (a b sig : ℝ) (n : ℕ) : ℝ := Real.sqrt (1 / n) * sig * (a + b) / 2

/-- The value of the bridge at place `i`. -/
noncomputable def bridgeAt (a b sig : ℝ) (n : ℕ) (z : ℕ → ℝ) (i : ℕ) : ℝ :=
  a + ∑ j ∈ Finset.range i, (scale a b sig n * z j + (-(∑ j ∈ Finset.range n, scale a b sig n * z j) + b - a) / n)

theorem bridgeAt_zero (a b sig : ℝ) (n : ℕ) (z : ℕ → ℝ) : bridgeAt a b sig n z 0 = a := by simp [bridgeAt]

theorem bridgeAt_last (a b sig : ℝ) {n : ℕ} (hn : n ≠ 0) (z : ℕ → ℝ) : bridgeAt a b sig n z n = b := by
  have hn' : (n : ℝ) ≠ 0 := by exact_mod_cast hn
  unfold bridgeAt
  rw [Finset.sum_add_distrib, Finset.sum_const, Finset.card_range, nsmul_eq_mul, mul_div_cancel₀ _ hn']
  ring

theorem bridge_eq {a b sig : ℝ} {n : ℕ} (hn : n ≠ 0) (z : ℕ → ℝ) : gaussianBridge a b sig n z =
    if scale a b sig n < 0 then .error .value else if b = 0 then .error .assertion
    else .ok ((List.range (n + 1)).map (bridgeAt a b sig n z)) := by
  unfold gaussianBridge
  rw [if_neg hn, show Real.sqrt (1 / n) * sig * (a + b) / 2 = scale a b sig n from rfl]
  by_cases hs : scale a b sig n < 0
  · rw [if_pos hs, if_pos hs]
  rw [if_neg hs, if_neg hs]
  have hinc : (increments a b sig n z).scanl (· + ·) a = (List.range (n + 1)).map (bridgeAt a b sig n z) := by
    unfold increments
    dsimp only
    rw [List.map_map, sum_range_list, scanl_range]
    rfl
  dsimp only
  rw [hinc, List.range_succ, List.map_append, List.map_singleton, List.getLast?_append, List.getLast?_singleton, Option.some_or, List.dropLast_concat,
    bridgeAt_last _ _ _ hn]
  dsimp only
  by_cases hb : b = 0
  · rw [if_neg (fun h => h.1 hb), if_pos hb]
  · rw [if_neg hb, if_pos]
    exact ⟨hb, by rw [div_self hb]; norm_num⟩

/-- **C101** A bridge begins at the first value and ends at the second, has as many steps as asked for, and each step is the scaled draw less the
average draw, plus its share of the difference. It is refused exactly if the scale is negative or the end is zero. -/
theorem C101_bridge (a b sig : ℝ) {n : ℕ} (hn : n ≠ 0) (z : ℕ → ℝ) :
    (∀ l, gaussianBridge a b sig n z = .ok l → l.length = n + 1 ∧ l.head? = some a ∧ l.getLast? = some b ∧
      ∀ i x y, l[i]? = some x → l[i + 1]? = some y →
        y - x = Real.sqrt (1 / n) * sig * ((a + b) / 2) * (z i - (∑ j ∈ Finset.range n, z j) / n) + (b - a) / n) ∧
    ((∃ l, gaussianBridge a b sig n z = .ok l) ↔ 0 ≤ sig * (a + b) ∧ b ≠ 0) := by
  have hn' : (n : ℝ) ≠ 0 := by exact_mod_cast hn
  have hpos : 0 < Real.sqrt (1 / n) := Real.sqrt_pos.mpr (by positivity)
  have hscale : scale a b sig n < 0 ↔ sig * (a + b) < 0 := by
    have : scale a b sig n = Real.sqrt (1 / n) / 2 * (sig * (a + b)) := by unfold scale; ring
    rw [this]
    constructor
    · intro h
      by_contra hc
      exact absurd h (not_lt.mpr (mul_nonneg (by positivity) (not_lt.mp hc)))
    · intro h
      exact mul_neg_of_pos_of_neg (by positivity) h
  rw [bridge_eq hn]
  constructor
  · intro l hl
    split_ifs at hl
    have hl := (Except.ok.inj hl).symm
    subst hl
    refine ⟨by simp, ?_, ?_, ?_⟩
    · rw [List.range_succ_eq_map, List.map_cons, List.head?_cons, bridgeAt_zero]
    · rw [List.range_succ, List.map_append, List.map_singleton, List.getLast?_append, List.getLast?_singleton, Option.some_or, bridgeAt_last _ _ _ hn]
    · intro i x y hx hy
      rw [List.getElem?_map, Option.map_eq_some_iff] at hx hy
      obtain ⟨i', hi, rfl⟩ := hx
      obtain ⟨j', hj, rfl⟩ := hy
      obtain ⟨_, rfl⟩ := List.getElem?_eq_some_iff.mp hi
      obtain ⟨_, rfl⟩ := List.getElem?_eq_some_iff.mp hj
      simp only [List.getElem_range]
      unfold bridgeAt
      rw [Finset.sum_range_succ, ← Finset.mul_sum]
      unfold scale
      field_simp
      ring
  · constructor
    · rintro ⟨l, hl⟩
      split_ifs at hl with h1 h2
      exact ⟨not_lt.mp (fun h => h1 (hscale.mpr h)), h2⟩
    · rintro ⟨h1, h2⟩
      exact ⟨_, by rw [if_neg (fun h => absurd (hscale.mp h) (not_lt.mpr h1)), if_neg h2]⟩

/-- **C101** Without volatility the bridge is the straight line. -/
theorem C101_straight (a : ℝ) {b : ℝ} (hb : b ≠ 0) {n : ℕ} (hn : n ≠ 0) (z : ℕ → ℝ) :
    gaussianBridge a b 0 n z = .ok ((List.range (n + 1)).map fun i : ℕ => a + i * ((b - a) / n)) := by
  have hs : scale a b 0 n = 0 := by simp [scale]
  rw [bridge_eq hn, hs, if_neg (lt_irrefl _), if_neg hb]
  congr 1
  apply List.map_congr_left
  intro i _
  unfold bridgeAt
  rw [hs]
  simp

/-- **C101** fails for the documented number of points, which is one less, unless there is no segment. -/
theorem C101_length_violated {a b sig : ℝ} {n : ℕ} (hn : n ≠ 0) (z : ℕ → ℝ) {l : List ℝ} (h : gaussianBridge a b sig n z = .ok l) :
    l.length ≠ n + 2 := by
  rw [((C101_bridge a b sig hn z).1 l h).1]
  omega

/-- **C101** fails for positive prices: with two segments and any volatility there are draws for which the price in the middle is negative. -/
theorem C101_positive_violated {a b sig : ℝ} (ha : 0 < a) (hb : 0 < b) (hs : 0 < sig) :
    ∃ z l, gaussianBridge a b sig 2 z = .ok l ∧ ∃ x ∈ l, x < 0 := by
  have hpos : 0 < scale a b sig 2 := by
    unfold scale
    have : 0 < Real.sqrt (1 / (2 : ℕ)) := Real.sqrt_pos.mpr (by norm_num)
    positivity
  let z : ℕ → ℝ := fun j => if j = 0 then -(2 * (a + b) / scale a b sig 2) else 0
  have z0 : z 0 = -(2 * (a + b) / scale a b sig 2) := if_pos rfl
  have z1 : z 1 = 0 := if_neg (by norm_num)
  refine ⟨z, (List.range 3).map (bridgeAt a b sig 2 z), ?_, bridgeAt a b sig 2 z 1, ?_, ?_⟩
  · rw [bridge_eq (by norm_num), if_neg (not_lt.mpr hpos.le), if_neg hb.ne']
  · exact List.mem_map.mpr ⟨1, by simp, rfl⟩
  · unfold bridgeAt
    rw [Finset.sum_range_one, Finset.sum_range_succ, Finset.sum_range_one, z0, z1]
    have : scale a b sig 2 * -(2 * (a + b) / scale a b sig 2) = -(2 * (a + b)) := by field_simp
    rw [this]
    push_cast
    linarith

/-! ## Segments and paths -/

theorem segment_ok {p q : ℝ × ℝ} {sig period : ℝ} {z : ℕ → ℝ} (hp : 0 < period) (hgap : period ≤ q.1 - p.1) {s : List (ℝ × ℝ)}
    (h : segment p q sig period z = .ok s) : ∃ (n : ℕ) (v : ℕ → ℝ), n ≠ 0 ∧ v 0 = p.2 ∧ v n = q.2 ∧
      s = (List.range (n + 1)).map (fun i : ℕ => (p.1 + i * ((q.1 - p.1) / n), v i)) ∧
      3 / 4 * period ≤ (q.1 - p.1) / n ∧ (q.1 - p.1) / n ≤ 3 / 2 * period := by
  unfold segment at h
  dsimp only at h
  have hx : 1 ≤ (q.1 - p.1) / period := (one_le_div hp).mpr hgap
  have herr := abs_le.mp (roundHE_err ((q.1 - p.1) / period))
  have hn : 1 ≤ roundHE ((q.1 - p.1) / period) := by
    by_contra hc
    have : (roundHE ((q.1 - p.1) / period) : ℝ) ≤ 0 := by exact_mod_cast (by omega)
    linarith [herr.1]
  rw [if_neg (not_lt.mpr hgap), if_neg hp.ne', if_neg (by omega), if_neg (by
    rintro (h | h)
    · linarith
    · omega), Py.bind_eq_ok] at h
  obtain ⟨vals, hv, h⟩ := h
  have h := (Except.ok.inj h).symm
  subst h
  obtain ⟨m, hm⟩ : ∃ m : ℕ, roundHE ((q.1 - p.1) / period) = m := ⟨_, (Int.toNat_of_nonneg (by omega)).symm⟩
  rw [hm] at hv herr hn ⊢
  have hm1 : 1 ≤ m := by exact_mod_cast hn
  have hmr : (1 : ℝ) ≤ m := by exact_mod_cast hm1
  have hmc : (((m : ℕ) : ℤ) : ℝ) = (m : ℝ) := by push_cast; rfl
  rw [hmc] at herr
  rw [Int.toNat_natCast] at hv ⊢
  rw [bridge_eq (by omega)] at hv
  split_ifs at hv
  have hv := (Except.ok.inj hv).symm
  subst hv
  refine ⟨m, bridgeAt p.2 q.2 (sig * Real.sqrt ((q.1 - p.1) / 365.25)) m z, by omega, bridgeAt_zero _ _ _ _ _, bridgeAt_last _ _ _ (by omega) _,
    ?_, ?_, ?_⟩
  · rw [List.zip_map', hmc]
  · rw [le_div_iff₀ (by linarith)]
    have e : q.1 - p.1 = (q.1 - p.1) / period * period := by field_simp
    rw [e]
    have : 3 / 4 * (m : ℝ) ≤ (q.1 - p.1) / period := by
      rcases Nat.lt_or_ge m 2 with h2 | h2
      · have : m = 1 := by omega
        rw [this]; push_cast; linarith
      · have : (2 : ℝ) ≤ m := by exact_mod_cast h2
        linarith
    nlinarith
  · rw [div_le_iff₀ (by linarith)]
    have e : q.1 - p.1 = (q.1 - p.1) / period * period := by field_simp
    rw [e]
    have : (q.1 - p.1) / period ≤ 3 / 2 * (m : ℝ) := by linarith
    nlinarith

theorem segments_ok {sig period : ℝ} (hp : 0 < period) (p : ℝ × ℝ) (l : List (ℝ × ℝ))
    (hgap : List.IsChain (fun x y => period ≤ y.1 - x.1) (p :: l)) {z : ℕ → ℕ → ℝ} {r : List (ℝ × ℝ)}
    (h : segments sig period (p :: l) z = .ok r) :
    (r ++ (p :: l).getLast?.toList).head? = some p ∧ (∀ x ∈ p :: l, x ∈ r ++ (p :: l).getLast?.toList) ∧
      List.IsChain (fun x y => 3 / 4 * period ≤ y.1 - x.1 ∧ y.1 - x.1 ≤ 3 / 2 * period) (r ++ (p :: l).getLast?.toList) := by
  induction l generalizing p z r with
  | nil =>
    have h := Except.ok.inj h
    subst h
    refine ⟨rfl, ?_, List.isChain_singleton _⟩
    intro x hx
    exact hx
  | cons q l ih =>
    rw [List.isChain_cons_cons] at hgap
    unfold segments at h
    rw [Py.bind_eq_ok] at h
    obtain ⟨s, hs, h⟩ := h
    rw [Py.bind_eq_ok] at h
    obtain ⟨r', hr', h⟩ := h
    have h := (Except.ok.inj h).symm
    subst h
    obtain ⟨n, v, hn, v0, vn, rfl, g1, g2⟩ := segment_ok hp hgap.1 hs
    obtain ⟨i1, i2, i3⟩ := ih q hgap.2 hr'
    obtain ⟨k, rfl⟩ := Nat.exists_eq_succ_of_ne_zero hn
    rw [List.getLast?_cons_cons, List.append_assoc, List.range_succ, List.map_append, List.map_singleton, List.dropLast_concat]
    refine ⟨?_, ?_, ?_⟩
    · rw [List.range_succ_eq_map, List.map_cons, List.cons_append, List.head?_cons, v0]
      simp
    · intro x hx
      rcases List.mem_cons.mp hx with rfl | hx
      · apply List.mem_append_left
        rw [List.range_succ_eq_map, List.map_cons, v0]
        simp
      · exact List.mem_append_right _ (i2 x hx)
    · rw [List.isChain_append]
      refine ⟨?_, i3, ?_⟩
      · rw [List.isChain_map, List.isChain_range_succ]
        intro m _
        push_cast
        have : p.1 + ((m : ℝ) + 1) * ((q.1 - p.1) / ((k : ℝ) + 1)) - (p.1 + m * ((q.1 - p.1) / ((k : ℝ) + 1))) = (q.1 - p.1) / ((k : ℝ) + 1) := by
          ring
        push_cast at g1 g2
        rw [this]
        exact ⟨g1, g2⟩
      · intro x hx y hy
        rw [i1] at hy
        obtain rfl := Option.some.inj hy
        rw [List.range_succ, List.map_append, List.map_singleton, List.getLast?_append, List.getLast?_singleton, Option.some_or] at hx
        obtain rfl := Option.some.inj hx
        push_cast at g1 g2 ⊢
        have hk : ((k : ℝ) + 1) ≠ 0 := by positivity
        have : q.1 - (p.1 + (k : ℝ) * ((q.1 - p.1) / ((k : ℝ) + 1))) = (q.1 - p.1) / ((k : ℝ) + 1) := by
          field_simp
          ring
        rw [this]
        exact ⟨g1, g2⟩

/-- **C101** If the period is not longer than any gap of the path, the interpolated path goes through all points of the path at their times, from the
first to the last, and its steps are between three quarters and three halves of the period: for any draws and any volatility, given or estimated. -/
theorem C101_through_partial {path : List (ℝ × ℝ)} {period : ℝ} (hp : 0 < period)
    (hgap : List.IsChain (fun x y => period ≤ y.1 - x.1) path) {z : ℕ → ℕ → ℝ} {sig sigfctr : Option ℝ} {out : List (ℝ × ℝ)}
    (h : interpolate path period z sig sigfctr = .ok out) :
    (∀ x ∈ path, x ∈ out) ∧ out.head? = path.head? ∧ out.getLast? = path.getLast? ∧
      List.IsChain (fun x y => 3 / 4 * period ≤ y.1 - x.1 ∧ y.1 - x.1 ≤ 3 / 2 * period) out := by
  unfold interpolate at h
  rw [if_neg (by simp), Py.bind_eq_ok] at h
  obtain ⟨s, _, h⟩ := h
  cases path with
  | nil => cases h
  | cons p l =>
    split_ifs at h
    rw [Py.bind_eq_ok] at h
    obtain ⟨r, hr, h⟩ := h
    have h := (Except.ok.inj h).symm
    subst h
    obtain ⟨i1, i2, i3⟩ := segments_ok hp p l hgap hr
    refine ⟨i2, i1, ?_, i3⟩
    obtain ⟨x, hx⟩ : ∃ x, (p :: l).getLast? = some x := ⟨_, List.getLast?_eq_getLast_of_ne_nil (List.cons_ne_nil p l)⟩
    rw [hx, Option.toList_some, List.getLast?_append, List.getLast?_singleton, Option.some_or]

/-- **C101** fails for longer periods: a point that is followed within less than a period is dropped, and if all are, only the last point of the path
remains, although the segments are announced to be returned as they are. -/
theorem C101_dropped_violated (path : List (ℝ × ℝ)) (h2 : 2 ≤ path.length) {period : ℝ}
    (hgap : List.IsChain (fun x y => y.1 - x.1 < period) path) (z : ℕ → ℕ → ℝ) (sig : ℝ) (sigfctr : Option ℝ) :
    interpolate path period z (some sig) sigfctr = .ok path.getLast?.toList := by
  have hs : ∀ z, segments sig period path z = .ok [] := by
    induction path with
    | nil => intro z; rfl
    | cons p l ih =>
      intro z
      cases l with
      | nil => rfl
      | cons q l =>
        rw [List.isChain_cons_cons] at hgap
        unfold segments
        have : segment p q sig period (z 0) = .ok [p] := by
          unfold segment
          dsimp only
          rw [if_pos hgap.1]
        rw [this, Py.ok_bind]
        have : ∀ z', segments sig period (q :: l) z' = .ok [] := by
          cases l with
          | nil => intro z'; rfl
          | cons r l => exact ih (by simp) hgap.2
        rw [this, Py.ok_bind]
        rfl
  unfold interpolate
  rw [if_neg (by simp), show sigma path (some sig) sigfctr = .ok sig from rfl, Py.ok_bind, if_neg (by omega), hs, Py.ok_bind]
  rfl

/-- **C101** A path of positive prices whose gaps are not shorter than the period can be interpolated with any volatility that is not negative. -/
theorem C101_runs {path : List (ℝ × ℝ)} (h2 : 2 ≤ path.length) {period : ℝ} (hp : 0 < period)
    (hgap : List.IsChain (fun x y => period ≤ y.1 - x.1) path) (hpos : ∀ x ∈ path, 0 < x.2) (z : ℕ → ℕ → ℝ) {sig : ℝ} (hs : 0 ≤ sig)
    (sigfctr : Option ℝ) : ∃ out, interpolate path period z (some sig) sigfctr = .ok out := by
  have key : ∀ z, ∃ r, segments sig period path z = .ok r := by
    clear h2
    induction path with
    | nil => intro z; exact ⟨_, rfl⟩
    | cons p l ih =>
      intro z
      cases l with
      | nil => exact ⟨_, rfl⟩
      | cons q l =>
        rw [List.isChain_cons_cons] at hgap
        obtain ⟨r, hr⟩ := ih hgap.2 (fun x hx => hpos x (List.mem_cons_of_mem _ hx)) fun i => z (i + 1)
        have hpp := hpos p List.mem_cons_self
        have hqq := hpos q (by simp)
        have hx : 1 ≤ (q.1 - p.1) / period := (one_le_div hp).mpr hgap.1
        have herr := abs_le.mp (roundHE_err ((q.1 - p.1) / period))
        have hn : 1 ≤ roundHE ((q.1 - p.1) / period) := by
          by_contra hc
          have : (roundHE ((q.1 - p.1) / period) : ℝ) ≤ 0 := by exact_mod_cast (by omega)
          linarith [herr.1]
        obtain ⟨vals, hv⟩ := (C101_bridge p.2 q.2 (sig * Real.sqrt ((q.1 - p.1) / 365.25))
          (n := (roundHE ((q.1 - p.1) / period)).toNat) (by omega) (z 0)).2.mpr ⟨by positivity, hqq.ne'⟩
        have : ∃ s, segment p q sig period (z 0) = .ok s := by
          unfold segment
          dsimp only
          rw [if_neg (not_lt.mpr hgap.1), if_neg hp.ne', if_neg (by omega), if_neg (by
            rintro (h | h)
            · linarith
            · omega), hv, Py.ok_bind]
          exact ⟨_, rfl⟩
        obtain ⟨s, hs⟩ := this
        unfold segments
        rw [hs, Py.ok_bind, hr, Py.ok_bind]
        exact ⟨_, rfl⟩
  obtain ⟨r, hr⟩ := key z
  unfold interpolate
  rw [if_neg (by simp), show sigma path (some sig) sigfctr = .ok sig from rfl, Py.ok_bind, if_neg (by omega), hr, Py.ok_bind]
  exact ⟨_, rfl⟩

/-- **C101** Switched off, it returns the path. -/
theorem C101_off (path : List (ℝ × ℝ)) (period : ℝ) (z : ℕ → ℕ → ℝ) (sig sigfctr : Option ℝ) :
    interpolate path period z sig sigfctr false = .ok path := rfl

/-! ## Volatility -/

theorem diffs_map_mul (c : ℝ) (l : List ℝ) : diffs (l.map (c * ·)) = (diffs l).map (c * ·) := by
  unfold diffs
  rw [← List.map_tail, List.zipWith_map, List.map_zipWith]
  congr 1
  funext x y
  ring

theorem diffs_map_add (c : ℝ) (l : List ℝ) : diffs (l.map (c + ·)) = diffs l := by
  unfold diffs
  rw [← List.map_tail, List.zipWith_map]
  congr 1
  funext x y
  ring

theorem sum_map_mul (c : ℝ) (l : List ℝ) : (l.map (c * ·)).sum = c * l.sum := by
  induction l with
  | nil => simp
  | cons x l ih => rw [List.map_cons, List.sum_cons, ih, List.sum_cons]; ring

theorem std_map_mul (c : ℝ) (l : List ℝ) : std (l.map (c * ·)) = |c| * std l := by
  unfold std
  rw [List.map_map, List.length_map, sum_map_mul]
  have : ((fun x => (x - c * l.sum / l.length) ^ 2) ∘ (c * ·)) = fun x => c ^ 2 * (x - l.sum / l.length) ^ 2 := by
    funext x
    simp only [Function.comp_apply]
    ring
  rw [this]
  have : (l.map fun x => c ^ 2 * (x - l.sum / l.length) ^ 2) = (l.map fun x => (x - l.sum / l.length) ^ 2).map (c ^ 2 * ·) := by
    rw [List.map_map]; rfl
  rw [this, sum_map_mul, mul_div_assoc, Real.sqrt_mul (sq_nonneg c), Real.sqrt_sq_eq_abs]

theorem std_zero (l : List ℝ) : std l = 0 ↔ ∃ c, ∀ x ∈ l, x = c := by
  unfold std
  by_cases hne : l = []
  · subst hne; simp
  have hlen : (0 : ℝ) < l.length := by exact_mod_cast List.length_pos_of_ne_nil hne
  have hnn : ∀ y ∈ l.map fun x => (x - l.sum / l.length) ^ 2, 0 ≤ y := by
    intro y hy
    obtain ⟨x, _, rfl⟩ := List.mem_map.mp hy
    positivity
  have hs := List.sum_nonneg hnn
  rw [Real.sqrt_eq_zero (by positivity), div_eq_zero_iff, or_iff_left hlen.ne']
  constructor
  · intro h
    refine ⟨l.sum / l.length, fun x hx => ?_⟩
    have := (List.all_zero_of_le_zero_le_of_sum_eq_zero hnn h) (List.mem_map.mpr ⟨x, hx, rfl⟩)
    have := pow_eq_zero_iff (two_ne_zero) |>.mp this
    linarith
  · rintro ⟨c, hc⟩
    have hr : l = List.replicate l.length c := List.eq_replicate_iff.mpr ⟨rfl, hc⟩
    have hsum : l.sum = l.length * c := by
      conv_lhs => rw [hr]
      rw [List.sum_replicate, nsmul_eq_mul]
    apply List.sum_eq_zero
    intro y hy
    obtain ⟨x, hx, rfl⟩ := List.mem_map.mp hy
    rw [hc x hx, hsum]
    field_simp
    ring

theorem diffs_const (d : ℝ) (l : List ℝ) : (∀ x ∈ diffs l, x = d) ↔ List.IsChain (fun x y => y - x = d) l := by
  induction l with
  | nil => simp [diffs]
  | cons a l ih =>
    cases l with
    | nil => simp [diffs]
    | cons b l =>
      have : diffs (a :: b :: l) = (b - a) :: diffs (b :: l) := rfl
      rw [this, List.forall_mem_cons, ih, List.isChain_cons_cons]

/-- **C101** The estimated volatilities do not depend on the unit of the price, except that the first is in this unit; in a time that is `t` times as
long they are smaller by the root of `t`. -/
theorem C101_vol_units {path : List ℝ} {period : ℝ} {v : ℝ × ℝ} (h : estimateVolNp path period = .ok v) {c t : ℝ} (hc : 0 < c) (ht : 0 < t) :
    estimateVolNp (path.map (c * ·)) (t * period) = .ok (c * v.1 / Real.sqrt t, v.2 / Real.sqrt t) := by
  unfold estimateVolNp at h ⊢
  dsimp only at h ⊢
  rw [List.length_map]
  split_ifs at h with h1 h2 h3 h4
  have h := (Except.ok.inj h).symm
  subst h
  have hdt : 0 < period / ((path.length : ℝ) - 1) := not_le.mp h3
  have e : t * period / ((path.length : ℝ) - 1) = t * (period / ((path.length : ℝ) - 1)) := by ring
  have hany : ¬ ((path.map (c * ·)).any (· ≤ 0) = true) := by
    intro ha
    rw [List.any_map, List.any_eq_true] at ha
    obtain ⟨x, hx, hx'⟩ := ha
    apply h4
    rw [List.any_eq_true]
    refine ⟨x, hx, ?_⟩
    simp only [Function.comp_apply, decide_eq_true_eq] at hx' ⊢
    by_contra hc'
    exact absurd hx' (not_le.mpr (mul_pos hc (not_le.mp hc')))
  have hlog : (path.map (c * ·)).map Real.log = (path.map Real.log).map (Real.log c + ·) := by
    rw [List.map_map, List.map_map]
    apply List.map_congr_left
    intro x hx
    simp only [Function.comp_apply]
    refine Real.log_mul hc.ne' ?_
    rintro rfl
    exact h4 (List.any_eq_true.mpr ⟨0, hx, by simp⟩)
  rw [if_neg h1, if_neg h2, if_neg (by rw [e]; exact not_le.mpr (mul_pos ht hdt)), if_neg hany, hlog, diffs_map_add, diffs_map_mul, std_map_mul,
    abs_of_pos hc, e, Real.sqrt_mul ht.le]
  have a1 := (Real.sqrt_pos.mpr ht).ne'
  have a2 := (Real.sqrt_pos.mpr hdt).ne'
  congr 2
  · field_simp
  · field_simp

/-- **C101** The first volatility is zero exactly if all steps are equal, the second exactly if all ratios are; neither is negative. -/
theorem C101_vol_zero {path : List ℝ} {period : ℝ} {v : ℝ × ℝ} (h : estimateVolNp path period = .ok v) : 0 ≤ v.1 ∧ 0 ≤ v.2 ∧
    (v.1 = 0 ↔ ∃ d, List.IsChain (fun x y => y - x = d) path) ∧ (v.2 = 0 ↔ ∃ r, List.IsChain (fun x y => y / x = r) path) := by
  unfold estimateVolNp at h
  dsimp only at h
  split_ifs at h with h1 h2 h3 h4
  have h := (Except.ok.inj h).symm
  subst h
  have hdt := (Real.sqrt_pos.mpr (not_le.mp h3)).ne'
  have hpos : ∀ x ∈ path, 0 < x := by
    intro x hx
    by_contra hc
    exact h4 (List.any_eq_true.mpr ⟨x, hx, by simpa using hc⟩)
  refine ⟨div_nonneg (Real.sqrt_nonneg _) (Real.sqrt_nonneg _), div_nonneg (Real.sqrt_nonneg _) (Real.sqrt_nonneg _), ?_, ?_⟩
  · rw [div_eq_zero_iff, or_iff_left hdt, std_zero]
    exact exists_congr fun d => diffs_const d path
  · rw [div_eq_zero_iff, or_iff_left hdt, std_zero]
    have step : ∀ d, List.IsChain (fun x y => Real.log y - Real.log x = d) path ↔ List.IsChain (fun x y => y / x = Real.exp d) path := by
      intro d
      clear h h1 h2 h3 h4 hdt
      induction path with
      | nil => simp
      | cons a l ih =>
        cases l with
        | nil => simp
        | cons b l =>
          rw [List.isChain_cons_cons, List.isChain_cons_cons, ih fun x hx => hpos x (List.mem_cons_of_mem _ hx)]
          have ha := hpos a List.mem_cons_self
          have hb := hpos b (by simp)
          refine and_congr ?_ Iff.rfl
          rw [← Real.log_div hb.ne' ha.ne', ← Real.log_exp d, Real.exp_log (Real.exp_pos d)]
          exact ⟨fun h => Real.log_injOn_pos (Set.mem_Ioi.mpr (div_pos hb ha)) (Set.mem_Ioi.mpr (Real.exp_pos _)) h, fun h => by rw [h]⟩
    constructor
    · rintro ⟨d, hd⟩
      rw [diffs_const, List.isChain_map, step] at hd
      exact ⟨_, hd⟩
    · rintro ⟨r, hr⟩
      by_cases hr0 : 0 < r
      · refine ⟨Real.log r, ?_⟩
        rw [diffs_const, List.isChain_map, step, Real.exp_log hr0]
        exact hr
      · cases path with
        | nil => exact ⟨0, by simp [diffs]⟩
        | cons a l =>
          cases l with
          | nil => exact ⟨0, by simp [diffs]⟩
          | cons b l =>
            rw [List.isChain_cons_cons] at hr
            exact absurd (hr.1 ▸ div_pos (hpos b (by simp)) (hpos a List.mem_cons_self)) hr0

/-- **C101** However many steps are asked for, a bridge begins at the first value and ends at the second. -/
theorem C101_ends (a b sig : ℝ) (n : ℕ) (z : ℕ → ℝ) (l : List ℝ) (h : gaussianBridge a b sig n z = .ok l) :
    2 ≤ l.length ∧ l.head? = some a ∧ l.getLast? = some b := by
  by_cases hn : n = 0
  · unfold gaussianBridge at h
    rw [if_pos hn] at h
    cases h
    exact ⟨le_rfl, rfl, rfl⟩
  · obtain ⟨h1, h2, h3, -⟩ := (C101_bridge a b sig hn z).1 l h
    exact ⟨by omega, h2, h3⟩

/-- **C101** Without a volatility the interpolation uses the one of the logarithms of the path itself, per year of 365 and a quarter days, times the
given factor. -/
theorem C101_default (p q : ℝ × ℝ) (path : List (ℝ × ℝ)) (period : ℝ) (z : ℕ → ℕ → ℝ) (f : Option ℝ) (v : ℝ × ℝ)
    (h : estimateVolNp ((p :: path ++ [q]).map Prod.snd) ((q.1 - p.1) * 4 / 1461) = .ok v) (f0 : Option ℝ) :
    interpolate (p :: path ++ [q]) period z none f = interpolate (p :: path ++ [q]) period z (some (v.2 * f.getD 1)) f0 := by
  have hy : (q.1 - p.1) * 4 / 1461 = (q.1 - p.1) / 365.25 := by ring
  have he : sigma (p :: path ++ [q]) none f = .ok (v.2 * f.getD 1) := by
    unfold sigma estimateVol
    have hl : (p :: path ++ [q]).getLast? = some q := List.getLast?_concat
    have hh : (p :: path ++ [q]).head? = some p := rfl
    rw [hl, hh]
    dsimp only
    rw [← hy, h]
    rfl
  unfold interpolate
  rw [he]
  rfl

/-! ## Examples -/

/-- Up by a factor of `e` and down again, each in one year: the volatility is 1. -/
example (z : ℕ → ℕ → ℝ) : interpolate [(0, 1), (365.25, Real.exp 1), (730.5, 1)] 10 z none (some (1 / 2)) =
    interpolate [(0, 1), (365.25, Real.exp 1), (730.5, 1)] 10 z (some (1 / 2)) := by
  have e0 := Real.exp_pos 1
  have h : ∃ v, estimateVolNp [1, Real.exp 1, 1] 2 = .ok v ∧ v.2 = 1 := by
    unfold estimateVolNp
    rw [if_neg (by simp), if_neg (by simp)]
    dsimp only
    rw [if_neg (by norm_num), if_neg (by simp [e0])]
    refine ⟨_, rfl, ?_⟩
    norm_num [diffs, std]
  obtain ⟨v, hv, h1⟩ := h
  have := C101_default (0, 1) (730.5, 1) [(365.25, Real.exp 1)] 10 z (some (1 / 2)) v (by norm_num at hv ⊢; exact hv) none
  rw [h1] at this
  simpa using this

/-- Two days at a period of half a day, without volatility. -/
example : gaussianBridge 100 120 0 4 (fun _ => 3) = .ok [100, 105, 110, 115, 120] := by
  rw [C101_straight 100 (by norm_num) (by norm_num)]
  norm_num [List.range_succ]

example (z : ℕ → ℕ → ℝ) : interpolate [(0, 100), (1, 110), (2, 90)] 7 z (some (1 / 2)) = .ok [(2, 90)] :=
  C101_dropped_violated _ (by simp) (by norm_num) z _ none

example (z : ℕ → ℕ → ℝ) : ∃ out, interpolate [(0, 100), (1, 110), (3, 90)] (1 / 24) z (some (1 / 2)) = .ok out :=
  C101_runs (by simp) (by norm_num) (by norm_num) (by norm_num) z (by norm_num) none

/-- Doubling every day has no second volatility. -/
example : ∃ v, estimateVolNp [1, 2, 4, 8] 3 = .ok v ∧ v.2 = 0 ∧ v.1 ≠ 0 := by
  have h : ∃ v, estimateVolNp [1, 2, 4, 8] 3 = .ok v := by
    unfold estimateVolNp
    norm_num
  obtain ⟨v, hv⟩ := h
  refine ⟨v, hv, (C101_vol_zero hv).2.2.2.mpr ⟨2, by norm_num⟩, ?_⟩
  rw [ne_eq, (C101_vol_zero hv).2.2.1]
  rintro ⟨d, hd⟩
  norm_num at hd
  linarith [hd.1, hd.2.1]

end Carbon.PathInt
