import Mathlib.Analysis.Calculus.Deriv.Add
import Mathlib.Analysis.Calculus.Deriv.Inv
import Mathlib.Analysis.Calculus.Deriv.Mul
import Verif.Carbon.ExactRouterLemmas
import Verif.Carbon.OrderLemmas

/-!
# C26, C69, C70: the exact router

C26: the split formula equalises marginal prices and adds up. C69: matching by target delivers the amount at the least
possible cost. C70: matching by source spends the amount for the greatest possible output.
-/

namespace Carbon.ExactRouter

open CarbonPair (pyDiv)
open UICurve (pyDiv_ok)

/-! ## Parameters of well-formed orders -/

/-- Reading a well-formed order gives well-formed parameters. -/
theorem par_ok {c : Curve ℝ} (h : c.Good) : ∃ p, par c = .ok p ∧ Pos p ∧ p.y = c.y ∧
    ∀ v, -c.y ≤ v → c.dxdy v = .ok (charge p v) := by
  have hB := h.hB
  have hS := h.hS
  have hy := h.hy0
  obtain ⟨n, hn0, hn1, hn⟩ : ∃ n, 0 < n ∧ n < 1 ∧ c.n = .ok n := by
    rcases hS.eq_or_lt with h0 | h0
    · refine ⟨1 / 10 ^ 18, by norm_num, by norm_num, ?_⟩
      unfold Curve.n
      rw [if_pos (h.adj_iff.mpr h0.symm)]
    · obtain ⟨g, hg0, hg1, e, _⟩ := h.n_ok h0
      exact ⟨1 - g, by linarith, by linarith, e⟩
  have h2 : 0 < 2 - n := by linarith
  have h1 : 0 < 1 - n := by linarith
  have hp : 0 < c.B * (c.B + c.S) := by positivity
  have hz1 : 0 < c.yint1 := lt_of_lt_of_le one_pos (le_max_right _ _)
  have ex0 := Curve.x0_of hn h.p_ok (by positivity)
  have ey0 := Curve.y0_of hn h2.ne'
  set x0 := c.yint1 * (1 - n) / (c.B * (c.B + c.S) * (2 - n)) with hx0
  set y0 := c.yint1 * (1 - n) / (2 - n) with hy0
  have px0 : 0 < x0 := by positivity
  have py0 : 0 < y0 := by positivity
  have hY : 0 < n * c.y + y0 * (1 - n) := by positivity
  have ex : c.x = .ok (x0 * (n * c.y - c.y + y0 * (2 - n)) / (n * c.y + y0 * (1 - n))) := by
    unfold Curve.x
    rw [ex0, ey0, hn]
    simp only [Py.ok_bind]
    exact pyDiv_ok hY.ne'
  refine ⟨⟨n, x0, y0, c.y, x0 * (n * c.y - c.y + y0 * (2 - n)) / (n * c.y + y0 * (1 - n))⟩, ?_, ⟨hn0, hn1, px0, py0, hy, rfl⟩, rfl, ?_⟩
  · unfold par
    rw [hn, ex0, ey0, ex]
    rfl
  · intro v hv
    unfold Curve.dxdy
    rw [ex0, ey0, hn]
    simp only [Py.ok_bind]
    have : 0 < n * (c.y + v) + y0 * (1 - n) := by
      have : 0 ≤ n * (c.y + v) := mul_nonneg hn0.le (by linarith)
      have : 0 < y0 * (1 - n) := by positivity
      linarith
    rw [pyDiv_ok (mul_pos hY this).ne']
    congr 1
    unfold charge Par.Y
    simp only
    congr 2
    ring

/-! ## C26 -/

/-- The marginal price of an order is the derivative of what it charges. -/
theorem charge_deriv {p : Par ℝ} (h : Pos p) {v : ℝ} (hv : 0 < p.Y + p.n * v) :
    HasDerivAt (charge p) (-(p.r ^ 2 / (p.Y + p.n * v) ^ 2)) v := by
  have hY := h.Y_pos
  have hn := h.hn
  have h1 : HasDerivAt (fun v => p.Y + p.n * v) p.n v := by
    simpa using ((hasDerivAt_id v).const_mul p.n).const_add p.Y
  have h2 := ((h1.inv hv.ne').sub_const (1 / p.Y)).const_mul (p.r ^ 2 / p.n)
  have h3 : HasDerivAt (charge p) (p.r ^ 2 / p.n * (-p.n / (p.Y + p.n * v) ^ 2)) v := by
    refine h2.congr_of_eventuallyEq ?_
    have : ∀ᶠ w in nhds v, 0 < p.Y + p.n * w :=
      (h1.continuousAt).eventually (lt_mem_nhds hv)
    filter_upwards [this] with w hw
    rw [charge_eq h hw]
    simp [one_div]
  convert h3 using 1
  field_simp

/-- **C26** The amounts by target of a set of orders add up to the request, and whenever the request does not exceed what
the orders hold they leave all these orders at the same marginal price `m`. -/
theorem C26_target (o : Nat → Par ℝ) (s : List Nat) (hs : s.Nodup) (hne : s ≠ []) (hp : ∀ i ∈ s, Pos (o i)) (amt : ℝ) :
    ∃ v : Nat → ℝ, (∀ i ∈ s, amtByTarget o i amt s = .ok (v i)) ∧ (s.map v).sum = amt ∧
      (-(s.map fun i => (o i).y).sum ≤ amt →
        ∃ m, 0 < m ∧ ∀ i ∈ s, HasDerivAt (charge (o i)) (-m) (v i)) := by
  refine ⟨fun i => lvl (o i) (levelT o s amt), fun i hi => amtByTarget_eq o hs hp amt hi, levelT_sum o hne hp amt, ?_⟩
  intro hle
  have hl : 0 < levelT o s amt := by
    unfold levelT
    apply div_pos _ (sum_r_pos hne hp)
    have : (s.map fun i => (o i).y).sum < (s.map fun i => (o i).Y / (o i).n).sum := by
      apply sum_lt hne
      intro i hi
      have h := hp i hi
      rw [lt_div_iff₀ h.hn]
      unfold Par.Y
      nlinarith [h.hn, h.hn1, h.hy0, mul_pos h.hy0 (sub_pos.mpr h.hn1)]
    linarith
  refine ⟨1 / levelT o s amt ^ 2, by positivity, ?_⟩
  intro i hi
  have h := hp i hi
  have hr := h.r_pos
  have e := lvl_spec h (levelT o s amt)
  have := charge_deriv h (v := lvl (o i) (levelT o s amt)) (by rw [e]; positivity)
  rw [e] at this
  convert this using 2
  field_simp

/-- **C26** The same by source: the charges add up to the amount spent. -/
theorem C26_source (o : Nat → Par ℝ) (s : List Nat) (hs : s.Nodup) (hne : s ≠ []) (hp : ∀ i ∈ s, Pos (o i)) (amt : ℝ)
    (hamt : 0 ≤ amt) :
    ∃ v : Nat → ℝ, (∀ i ∈ s, amtBySrc o i amt s = .ok (v i)) ∧ (s.map fun i => charge (o i) (v i)).sum = amt ∧
      ∃ m, 0 < m ∧ ∀ i ∈ s, HasDerivAt (charge (o i)) (-m) (v i) := by
  obtain ⟨hl, hsum⟩ := levelS_sum o hne hp hamt
  refine ⟨fun i => lvl (o i) (1 / levelS o s amt), fun i hi => amtBySrc_eq o hs hp hamt hi, hsum, levelS o s amt ^ 2,
    by positivity, ?_⟩
  intro i hi
  have h := hp i hi
  have hr := h.r_pos
  have e := lvl_spec h (1 / levelS o s amt)
  have := charge_deriv h (v := lvl (o i) (1 / levelS o s amt)) (by rw [e]; positivity)
  rw [e] at this
  convert this using 2
  field_simp

/-! ## Optimality of a filled split -/

/-- A split of a trade over some positions: distinct, each sold a positive part of its holdings. -/
def IsSplit (o : Nat → Par ℝ) (avail : List Nat) (res : List (Nat × ℝ)) : Prop :=
  (res.map Prod.fst).Nodup ∧ ∀ p ∈ res, p.1 ∈ avail ∧ -(o p.1).y ≤ p.2 ∧ p.2 < 0

/-- Any other way to sell from the same orders. -/
def Feasible (o : Nat → Par ℝ) (avail : List Nat) (w : Nat → ℝ) : Prop := ∀ i ∈ avail, -(o i).y ≤ w i ∧ w i ≤ 0

/-- What a split sells at a position. -/
def amountAt (res : List (Nat × ℝ)) (i : Nat) : ℝ := ((res.filter fun p => decide (p.1 = i)).map Prod.snd).sum

/-- At the price `m` no order of the split would be better off with another amount: the charge for any other amount differs by at least as much
as the amounts do at this price. -/
def Priced (o : Nat → Par ℝ) (avail : List Nat) (v : Nat → ℝ) (m : ℝ) : Prop :=
  ∀ i ∈ avail, ∀ u, -(o i).y ≤ u → u ≤ 0 → -m * (u - v i) ≤ charge (o i) u - charge (o i) (v i)

theorem amountAt_map {K : List Nat} (hK : K.Nodup) (v : Nat → ℝ) (i : Nat) :
    amountAt ((K.map fun j => (j, v j)).filter fun p => decide (p.2 ≠ 0)) i = if i ∈ K then v i else 0 := by
  unfold amountAt
  induction K with
  | nil => simp
  | cons a K ih =>
    obtain ⟨ha, hK⟩ := List.nodup_cons.mp hK
    have ih := ih hK
    rw [List.map_cons]
    by_cases hv : v a = 0
    · rw [List.filter_cons_of_neg (by simpa using hv), ih]
      by_cases hi : i = a
      · subst hi
        rw [if_neg ha, if_pos List.mem_cons_self, hv]
      · by_cases h : i ∈ K
        · rw [if_pos h, if_pos (List.mem_cons_of_mem _ h)]
        · rw [if_neg h, if_neg (by simp [hi, h])]
    · rw [List.filter_cons_of_pos (by simpa using hv)]
      by_cases hi : i = a
      · subst hi
        rw [List.filter_cons_of_pos (by simp), List.map_cons, List.sum_cons, ih, if_neg ha, if_pos List.mem_cons_self, add_zero]
      · rw [List.filter_cons_of_neg (by simpa using Ne.symm hi), ih]
        by_cases h : i ∈ K
        · rw [if_pos h, if_pos (List.mem_cons_of_mem _ h)]
        · rw [if_neg h, if_neg (by simp [hi, h])]

/-- The supporting line of the charge at an end point `V` of steepness at most / at least `1/l²`. -/
private theorem support {p : Par ℝ} (h : Pos p) {l v w : ℝ} (hl : 0 < l) (hv : -p.y ≤ v) (hw : -p.y ≤ w)
    (hcase : lvl p l = v ∨ (lvl p l < v ∧ v ≤ w) ∨ (v < lvl p l ∧ w ≤ v)) :
    -(1 / l ^ 2) * (w - v) ≤ charge p w - charge p v := by
  have hV := h.Y_end hv
  have hW := h.Y_end hw
  have hn := h.hn
  have hr := h.r_pos
  have hle := lvl_spec h l
  rw [charge_eq h hV, charge_eq h hW]
  set V := p.Y + p.n * v with hVd
  set W := p.Y + p.n * w with hWd
  have e : w - v = (W - V) / p.n := by rw [hVd, hWd]; field_simp; ring
  rw [e]
  have hid : p.r ^ 2 / p.n * (1 / W - 1 / p.Y) - p.r ^ 2 / p.n * (1 / V - 1 / p.Y) =
      (p.r ^ 2 * (1 / W - 1 / V)) / p.n := by ring
  rw [hid, ← mul_div_assoc]
  apply div_le_div_of_nonneg_right _ hn.le
  -- tangent inequality at `V`
  have htan : -(p.r ^ 2 / V ^ 2) * (W - V) ≤ p.r ^ 2 * (1 / W - 1 / V) := by
    have : p.r ^ 2 * (1 / W - 1 / V) - -(p.r ^ 2 / V ^ 2) * (W - V) = p.r ^ 2 * (W - V) ^ 2 / (W * V ^ 2) := by
      field_simp; ring
    have h0 : 0 ≤ p.r ^ 2 * (W - V) ^ 2 / (W * V ^ 2) := by positivity
    linarith
  refine le_trans ?_ htan
  have hlr : 0 < l * p.r := by positivity
  rcases hcase with hc | ⟨hc, hvw⟩ | ⟨hc, hvw⟩
  · have : V = l * p.r := by rw [hVd, ← hc, hle]
    rw [this]
    apply le_of_eq
    field_simp
  · have h1 : l * p.r ≤ V := by
      rw [← hle, hVd]; have := mul_lt_mul_of_pos_left hc hn; linarith
    have h2 : V ≤ W := by rw [hVd, hWd]; have := mul_le_mul_of_nonneg_left hvw hn.le; linarith
    have h3 : p.r ^ 2 / V ^ 2 ≤ 1 / l ^ 2 := by
      rw [div_le_div_iff₀ (by positivity) (by positivity), one_mul]
      nlinarith [mul_le_mul h1 h1 hlr.le hV.le]
    nlinarith
  · have h1 : V ≤ l * p.r := by
      rw [← hle, hVd]; have := mul_lt_mul_of_pos_left hc hn; linarith
    have h2 : W ≤ V := by rw [hVd, hWd]; have := mul_le_mul_of_nonneg_left hvw hn.le; linarith
    have h3 : 1 / l ^ 2 ≤ p.r ^ 2 / V ^ 2 := by
      rw [div_le_div_iff₀ (by positivity) (by positivity), one_mul]
      nlinarith [mul_le_mul h1 h1 hV.le hlr.le]
    nlinarith

/-- Dropping the terms that vanish. -/
theorem sum_support {L K : List Nat} (hL : L.Nodup) (hK : K.Nodup) (hsub : ∀ i ∈ K, i ∈ L) {g : Nat → ℝ}
    (h0 : ∀ i ∈ L, i ∉ K → g i = 0) : (L.map g).sum = (K.map g).sum := by
  rw [sum_split (fun i => decide (i ∈ K)) g L]
  have hp : (L.filter fun i => decide (i ∈ K)).Perm K := by
    rw [List.perm_ext_iff_of_nodup (hL.filter _) hK]
    intro i
    simp only [List.mem_filter, decide_eq_true_eq]
    exact ⟨fun h => h.2, fun h => ⟨hsub i h, h⟩⟩
  rw [(hp.map g).sum_eq]
  have : ((L.filter fun i => !decide (i ∈ K)).map g).sum = 0 := by
    rw [sum_congr (g := fun _ => (0 : ℝ))]
    · simp
    · intro i hi
      obtain ⟨h1, h2⟩ := List.mem_filter.mp hi
      exact h0 i h1 (by simpa using h2)
  rw [this, add_zero]

private theorem sum_filter_ne (res : List (Nat × ℝ)) (g : Nat × ℝ → ℝ) (h : ∀ p ∈ res, p.2 = 0 → g p = 0) :
    ((res.filter fun p => decide (p.2 ≠ 0)).map g).sum = (res.map g).sum := by
  rw [sum_split (fun p : Nat × ℝ => decide (p.2 ≠ 0)) g res]
  have : ((res.filter fun p => !decide (p.2 ≠ 0)).map g).sum = 0 := by
    rw [sum_congr (g := fun _ => (0 : ℝ))]
    · simp
    · intro p hp
      obtain ⟨h1, h2⟩ := List.mem_filter.mp hp
      exact h p h1 (by simpa using h2)
  rw [this, add_zero]

/-- A split at a common level is supported by the line of slope `-1/l²`: no feasible alternative is below it. -/
private theorem filled_support {o : Nat → Par ℝ} {avail A : List Nat} (hav : avail.Nodup)
    (hA : A = avail.filter fun i => decide ((o i).y ≠ 0)) (hp : ∀ i ∈ avail, Pos (o i)) {E s : List Nat} {l : ℝ}
    (hne : s ≠ []) (hnd : (E ++ s).Nodup) (hmem : ∀ i ∈ E ++ s, i ∈ A) (hE : ∀ i ∈ E, lvl (o i) l < -(o i).y)
    (hs : ∀ i ∈ s, -(o i).y ≤ lvl (o i) l ∧ lvl (o i) l ≤ 0) (hrest : ∀ i ∈ A, i ∉ E → i ∉ s → 0 < lvl (o i) l) :
    ∃ res', ((E.map fun i => (i, -(o i).y)) ++ (s.map fun i => (i, lvl (o i) l))).filter (fun p => decide (p.2 ≠ 0)) = res' ∧
      IsSplit o avail res' ∧ 0 < l ∧ (∀ w, Feasible o avail w →
        -(1 / l ^ 2) * ((avail.map w).sum - (res'.map Prod.snd).sum) ≤
          (avail.map fun i => charge (o i) (w i)).sum - (res'.map fun p => charge (o p.1) p.2).sum) ∧
      Priced o avail (amountAt res') (1 / l ^ 2) := by
  have hAav : ∀ i ∈ A, i ∈ avail ∧ (o i).y ≠ 0 := by
    intro i hi; rw [hA] at hi
    have := List.mem_filter.mp hi
    exact ⟨this.1, by simpa using this.2⟩
  have hnd' := List.nodup_append.mp hnd
  have hdis : ∀ i ∈ s, i ∉ E := fun i hi hE => hnd'.2.2 i hE i hi rfl
  have hEA : ∀ i ∈ E, i ∈ A := fun i hi => hmem i (List.mem_append_left _ hi)
  have hsA : ∀ i ∈ s, i ∈ A := fun i hi => hmem i (List.mem_append_right _ hi)
  have hl : 0 < l := by
    obtain ⟨i, hi⟩ := List.exists_mem_of_ne_nil s hne
    have h := hp i (hAav i (hsA i hi)).1
    have h1 := h.Y_end (hs i hi).1
    rw [lvl_spec h] at h1
    exact pos_of_mul_pos_left h1 h.r_pos.le
  set res := (E.map fun i => (i, -(o i).y)) ++ (s.map fun i => (i, lvl (o i) l)) with hres
  set v : Nat → ℝ := fun i => if i ∈ E then -(o i).y else if i ∈ s then lvl (o i) l else 0 with hv
  have hvE : ∀ i ∈ E, v i = -(o i).y := fun i hi => if_pos hi
  have hvs : ∀ i ∈ s, v i = lvl (o i) l := fun i hi => by
    show (if i ∈ E then _ else _) = _
    rw [if_neg (hdis i hi), if_pos hi]
  have hv0 : ∀ i, i ∉ E ++ s → v i = 0 := fun i hi => by
    rw [List.mem_append, not_or] at hi
    show (if i ∈ E then _ else _) = _
    rw [if_neg hi.1, if_neg hi.2]
  have hresv : res = (E ++ s).map fun i => (i, v i) := by
    rw [hres, List.map_append]
    congr 1
    · exact List.map_congr_left fun i hi => by rw [hvE i hi]
    · exact List.map_congr_left fun i hi => by rw [hvs i hi]
  have hkeys : res.map Prod.fst = E ++ s := by
    rw [hresv, List.map_map]
    exact List.map_id _
  have hterm : ∀ i ∈ avail, ∀ u, -(o i).y ≤ u → u ≤ 0 → -(1 / l ^ 2) * (u - v i) ≤ charge (o i) u - charge (o i) (v i) := by
    intro i hi u hu1 hu2
    have hpi := hp i hi
    by_cases hy : (o i).y = 0
    · have hiA : i ∉ A := fun h => (hAav i h).2 hy
      have : v i = 0 := hv0 i fun h => hiA (hmem i h)
      rw [this]
      have : u = 0 := by rw [hy] at hu1; linarith
      rw [this]; simp
    · have hiA : i ∈ A := by rw [hA]; exact List.mem_filter.mpr ⟨hi, by simpa using hy⟩
      by_cases hiE : i ∈ E
      · rw [hvE i hiE]
        exact support hpi hl (le_refl _) hu1 (.inr (.inl ⟨hE i hiE, hu1⟩))
      · by_cases his : i ∈ s
        · rw [hvs i his]
          exact support hpi hl (hs i his).1 hu1 (.inl rfl)
        · have : v i = 0 := hv0 i fun h => (List.mem_append.mp h).elim hiE his
          rw [this]
          have := hpi.hy
          exact support hpi hl (by linarith) hu1 (.inr (.inr ⟨hrest i hiA hiE his, hu2⟩))
  have hamt : ∀ i, amountAt (res.filter fun p => decide (p.2 ≠ 0)) i = v i := by
    intro i
    rw [hresv, amountAt_map hnd]
    split_ifs with h
    · rfl
    · exact (hv0 i h).symm
  refine ⟨_, rfl, ⟨?_, ?_⟩, hl, ?_, fun i hi u h1 h2 => by rw [hamt]; exact hterm i hi u h1 h2⟩
  · have : ((res.filter fun p => decide (p.2 ≠ 0)).map Prod.fst).Sublist (res.map Prod.fst) :=
      List.Sublist.map _ List.filter_sublist
    rw [hkeys] at this
    exact hnd.sublist this
  · intro p hpm
    obtain ⟨h1, h2⟩ := List.mem_filter.mp hpm
    have h2 : p.2 ≠ 0 := by simpa using h2
    rcases List.mem_append.mp h1 with h1 | h1
    · obtain ⟨i, hi, rfl⟩ := List.mem_map.mp h1
      have ha := hAav i (hEA i hi)
      have := (hp i ha.1).hy
      refine ⟨ha.1, le_refl _, ?_⟩
      have : 0 < (o i).y := lt_of_le_of_ne this (Ne.symm ha.2)
      show -(o i).y < 0
      linarith
    · obtain ⟨i, hi, rfl⟩ := List.mem_map.mp h1
      exact ⟨(hAav i (hsA i hi)).1, (hs i hi).1, lt_of_le_of_ne (hs i hi).2 h2⟩
  · intro w hw
    have e1 : ((res.filter fun p => decide (p.2 ≠ 0)).map Prod.snd).sum = (avail.map v).sum := by
      rw [sum_filter_ne _ _ fun p _ h => h, hresv, List.map_map,
        sum_support hav hnd (fun i hi => (hAav i (hmem i hi)).1) (g := v) fun i _ hi => hv0 i hi]
      rfl
    have e2 : ((res.filter fun p => decide (p.2 ≠ 0)).map fun p => charge (o p.1) p.2).sum =
        (avail.map fun i => charge (o i) (v i)).sum := by
      have c0 : ∀ i, charge (o i) 0 = 0 := fun i => by unfold charge; simp
      rw [sum_filter_ne _ _ fun p _ h => by rw [h]; exact c0 _, hresv, List.map_map,
        sum_support hav hnd (fun i hi => (hAav i (hmem i hi)).1) (g := fun i => charge (o i) (v i))
          fun i _ hi => by rw [hv0 i hi]; exact c0 i]
      rfl
    rw [e1, e2]
    have hterm' : ∀ i ∈ avail, -(1 / l ^ 2) * (w i - v i) ≤ charge (o i) (w i) - charge (o i) (v i) := fun i hi =>
      hterm i hi (w i) (hw i hi).1 (hw i hi).2
    have := sum_le hterm'
    have g1 : ∀ f g : Nat → ℝ, (avail.map fun i => f i - g i).sum = (avail.map f).sum - (avail.map g).sum := by
      intro f g
      clear * -
      induction avail with
      | nil => simp
      | cons a t ih => simp only [List.map_cons, List.sum_cons, ih]; ring
    rw [sum_const_mul, g1 w v, g1 (fun i => charge (o i) (w i)) fun i => charge (o i) (v i)] at this
    exact this

/-! ## The two modes -/

theorem mode_target {o : Nat → Par ℝ} {A : List Nat} (hp : ∀ i ∈ A, Pos (o i)) (hy : ∀ i ∈ A, 0 < (o i).y) :
    Mode o A (fun _ v => v) (fun _ => True) where
  pos := hp
  ypos := hy
  mono := fun i hi _ _ _ _ h => lvl_mono (hp i hi) h
  zero := fun _ _ => rfl
  up := fun _ _ _ _ h => h
  down := fun _ _ _ _ h => h
  full := fun i hi => by have := hy i hi; show -(o i).y < 0; linarith
  exh := fun _ _ _ _ h => h

theorem charge_anti {p : Par ℝ} (h : Pos p) {v w : ℝ} (hv : 0 < p.Y + p.n * v) (hvw : v < w) : charge p w < charge p v := by
  have hn := h.hn
  have hr := h.r_pos
  have hlt : p.Y + p.n * v < p.Y + p.n * w := by have := mul_lt_mul_of_pos_left hvw hn; linarith
  rw [charge_eq h hv, charge_eq h (hv.trans hlt)]
  apply mul_lt_mul_of_pos_left _ (by positivity)
  have := one_div_lt_one_div_of_lt hv hlt
  linarith

theorem charge_zero (p : Par ℝ) : charge p 0 = 0 := by unfold charge; simp

theorem mode_source {o : Nat → Par ℝ} {A : List Nat} (hp : ∀ i ∈ A, Pos (o i)) (hy : ∀ i ∈ A, 0 < (o i).y) :
    Mode o A (fun i v => -charge (o i) v) (fun l => 0 < l) where
  pos := hp
  ypos := hy
  mono := fun i hi l m hl _ h => by
    have hi := hp i hi
    have := charge_anti hi (v := lvl (o i) l) (by rw [lvl_spec hi]; exact mul_pos hl hi.r_pos) (lvl_mono hi h)
    linarith
  zero := fun i _ => by simp [charge_zero]
  up := fun i hi l hl h => by
    have hi := hp i hi
    have := charge_anti hi (v := 0) (by simpa using hi.Y_pos) h
    rw [charge_zero] at this; linarith
  down := fun i hi l hl h => by
    have hi := hp i hi
    rcases h.eq_or_lt with h | h
    · rw [h, charge_zero]; simp
    · have := charge_anti hi (v := lvl (o i) l) (by rw [lvl_spec hi]; exact mul_pos hl hi.r_pos) h
      rw [charge_zero] at this; linarith
  full := fun i hi => by
    have h := hp i hi
    have hyi := hy i hi
    have := charge_anti h (v := -(o i).y) (h.Y_end (le_refl _)) (show -(o i).y < 0 by linarith)
    rw [charge_zero] at this; linarith
  exh := fun i hi l hl h => by
    have hi := hp i hi
    have := charge_anti hi (v := lvl (o i) l) (by rw [lvl_spec hi]; exact mul_pos hl hi.r_pos) h
    linarith

/-- By target: the least input for the amount. -/
theorem distribute_target {o : Nat → Par ℝ} {avail : List Nat} (hav : avail.Nodup) (hp : ∀ i ∈ avail, Pos (o i)) {x : ℝ}
    (hx : x < 0) :
    ∃ res, distribute o avail x true = .ok res ∧ IsSplit o avail res ∧
      (-(avail.map fun i => (o i).y).sum ≤ x → (res.map Prod.snd).sum = x ∧
        ∀ w, Feasible o avail w → (avail.map w).sum = x →
          (res.map fun p => charge (o p.1) p.2).sum ≤ (avail.map fun i => charge (o i) (w i)).sum) ∧
      (-(avail.map fun i => (o i).y).sum ≤ x → ∃ m, 0 < m ∧ Priced o avail (amountAt res) m) ∧
      (x < -(avail.map fun i => (o i).y).sum → (res.map Prod.snd).sum = -(avail.map fun i => (o i).y).sum) := by
  set A := avail.filter fun i => decide ((o i).y ≠ 0) with hA
  have hAav : ∀ i ∈ A, i ∈ avail ∧ (o i).y ≠ 0 := by
    intro i hi
    have := List.mem_filter.mp hi
    exact ⟨this.1, by simpa using this.2⟩
  have hpA : ∀ i ∈ A, Pos (o i) := fun i hi => hp i (hAav i hi).1
  have hyA : ∀ i ∈ A, 0 < (o i).y := fun i hi => lt_of_le_of_ne (hpA i hi).hy (Ne.symm (hAav i hi).2)
  have hAn : A.Nodup := hav.filter _
  have hsumA : (A.map fun i => (o i).y).sum = (avail.map fun i => (o i).y).sum := by
    rw [sum_support hav hAn (fun i hi => (hAav i hi).1) (g := fun i => (o i).y)]
    intro i hi hiA
    by_contra h
    exact hiA (List.mem_filter.mpr ⟨hi, by simpa using h⟩)
  obtain ⟨res, e, hfill⟩ := outer_spec (mode_target hpA hyA) (avail := avail) hA hAn (σ := 1) (by norm_num)
    (swap := fun amt i s => amtByTarget o i amt s) (flow := fun _ v => .ok v) (x := x)
    (by
      intro amt _ s hs hne hsA
      refine ⟨levelT o s amt, trivial, fun i hi => amtByTarget_eq o hs (fun i hi => hpA i (hsA i hi)) amt hi, ?_⟩
      rw [one_mul]
      exact levelT_sum o hne (fun i hi => hpA i (hsA i hi)) amt)
    (by intro i _; rw [one_mul])
    (avail.length + 1) [] List.nodup_nil (by simp)
    (by have : A.length ≤ avail.length := List.length_filter_le _ _
        simp only [List.length_nil]; omega)
    (by simpa using hx) (by simp)
  have e' : distribute o avail x true = .ok (res.filter fun p => decide (p.2 ≠ 0)) := by
    unfold distribute
    simp only [if_true]
    have : outer (fun amt i s => amtByTarget o i amt s) (fun (_ : Nat) (v : ℝ) => (Except.ok v : Py ℝ))
        (fun i => (o i).y) avail x (avail.length + 1) [] = .ok res := e
    rw [this]; rfl
  refine ⟨_, e', ?_⟩
  rcases hfill with ⟨E, s, l, rfl, _, hne, hnd, hmem, hE, hs, hrest, hsum⟩ | ⟨E, rfl, hperm, hlt⟩
  · obtain ⟨res', er, hsp, hl, hopt, hpr⟩ := filled_support hav hA hp hne hnd hmem hE hs hrest
    have hsum' : (res'.map Prod.snd).sum = x := by
      rw [← er, sum_filter_ne _ _ fun p _ h => h]
      have := hsum
      rw [one_mul] at this
      exact this
    rw [er]
    refine ⟨hsp, fun _ => ⟨hsum', ?_⟩, fun _ => ⟨_, by positivity, hpr⟩, ?_⟩
    · intro w hw hwx
      have := hopt w hw
      rw [hwx, hsum', sub_self, mul_zero] at this
      linarith
    · intro hlt
      exfalso
      have h1 : (avail.map fun i => -(o i).y).sum ≤ x := by
        rw [← hsum']
        -- the split sells at most everything
        have hsub : ((res'.map Prod.fst).map fun i => -(o i).y).sum ≤ (res'.map Prod.snd).sum := by
          rw [List.map_map]
          exact sum_le fun p hp => (hsp.2 p hp).2.1
        refine le_trans ?_ hsub
        rw [sum_split (fun i => decide (i ∈ res'.map Prod.fst)) _ avail]
        have hpm : (avail.filter fun i => decide (i ∈ res'.map Prod.fst)).Perm (res'.map Prod.fst) := by
          rw [List.perm_ext_iff_of_nodup (hav.filter _) hsp.1]
          intro i
          simp only [List.mem_filter, decide_eq_true_eq]
          refine ⟨fun h => h.2, fun h => ⟨?_, h⟩⟩
          obtain ⟨p, hp, rfl⟩ := List.mem_map.mp h
          exact (hsp.2 p hp).1
        rw [(hpm.map _).sum_eq]
        have : ((avail.filter fun i => !decide (i ∈ res'.map Prod.fst)).map fun i => -(o i).y).sum ≤ 0 := by
          have := sum_le (l := avail.filter fun i => !decide (i ∈ res'.map Prod.fst)) (f := fun i => -(o i).y)
            (g := fun _ => (0 : ℝ)) fun i hi => by
              have := (hp i (List.mem_filter.mp hi).1).hy
              show -(o i).y ≤ 0
              linarith
          simpa using this
        linarith
      have h2 : (avail.map fun i => -(o i).y).sum = -(avail.map fun i => (o i).y).sum := by
        have := sum_const_mul (-1) (fun i => (o i).y) avail
        simpa using this
      linarith
  · have hEA : ∀ i ∈ E, i ∈ A := fun i hi => hperm.subset hi
    have hf : (E.map fun i => (i, -(o i).y)).filter (fun p => decide (p.2 ≠ 0)) = E.map fun i => (i, -(o i).y) := by
      rw [List.filter_eq_self]
      intro p hpm
      obtain ⟨i, hi, rfl⟩ := List.mem_map.mp hpm
      have := hyA i (hEA i hi)
      simp only [decide_eq_true_eq]
      show -(o i).y ≠ 0
      linarith
    have hsum : ((E.map fun i => (i, -(o i).y)).map Prod.snd).sum = -(avail.map fun i => (o i).y).sum := by
      rw [List.map_map]
      have h1 := sum_const_mul (-1) (fun i => (o i).y) E
      have h2 := (hperm.map fun i => (o i).y).sum_eq
      rw [← hsumA, ← h2]
      have : (E.map (Prod.snd ∘ fun i => (i, -(o i).y))) = E.map fun i => -1 * (o i).y :=
        List.map_congr_left fun i _ => by simp
      rw [this, h1]; ring
    rw [hf]
    have hno : ¬ -(avail.map fun i => (o i).y).sum ≤ x := by
      intro hle
      have : ((E.map fun i => (i, -(o i).y)).map fun p : Nat × ℝ => p.2).sum = -(avail.map fun i => (o i).y).sum := hsum
      rw [this, one_mul] at hlt
      linarith
    refine ⟨⟨?_, ?_⟩, fun h => absurd h hno, fun h => absurd h hno, fun _ => hsum⟩
    · rw [List.map_map]
      have : E.map (Prod.fst ∘ fun i => (i, -(o i).y)) = E := List.map_id _
      rw [this]; exact hperm.nodup_iff.mpr hAn
    · intro p hpm
      obtain ⟨i, hi, rfl⟩ := List.mem_map.mp hpm
      have := hyA i (hEA i hi)
      exact ⟨(hAav i (hEA i hi)).1, le_refl _, by show -(o i).y < 0; linarith⟩

/-- What the orders charge for everything they hold. -/
noncomputable def capital (o : Nat → Par ℝ) (avail : List Nat) : ℝ := (avail.map fun i => charge (o i) (-(o i).y)).sum

/-- By source: the greatest output for the amount. -/
theorem distribute_source {o : Nat → Par ℝ} {avail : List Nat} (hav : avail.Nodup) (hp : ∀ i ∈ avail, Pos (o i)) {x : ℝ}
    (hx : 0 < x) :
    ∃ res, distribute o avail x false = .ok res ∧ IsSplit o avail res ∧
      (x ≤ capital o avail → (res.map fun p => charge (o p.1) p.2).sum = x ∧
        ∀ w, Feasible o avail w → (avail.map fun i => charge (o i) (w i)).sum ≤ x →
          (res.map Prod.snd).sum ≤ (avail.map w).sum) ∧
      (x ≤ capital o avail → ∃ m, 0 < m ∧ Priced o avail (amountAt res) m) ∧
      (capital o avail < x → (res.map fun p => charge (o p.1) p.2).sum = capital o avail ∧
        (res.map Prod.snd).sum = -(avail.map fun i => (o i).y).sum) := by
  set A := avail.filter fun i => decide ((o i).y ≠ 0) with hA
  have hAav : ∀ i ∈ A, i ∈ avail ∧ (o i).y ≠ 0 := by
    intro i hi
    have := List.mem_filter.mp hi
    exact ⟨this.1, by simpa using this.2⟩
  have hpA : ∀ i ∈ A, Pos (o i) := fun i hi => hp i (hAav i hi).1
  have hyA : ∀ i ∈ A, 0 < (o i).y := fun i hi => lt_of_le_of_ne (hpA i hi).hy (Ne.symm (hAav i hi).2)
  have hAn : A.Nodup := hav.filter _
  have hy0 : ∀ i ∈ avail, i ∉ A → (o i).y = 0 := by
    intro i hi hiA
    by_contra h
    exact hiA (List.mem_filter.mpr ⟨hi, by simpa using h⟩)
  have hsumA : (A.map fun i => (o i).y).sum = (avail.map fun i => (o i).y).sum := by
    rw [sum_support hav hAn (fun i hi => (hAav i hi).1) (g := fun i => (o i).y) hy0]
  have hcapA : (A.map fun i => charge (o i) (-(o i).y)).sum = capital o avail := by
    unfold capital
    rw [sum_support hav hAn (fun i hi => (hAav i hi).1) (g := fun i => charge (o i) (-(o i).y))]
    intro i hi hiA
    rw [hy0 i hi hiA, neg_zero, charge_zero]
  obtain ⟨res, e, hfill⟩ := outer_spec (mode_source hpA hyA) (avail := avail) hA hAn (σ := -1) (by norm_num)
    (swap := fun amt i s => amtBySrc o i amt s) (flow := fun i v => dxdy o i v) (x := x)
    (by
      intro amt hamt s hs hne hsA
      have hpos : 0 < amt := by linarith
      have hpS : ∀ i ∈ s, Pos (o i) := fun i hi => hpA i (hsA i hi)
      obtain ⟨h1, h2⟩ := levelS_sum o hne hpS hpos.le
      refine ⟨1 / levelS o s amt, by positivity, fun i hi => amtBySrc_eq o hs hpS hpos.le hi, ?_⟩
      have := sum_const_mul (-1) (fun i => charge (o i) (lvl (o i) (1 / levelS o s amt))) s
      rw [h2] at this
      rw [← this]
      exact sum_congr fun i _ => by ring)
    (by intro i hi; rw [dxdy_eq o (hpA i hi) (le_refl _)]; congr 1; ring)
    (avail.length + 1) [] List.nodup_nil (by simp)
    (by have : A.length ≤ avail.length := List.length_filter_le _ _
        simp only [List.length_nil]; omega)
    (by simpa using hx) (by simp)
  have e' : distribute o avail x false = .ok (res.filter fun p => decide (p.2 ≠ 0)) := by
    unfold distribute
    simp only [Bool.false_eq_true, if_false]
    have : outer (fun amt i s => amtBySrc o i amt s) (fun (i : Nat) (v : ℝ) => dxdy o i v)
        (fun i => (o i).y) avail x (avail.length + 1) [] = .ok res := e
    rw [this]; rfl
  refine ⟨_, e', ?_⟩
  have hnegsum : ∀ l : List (Nat × ℝ), (l.map fun p => -charge (o p.1) p.2).sum = -(l.map fun p => charge (o p.1) p.2).sum := by
    intro l
    have := sum_const_mul (-1) (fun p : Nat × ℝ => charge (o p.1) p.2) l
    simpa using this
  rcases hfill with ⟨E, s, l, rfl, _, hne, hnd, hmem, hE, hs, hrest, hsum⟩ | ⟨E, rfl, hperm, hlt⟩
  · obtain ⟨res', er, hsp, hl, hopt, hpr⟩ := filled_support hav hA hp hne hnd hmem hE hs hrest
    have hsum' : (res'.map fun p => charge (o p.1) p.2).sum = x := by
      rw [← er, sum_filter_ne _ _ fun p _ h => by rw [h]; exact charge_zero _]
      rw [hnegsum] at hsum
      linarith
    have hopt' : ∀ w, Feasible o avail w → (avail.map fun i => charge (o i) (w i)).sum ≤ x →
          (res'.map Prod.snd).sum ≤ (avail.map w).sum := by
      intro w hw hwx
      have := hopt w hw
      rw [hsum'] at this
      have hl2 : 0 < 1 / l ^ 2 := by positivity
      by_contra hlt
      have := mul_pos hl2 (show 0 < (res'.map Prod.snd).sum - (avail.map w).sum by linarith)
      linarith
    rw [er]
    refine ⟨hsp, fun _ => ⟨hsum', hopt'⟩, fun _ => ⟨_, by positivity, hpr⟩, ?_⟩
    intro hlt
    exfalso
    -- selling everything would be feasible and cost less, so nothing more is sold; but then the cost is the capital
    have hall := hopt (fun i => -(o i).y) (fun i hi => ⟨le_refl _, by have := (hp i hi).hy; show -(o i).y ≤ 0; linarith⟩)
    have hle : (res'.map fun p => charge (o p.1) p.2).sum ≤ capital o avail := by
      have hsub : (res'.map fun p => charge (o p.1) p.2).sum ≤ ((res'.map Prod.fst).map fun i => charge (o i) (-(o i).y)).sum := by
        rw [List.map_map]
        apply sum_le
        intro p hpm
        have hb := hsp.2 p hpm
        have hpp := hp p.1 hb.1
        rcases hb.2.1.eq_or_lt with h | h
        · show charge _ _ ≤ charge _ (-(o p.1).y)
          rw [h]
        · exact (charge_anti hpp (hpp.Y_end (le_refl _)) h).le
      refine le_trans hsub ?_
      unfold capital
      rw [sum_split (fun i => decide (i ∈ res'.map Prod.fst)) _ avail]
      have hpm : (avail.filter fun i => decide (i ∈ res'.map Prod.fst)).Perm (res'.map Prod.fst) := by
        rw [List.perm_ext_iff_of_nodup (hav.filter _) hsp.1]
        intro i
        simp only [List.mem_filter, decide_eq_true_eq]
        refine ⟨fun h => h.2, fun h => ⟨?_, h⟩⟩
        obtain ⟨p, hp, rfl⟩ := List.mem_map.mp h
        exact (hsp.2 p hp).1
      rw [(hpm.map _).sum_eq]
      have : 0 ≤ ((avail.filter fun i => !decide (i ∈ res'.map Prod.fst)).map fun i => charge (o i) (-(o i).y)).sum := by
        apply sum_nonneg'
        intro i hi
        have hpi := hp i (List.mem_filter.mp hi).1
        rcases hpi.hy.eq_or_lt with h | h
        · rw [← h, neg_zero, charge_zero]
        · have := charge_anti hpi (v := -(o i).y) (hpi.Y_end (le_refl _)) (show -(o i).y < 0 by linarith)
          rw [charge_zero] at this
          exact this.le
      linarith
    linarith
  · have hEA : ∀ i ∈ E, i ∈ A := fun i hi => hperm.subset hi
    have hf : (E.map fun i => (i, -(o i).y)).filter (fun p => decide (p.2 ≠ 0)) = E.map fun i => (i, -(o i).y) := by
      rw [List.filter_eq_self]
      intro p hpm
      obtain ⟨i, hi, rfl⟩ := List.mem_map.mp hpm
      have := hyA i (hEA i hi)
      simp only [decide_eq_true_eq]
      show -(o i).y ≠ 0
      linarith
    have hsum : ((E.map fun i => (i, -(o i).y)).map Prod.snd).sum = -(avail.map fun i => (o i).y).sum := by
      rw [List.map_map]
      have h1 := sum_const_mul (-1) (fun i => (o i).y) E
      have h2 := (hperm.map fun i => (o i).y).sum_eq
      rw [← hsumA, ← h2]
      have : (E.map (Prod.snd ∘ fun i => (i, -(o i).y))) = E.map fun i => -1 * (o i).y :=
        List.map_congr_left fun i _ => by simp
      rw [this, h1]; ring
    have hcap : ((E.map fun i => (i, -(o i).y)).map fun p => charge (o p.1) p.2).sum = capital o avail := by
      rw [List.map_map, ← hcapA, ← (hperm.map fun i => charge (o i) (-(o i).y)).sum_eq]
      rfl
    rw [hf]
    have hno : ¬ x ≤ capital o avail := by
      intro hle
      rw [hnegsum, hcap] at hlt
      linarith
    refine ⟨⟨?_, ?_⟩, fun h => absurd h hno, fun h => absurd h hno, fun _ => ⟨hcap, hsum⟩⟩
    · rw [List.map_map]
      have : E.map (Prod.fst ∘ fun i => (i, -(o i).y)) = E := List.map_id _
      rw [this]; exact hperm.nodup_iff.mpr hAn
    · intro p hpm
      obtain ⟨i, hi, rfl⟩ := List.mem_map.mp hpm
      have := hyA i (hEA i hi)
      exact ⟨(hAav i (hEA i hi)).1, le_refl _, by show -(o i).y < 0; linarith⟩

/-! ## The whole match -/

theorem runTotals_fields (ti tot : ℝ) (l : List (Action ℝ)) :
    (runTotals ti tot l).map (fun a => (a.index, a.input, a.output)) = l.map fun a => (a.index, a.input, a.output) := by
  induction l generalizing ti tot with
  | nil => rfl
  | cons a l ih => simp only [runTotals, List.map_cons, ih]

/-- Every action's totals are the sums over the actions up to it. -/
def Totals (acts : List (Action ℝ)) : Prop :=
  ∀ i a, acts[i]? = some a → a.totalInput = ((acts.take (i + 1)).map (·.input)).sum ∧
    a.totalOutput = ((acts.take (i + 1)).map (·.output)).sum

theorem runTotals_get (ti tot : ℝ) (l : List (Action ℝ)) (i : Nat) (a : Action ℝ)
    (h : (runTotals ti tot l)[i]? = some a) :
    a.totalInput = ti + (((runTotals ti tot l).take (i + 1)).map (·.input)).sum ∧
    a.totalOutput = tot + (((runTotals ti tot l).take (i + 1)).map (·.output)).sum := by
  induction l generalizing ti tot i with
  | nil => simp [runTotals] at h
  | cons b l ih =>
    unfold runTotals at h ⊢
    cases i with
    | zero =>
      simp only [List.getElem?_cons_zero, Option.some.injEq] at h
      subst h
      simp
    | succ i =>
      rw [List.getElem?_cons_succ] at h
      obtain ⟨h1, h2⟩ := ih _ _ i h
      rw [List.take_succ_cons, List.map_cons, List.sum_cons, List.map_cons, List.sum_cons, h1, h2]
      constructor <;> ring

theorem runTotals_totals (l : List (Action ℝ)) : Totals (runTotals 0 0 l) := by
  intro i a h
  have := runTotals_get 0 0 l i a h
  simpa using this

/-- An executable match: distinct positions, each sold a positive part of its holdings for what it asks. -/
def Executable (orders : List (Curve ℝ)) (acts : List (Action ℝ)) : Prop :=
  (acts.map (·.index)).Nodup ∧ Totals acts ∧ ∀ a ∈ acts, ∃ c, orders[a.index]? = some c ∧ -c.y ≤ a.output ∧ a.output < 0 ∧
    c.dxdy a.output = .ok a.input

/-- Another way to sell from the orders at positions `ps`: `w i` is sold (as a negative amount) by the order at position
`i`, for `z i`. -/
def Alternative (orders : List (Curve ℝ)) (ps : List Nat) (w z : Nat → ℝ) : Prop :=
  ∀ (i : Nat) (c : Curve ℝ), i ∈ ps → orders[i]? = some c → -c.y ≤ w i ∧ w i ≤ 0 ∧ c.dxdy (w i) = .ok (z i)

/-- What a match sells at a position (as a negative amount). -/
def soldAt (acts : List (Action ℝ)) (i : Nat) : ℝ := ((acts.filter fun a => decide (a.index = i)).map (·.output)).sum

/-- The price `m` is that of the amounts `v`: any other amount of an order changes its charge by at least what the difference is worth at this
price. -/
def PricedAt (orders : List (Curve ℝ)) (ps : List Nat) (v : Nat → ℝ) (m : ℝ) : Prop :=
  ∀ (i : Nat) (c : Curve ℝ) (u a b : ℝ), i ∈ ps → orders[i]? = some c → -c.y ≤ v i → -c.y ≤ u → u ≤ 0 → c.dxdy (v i) = .ok a →
    c.dxdy u = .ok b → -m * (u - v i) ≤ b - a

/-- Total over positions. -/
def total (ps : List Nat) (w : Nat → ℝ) : ℝ := (ps.map w).sum

/-- What the order at a position holds. -/
def yAt (orders : List (Curve ℝ)) (i : Nat) : ℝ := (orders[i]?.map (·.y)).getD 0

/-- The positions a caller may name: none (meaning all), or distinct existing ones. -/
def Positions (orders : List (Curve ℝ)) (matchlevel : List Nat) (ps : List Nat) : Prop :=
  matchlevel.Nodup ∧ (∀ i ∈ matchlevel, i < orders.length) ∧
    ps = if matchlevel.isEmpty then List.range orders.length else matchlevel

theorem setup {orders : List (Curve ℝ)} (hg : ∀ c ∈ orders, c.Good) :
    ∃ ps : List (Par ℝ), orders.mapM par = .ok ps ∧ ps.length = orders.length ∧
      ∀ (i : Nat) (c : Curve ℝ), orders[i]? = some c → ∃ p, ps[i]? = some p ∧ Pos p ∧ p.y = c.y ∧ ∀ v, -c.y ≤ v → c.dxdy v = .ok (charge p v) := by
  induction orders with
  | nil => exact ⟨[], rfl, rfl, by simp⟩
  | cons c cs ih =>
    obtain ⟨ps, e, hlen, h⟩ := ih fun d hd => hg d (List.mem_cons_of_mem _ hd)
    obtain ⟨p, ep, h1, h2, h3⟩ := par_ok (hg c List.mem_cons_self)
    refine ⟨p :: ps, ?_, by simp [hlen], ?_⟩
    · rw [List.mapM_cons, ep, e]; rfl
    · intro i d hi
      cases i with
      | zero =>
        simp only [List.getElem?_cons_zero, Option.some.injEq] at hi
        subst hi
        exact ⟨p, rfl, h1, h2, h3⟩
      | succ i =>
        rw [List.getElem?_cons_succ] at hi ⊢
        exact h i d hi

/-- The common part of the two match theorems. -/
theorem package {orders : List (Curve ℝ)} {ps : List (Par ℝ)}
    (h : ∀ (i : Nat) (c : Curve ℝ), orders[i]? = some c → ∃ p, ps[i]? = some p ∧ Pos p ∧ p.y = c.y ∧
      ∀ v, -c.y ≤ v → c.dxdy v = .ok (charge p v)) {res : List (Nat × ℝ)}
    {avail : List Nat} (hav : ∀ i ∈ avail, i < orders.length)
    (hsp : IsSplit (fun i => ps.getD i ⟨0, 0, 0, 0, 0⟩) avail res) :
    let o : Nat → Par ℝ := fun i => ps.getD i ⟨0, 0, 0, 0, 0⟩
    (res.mapM fun p => dxdy o p.1 p.2) = .ok (res.map fun p => charge (o p.1) p.2) ∧
    ∀ acts, acts = runTotals 0 0 ((res.zip (res.map fun p => charge (o p.1) p.2)).map
        fun p => (⟨p.1.1, p.2, p.1.2, 0, 0⟩ : Action ℝ)) →
      Executable orders acts ∧ (∀ a ∈ acts, a.index ∈ avail) ∧ (acts.map (·.output)).sum = (res.map Prod.snd).sum ∧
      (acts.map (·.input)).sum = (res.map fun p => charge (o p.1) p.2).sum := by
  intro o
  have hcur : ∀ p ∈ res, ∃ c, orders[p.1]? = some c ∧ Pos (o p.1) ∧ (o p.1).y = c.y ∧
      ∀ v, -c.y ≤ v → c.dxdy v = .ok (charge (o p.1) v) := by
    intro p hp
    have hlt := hav _ (hsp.2 p hp).1
    obtain ⟨q, hq, h1, h2, h3⟩ := h p.1 _ (List.getElem?_eq_getElem hlt)
    have : o p.1 = q := by
      show ps.getD p.1 _ = q
      rw [List.getD_eq_getElem?_getD, hq]; rfl
    rw [this]
    exact ⟨_, List.getElem?_eq_getElem hlt, h1, h2, h3⟩
  refine ⟨mapM_ok fun p hp => ?_, ?_⟩
  · obtain ⟨c, _, h1, h2, _⟩ := hcur p hp
    exact dxdy_eq o h1 (hsp.2 p hp).2.1
  · intro acts hacts
    have hz : (res.zip (res.map fun p => charge (o p.1) p.2)).map (fun p => (⟨p.1.1, p.2, p.1.2, 0, 0⟩ : Action ℝ)) =
        res.map fun p => ⟨p.1, charge (o p.1) p.2, p.2, 0, 0⟩ := by
      clear * -
      induction res with
      | nil => rfl
      | cons a t ih => simp only [List.map_cons, List.zip_cons_cons, ih]
    have hf := runTotals_fields 0 0 (res.map fun p => (⟨p.1, charge (o p.1) p.2, p.2, 0, 0⟩ : Action ℝ))
    rw [hz] at hacts
    rw [← hacts, List.map_map] at hf
    have fi : acts.map (·.index) = res.map Prod.fst := by
      have := congrArg (List.map Prod.fst) hf
      simpa [List.map_map, Function.comp_def] using this
    have fo : acts.map (·.output) = res.map Prod.snd := by
      have := congrArg (List.map fun q : Nat × ℝ × ℝ => q.2.2) hf
      simpa [List.map_map, Function.comp_def] using this
    have fn : acts.map (·.input) = res.map fun p => charge (o p.1) p.2 := by
      have := congrArg (List.map fun q : Nat × ℝ × ℝ => q.2.1) hf
      simpa [List.map_map, Function.comp_def] using this
    refine ⟨⟨by rw [fi]; exact hsp.1, by rw [hacts]; exact runTotals_totals _, ?_⟩, ?_, by rw [fo], by rw [fn]⟩
    swap
    · intro a ha
      have : a.index ∈ res.map Prod.fst := by rw [← fi]; exact List.mem_map_of_mem ha
      obtain ⟨p, hp, e⟩ := List.mem_map.mp this
      rw [← e]; exact (hsp.2 p hp).1
    intro a ha
    have : (a.index, a.input, a.output) ∈ acts.map fun a => (a.index, a.input, a.output) :=
      List.mem_map_of_mem ha
    rw [hf] at this
    obtain ⟨p, hp, e⟩ := List.mem_map.mp this
    simp only [Function.comp, Prod.mk.injEq] at e
    obtain ⟨e1, e2, e3⟩ := e
    obtain ⟨c, hc, h1, h2, h3⟩ := hcur p hp
    have hb := (hsp.2 p hp).2
    rw [h2] at hb
    rw [← e1, ← e2, ← e3]
    exact ⟨c, hc, hb.1, hb.2, h3 _ hb.1⟩

theorem sold_amount (res : List (Nat × ℝ)) (f : Nat × ℝ → ℝ) (i : Nat) :
    soldAt (runTotals 0 0 ((res.zip (res.map f)).map fun p => (⟨p.1.1, p.2, p.1.2, 0, 0⟩ : Action ℝ))) i = amountAt res i := by
  have key : ∀ (l : List (Action ℝ)) (t u : ℝ), soldAt (runTotals t u l) i = soldAt l i := by
    intro l
    induction l with
    | nil => intro t u; rfl
    | cons a l ih =>
      intro t u
      unfold soldAt at ih ⊢
      unfold runTotals
      by_cases h : a.index = i
      · rw [List.filter_cons_of_pos (by simpa using h), List.filter_cons_of_pos (by simpa using h), List.map_cons, List.map_cons, List.sum_cons,
          List.sum_cons, ih]
      · rw [List.filter_cons_of_neg (by simpa using h), List.filter_cons_of_neg (by simpa using h), ih]
  rw [key]
  unfold soldAt amountAt
  induction res with
  | nil => rfl
  | cons p res ih =>
    rw [List.map_cons, List.zip_cons_cons, List.map_cons]
    by_cases h : p.1 = i
    · rw [List.filter_cons_of_pos (by simpa using h), List.filter_cons_of_pos (by simpa using h), List.map_cons, List.map_cons, List.sum_cons,
        List.sum_cons, ih]
    · rw [List.filter_cons_of_neg (by simpa using h), List.filter_cons_of_neg (by simpa using h), ih]

theorem priced_at {orders : List (Curve ℝ)} {o : Nat → Par ℝ} {avail ps : List Nat} (hperm : avail.Perm ps)
    (hget : ∀ (i : Nat) (c : Curve ℝ), orders[i]? = some c → Pos (o i) ∧ (o i).y = c.y ∧ (o i).y = yAt orders i ∧
      ∀ v, -c.y ≤ v → c.dxdy v = .ok (charge (o i) v)) {v w : Nat → ℝ} {m : ℝ} (hv : ∀ i, w i = v i) (h : Priced o avail v m) :
    PricedAt orders ps w m := by
  intro i c u a b hi hc h1 h2 h3 ha hb
  obtain ⟨_, g2, _, g4⟩ := hget i c hc
  rw [hv i] at h1 ha ⊢
  rw [g4 _ h1] at ha
  rw [g4 _ h2] at hb
  cases ha
  cases hb
  exact h i (hperm.symm.subset hi) u (by rw [g2]; exact h2) h3

/-- The positions `match` works on are the given ones, in book order. -/
theorem avail_spec {orders : List (Curve ℝ)} {matchlevel ps : List Nat} (h : Positions orders matchlevel ps) :
    ∃ avail : List Nat, (if matchlevel.isEmpty then List.range orders.length
      else (List.range orders.length).filter fun i => decide (i ∈ matchlevel)) = avail ∧ avail.Perm ps ∧ avail.Nodup ∧
      (∀ i ∈ avail, i < orders.length) ∧
      (if matchlevel.isEmpty then List.range orders.length else matchlevel) = ps := by
  obtain ⟨h1, h2, h3⟩ := h
  refine ⟨_, rfl, ?_, ?_, ?_, h3.symm⟩
  · rw [h3]
    split
    · exact List.Perm.refl _
    · rw [List.perm_ext_iff_of_nodup (List.nodup_range.filter _) h1]
      intro i
      simp only [List.mem_filter, List.mem_range, decide_eq_true_eq]
      exact ⟨fun h => h.2, fun h => ⟨h2 i h, h⟩⟩
  · split
    · exact List.nodup_range
    · exact List.nodup_range.filter _
  · intro i hi
    split at hi
    · exact List.mem_range.mp hi
    · exact List.mem_range.mp (List.mem_filter.mp hi).1

theorem getD_spec {orders : List (Curve ℝ)} {qs : List (Par ℝ)}
    (h : ∀ (i : Nat) (c : Curve ℝ), orders[i]? = some c → ∃ p, qs[i]? = some p ∧ Pos p ∧ p.y = c.y ∧
      ∀ v, -c.y ≤ v → c.dxdy v = .ok (charge p v)) (i : Nat) (c : Curve ℝ) (hi : orders[i]? = some c) :
    Pos (qs.getD i ⟨0, 0, 0, 0, 0⟩) ∧ (qs.getD i ⟨0, 0, 0, 0, 0⟩).y = c.y ∧ (qs.getD i ⟨0, 0, 0, 0, 0⟩).y = yAt orders i ∧
      ∀ v, -c.y ≤ v → c.dxdy v = .ok (charge (qs.getD i ⟨0, 0, 0, 0, 0⟩) v) := by
  obtain ⟨q, hq, h1, h2, h3⟩ := h i c hi
  have : qs.getD i ⟨0, 0, 0, 0, 0⟩ = q := by rw [List.getD_eq_getElem?_getD, hq]; rfl
  rw [this]
  refine ⟨h1, h2, ?_, h3⟩
  rw [h2]; unfold yAt; rw [hi]; rfl

/-- Matching by target, `x < 0`, against well-formed orders that hold enough at the allowed positions: the match
succeeds, is executable, uses only these positions, sells exactly the amount, and no other way to sell that amount from
these positions costs the trader less; there is a price of the amounts. -/
theorem match_target (orders : List (Curve ℝ)) (hg : ∀ c ∈ orders, c.Good) (matchlevel ps : List Nat)
    (hps : Positions orders matchlevel ps) (x : ℝ) (hx : x < 0) (hl : -x ≤ total ps (yAt orders)) (supportPartial : Bool) :
    ∃ acts, matchExact orders x true matchlevel supportPartial = .ok acts ∧ Executable orders acts ∧
      (∀ a ∈ acts, a.index ∈ ps) ∧ (acts.map (·.output)).sum = x ∧
      (∀ w z, Alternative orders ps w z → total ps w = x → (acts.map (·.input)).sum ≤ total ps z) ∧
      ∃ m, 0 < m ∧ PricedAt orders ps (soldAt acts) m := by
  obtain ⟨qs, eps, hlen, h⟩ := setup hg
  set o : Nat → Par ℝ := fun i => qs.getD i ⟨0, 0, 0, 0, 0⟩ with ho
  obtain ⟨avail, eav, hperm, hnd, hav, eps2⟩ := avail_spec hps
  have hin : ∀ i (hi : i ∈ avail), orders[i]? = some (orders[i]'(hav i hi)) := fun i hi =>
    List.getElem?_eq_getElem (hav i hi)
  have hget : ∀ (i : Nat) (c : Curve ℝ), orders[i]? = some c → Pos (o i) ∧ (o i).y = c.y ∧ (o i).y = yAt orders i ∧
      ∀ v, -c.y ≤ v → c.dxdy v = .ok (charge (o i) v) := getD_spec h
  have hp : ∀ i ∈ avail, Pos (o i) := fun i hi => (hget i _ (hin i hi)).1
  have hliq : (avail.map fun i => (o i).y).sum = total ps (yAt orders) := by
    unfold total
    rw [← (hperm.map (yAt orders)).sum_eq]
    exact sum_congr fun i hi => (hget i _ (hin i hi)).2.2.1
  have hliq2 : (ps.map fun i => (o i).y).sum = total ps (yAt orders) := by
    rw [← hliq, (hperm.map _).sum_eq]
  obtain ⟨res, e, hsp, hok, hpr, _⟩ := distribute_target hnd hp hx
  rw [hliq] at hok hpr
  obtain ⟨m, hm, hpr⟩ := hpr (by linarith)
  obtain ⟨hsum, hopt⟩ := hok (by linarith)
  obtain ⟨em, hpk⟩ := package h hav hsp
  obtain ⟨hex, hidx, ho1, hi1⟩ := hpk _ rfl
  refine ⟨_, ?_, hex, fun a ha => hperm.subset (hidx a ha), by rw [ho1, hsum], ?_, m, hm, priced_at hperm hget (sold_amount _ _) hpr⟩
  · unfold matchExact
    rw [eps]
    simp only [Py.ok_bind]
    rw [← ho] at em ⊢
    rw [eav, eps2, hliq2, abs_of_neg hx, if_neg (by
        intro hc
        obtain ⟨i, hi, hi'⟩ := List.any_eq_true.mp hc.2
        have := hps.2.1 i hi
        simp only [decide_eq_true_eq] at hi'
        omega), if_neg (by intro hc; linarith [hc.2.1]),
      if_neg (by intro hc; linarith [hc.2.1]), e]
    simp only [Py.ok_bind]
    rw [em]
    simp only [Py.ok_bind, if_true]
    rw [hsum, pyDiv_ok hx.ne, div_self hx.ne]
    simp only [Py.ok_bind]
    rw [if_neg (by simp), if_neg (by norm_num)]
  · intro w z halt hw
    rw [hi1]
    have := hopt w (by
      intro i hi
      have hi' := hin i hi
      have := halt i _ (hperm.subset hi) hi'
      rw [(hget i _ hi').2.1]
      exact ⟨this.1, this.2.1⟩) (by rw [(hperm.map w).sum_eq]; exact hw)
    refine this.trans (le_of_eq ?_)
    unfold total
    rw [← (hperm.map z).sum_eq]
    apply sum_congr
    intro i hi
    have hi' := hin i hi
    have ha := halt i _ (hperm.subset hi) hi'
    have := (hget i _ hi').2.2.2 (w i) ha.1
    rw [ha.2.2] at this
    exact (Except.ok.inj this).symm

/-- **C69** Matching by target, `x < 0`, against well-formed orders that hold enough at the allowed positions: the match
succeeds, is executable, uses only these positions, sells exactly the amount, and no other way to sell that amount from
these positions costs the trader less. -/
theorem C69_by_target (orders : List (Curve ℝ)) (hg : ∀ c ∈ orders, c.Good) (matchlevel ps : List Nat)
    (hps : Positions orders matchlevel ps) (x : ℝ) (hx : x < 0) (hl : -x ≤ total ps (yAt orders)) (supportPartial : Bool) :
    ∃ acts, matchExact orders x true matchlevel supportPartial = .ok acts ∧ Executable orders acts ∧
      (∀ a ∈ acts, a.index ∈ ps) ∧ (acts.map (·.output)).sum = x ∧
      ∀ w z, Alternative orders ps w z → total ps w = x → (acts.map (·.input)).sum ≤ total ps z := by
  obtain ⟨acts, h1, h2, h3, h4, h5, _⟩ := match_target orders hg matchlevel ps hps x hx hl supportPartial
  exact ⟨acts, h1, h2, h3, h4, h5⟩

/-- **C69** With too little liquidity the match fails, or, if partial fills are allowed, sells everything there is. -/
theorem C69_insufficient (orders : List (Curve ℝ)) (hg : ∀ c ∈ orders, c.Good) (matchlevel ps : List Nat)
    (hps : Positions orders matchlevel ps) (x : ℝ) (hx : x < 0) (hl : total ps (yAt orders) < -x) :
    matchExact orders x true matchlevel false = .error .assertion ∧
    (0 < total ps (yAt orders) → ∃ acts, matchExact orders x true matchlevel true = .ok acts ∧ Executable orders acts ∧
      (∀ a ∈ acts, a.index ∈ ps) ∧ (acts.map (·.output)).sum = -total ps (yAt orders)) := by
  obtain ⟨qs, eps, hlen, h⟩ := setup hg
  set o : Nat → Par ℝ := fun i => qs.getD i ⟨0, 0, 0, 0, 0⟩ with ho
  obtain ⟨avail, eav, hperm, hnd, hav, eps2⟩ := avail_spec hps
  have hin : ∀ i (hi : i ∈ avail), orders[i]? = some (orders[i]'(hav i hi)) := fun i hi =>
    List.getElem?_eq_getElem (hav i hi)
  have hget : ∀ (i : Nat) (c : Curve ℝ), orders[i]? = some c → Pos (o i) ∧ (o i).y = c.y ∧ (o i).y = yAt orders i ∧
      ∀ v, -c.y ≤ v → c.dxdy v = .ok (charge (o i) v) := getD_spec h
  have hp : ∀ i ∈ avail, Pos (o i) := fun i hi => (hget i _ (hin i hi)).1
  have hliq : (avail.map fun i => (o i).y).sum = total ps (yAt orders) := by
    unfold total
    rw [← (hperm.map (yAt orders)).sum_eq]
    exact sum_congr fun i hi => (hget i _ (hin i hi)).2.2.1
  have hliq2 : (ps.map fun i => (o i).y).sum = total ps (yAt orders) := by
    rw [← hliq, (hperm.map _).sum_eq]
  have hnin : ¬(true ∧ (matchlevel.any fun i => decide (orders.length ≤ i)) = true) := by
    intro hc
    obtain ⟨i, hi, hi'⟩ := List.any_eq_true.mp hc.2
    have := hps.2.1 i hi
    simp only [decide_eq_true_eq] at hi'
    omega
  constructor
  · unfold matchExact
    rw [eps]
    simp only [Py.ok_bind]
    rw [← ho, eps2, hliq2, abs_of_neg hx, if_neg (by simpa using hnin), if_pos ⟨trivial, by linarith, rfl⟩]
  · intro hpos
    obtain ⟨res, e, hsp, _, _, hbad⟩ := distribute_target hnd hp hx
    rw [hliq] at hbad
    have hsum := hbad (by linarith)
    obtain ⟨em, hpk⟩ := package h hav hsp
    obtain ⟨hex, hidx, ho1, hi1⟩ := hpk _ rfl
    refine ⟨_, ?_, hex, fun a ha => hperm.subset (hidx a ha), by rw [ho1, hsum]⟩
    unfold matchExact
    rw [eps]
    simp only [Py.ok_bind]
    rw [← ho] at em ⊢
    rw [eav, eps2, hliq2, abs_of_neg hx, if_neg (by simpa using hnin), if_neg (by simp),
      if_neg (by intro hc; linarith [hc.2.2]), e]
    simp only [Py.ok_bind]
    rw [em]
    simp only [Py.ok_bind, if_true]
    rw [hsum, pyDiv_ok (by linarith)]
    simp only [Py.ok_bind]
    rw [if_neg (by simp), if_neg (by simp)]

/-- Matching by source, `x > 0`, against well-formed orders: if all holdings at the allowed positions together are
worth at least `x`, the match succeeds, is executable, uses only these positions, spends exactly `x`, and no other trade
there that spends at most `x` buys more. Otherwise it fails, or with partial fills allowed buys everything. There is a price of the amounts. -/
theorem match_source (orders : List (Curve ℝ)) (hg : ∀ c ∈ orders, c.Good) (matchlevel ps : List Nat)
    (hps : Positions orders matchlevel ps) (x : ℝ) (hx : 0 < x) (q : Nat → ℝ)
    (hq : ∀ (i : Nat) (c : Curve ℝ), orders[i]? = some c → c.dxdy (-c.y) = .ok (q i)) :
    (x ≤ total ps q → ∀ supportPartial, ∃ acts, matchExact orders x false matchlevel supportPartial = .ok acts ∧
      Executable orders acts ∧ (∀ a ∈ acts, a.index ∈ ps) ∧ (acts.map (·.input)).sum = x ∧
      (∀ w z, Alternative orders ps w z → total ps z ≤ x → (acts.map (·.output)).sum ≤ total ps w) ∧
      ∃ m, 0 < m ∧ PricedAt orders ps (soldAt acts) m) ∧
    (total ps q < x → 0 < total ps q → matchExact orders x false matchlevel false = .error .assertion ∧
      ∃ acts, matchExact orders x false matchlevel true = .ok acts ∧ Executable orders acts ∧ (∀ a ∈ acts, a.index ∈ ps) ∧
        (acts.map (·.output)).sum = -total ps (yAt orders) ∧ (acts.map (·.input)).sum = total ps q) := by
  obtain ⟨qs, eps, hlen, h⟩ := setup hg
  set o : Nat → Par ℝ := fun i => qs.getD i ⟨0, 0, 0, 0, 0⟩ with ho
  obtain ⟨avail, eav, hperm, hnd, hav, eps2⟩ := avail_spec hps
  have hin : ∀ i (hi : i ∈ avail), orders[i]? = some (orders[i]'(hav i hi)) := fun i hi =>
    List.getElem?_eq_getElem (hav i hi)
  have hget : ∀ (i : Nat) (c : Curve ℝ), orders[i]? = some c → Pos (o i) ∧ (o i).y = c.y ∧ (o i).y = yAt orders i ∧
      ∀ v, -c.y ≤ v → c.dxdy v = .ok (charge (o i) v) := getD_spec h
  have hp : ∀ i ∈ avail, Pos (o i) := fun i hi => (hget i _ (hin i hi)).1
  have hliq : (avail.map fun i => (o i).y).sum = total ps (yAt orders) := by
    unfold total
    rw [← (hperm.map (yAt orders)).sum_eq]
    exact sum_congr fun i hi => (hget i _ (hin i hi)).2.2.1
  have hcap : capital o avail = total ps q := by
    unfold capital total
    rw [← (hperm.map q).sum_eq]
    apply sum_congr
    intro i hi
    have hi' := hin i hi
    have := (hget i _ hi').2.2.2 _ (le_refl _)
    rw [hq i _ hi'] at this
    show charge (o i) (-(o i).y) = _
    rw [(hget i _ hi').2.1]
    exact (Except.ok.inj this).symm
  obtain ⟨res, e, hsp, hok, hpr, hbad⟩ := distribute_source hnd hp hx
  rw [hcap] at hok hbad hpr
  rw [hliq] at hbad
  obtain ⟨em, hpk⟩ := package h hav hsp
  obtain ⟨hex, hidx, ho1, hi1⟩ := hpk _ rfl
  rw [← ho] at em
  have hstep : ∀ sp, matchExact orders x false matchlevel sp = (do
      let q ← pyDiv x (res.map fun p => charge (o p.1) p.2).sum
      if !false ∧ (res.map fun p => charge (o p.1) p.2).sum - x < 0 ∧ !sp then Except.error Err.assertion
      else if !sp ∧ |q - 1| ≥ 1 / 20 then .error (.custom "RuntimeError")
      else .ok (runTotals 0 0 ((res.zip (res.map fun p => charge (o p.1) p.2)).map fun p => ⟨p.1.1, p.2, p.1.2, 0, 0⟩)) :
        Py (List (Action ℝ))) := by
    intro sp
    unfold matchExact
    rw [eps]
    simp only [Py.ok_bind]
    rw [eav, if_neg (by simp), if_neg (by simp), if_neg (by simp), e]
    simp only [Py.ok_bind]
    rw [em]
    simp only [Py.ok_bind, Bool.false_eq_true, if_false]
  constructor
  · intro hle sp
    obtain ⟨hsum, hopt⟩ := hok hle
    obtain ⟨m, hm, hpr⟩ := hpr hle
    refine ⟨_, ?_, hex, fun a ha => hperm.subset (hidx a ha), by rw [hi1]; exact hsum, ?_, m, hm, priced_at hperm hget (sold_amount _ _) hpr⟩
    · rw [hstep, hsum, pyDiv_ok hx.ne', div_self hx.ne']
      simp only [Py.ok_bind]
      rw [if_neg (by intro hc; linarith [hc.2.1]), if_neg (by norm_num)]
    · intro w z halt hz
      rw [ho1]
      unfold total
      rw [← (hperm.map w).sum_eq]
      apply hopt w
      · intro i hi
        have hi' := hin i hi
        have := halt i _ (hperm.subset hi) hi'
        rw [(hget i _ hi').2.1]
        exact ⟨this.1, this.2.1⟩
      · refine le_trans (le_of_eq ?_) hz
        unfold total
        rw [← (hperm.map z).sum_eq]
        apply sum_congr
        intro i hi
        have hi' := hin i hi
        have ha := halt i _ (hperm.subset hi) hi'
        have := (hget i _ hi').2.2.2 (w i) ha.1
        rw [ha.2.2] at this
        exact (Except.ok.inj this).symm
  · intro hlt hpos
    obtain ⟨hsum, hall⟩ := hbad hlt
    constructor
    · rw [hstep, hsum, pyDiv_ok hpos.ne']
      simp only [Py.ok_bind]
      rw [if_pos ⟨rfl, by linarith, rfl⟩]
    · refine ⟨_, ?_, hex, fun a ha => hperm.subset (hidx a ha), by rw [ho1]; exact hall, by rw [hi1]; exact hsum⟩
      rw [hstep, hsum, pyDiv_ok hpos.ne']
      simp only [Py.ok_bind]
      rw [if_neg (by simp), if_neg (by simp)]

/-- **C70** Matching by source, `x > 0`, against well-formed orders: if all holdings at the allowed positions together are
worth at least `x`, the match succeeds, is executable, uses only these positions, spends exactly `x`, and no other trade
there that spends at most `x` buys more. Otherwise it fails, or with partial fills allowed buys everything. -/
theorem C70_by_source (orders : List (Curve ℝ)) (hg : ∀ c ∈ orders, c.Good) (matchlevel ps : List Nat)
    (hps : Positions orders matchlevel ps) (x : ℝ) (hx : 0 < x) (q : Nat → ℝ)
    (hq : ∀ (i : Nat) (c : Curve ℝ), orders[i]? = some c → c.dxdy (-c.y) = .ok (q i)) :
    (x ≤ total ps q → ∀ supportPartial, ∃ acts, matchExact orders x false matchlevel supportPartial = .ok acts ∧
      Executable orders acts ∧ (∀ a ∈ acts, a.index ∈ ps) ∧ (acts.map (·.input)).sum = x ∧
      ∀ w z, Alternative orders ps w z → total ps z ≤ x → (acts.map (·.output)).sum ≤ total ps w) ∧
    (total ps q < x → 0 < total ps q → matchExact orders x false matchlevel false = .error .assertion ∧
      ∃ acts, matchExact orders x false matchlevel true = .ok acts ∧ Executable orders acts ∧ (∀ a ∈ acts, a.index ∈ ps) ∧
        (acts.map (·.output)).sum = -total ps (yAt orders) ∧ (acts.map (·.input)).sum = total ps q) := by
  obtain ⟨h1, h2⟩ := match_source orders hg matchlevel ps hps x hx q hq
  refine ⟨fun h sp => ?_, h2⟩
  obtain ⟨acts, e1, e2, e3, e4, e5, _⟩ := h1 h sp
  exact ⟨acts, e1, e2, e3, e4, e5⟩

/-! ## Concrete instances -/

/-- Selling between prices 1 and 4, 8 of 10 left. -/
private noncomputable def ex1 : Curve ℝ := ⟨1, 1, 10, 1, 4, 8, decide ((4 : ℝ) = 1)⟩
/-- Selling between prices 4 and 9, 3 of 12 left. -/
private noncomputable def ex2 : Curve ℝ := ⟨2, 1, 12, 4, 9, 3, decide ((9 : ℝ) = 4)⟩
/-- A flat order at price 4. -/
private noncomputable def ex3 : Curve ℝ := ⟨2, 0, 5, 4, 4, 5, decide ((4 : ℝ) = 4)⟩

private theorem ex_good : ∀ c ∈ [ex1, ex2, ex3], c.Good := by
  intro c hc
  simp only [List.mem_cons, List.not_mem_nil, or_false] at hc
  rcases hc with rfl | rfl | rfl
  · unfold ex1; constructor <;> norm_num
  · unfold ex2; constructor <;> norm_num
  · unfold ex3; constructor <;> norm_num

private theorem ex_positions : Positions [ex1, ex2, ex3] [] [0, 1, 2] :=
  ⟨List.nodup_nil, by simp, by simp [List.range_succ]⟩

private theorem ex_total : total [0, 1, 2] (yAt [ex1, ex2, ex3]) = 16 := by
  simp only [total, yAt, ex1, ex2, ex3, List.map_cons, List.map_nil, List.sum_cons, List.sum_nil,
    List.getElem?_cons_zero, List.getElem?_cons_succ, Option.map_some, Option.getD_some]
  norm_num

example : ∃ acts, matchExact [ex1, ex2, ex3] (-7) true [] false = .ok acts ∧ Executable [ex1, ex2, ex3] acts ∧
    (∀ a ∈ acts, a.index ∈ [0, 1, 2]) ∧ (acts.map (·.output)).sum = -7 ∧
    ∀ w z, Alternative [ex1, ex2, ex3] [0, 1, 2] w z → total [0, 1, 2] w = -7 →
      (acts.map (·.input)).sum ≤ total [0, 1, 2] z :=
  C69_by_target _ ex_good [] _ ex_positions (-7) (by norm_num) (by rw [ex_total]; norm_num) false

/-- Restricted to two of the three orders. -/
example : ∃ acts, matchExact [ex1, ex2, ex3] (-7) true [2, 0] false = .ok acts ∧
    (∀ a ∈ acts, a.index ∈ [2, 0]) ∧ (acts.map (·.output)).sum = -7 := by
  obtain ⟨acts, e, _, h1, h2, _⟩ := C69_by_target _ ex_good [2, 0] [2, 0] ⟨by simp, by simp, by simp⟩ (-7) (by norm_num)
    (by simp only [total, yAt, ex1, ex2, ex3, List.map_cons, List.map_nil, List.sum_cons, List.sum_nil,
          List.getElem?_cons_zero, List.getElem?_cons_succ, Option.map_some, Option.getD_some]
        norm_num) false
  exact ⟨acts, e, h1, h2⟩

example : ∃ acts, matchExact [ex1, ex2, ex3] (-70) true [] true = .ok acts ∧ Executable [ex1, ex2, ex3] acts ∧
    (acts.map (·.output)).sum = -16 := by
  obtain ⟨acts, e, h1, _, h2⟩ := (C69_insufficient _ ex_good [] _ ex_positions (-70) (by norm_num)
    (by rw [ex_total]; norm_num)).2 (by rw [ex_total]; norm_num)
  rw [ex_total] at h2
  exact ⟨acts, e, h1, h2⟩

/-- What the orders charge for everything they hold always exists, so C70 applies to every list of well-formed orders. -/
theorem C70_capital_exists (orders : List (Curve ℝ)) (hg : ∀ c ∈ orders, c.Good) :
    ∃ q : Nat → ℝ, ∀ (i : Nat) (c : Curve ℝ), orders[i]? = some c → c.dxdy (-c.y) = .ok (q i) := by
  have : ∀ i : Nat, ∃ r : ℝ, ∀ c : Curve ℝ, orders[i]? = some c → c.dxdy (-c.y) = .ok r := by
    intro i
    cases h : orders[i]? with
    | none => exact ⟨0, by simp⟩
    | some c =>
      obtain ⟨p, _, _, _, h3⟩ := par_ok (hg c (List.mem_of_getElem? h))
      exact ⟨charge p (-c.y), fun d hd => by cases hd; exact h3 _ (le_refl _)⟩
  choose q hq using this
  exact ⟨q, hq⟩

example : ∃ q : Nat → ℝ, ∀ x, 0 < x → x ≤ total [0, 1, 2] q →
    ∃ acts, matchExact [ex1, ex2, ex3] x false [] false = .ok acts ∧ (acts.map (·.input)).sum = x := by
  obtain ⟨q, hq⟩ := C70_capital_exists _ ex_good
  refine ⟨q, fun x hx hle => ?_⟩
  obtain ⟨acts, e, _, _, h, _⟩ := (C70_by_source _ ex_good [] _ ex_positions x hx q hq).1 hle false
  exact ⟨acts, e, h⟩

/-- Two orders with different shapes, asked for one unit by the formula. -/
example : ∃ v : Nat → ℝ, amtByTarget (fun i => if i = 0 then ⟨1 / 2, 1, 1, 1, 1⟩ else ⟨1 / 3, 2, 1, 4, -1⟩) 0 (-1) [0, 1] =
    .ok (v 0) ∧ v 0 + v 1 = -1 := by
  obtain ⟨v, h1, h2, _⟩ := C26_target (fun i => if i = 0 then (⟨1 / 2, 1, 1, 1, 1⟩ : Par ℝ) else ⟨1 / 3, 2, 1, 4, -1⟩)
    [0, 1] (by simp) (by simp) (by
      intro i hi
      simp only [List.mem_cons, List.not_mem_nil, or_false] at hi
      rcases hi with rfl | rfl <;> constructor <;> norm_num) (-1)
  refine ⟨v, ?_, by simpa using h2⟩
  exact h1 0 (by simp)

end Carbon.ExactRouter
