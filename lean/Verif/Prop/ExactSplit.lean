import Verif.Prop.ExactRouter

/-!
# C156: one large trade through the exact router, or several small ones

The router leaves the orders at a common price. So a trade can be split into any number of trades, the order of the requests does not matter,
and a trade by source amount is a trade by target amount seen from the other side.
-/

namespace Carbon.ExactRouter

/-- The orders after a match: each holds what it held less what it sold, and is otherwise the same. -/
def settle (orders : List (Curve ℝ)) (acts : List (Action ℝ)) : List (Curve ℝ) :=
  orders.mapIdx fun i c => { c with y := c.y + soldAt acts i }

/-! ## Amounts of a match by position -/

theorem soldAt_eq {acts : List (Action ℝ)} (h : (acts.map (·.index)).Nodup) {a : Action ℝ} (ha : a ∈ acts) : soldAt acts a.index = a.output := by
  unfold soldAt
  induction acts with
  | nil => cases ha
  | cons b l ih =>
    rw [List.map_cons] at h
    obtain ⟨h1, h2⟩ := List.nodup_cons.mp h
    rcases List.mem_cons.mp ha with rfl | ha
    · rw [List.filter_cons_of_pos (by simp), List.map_cons, List.sum_cons]
      have : l.filter (fun c => decide (c.index = a.index)) = [] := by
        rw [List.filter_eq_nil_iff]
        intro c hc
        simp only [decide_eq_true_eq]
        exact fun e => h1 (by rw [← e]; exact List.mem_map_of_mem hc)
      rw [this]
      simp
    · rw [List.filter_cons_of_neg, ih h2 ha]
      simp only [decide_eq_true_eq]
      exact fun e => h1 (by rw [e]; exact List.mem_map_of_mem ha)

theorem soldAt_none {acts : List (Action ℝ)} {i : Nat} (h : i ∉ acts.map (·.index)) : soldAt acts i = 0 := by
  unfold soldAt
  have : acts.filter (fun c => decide (c.index = i)) = [] := by
    rw [List.filter_eq_nil_iff]
    intro c hc
    simp only [decide_eq_true_eq]
    exact fun e => h (by rw [← e]; exact List.mem_map_of_mem hc)
  rw [this]
  simp

/-- Sums over the actions are sums over the positions. -/
theorem sum_sold {acts : List (Action ℝ)} {ps : List Nat} (hps : ps.Nodup) (h : (acts.map (·.index)).Nodup) (hin : ∀ a ∈ acts, a.index ∈ ps)
    (g : Nat → ℝ → ℝ) (g0 : ∀ i, g i 0 = 0) : (acts.map fun a => g a.index a.output).sum = total ps fun i => g i (soldAt acts i) := by
  unfold total
  rw [sum_support hps h (fun i hi => by obtain ⟨a, ha, rfl⟩ := List.mem_map.mp hi; exact hin a ha)
    (fun i _ hi => by rw [soldAt_none hi]; exact g0 i), List.map_map]
  exact sum_congr fun a ha => by rw [Function.comp, soldAt_eq h ha]

theorem Executable.sold {orders : List (Curve ℝ)} (hg : ∀ c ∈ orders, c.Good) {acts : List (Action ℝ)} (h : Executable orders acts) {i : Nat}
    {c : Curve ℝ} (hc : orders[i]? = some c) : -c.y ≤ soldAt acts i ∧ soldAt acts i ≤ 0 := by
  by_cases hi : i ∈ acts.map (·.index)
  · obtain ⟨a, ha, rfl⟩ := List.mem_map.mp hi
    rw [soldAt_eq h.1 ha]
    obtain ⟨d, e1, e2, e3, _⟩ := h.2.2 a ha
    rw [hc] at e1
    cases e1
    exact ⟨e2, e3.le⟩
  · rw [soldAt_none hi]
    have := (hg c (List.mem_of_getElem? hc)).hy0
    exact ⟨by linarith, le_rfl⟩

/-! ## What an order asks -/

/-- What an order asks for a change of its holdings. -/
noncomputable def costOf (c : Curve ℝ) (v : ℝ) : ℝ :=
  match c.dxdy v with
  | .ok a => a
  | .error _ => 0

theorem costOf_eq {c : Curve ℝ} {v a : ℝ} (h : c.dxdy v = .ok a) : costOf c v = a := by
  unfold costOf
  rw [h]

theorem cost_ok {c : Curve ℝ} (h : c.Good) {v : ℝ} (hv : -c.y ≤ v) : c.dxdy v = .ok (costOf c v) := by
  obtain ⟨p, _, _, _, h3⟩ := par_ok h
  rw [h3 v hv, costOf_eq (h3 v hv)]

theorem cost_zero {c : Curve ℝ} (h : c.Good) : costOf c 0 = 0 := by
  obtain ⟨p, _, _, _, h3⟩ := par_ok h
  rw [costOf_eq (h3 0 (by linarith [h.hy0])), charge_zero]

/-- Selling less costs less. -/
theorem cost_anti {c : Curve ℝ} (h : c.Good) {v w : ℝ} (hv : -c.y ≤ v) (hvw : v < w) : costOf c w < costOf c v := by
  obtain ⟨p, _, h1, h2, h3⟩ := par_ok h
  rw [costOf_eq (h3 v hv), costOf_eq (h3 w (by linarith))]
  exact charge_anti h1 (h1.Y_end (by rw [h2]; exact hv)) hvw

/-- A part of an amount costs at most that part of the cost. -/
theorem cost_scale {c : Curve ℝ} (h : c.Good) {v t : ℝ} (hv : -c.y ≤ v) (hv0 : v ≤ 0) (ht : 0 ≤ t) (ht1 : t ≤ 1) :
    costOf c (t * v) ≤ t * costOf c v := by
  obtain ⟨p, _, h1, h2, h3⟩ := par_ok h
  have htv : v ≤ t * v := by nlinarith
  rw [costOf_eq (h3 v hv), costOf_eq (h3 (t * v) (by linarith))]
  have a1 := h1.Y_end (v := v) (by rw [h2]; exact hv)
  have a2 : p.Y + p.n * v ≤ p.Y + p.n * (t * v) := by have := mul_le_mul_of_nonneg_left htv h1.hn.le; linarith
  have hY := h1.Y_pos
  have e1 : charge p (t * v) = t * (p.x0 * p.y0 * -v) / (p.Y * (p.Y + p.n * (t * v))) := by
    unfold charge
    congr 1
    ring
  have e2 : t * charge p v = t * (p.x0 * p.y0 * -v) / (p.Y * (p.Y + p.n * v)) := by
    unfold charge
    rw [← mul_div_assoc]
    congr 1
    ring
  rw [e1, e2]
  apply div_le_div_of_nonneg_left _ (mul_pos hY a1) (mul_le_mul_of_nonneg_left a2 hY.le)
  have := h1.hx0
  have := h1.hy0
  have : 0 ≤ -v := by linarith
  positivity

/-- The cost is strictly convex. -/
theorem cost_conv {c : Curve ℝ} (h : c.Good) {v w t : ℝ} (hv : -c.y ≤ v) (hw : -c.y ≤ w) (ht : 0 < t) (ht1 : t < 1) (hne : v ≠ w) :
    costOf c ((1 - t) * v + t * w) < (1 - t) * costOf c v + t * costOf c w := by
  obtain ⟨p, _, h1, h2, h3⟩ := par_ok h
  have hm : -c.y ≤ (1 - t) * v + t * w := by nlinarith
  have hV := h1.Y_end (v := v) (by rw [h2]; exact hv)
  have hW := h1.Y_end (v := w) (by rw [h2]; exact hw)
  have hM := h1.Y_end (v := (1 - t) * v + t * w) (by rw [h2]; exact hm)
  rw [costOf_eq (h3 v hv), costOf_eq (h3 w hw), costOf_eq (h3 _ hm), charge_eq h1 hV, charge_eq h1 hW, charge_eq h1 hM]
  have hn := h1.hn
  have hr := h1.r_pos
  set V := p.Y + p.n * v with hVd
  set W := p.Y + p.n * w with hWd
  have hMe : p.Y + p.n * ((1 - t) * v + t * w) = (1 - t) * V + t * W := by rw [hVd, hWd]; ring
  rw [hMe] at hM ⊢
  have hVW : V ≠ W := by
    intro e
    apply hne
    rw [hVd, hWd] at e
    exact mul_left_cancel₀ hn.ne' (add_left_cancel e)
  have key : 1 / ((1 - t) * V + t * W) < (1 - t) * (1 / V) + t * (1 / W) := by
    have : (1 - t) * (1 / V) + t * (1 / W) - 1 / ((1 - t) * V + t * W) = t * (1 - t) * (V - W) ^ 2 / (V * W * ((1 - t) * V + t * W)) := by
      have hM' := hM.ne'
      have hV' := hV.ne'
      have hW' := hW.ne'
      field_simp
      ring
    have h0 : 0 < t * (1 - t) * (V - W) ^ 2 / (V * W * ((1 - t) * V + t * W)) := by
      have := sub_ne_zero.mpr hVW
      have : 0 < 1 - t := by linarith
      positivity
    linarith
  have hk : 0 < p.r ^ 2 / p.n := by positivity
  have := mul_lt_mul_of_pos_left key hk
  linarith

theorem cost_mid {c : Curve ℝ} (h : c.Good) {v w : ℝ} (hv : -c.y ≤ v) (hw : -c.y ≤ w) (hne : v ≠ w) :
    2 * costOf c ((v + w) / 2) < costOf c v + costOf c w := by
  have := cost_conv h hv hw (t := 1 / 2) (by norm_num) (by norm_num) hne
  have e : (1 - 1 / 2) * v + 1 / 2 * w = (v + w) / 2 := by ring
  rw [e] at this
  linarith

/-- After a sale an order asks the rest of what it asks for both. -/
theorem cost_add {c : Curve ℝ} (h : c.Good) {v u : ℝ} (hv : -c.y ≤ v) (hu : -(c.y + v) ≤ u) (hg : ({ c with y := c.y + v } : Curve ℝ).Good) :
    costOf { c with y := c.y + v } u = costOf c (v + u) - costOf c v := by
  obtain ⟨p, e1, h1, h2, h3⟩ := par_ok h
  obtain ⟨p', e1', h1', h2', h3'⟩ := par_ok hg
  have same : p'.n = p.n ∧ p'.x0 = p.x0 ∧ p'.y0 = p.y0 := by
    unfold par at e1 e1'
    rw [Py.bind_eq_ok] at e1 e1'
    obtain ⟨n, n1, e1⟩ := e1
    obtain ⟨n', n1', e1'⟩ := e1'
    rw [Py.bind_eq_ok] at e1 e1'
    obtain ⟨x, x1, e1⟩ := e1
    obtain ⟨x', x1', e1'⟩ := e1'
    rw [Py.bind_eq_ok] at e1 e1'
    obtain ⟨y, y1, e1⟩ := e1
    obtain ⟨y', y1', e1'⟩ := e1'
    rw [Py.bind_eq_ok] at e1 e1'
    obtain ⟨z, z1, e1⟩ := e1
    obtain ⟨z', z1', e1'⟩ := e1'
    have n2 : c.n = .ok n' := n1'
    have x2 : c.x0 = .ok x' := x1'
    have y2 : c.y0 = .ok y' := y1'
    rw [n1] at n2
    rw [x1] at x2
    rw [y1] at y2
    cases e1
    cases e1'
    cases n2
    cases x2
    cases y2
    exact ⟨rfl, rfl, rfl⟩
  obtain ⟨s1, s2, s3⟩ := same
  have hV := h1.Y_end (v := v) (by rw [h2]; exact hv)
  have hVU := h1.Y_end (v := v + u) (by rw [h2]; linarith)
  have hY' : p'.Y = p.Y + p.n * v := by
    unfold Par.Y
    rw [s1, s3, h2', h2]
    show p.n * (c.y + v) + _ = _
    ring
  have hr : p'.r = p.r := by unfold Par.r; rw [s2, s3]
  have hU' : 0 < p'.Y + p'.n * u := by
    rw [hY', s1]
    have : p.Y + p.n * v + p.n * u = p.Y + p.n * (v + u) := by ring
    rw [this]; exact hVU
  rw [costOf_eq (h3' u (by show -(c.y + v) ≤ u; exact hu)), costOf_eq (h3 (v + u) (by linarith)), costOf_eq (h3 v hv), charge_eq h1' hU', charge_eq h1 hV,
    charge_eq h1 hVU, hY', hr, s1]
  have : p.Y + p.n * v + p.n * u = p.Y + p.n * (v + u) := by ring
  rw [this]
  ring

theorem Good.sell {c : Curve ℝ} (h : c.Good) {v : ℝ} (hv : -c.y ≤ v) (hv0 : v ≤ 0) : ({ c with y := c.y + v } : Curve ℝ).Good :=
  ⟨h.hB, h.hS, h.hz, by show c.y + v ≤ c.yint; linarith [h.hy], by show 0 ≤ c.y + v; linarith, h.hpl, h.hph, h.hadj⟩

theorem settle_get {orders : List (Curve ℝ)} {acts : List (Action ℝ)} {i : Nat} {c : Curve ℝ} (h : orders[i]? = some c) :
    (settle orders acts)[i]? = some { c with y := c.y + soldAt acts i } := by
  unfold settle
  rw [List.getElem?_mapIdx, h]
  rfl

theorem settle_good {orders : List (Curve ℝ)} (hg : ∀ c ∈ orders, c.Good) {acts : List (Action ℝ)} (h : Executable orders acts) :
    ∀ c ∈ settle orders acts, c.Good := by
  intro c hc
  obtain ⟨i, hi, rfl⟩ := List.mem_mapIdx.mp hc
  have e := List.getElem?_eq_getElem hi
  have := h.sold hg e
  exact Good.sell (hg _ (List.getElem_mem hi)) this.1 this.2

theorem settle_length (orders : List (Curve ℝ)) (acts : List (Action ℝ)) : (settle orders acts).length = orders.length := by
  unfold settle
  exact List.length_mapIdx

/-! ## Amounts at a common price -/

/-- Amounts that the orders can sell, at a price. -/
structure At (orders : List (Curve ℝ)) (ps : List Nat) (v : Nat → ℝ) (m : ℝ) : Prop where
  sold : ∀ (i : Nat) (c : Curve ℝ), i ∈ ps → orders[i]? = some c → -c.y ≤ v i ∧ v i ≤ 0
  price : ∀ (i : Nat) (c : Curve ℝ) (u : ℝ), i ∈ ps → orders[i]? = some c → -c.y ≤ u → u ≤ 0 → -m * (u - v i) ≤ costOf c u - costOf c (v i)

theorem At.of {orders : List (Curve ℝ)} (hg : ∀ c ∈ orders, c.Good) {ps : List Nat} {acts : List (Action ℝ)} (h : Executable orders acts) {m : ℝ}
    (hp : PricedAt orders ps (soldAt acts) m) : At orders ps (soldAt acts) m where
  sold := fun i c _ hc => h.sold hg hc
  price := fun i c u hi hc h1 h2 => by
    have := h.sold hg hc
    have hgc := hg c (List.mem_of_getElem? hc)
    exact hp i c u _ _ hi hc this.1 h1 h2 (cost_ok hgc this.1) (cost_ok hgc h1)

/-- At a higher price every order sells at least as much. -/
theorem At.mono {orders : List (Curve ℝ)} {ps : List Nat} {v w : Nat → ℝ} {m k : ℝ} (hv : At orders ps v m) (hw : At orders ps w k) (hmk : m < k)
    {i : Nat} {c : Curve ℝ} (hi : i ∈ ps) (hc : orders[i]? = some c) : w i ≤ v i := by
  have a1 := hv.price i c (w i) hi hc (hw.sold i c hi hc).1 (hw.sold i c hi hc).2
  have a2 := hw.price i c (v i) hi hc (hv.sold i c hi hc).1 (hv.sold i c hi hc).2
  nlinarith

/-- The price determines the amounts. -/
theorem At.unique {orders : List (Curve ℝ)} (hg : ∀ c ∈ orders, c.Good) {ps : List Nat} {v w : Nat → ℝ} {m : ℝ} (hv : At orders ps v m)
    (hw : At orders ps w m) {i : Nat} {c : Curve ℝ} (hi : i ∈ ps) (hc : orders[i]? = some c) : w i = v i := by
  by_contra hne
  have b1 := hv.sold i c hi hc
  have b2 := hw.sold i c hi hc
  have a1 := hv.price i c ((v i + w i) / 2) hi hc (by linarith) (by linarith)
  have a2 := hw.price i c ((v i + w i) / 2) hi hc (by linarith) (by linarith)
  have := cost_mid (hg c (List.mem_of_getElem? hc)) b1.1 b2.1 (Ne.symm hne)
  nlinarith

theorem sum_eq_of_le {ps : List Nat} {f g : Nat → ℝ} (h : ∀ i ∈ ps, f i ≤ g i) (he : (ps.map f).sum = (ps.map g).sum) : ∀ i ∈ ps, f i = g i := by
  induction ps with
  | nil => simp
  | cons a l ih =>
    simp only [List.map_cons, List.sum_cons] at he
    have h1 := h a List.mem_cons_self
    have h2 := sum_le (l := l) fun i hi => h i (List.mem_cons_of_mem _ hi)
    intro i hi
    rcases List.mem_cons.mp hi with rfl | hi
    · linarith
    · exact ih (fun i hi => h i (List.mem_cons_of_mem _ hi)) (by linarith) i hi

/-- All amounts at two prices are ordered the same way. -/
theorem At.compare {orders : List (Curve ℝ)} (hg : ∀ c ∈ orders, c.Good) {ps : List Nat} (hps : ∀ i ∈ ps, i < orders.length) {v w : Nat → ℝ}
    {m k : ℝ} (hv : At orders ps v m) (hw : At orders ps w k) : (∀ i ∈ ps, w i ≤ v i) ∨ ∀ i ∈ ps, v i ≤ w i := by
  have hc : ∀ i ∈ ps, ∃ c, orders[i]? = some c := fun i hi => ⟨_, List.getElem?_eq_getElem (hps i hi)⟩
  rcases lt_trichotomy m k with h | h | h
  · left
    intro i hi
    obtain ⟨c, hc⟩ := hc i hi
    exact hv.mono hw h hi hc
  · left
    intro i hi
    obtain ⟨c, hc⟩ := hc i hi
    subst h
    exact (hv.unique hg hw hi hc).le
  · right
    intro i hi
    obtain ⟨c, hc⟩ := hc i hi
    exact hw.mono hv h hi hc

/-- The total amount determines the amounts. -/
theorem At.of_total {orders : List (Curve ℝ)} (hg : ∀ c ∈ orders, c.Good) {ps : List Nat} (hps : ∀ i ∈ ps, i < orders.length) {v w : Nat → ℝ}
    {m k : ℝ} (hv : At orders ps v m) (hw : At orders ps w k) (he : total ps v = total ps w) : ∀ i ∈ ps, v i = w i := by
  rcases hv.compare hg hps hw with h | h
  · exact fun i hi => (sum_eq_of_le h he.symm i hi).symm
  · exact sum_eq_of_le h he

/-- What an order at a position asks. -/
noncomputable def costAt (orders : List (Curve ℝ)) (i : Nat) (v : ℝ) : ℝ := (orders[i]?.map fun c => costOf c v).getD 0

theorem costAt_eq {orders : List (Curve ℝ)} {i : Nat} {c : Curve ℝ} (h : orders[i]? = some c) (v : ℝ) : costAt orders i v = costOf c v := by
  unfold costAt
  rw [h]
  rfl

theorem costAt_zero {orders : List (Curve ℝ)} (hg : ∀ c ∈ orders, c.Good) (i : Nat) : costAt orders i 0 = 0 := by
  cases h : orders[i]? with
  | none => unfold costAt; rw [h]; rfl
  | some c => rw [costAt_eq h]; exact cost_zero (hg c (List.mem_of_getElem? h))

/-- The total cost determines the amounts. -/
theorem At.of_cost {orders : List (Curve ℝ)} (hg : ∀ c ∈ orders, c.Good) {ps : List Nat} (hps : ∀ i ∈ ps, i < orders.length) {v w : Nat → ℝ}
    {m k : ℝ} (hv : At orders ps v m) (hw : At orders ps w k)
    (he : (total ps fun i => costAt orders i (v i)) = total ps fun i => costAt orders i (w i)) : ∀ i ∈ ps, v i = w i := by
  have mono : ∀ {v w : Nat → ℝ} {m k : ℝ}, At orders ps v m → At orders ps w k → (∀ i ∈ ps, w i ≤ v i) →
      (total ps fun i => costAt orders i (v i)) = (total ps fun i => costAt orders i (w i)) → ∀ i ∈ ps, v i = w i := by
    intro v w m k hv hw h he i hi
    have hle : ∀ i ∈ ps, costAt orders i (v i) ≤ costAt orders i (w i) := by
      intro i hi
      have hc := List.getElem?_eq_getElem (hps i hi)
      rw [costAt_eq hc, costAt_eq hc]
      rcases (h i hi).eq_or_lt with e | e
      · rw [e]
      · exact (cost_anti (hg _ (List.getElem_mem _)) (hw.sold i _ hi hc).1 e).le
    have := sum_eq_of_le hle he i hi
    have hc := List.getElem?_eq_getElem (hps i hi)
    rw [costAt_eq hc, costAt_eq hc] at this
    rcases (h i hi).eq_or_lt with e | e
    · exact e.symm
    · exact absurd this (cost_anti (hg _ (List.getElem_mem _)) (hw.sold i _ hi hc).1 e).ne
  rcases hv.compare hg hps hw with h | h
  · exact mono hv hw h he
  · exact fun i hi => (mono hw hv h he.symm i hi).symm

/-- Amounts at a price are the cheapest way to sell their total. -/
theorem At.least {orders : List (Curve ℝ)} {ps : List Nat} (hlt : ∀ i ∈ ps, i < orders.length) {v w : Nat → ℝ} {m : ℝ} (hv : At orders ps v m)
    (hw : ∀ (i : Nat) (c : Curve ℝ), i ∈ ps → orders[i]? = some c → -c.y ≤ w i ∧ w i ≤ 0) (he : total ps v = total ps w) :
    (total ps fun i => costAt orders i (v i)) ≤ total ps fun i => costAt orders i (w i) := by
  have h : (total ps fun i => costAt orders i (v i) + -m * (w i - v i)) ≤ total ps fun i => costAt orders i (w i) := by
    unfold total
    apply sum_le
    intro i hi
    have e := List.getElem?_eq_getElem (hlt i hi)
    have := hv.price i _ (w i) hi e (hw i _ hi e).1 (hw i _ hi e).2
    rw [costAt_eq e, costAt_eq e]
    linarith
  have e : (total ps fun i => costAt orders i (v i) + -m * (w i - v i)) = total ps fun i => costAt orders i (v i) := by
    unfold total
    rw [List.sum_map_add, sum_const_mul]
    have : (ps.map fun i => w i - v i).sum = 0 := by
      have h2 : (ps.map fun i => w i - v i).sum + (ps.map v).sum = (ps.map w).sum := by
        rw [← List.sum_map_add]
        exact sum_congr fun i _ => by ring
      unfold total at he
      linarith
    rw [this]
    ring
  linarith

/-- Amounts at a price on top of amounts at a price are amounts at a price. -/
theorem At.add {orders : List (Curve ℝ)} (hg : ∀ c ∈ orders, c.Good) {acts : List (Action ℝ)} (hex : Executable orders acts) {ps : List Nat}
    {w : Nat → ℝ} {m k : ℝ} (hv : At orders ps (soldAt acts) m) (hw : At (settle orders acts) ps w k) :
    ∃ q, At orders ps (fun i => soldAt acts i + w i) q := by
  have hadd : ∀ (i : Nat) (c : Curve ℝ) (u : ℝ), orders[i]? = some c → -(c.y + soldAt acts i) ≤ u →
      costOf { c with y := c.y + soldAt acts i } u = costOf c (soldAt acts i + u) - costOf c (soldAt acts i) := by
    intro i c u hc hu
    have hgc := hg c (List.mem_of_getElem? hc)
    have := hex.sold hg hc
    exact cost_add hgc this.1 hu (Good.sell hgc this.1 this.2)
  have hw1 : ∀ (i : Nat) (c : Curve ℝ), i ∈ ps → orders[i]? = some c → -(c.y + soldAt acts i) ≤ w i ∧ w i ≤ 0 := fun i c hi hc =>
    hw.sold i _ hi (settle_get hc)
  -- the second price, on the part already sold
  have low : ∀ (i : Nat) (c : Curve ℝ) (u : ℝ), i ∈ ps → orders[i]? = some c → -c.y ≤ u → u ≤ soldAt acts i →
      -k * (u - (soldAt acts i + w i)) ≤ costOf c u - costOf c (soldAt acts i + w i) := by
    intro i c u hi hc h1 h2
    have a1 := hw.price i _ (u - soldAt acts i) hi (settle_get hc) (by show -(c.y + soldAt acts i) ≤ _; linarith) (by linarith)
    rw [hadd i c _ hc (by linarith), hadd i c _ hc (hw1 i c hi hc).1] at a1
    have e : soldAt acts i + (u - soldAt acts i) = u := by ring
    rw [e] at a1
    have e2 : -k * (u - soldAt acts i - w i) = -k * (u - (soldAt acts i + w i)) := by ring
    rw [e2] at a1
    linarith
  have bounds : ∀ (i : Nat) (c : Curve ℝ), i ∈ ps → orders[i]? = some c → -c.y ≤ soldAt acts i + w i ∧ soldAt acts i + w i ≤ 0 := by
    intro i c hi hc
    have b1 := hv.sold i c hi hc
    have b2 := hw1 i c hi hc
    exact ⟨by linarith [b2.1], by linarith [b1.2, b2.2]⟩
  by_cases hmk : m ≤ k
  · refine ⟨k, bounds, fun i c u hi hc h1 h2 => ?_⟩
    rcases le_total u (soldAt acts i) with h | h
    · exact low i c u hi hc h1 h
    · have b1 := hv.sold i c hi hc
      have a1 := hv.price i c u hi hc h1 h2
      have a2 := low i c (soldAt acts i) hi hc b1.1 le_rfl
      nlinarith [mul_le_mul_of_nonneg_right hmk (sub_nonneg.mpr h)]
  · refine ⟨m, bounds, fun i c u hi hc h1 h2 => ?_⟩
    have b1 := hv.sold i c hi hc
    have b2 := hw1 i c hi hc
    have a1 := hv.price i c (soldAt acts i + w i) hi hc (bounds i c hi hc).1 (bounds i c hi hc).2
    have a2 := low i c (soldAt acts i) hi hc b1.1 le_rfl
    have hz : w i = 0 := by
      by_contra hne
      have : w i < 0 := lt_of_le_of_ne b2.2 hne
      nlinarith [not_le.mp hmk]
    have := hv.price i c u hi hc h1 h2
    rw [hz, add_zero]
    exact this

/-! ## Matches -/

/-- What a match within the liquidity does, in terms of the amounts at a price. -/
structure Match (orders : List (Curve ℝ)) (ps : List Nat) (acts : List (Action ℝ)) : Prop where
  exec : Executable orders acts
  inside : ∀ a ∈ acts, a.index ∈ ps
  price : ∃ m, At orders ps (soldAt acts) m

theorem Positions.nodup {orders : List (Curve ℝ)} {ml ps : List Nat} (h : Positions orders ml ps) : ps.Nodup ∧ ∀ i ∈ ps, i < orders.length := by
  obtain ⟨h1, h2, rfl⟩ := h
  split
  · exact ⟨List.nodup_range, fun i hi => List.mem_range.mp hi⟩
  · exact ⟨h1, h2⟩

theorem Positions.settle {orders : List (Curve ℝ)} {ml ps : List Nat} (h : Positions orders ml ps) (acts : List (Action ℝ)) :
    Positions (settle orders acts) ml ps := by
  unfold Positions
  rw [settle_length]
  exact h

theorem Match.output {orders : List (Curve ℝ)} {ps : List Nat} {acts : List (Action ℝ)} (h : Match orders ps acts) (hps : ps.Nodup) :
    (acts.map (·.output)).sum = total ps (soldAt acts) :=
  sum_sold hps h.exec.1 h.inside (fun _ x => x) fun _ => rfl

theorem Match.input {orders : List (Curve ℝ)} (hg : ∀ c ∈ orders, c.Good) {ps : List Nat} {acts : List (Action ℝ)} (h : Match orders ps acts)
    (hps : ps.Nodup) : (acts.map (·.input)).sum = total ps fun i => costAt orders i (soldAt acts i) := by
  rw [← sum_sold hps h.exec.1 h.inside (costAt orders) (costAt_zero hg)]
  refine sum_congr fun a ha => ?_
  obtain ⟨c, hc, _, _, e⟩ := h.exec.2.2 a ha
  rw [costAt_eq hc, costOf_eq e]

theorem Match.outside {orders : List (Curve ℝ)} {ps : List Nat} {acts : List (Action ℝ)} (h : Match orders ps acts) {i : Nat} (hi : i ∉ ps) :
    soldAt acts i = 0 := soldAt_none fun hm => by
  obtain ⟨a, ha, rfl⟩ := List.mem_map.mp hm
  exact hi (h.inside a ha)

/-- Matches that sell the same amounts leave the same orders and cost the same. -/
theorem Match.same {orders : List (Curve ℝ)} {ps : List Nat} {acts acts' : List (Action ℝ)} (h : Match orders ps acts)
    (h' : Match orders ps acts') (he : ∀ i ∈ ps, soldAt acts i = soldAt acts' i) : settle orders acts = settle orders acts' := by
  have : soldAt acts = soldAt acts' := by
    funext i
    by_cases hi : i ∈ ps
    · exact he i hi
    · rw [h.outside hi, h'.outside hi]
  unfold settle
  rw [this]

theorem match_of_target {orders : List (Curve ℝ)} (hg : ∀ c ∈ orders, c.Good) {ml ps : List Nat} (hps : Positions orders ml ps) {x : ℝ} (hx : x < 0)
    (hl : -x ≤ total ps (yAt orders)) (sp : Bool) :
    ∃ acts, matchExact orders x true ml sp = .ok acts ∧ Match orders ps acts ∧ (acts.map (·.output)).sum = x ∧
      ∀ w z, Alternative orders ps w z → total ps w = x → (acts.map (·.input)).sum ≤ total ps z := by
  obtain ⟨acts, e, h1, h2, h3, h4, m, _, h5⟩ := match_target orders hg ml ps hps x hx hl sp
  exact ⟨acts, e, ⟨h1, h2, m, At.of hg h1 h5⟩, h3, h4⟩

theorem match_of_source {orders : List (Curve ℝ)} (hg : ∀ c ∈ orders, c.Good) {ml ps : List Nat} (hps : Positions orders ml ps) {x : ℝ} (hx : 0 < x)
    {q : Nat → ℝ} (hq : ∀ (i : Nat) (c : Curve ℝ), orders[i]? = some c → c.dxdy (-c.y) = .ok (q i)) (hl : x ≤ total ps q) (sp : Bool) :
    ∃ acts, matchExact orders x false ml sp = .ok acts ∧ Match orders ps acts ∧ (acts.map (·.input)).sum = x ∧
      ∀ w z, Alternative orders ps w z → total ps z ≤ x → (acts.map (·.output)).sum ≤ total ps w := by
  obtain ⟨acts, e, h1, h2, h3, h4, m, _, h5⟩ := (match_source orders hg ml ps hps x hx q hq).1 hl sp
  exact ⟨acts, e, ⟨h1, h2, m, At.of hg h1 h5⟩, h3, h4⟩

theorem Match.settled_y {orders : List (Curve ℝ)} {ps : List Nat} {acts : List (Action ℝ)} (h : Match orders ps acts) (hnd : ps.Nodup)
    (hps : ∀ i ∈ ps, i < orders.length) : total ps (yAt (settle orders acts)) = total ps (yAt orders) + (acts.map (·.output)).sum := by
  rw [h.output hnd]
  unfold total
  rw [← List.sum_map_add]
  refine sum_congr fun i hi => ?_
  have e := List.getElem?_eq_getElem (hps i hi)
  unfold yAt
  rw [settle_get e, e]
  rfl

theorem Match.costs {orders : List (Curve ℝ)} (hg : ∀ c ∈ orders, c.Good) {ps : List Nat} {acts acts' : List (Action ℝ)} (h : Match orders ps acts)
    (h' : Match (settle orders acts) ps acts') (hnd : ps.Nodup) (hps : ∀ i ∈ ps, i < orders.length) :
    (acts.map (·.input)).sum + (acts'.map (·.input)).sum = total ps fun i => costAt orders i (soldAt acts i + soldAt acts' i) := by
  rw [h.input hg hnd, h'.input (settle_good hg h.exec) hnd]
  unfold total
  rw [← List.sum_map_add]
  refine sum_congr fun i hi => ?_
  have e := List.getElem?_eq_getElem (hps i hi)
  have s1 := h.exec.sold hg e
  have s2 := h'.exec.sold (settle_good hg h.exec) (settle_get (acts := acts) e)
  have hgc := hg _ (List.getElem_mem (hps i hi))
  rw [costAt_eq e, costAt_eq (settle_get (acts := acts) e), costAt_eq e, cost_add hgc s1.1 s2.1 (Good.sell hgc s1.1 s1.2)]
  ring

theorem settle_twice {orders : List (Curve ℝ)} {acts acts' acts'' : List (Action ℝ)} {ps : List Nat} (h : Match orders ps acts)
    (h' : Match (settle orders acts) ps acts') (h'' : Match orders ps acts'') (he : ∀ i ∈ ps, soldAt acts i + soldAt acts' i = soldAt acts'' i) :
    settle (settle orders acts) acts' = settle orders acts'' := by
  have : ∀ i, soldAt acts i + soldAt acts' i = soldAt acts'' i := by
    intro i
    by_cases hi : i ∈ ps
    · exact he i hi
    · rw [h.outside hi, h'.outside hi, h''.outside hi, add_zero]
  unfold settle
  rw [List.mapIdx_mapIdx]
  congr 1
  funext i c
  simp only [Function.comp]
  rw [add_assoc, this]

/-! ## The theorems -/

/-- There is one price that every order has been brought to: for no order is it worth, at this price, to have sold more or less. It is the same for
requests by target and by source amount. -/
theorem C156_price (orders : List (Curve ℝ)) (hg : ∀ c ∈ orders, c.Good) (ml ps : List Nat) (hps : Positions orders ml ps) (sp : Bool) :
    (∀ x < 0, -x ≤ total ps (yAt orders) → ∃ acts m, matchExact orders x true ml sp = .ok acts ∧ 0 < m ∧ PricedAt orders ps (soldAt acts) m) ∧
    ∀ x > 0, ∀ q : Nat → ℝ, (∀ (i : Nat) (c : Curve ℝ), orders[i]? = some c → c.dxdy (-c.y) = .ok (q i)) → x ≤ total ps q →
      ∃ acts m, matchExact orders x false ml sp = .ok acts ∧ 0 < m ∧ PricedAt orders ps (soldAt acts) m := by
  constructor
  · intro x hx hl
    obtain ⟨acts, e, _, _, _, _, m, h1, h2⟩ := match_target orders hg ml ps hps x hx hl sp
    exact ⟨acts, m, e, h1, h2⟩
  · intro x hx q hq hl
    obtain ⟨acts, e, _, _, _, _, m, h1, h2⟩ := (match_source orders hg ml ps hps x hx q hq).1 hl sp
    exact ⟨acts, m, e, h1, h2⟩

/-- Buying an amount at once, or a part of it and then the rest from the orders as the first purchase left them: both succeed, cost the same in total
and leave every order with the same holdings. -/
theorem C156_split_target (orders : List (Curve ℝ)) (hg : ∀ c ∈ orders, c.Good) (ml ps : List Nat) (hps : Positions orders ml ps) (x z : ℝ)
    (hx : x < 0) (hz : z < 0) (hl : -(x + z) ≤ total ps (yAt orders)) (sp : Bool) :
    ∃ acts acts' acts'', matchExact orders x true ml sp = .ok acts ∧ matchExact (settle orders acts) z true ml sp = .ok acts' ∧
      matchExact orders (x + z) true ml sp = .ok acts'' ∧ (acts.map (·.input)).sum + (acts'.map (·.input)).sum = (acts''.map (·.input)).sum ∧
      settle (settle orders acts) acts' = settle orders acts'' := by
  obtain ⟨hnd, hlt⟩ := hps.nodup
  obtain ⟨acts, e1, h1, o1, _⟩ := match_of_target hg hps hx (by linarith) sp
  have hg' := settle_good hg h1.exec
  obtain ⟨acts', e2, h2, o2, _⟩ := match_of_target hg' (hps.settle acts) hz (by rw [h1.settled_y hnd hlt, o1]; linarith) sp
  obtain ⟨acts'', e3, h3, o3, _⟩ := match_of_target hg hps (show x + z < 0 by linarith) hl sp
  obtain ⟨m1, p1⟩ := h1.price
  obtain ⟨m2, p2⟩ := h2.price
  obtain ⟨m3, p3⟩ := h3.price
  obtain ⟨m, p⟩ := p1.add hg h1.exec p2
  have he : ∀ i ∈ ps, soldAt acts i + soldAt acts' i = soldAt acts'' i := by
    refine p.of_total hg hlt p3 ?_
    rw [← h3.output hnd, o3, ← o1, ← o2, h1.output hnd, h2.output hnd]
    unfold total
    exact List.sum_map_add
  refine ⟨acts, acts', acts'', e1, e2, e3, ?_, settle_twice h1 h2 h3 he⟩
  rw [h1.costs hg h2 hnd hlt, h3.input hg hnd]
  unfold total
  exact sum_congr fun i hi => by rw [he i hi]

/-- The same for paying an amount at once or in two parts. -/
theorem C156_split_source (orders : List (Curve ℝ)) (hg : ∀ c ∈ orders, c.Good) (ml ps : List Nat) (hps : Positions orders ml ps) (x z : ℝ)
    (hx : 0 < x) (hz : 0 < z) (q : Nat → ℝ) (hq : ∀ (i : Nat) (c : Curve ℝ), orders[i]? = some c → c.dxdy (-c.y) = .ok (q i))
    (hl : x + z ≤ total ps q) (sp : Bool) :
    ∃ acts acts' acts'', matchExact orders x false ml sp = .ok acts ∧ matchExact (settle orders acts) z false ml sp = .ok acts' ∧
      matchExact orders (x + z) false ml sp = .ok acts'' ∧ (acts.map (·.output)).sum + (acts'.map (·.output)).sum = (acts''.map (·.output)).sum ∧
      settle (settle orders acts) acts' = settle orders acts'' := by
  obtain ⟨hnd, hlt⟩ := hps.nodup
  obtain ⟨acts, e1, h1, o1, _⟩ := match_of_source hg hps hx hq (by linarith) sp
  have hg' := settle_good hg h1.exec
  obtain ⟨q', hq'⟩ := C70_capital_exists _ hg'
  have hcap : total ps q' = total ps q - x := by
    rw [← o1, h1.input hg hnd, eq_sub_iff_add_eq]
    unfold total
    rw [← List.sum_map_add]
    refine sum_congr fun i hi => ?_
    have e := List.getElem?_eq_getElem (hlt i hi)
    have s1 := h1.exec.sold hg e
    have hgc := hg _ (List.getElem_mem (hlt i hi))
    have a1 := costOf_eq (hq i _ e)
    have a2 := costOf_eq (hq' i _ (settle_get (acts := acts) e))
    generalize orders[i]'(hlt i hi) = c at e s1 hgc a1 a2
    have a3 : costOf { c with y := c.y + soldAt acts i } (-(c.y + soldAt acts i)) = q' i := a2
    rw [← a1, ← a3, costAt_eq e, cost_add hgc s1.1 le_rfl (Good.sell hgc s1.1 s1.2)]
    have : soldAt acts i + -(c.y + soldAt acts i) = -c.y := by ring
    rw [this]
    ring
  obtain ⟨acts', e2, h2, o2, _⟩ := match_of_source hg' (hps.settle acts) hz hq' (by rw [hcap]; linarith) sp
  obtain ⟨acts'', e3, h3, o3, _⟩ := match_of_source hg hps (show 0 < x + z by linarith) hq hl sp
  obtain ⟨m1, p1⟩ := h1.price
  obtain ⟨m2, p2⟩ := h2.price
  obtain ⟨m3, p3⟩ := h3.price
  obtain ⟨m, p⟩ := p1.add hg h1.exec p2
  have he : ∀ i ∈ ps, soldAt acts i + soldAt acts' i = soldAt acts'' i := by
    refine p.of_cost hg hlt p3 ?_
    rw [← h3.input hg hnd, o3, ← o1, ← o2, h1.costs hg h2 hnd hlt]
  refine ⟨acts, acts', acts'', e1, e2, e3, ?_, settle_twice h1 h2 h3 he⟩
  rw [h1.output hnd, h2.output hnd, h3.output hnd]
  unfold total
  rw [← List.sum_map_add]
  exact sum_congr fun i hi => he i hi

/-- Paying what a purchase cost brings what it bought, from the same orders. -/
theorem C156_inverse (orders : List (Curve ℝ)) (hg : ∀ c ∈ orders, c.Good) (ml ps : List Nat) (hps : Positions orders ml ps) (x : ℝ) (hx : x < 0)
    (hl : -x ≤ total ps (yAt orders)) (sp : Bool) :
    ∃ acts acts', matchExact orders x true ml sp = .ok acts ∧ matchExact orders (acts.map (·.input)).sum false ml sp = .ok acts' ∧
      (acts'.map (·.output)).sum = x ∧ settle orders acts' = settle orders acts := by
  obtain ⟨hnd, hlt⟩ := hps.nodup
  obtain ⟨acts, e1, h1, o1, _⟩ := match_of_target hg hps hx hl sp
  obtain ⟨q, hq⟩ := C70_capital_exists _ hg
  have hpos : 0 < (acts.map (·.input)).sum := by
    have hne : acts ≠ [] := by rintro rfl; simp at o1; linarith
    apply List.sum_pos
    · intro y hy
      obtain ⟨a, ha, rfl⟩ := List.mem_map.mp hy
      obtain ⟨c, hc, b1, b2, b3⟩ := h1.exec.2.2 a ha
      have hgc := hg c (List.mem_of_getElem? hc)
      have := cost_anti hgc b1 b2
      rwa [cost_zero hgc, costOf_eq b3] at this
    · simpa using hne
  have hle : (acts.map (·.input)).sum ≤ total ps q := by
    rw [h1.input hg hnd]
    unfold total
    apply sum_le
    intro i hi
    have e := List.getElem?_eq_getElem (hlt i hi)
    have s1 := h1.exec.sold hg e
    have hgc := hg _ (List.getElem_mem (hlt i hi))
    rw [costAt_eq e, ← costOf_eq (hq i _ e)]
    rcases s1.1.eq_or_lt with h | h
    · rw [h]
    · exact (cost_anti hgc le_rfl h).le
  obtain ⟨acts', e2, h2, o2, _⟩ := match_of_source hg hps hpos hq hle sp
  obtain ⟨m1, p1⟩ := h1.price
  obtain ⟨m2, p2⟩ := h2.price
  have he : ∀ i ∈ ps, soldAt acts' i = soldAt acts i := by
    refine p2.of_cost hg hlt p1 ?_
    rw [← h1.input hg hnd, ← o2, h2.input hg hnd]
  refine ⟨acts, acts', e1, e2, ?_, h2.same h1 he⟩
  rw [← o1, h1.output hnd, h2.output hnd]
  unfold total
  exact sum_congr fun i hi => he i hi

/-- A larger purchase takes at least as much from every order, and its price per unit is at least as high. -/
theorem C156_larger (orders : List (Curve ℝ)) (hg : ∀ c ∈ orders, c.Good) (ml ps : List Nat) (hps : Positions orders ml ps) (x z : ℝ)
    (hzx : z ≤ x) (hx : x < 0) (hl : -z ≤ total ps (yAt orders)) (sp : Bool) :
    ∃ acts acts', matchExact orders x true ml sp = .ok acts ∧ matchExact orders z true ml sp = .ok acts' ∧
      (∀ i, soldAt acts' i ≤ soldAt acts i) ∧ (acts.map (·.input)).sum / -x ≤ (acts'.map (·.input)).sum / -z := by
  obtain ⟨hnd, hlt⟩ := hps.nodup
  have hz : z < 0 := by linarith
  obtain ⟨acts, e1, h1, o1, best⟩ := match_of_target hg hps hx (by linarith) sp
  obtain ⟨acts', e2, h2, o2, _⟩ := match_of_target hg hps hz hl sp
  obtain ⟨m1, p1⟩ := h1.price
  obtain ⟨m2, p2⟩ := h2.price
  refine ⟨acts, acts', e1, e2, ?_, ?_⟩
  · have : ∀ i ∈ ps, soldAt acts' i ≤ soldAt acts i := by
      rcases p1.compare hg hlt p2 with h | h
      · exact h
      · have ht : total ps (soldAt acts) = total ps (soldAt acts') := by
          apply le_antisymm
          · exact sum_le h
          · rw [← h1.output hnd, ← h2.output hnd, o1, o2]; exact hzx
        exact fun i hi => (sum_eq_of_le h ht i hi).ge
    intro i
    by_cases hi : i ∈ ps
    · exact this i hi
    · rw [h1.outside hi, h2.outside hi]
  · set t := x / z with ht
    have ht0 : 0 ≤ t := div_nonneg_of_nonpos hx.le hz.le
    have ht1 : t ≤ 1 := by rw [ht, div_le_one_of_neg hz]; exact hzx
    have hxt : x = t * z := by rw [ht, div_mul_cancel₀ _ hz.ne]
    have alt : Alternative orders ps (fun i => t * soldAt acts' i) (fun i => costAt orders i (t * soldAt acts' i)) := by
      intro i c hi hc
      have s1 := h2.exec.sold hg hc
      have b1 : soldAt acts' i ≤ t * soldAt acts' i := by nlinarith [s1.2]
      refine ⟨by linarith [s1.1], mul_nonpos_of_nonneg_of_nonpos ht0 s1.2, ?_⟩
      beta_reduce
      rw [costAt_eq hc]
      exact cost_ok (hg c (List.mem_of_getElem? hc)) (by linarith [s1.1])
    have hb := best _ _ alt (by unfold total; rw [sum_const_mul]; show t * total ps (soldAt acts') = x; rw [← h2.output hnd, o2, ← hxt])
    have hc : (total ps fun i => costAt orders i (t * soldAt acts' i)) ≤ t * (acts'.map (·.input)).sum := by
      rw [h2.input hg hnd]
      unfold total
      rw [← sum_const_mul]
      apply sum_le
      intro i hi
      have e := List.getElem?_eq_getElem (hlt i hi)
      have s1 := h2.exec.sold hg e
      rw [costAt_eq e, costAt_eq e]
      exact cost_scale (hg _ (List.getElem_mem (hlt i hi))) s1.1 s1.2 ht0 ht1
    have htp : 0 < t := div_pos_of_neg_of_neg hx hz
    rw [div_le_div_iff₀ (by linarith) (by linarith)]
    have := hb.trans hc
    have := mul_le_mul_of_nonneg_right this (show 0 ≤ -z by linarith)
    calc _ ≤ _ := this
      _ = _ := by rw [hxt]; ring

/-- A larger payment brings at least as much, but no more per unit paid. -/
theorem C156_larger_source (orders : List (Curve ℝ)) (hg : ∀ c ∈ orders, c.Good) (ml ps : List Nat) (hps : Positions orders ml ps) (x z : ℝ)
    (hx : 0 < x) (hxz : x ≤ z) (q : Nat → ℝ) (hq : ∀ (i : Nat) (c : Curve ℝ), orders[i]? = some c → c.dxdy (-c.y) = .ok (q i))
    (hl : z ≤ total ps q) (sp : Bool) :
    ∃ acts acts', matchExact orders x false ml sp = .ok acts ∧ matchExact orders z false ml sp = .ok acts' ∧
      (acts'.map (·.output)).sum ≤ (acts.map (·.output)).sum ∧ -(acts'.map (·.output)).sum / z ≤ -(acts.map (·.output)).sum / x := by
  obtain ⟨hnd, hlt⟩ := hps.nodup
  have hz : 0 < z := by linarith
  obtain ⟨acts, e1, h1, o1, best⟩ := match_of_source hg hps hx hq (by linarith) sp
  obtain ⟨acts', e2, h2, o2, best'⟩ := match_of_source hg hps hz hq hl sp
  refine ⟨acts, acts', e1, e2, ?_, ?_⟩
  · rw [h1.output hnd]
    refine best' _ (fun i => costAt orders i (soldAt acts i)) ?_ (by rw [← h1.input hg hnd, o1]; exact hxz)
    intro i c hi hc
    have s1 := h1.exec.sold hg hc
    exact ⟨s1.1, s1.2, by beta_reduce; rw [costAt_eq hc]; exact cost_ok (hg c (List.mem_of_getElem? hc)) s1.1⟩
  · set t := x / z with ht
    have ht0 : 0 ≤ t := div_nonneg hx.le hz.le
    have ht1 : t ≤ 1 := by rw [ht, div_le_one hz]; exact hxz
    have hxt : x = t * z := by rw [ht, div_mul_cancel₀ _ hz.ne']
    have alt : Alternative orders ps (fun i => t * soldAt acts' i) (fun i => costAt orders i (t * soldAt acts' i)) := by
      intro i c hi hc
      have s1 := h2.exec.sold hg hc
      have b1 : soldAt acts' i ≤ t * soldAt acts' i := by nlinarith [s1.2]
      refine ⟨by linarith [s1.1], mul_nonpos_of_nonneg_of_nonpos ht0 s1.2, ?_⟩
      beta_reduce
      rw [costAt_eq hc]
      exact cost_ok (hg c (List.mem_of_getElem? hc)) (by linarith [s1.1])
    have hc : (total ps fun i => costAt orders i (t * soldAt acts' i)) ≤ t * (acts'.map (·.input)).sum := by
      rw [h2.input hg hnd]
      unfold total
      rw [← sum_const_mul]
      apply sum_le
      intro i hi
      have e := List.getElem?_eq_getElem (hlt i hi)
      have s1 := h2.exec.sold hg e
      rw [costAt_eq e, costAt_eq e]
      exact cost_scale (hg _ (List.getElem_mem (hlt i hi))) s1.1 s1.2 ht0 ht1
    have hb := best _ _ alt (by rw [o2, ← hxt] at hc; exact hc)
    have ht2 : (total ps fun i => t * soldAt acts' i) = t * (acts'.map (·.output)).sum := by
      rw [h2.output hnd]
      unfold total
      rw [sum_const_mul]
    rw [ht2] at hb
    rw [div_le_div_iff₀ hz hx]
    have := mul_le_mul_of_nonneg_right hb hz.le
    calc _ = -(t * (acts'.map (·.output)).sum * z) := by rw [hxt]; ring
      _ ≤ _ := by linarith

/-- A mixture of two ways to sell is a way to sell; it costs less than the mixture of the costs unless they are the same. -/
theorem mix {orders : List (Curve ℝ)} (hg : ∀ c ∈ orders, c.Good) {ps : List Nat} (hlt : ∀ i ∈ ps, i < orders.length) {v w : Nat → ℝ}
    (hv : ∀ (i : Nat) (c : Curve ℝ), i ∈ ps → orders[i]? = some c → -c.y ≤ v i ∧ v i ≤ 0)
    (hw : ∀ (i : Nat) (c : Curve ℝ), i ∈ ps → orders[i]? = some c → -c.y ≤ w i ∧ w i ≤ 0) (hne : ∃ i ∈ ps, v i ≠ w i)
    {t : ℝ} (ht : 0 < t) (ht1 : t < 1) :
    Alternative orders ps (fun i => (1 - t) * v i + t * w i) (fun i => costAt orders i ((1 - t) * v i + t * w i)) ∧
      (total ps fun i => (1 - t) * v i + t * w i) = (1 - t) * total ps v + t * total ps w ∧
      (total ps fun i => costAt orders i ((1 - t) * v i + t * w i)) <
        (1 - t) * (total ps fun i => costAt orders i (v i)) + t * total ps fun i => costAt orders i (w i) := by
  have lin : ∀ f g : Nat → ℝ, (total ps fun i => (1 - t) * f i + t * g i) = (1 - t) * total ps f + t * total ps g := by
    intro f g
    unfold total
    rw [List.sum_map_add, sum_const_mul, sum_const_mul]
  refine ⟨?_, lin v w, ?_⟩
  · intro i c hi hc
    have b1 := hv i c hi hc
    have b2 := hw i c hi hc
    have h0 : -c.y ≤ (1 - t) * v i + t * w i := by nlinarith
    refine ⟨h0, by nlinarith, ?_⟩
    beta_reduce
    rw [costAt_eq hc]
    exact cost_ok (hg c (List.mem_of_getElem? hc)) h0
  · rw [← lin]
    refine List.sum_lt_sum _ _ (fun i hi => ?_) ?_
    · have e := List.getElem?_eq_getElem (hlt i hi)
      rw [costAt_eq e, costAt_eq e, costAt_eq e]
      by_cases h : v i = w i
      · rw [h]
        have : (1 - t) * w i + t * w i = w i := by ring
        rw [this]
        linarith
      · exact (cost_conv (hg _ (List.getElem_mem (hlt i hi))) (hv i _ hi e).1 (hw i _ hi e).1 ht ht1 h).le
    · obtain ⟨i, hi, h⟩ := hne
      refine ⟨i, hi, ?_⟩
      have e := List.getElem?_eq_getElem (hlt i hi)
      rw [costAt_eq e, costAt_eq e, costAt_eq e]
      exact cost_conv (hg _ (List.getElem_mem (hlt i hi))) (hv i _ hi e).1 (hw i _ hi e).1 ht ht1 h

/-- Marginal prices rise with the amount bought: of three amounts, what the second costs more than the first, per unit, is less than what the third
costs more than the second; also from nothing. -/
theorem C156_marginal (orders : List (Curve ℝ)) (hg : ∀ c ∈ orders, c.Good) (ml ps : List Nat) (hps : Positions orders ml ps) (sp : Bool)
    (F : ℝ → ℝ) (hF0 : F 0 = 0) (L : ℝ) (hL : L = total ps (yAt orders))
    (hF : ∀ x, 0 < x → x ≤ L → ∃ acts, matchExact orders (-x) true ml sp = .ok acts ∧ (acts.map (·.input)).sum = F x)
    (a b c : ℝ) (ha : 0 ≤ a) (hab : a < b) (hbc : b < c) (hc : c ≤ L) : (F b - F a) / (b - a) < (F c - F b) / (c - b) := by
  obtain ⟨hnd, hlt⟩ := hps.nodup
  have get : ∀ x, 0 < x → x ≤ L → ∃ acts, Match orders ps acts ∧ (acts.map (·.output)).sum = -x ∧ (acts.map (·.input)).sum = F x ∧
      ∀ w z, Alternative orders ps w z → total ps w = -x → F x ≤ total ps z := by
    intro x h1 h2
    obtain ⟨acts, e1, h3, h4, h5⟩ := match_of_target hg hps (x := -x) (by linarith) (by linarith) sp
    obtain ⟨acts', e2, h6⟩ := hF x h1 h2
    rw [e1] at e2
    cases e2
    exact ⟨acts, h3, h4, h6, by rw [← h6]; exact h5⟩
  obtain ⟨_, _, _, _, best⟩ := get b (by linarith) (by linarith)
  obtain ⟨actc, hc1, hc2, hc3, _⟩ := get c (by linarith) hc
  obtain ⟨v, hv, hv1, hv2⟩ : ∃ v : Nat → ℝ, (∀ (i : Nat) (c : Curve ℝ), i ∈ ps → orders[i]? = some c → -c.y ≤ v i ∧ v i ≤ 0) ∧
      total ps v = -a ∧ (total ps fun i => costAt orders i (v i)) = F a := by
    rcases ha.eq_or_lt with rfl | ha
    · refine ⟨fun _ => 0, fun i c hi hc => ⟨by linarith [(hg c (List.mem_of_getElem? hc)).hy0], le_rfl⟩, by simp [total], ?_⟩
      rw [hF0]
      unfold total
      have : ps.map (fun i => costAt orders i 0) = ps.map fun _ => (0 : ℝ) := List.map_congr_left fun i _ => costAt_zero hg i
      rw [this]
      simp
    · obtain ⟨acts, h1, h2, h3, _⟩ := get a ha (by linarith)
      exact ⟨soldAt acts, fun i c _ hc => h1.exec.sold hg hc, by rw [← h1.output hnd, h2], by rw [← h1.input hg hnd, h3]⟩
  have ht : 0 < (b - a) / (c - a) := div_pos (by linarith) (by linarith)
  have ht1 : (b - a) / (c - a) < 1 := by rw [div_lt_one (by linarith)]; linarith
  obtain ⟨m1, m2, m3⟩ := mix hg hlt hv (fun i c _ hc => hc1.exec.sold hg hc)
    (by
      by_contra hall
      push Not at hall
      have : total ps v = total ps (soldAt actc) := sum_congr hall
      rw [hv1, ← hc1.output hnd, hc2] at this
      linarith) ht ht1
  rw [hv2, ← hc1.input hg hnd, hc3] at m3
  rw [hv1, ← hc1.output hnd, hc2] at m2
  have hca : 0 < c - a := by linarith
  have := (best _ _ m1 (by rw [m2]; field_simp; ring)).trans_lt m3
  have e : (1 - (b - a) / (c - a)) * F a + (b - a) / (c - a) * F c = ((c - b) * F a + (b - a) * F c) / (c - a) := by
    field_simp
    ring
  rw [e, lt_div_iff₀ hca] at this
  rw [div_lt_div_iff₀ (by linarith) (by linarith)]
  nlinarith

/-- What a payment brings per unit falls with the payment: of three payments, what the second brings more than the first, per unit, is more than what
the third brings more than the second; also from nothing. -/
theorem C156_marginal_source (orders : List (Curve ℝ)) (hg : ∀ c ∈ orders, c.Good) (ml ps : List Nat) (hps : Positions orders ml ps) (sp : Bool)
    (q : Nat → ℝ) (hq : ∀ (i : Nat) (c : Curve ℝ), orders[i]? = some c → c.dxdy (-c.y) = .ok (q i)) (L : ℝ) (hL : L = total ps q)
    (G : ℝ → ℝ) (hG0 : G 0 = 0)
    (hG : ∀ x, 0 < x → x ≤ L → ∃ acts, matchExact orders x false ml sp = .ok acts ∧ (acts.map (·.output)).sum = -G x)
    (a b c : ℝ) (ha : 0 ≤ a) (hab : a < b) (hbc : b < c) (hc : c ≤ L) : (G c - G b) / (c - b) < (G b - G a) / (b - a) := by
  obtain ⟨hnd, hlt⟩ := hps.nodup
  have get : ∀ x, 0 < x → x ≤ L → ∃ acts, Match orders ps acts ∧ (acts.map (·.input)).sum = x ∧ (acts.map (·.output)).sum = -G x ∧
      ∀ w z, Alternative orders ps w z → total ps z ≤ x → -G x ≤ total ps w := by
    intro x h1 h2
    obtain ⟨acts, e1, h3, h4, h5⟩ := match_of_source hg hps h1 hq (by linarith) sp
    obtain ⟨acts', e2, h6⟩ := hG x h1 h2
    rw [e1] at e2
    cases e2
    exact ⟨acts, h3, h4, h6, by rw [← h6]; exact h5⟩
  obtain ⟨actb, hb1, hb2, hb3, best⟩ := get b (by linarith) (by linarith)
  obtain ⟨actc, hc1, hc2, hc3, _⟩ := get c (by linarith) hc
  obtain ⟨v, hv, hv1, hv2⟩ : ∃ v : Nat → ℝ, (∀ (i : Nat) (c : Curve ℝ), i ∈ ps → orders[i]? = some c → -c.y ≤ v i ∧ v i ≤ 0) ∧
      total ps v = -G a ∧ (total ps fun i => costAt orders i (v i)) = a := by
    rcases ha.eq_or_lt with rfl | ha
    · refine ⟨fun _ => 0, fun i c hi hc => ⟨by linarith [(hg c (List.mem_of_getElem? hc)).hy0], le_rfl⟩, by simp [total, hG0], ?_⟩
      unfold total
      have : ps.map (fun i => costAt orders i 0) = ps.map fun _ => (0 : ℝ) := List.map_congr_left fun i _ => costAt_zero hg i
      rw [this]
      simp
    · obtain ⟨acts, h1, h2, h3, _⟩ := get a ha (by linarith)
      exact ⟨soldAt acts, fun i c _ hc => h1.exec.sold hg hc, by rw [← h1.output hnd, h3], by rw [← h1.input hg hnd, h2]⟩
  have hca : 0 < c - a := by linarith
  have ht : 0 < (b - a) / (c - a) := div_pos (by linarith) hca
  have ht1 : (b - a) / (c - a) < 1 := by rw [div_lt_one hca]; linarith
  have hsum : ∃ i ∈ ps, v i ≠ soldAt actc i := by
    by_contra hall
    push Not at hall
    have : (total ps fun i => costAt orders i (v i)) = total ps fun i => costAt orders i (soldAt actc i) :=
      sum_congr fun i hi => by rw [hall i hi]
    rw [hv2, ← hc1.input hg hnd, hc2] at this
    linarith
  obtain ⟨m1, m2, m3⟩ := mix hg hlt hv (fun i c _ hc => hc1.exec.sold hg hc) hsum ht ht1
  rw [hv2, ← hc1.input hg hnd, hc2] at m3
  rw [hv1, ← hc1.output hnd, hc3] at m2
  have hb : (1 - (b - a) / (c - a)) * a + (b - a) / (c - a) * c = b := by
    field_simp
    ring
  rw [hb] at m3
  have h1 := best _ _ m1 m3.le
  obtain ⟨m, hp⟩ := hb1.price
  have hlt' : -G b < total ps fun i => (1 - (b - a) / (c - a)) * v i + (b - a) / (c - a) * soldAt actc i := by
    refine lt_of_le_of_ne h1 fun e => ?_
    have : (total ps fun i => costAt orders i (soldAt actb i)) ≤
        total ps fun i => costAt orders i ((1 - (b - a) / (c - a)) * v i + (b - a) / (c - a) * soldAt actc i) := by
      have := At.least hlt hp (fun i c hi hc => ⟨(m1 i c hi hc).1, (m1 i c hi hc).2.1⟩) (by rw [← hb1.output hnd, hb3, e])
      exact this
    rw [← hb1.input hg hnd, hb2] at this
    linarith
  rw [m2] at hlt'
  have e : (1 - (b - a) / (c - a)) * -G a + (b - a) / (c - a) * -G c = -(((c - b) * G a + (b - a) * G c) / (c - a)) := by
    field_simp
    ring
  rw [e, neg_lt_neg_iff, div_lt_iff₀ hca] at hlt'
  rw [div_lt_div_iff₀ (by linarith) (by linarith)]
  nlinarith

/-- The payments for all targets within what is held, as one function; it exists for all good orders. -/
theorem payments {orders : List (Curve ℝ)} (hg : ∀ c ∈ orders, c.Good) {ml ps : List Nat} (hps : Positions orders ml ps) (sp : Bool) :
    ∃ F : ℝ → ℝ, F 0 = 0 ∧ ∀ x, 0 < x → x ≤ total ps (yAt orders) → ∃ acts, matchExact orders (-x) true ml sp = .ok acts ∧
      Executable orders acts ∧ (acts.map (·.output)).sum = -x ∧ (acts.map (·.input)).sum = F x := by
  classical
  have h : ∀ x, ∃ v : ℝ, (x = 0 → v = 0) ∧ (0 < x → x ≤ total ps (yAt orders) → ∃ acts, matchExact orders (-x) true ml sp = .ok acts ∧
      Executable orders acts ∧ (acts.map (·.output)).sum = -x ∧ (acts.map (·.input)).sum = v) := by
    intro x
    by_cases hx : 0 < x ∧ x ≤ total ps (yAt orders)
    · obtain ⟨acts, e, h1, h2, _⟩ := match_of_target hg hps (x := -x) (by linarith [hx.1]) (by linarith [hx.2]) sp
      exact ⟨_, fun h0 => absurd h0 hx.1.ne', fun _ _ => ⟨acts, e, h1.exec, h2, rfl⟩⟩
    · exact ⟨0, fun _ => rfl, fun h1 h2 => absurd ⟨h1, h2⟩ hx⟩
  choose F h1 h2 using h
  exact ⟨F, h1 0 rfl, h2⟩

/-- What all payments up to the cost of everything bring, as one function. -/
theorem receipts {orders : List (Curve ℝ)} (hg : ∀ c ∈ orders, c.Good) {ml ps : List Nat} (hps : Positions orders ml ps) (sp : Bool)
    {q : Nat → ℝ} (hq : ∀ (i : Nat) (c : Curve ℝ), orders[i]? = some c → c.dxdy (-c.y) = .ok (q i)) :
    ∃ G : ℝ → ℝ, G 0 = 0 ∧ ∀ x, 0 < x → x ≤ total ps q → ∃ acts, matchExact orders x false ml sp = .ok acts ∧
      Executable orders acts ∧ (acts.map (·.input)).sum = x ∧ (acts.map (·.output)).sum = -G x := by
  classical
  have h : ∀ x, ∃ v : ℝ, (x = 0 → v = 0) ∧ (0 < x → x ≤ total ps q → ∃ acts, matchExact orders x false ml sp = .ok acts ∧
      Executable orders acts ∧ (acts.map (·.input)).sum = x ∧ (acts.map (·.output)).sum = -v) := by
    intro x
    by_cases hx : 0 < x ∧ x ≤ total ps q
    · obtain ⟨acts, e, h1, h2, _⟩ := match_of_source hg hps hx.1 hq hx.2 sp
      exact ⟨-(acts.map (·.output)).sum, fun h0 => absurd h0 hx.1.ne', fun _ _ => ⟨acts, e, h1.exec, h2, (neg_neg _).symm⟩⟩
    · exact ⟨0, fun _ => rfl, fun h1 h2 => absurd ⟨h1, h2⟩ hx⟩
  choose G h1 h2 using h
  exact ⟨G, h1 0 rfl, h2⟩

/-! ## A book of three orders -/

private noncomputable def book : List (Curve ℝ) :=
  [⟨1, 1, 10, 1, 4, 8, decide ((4 : ℝ) = 1)⟩, ⟨2, 1, 12, 4, 9, 3, decide ((9 : ℝ) = 4)⟩, ⟨2, 0, 5, 4, 4, 5, decide ((4 : ℝ) = 4)⟩]

private theorem book_good : ∀ c ∈ book, c.Good := by
  intro c hc
  unfold book at hc
  simp only [List.mem_cons, List.not_mem_nil, or_false] at hc
  rcases hc with rfl | rfl | rfl <;> constructor <;> norm_num

private theorem book_positions : Positions book [] [0, 1, 2] := ⟨List.nodup_nil, by simp, by simp [book, List.range_succ]⟩

private theorem book_total : total [0, 1, 2] (yAt book) = 16 := by
  simp only [total, yAt, book, List.map_cons, List.map_nil, List.sum_cons, List.sum_nil, List.getElem?_cons_zero, List.getElem?_cons_succ,
    Option.map_some, Option.getD_some]
  norm_num

/-- Buying 5 and then 9 of the 16 available, or 14 at once. -/
example : ∃ acts acts' acts'', matchExact book (-5) true [] false = .ok acts ∧ matchExact (settle book acts) (-9) true [] false = .ok acts' ∧
    matchExact book (-14) true [] false = .ok acts'' ∧ (acts.map (·.input)).sum + (acts'.map (·.input)).sum = (acts''.map (·.input)).sum ∧
    settle (settle book acts) acts' = settle book acts'' := by
  have := C156_split_target book book_good [] _ book_positions (-5) (-9) (by norm_num) (by norm_num) (by rw [book_total]; norm_num) false
  norm_num at this ⊢
  exact this

example : ∃ acts acts', matchExact book (-5) true [] false = .ok acts ∧ matchExact book (-14) true [] false = .ok acts' ∧
    (acts.map (·.input)).sum / - -5 ≤ (acts'.map (·.input)).sum / - -14 := by
  obtain ⟨a, b, h1, h2, _, h3⟩ := C156_larger book book_good [] _ book_positions (-5) (-14) (by norm_num) (by norm_num) (by rw [book_total]; norm_num) false
  exact ⟨a, b, h1, h2, h3⟩

example : ∃ acts acts', matchExact book (-5) true [] false = .ok acts ∧ matchExact book (acts.map (·.input)).sum false [] false = .ok acts' ∧
    (acts'.map (·.output)).sum = -5 := by
  obtain ⟨a, b, h1, h2, h3, _⟩ := C156_inverse book book_good [] _ book_positions (-5) (by norm_num) (by rw [book_total]; norm_num) false
  exact ⟨a, b, h1, h2, h3⟩

/-- There are payments that the three orders can take in two parts. -/
example : ∃ x > 0, ∃ z > 0, ∃ acts acts' acts'', matchExact book x false [] false = .ok acts ∧ matchExact (settle book acts) z false [] false = .ok acts' ∧
    matchExact book (x + z) false [] false = .ok acts'' ∧ (acts.map (·.output)).sum + (acts'.map (·.output)).sum = (acts''.map (·.output)).sum := by
  obtain ⟨q, hq⟩ := C70_capital_exists _ book_good
  have hpos : 0 < total [0, 1, 2] q := by
    apply List.sum_pos
    · intro y hy
      obtain ⟨i, hi, rfl⟩ := List.mem_map.mp hy
      have hi' := (book_positions.nodup).2 i hi
      have e := List.getElem?_eq_getElem hi'
      have hgc := book_good _ (List.getElem_mem hi')
      have hy : 0 < (book[i]).y := by
        simp only [List.mem_cons, List.not_mem_nil, or_false] at hi
        rcases hi with rfl | rfl | rfl <;> simp [book]
      have := cost_anti hgc le_rfl (show -(book[i]).y < 0 by linarith)
      rwa [cost_zero hgc, costOf_eq (hq i _ e)] at this
    · simp
  obtain ⟨a, b, c, h1, h2, h3, h4, _⟩ := C156_split_source book book_good [] _ book_positions (total [0, 1, 2] q / 4) (total [0, 1, 2] q / 2)
    (by positivity) (by positivity) q hq (by linarith) false
  exact ⟨_, by positivity, _, by positivity, a, b, c, h1, h2, h3, h4⟩

/-- Buying 4, 10 and 16 of the 16 available: the last 6 cost more than the 6 before. -/
example : ∃ F : ℝ → ℝ, (F 10 - F 4) / (10 - 4) < (F 16 - F 10) / (16 - 10) := by
  obtain ⟨F, h0, h1⟩ := payments book_good book_positions false
  refine ⟨F, C156_marginal book book_good [] _ book_positions false F h0 _ rfl (fun x h2 h3 => ?_) 4 10 16 (by norm_num) (by norm_num) (by norm_num)
    (by rw [book_total])⟩
  obtain ⟨acts, e, _, _, h4⟩ := h1 x h2 h3
  exact ⟨acts, e, h4⟩

end Carbon.ExactRouter
