import Verif.Prop.ExactSplit

/-!
# The exact router does not depend on the listing of the orders, nor on the units (C177)
-/

namespace Carbon.ExactRouter

/-! ## Amounts of one book in another -/

/-- The second order is the first one with amounts of the token it sells multiplied by `l`, and amounts of the other token by `m`. -/
def Like (l m : ℝ) (c d : Curve ℝ) : Prop := d.y = l * c.y ∧ ∀ v, -c.y ≤ v → costOf d (l * v) = m * costOf c v

theorem Like.refl (c : Curve ℝ) : Like 1 1 c c := ⟨by ring, fun v _ => by rw [one_mul, one_mul]⟩

/-- Amounts at a price in one book are amounts at a price in the other. -/
theorem At.transfer {orders orders' : List (Curve ℝ)} {ps ps' : List Nat} {σ : Nat → Nat} {l m : ℝ} (hl : 0 < l) (hm : 0 < m)
    (hσ : ∀ i ∈ ps, σ i ∈ ps') (h : ∀ (i : Nat) (c : Curve ℝ), i ∈ ps → orders[i]? = some c → ∃ d, orders'[σ i]? = some d ∧ Like l m c d)
    {w : Nat → ℝ} {k : ℝ} (hw : At orders' ps' w k) : At orders ps (fun i => w (σ i) / l) (k * l / m) where
  sold := by
    intro i c hi hc
    obtain ⟨d, hd, hy, _⟩ := h i c hi hc
    have := hw.sold (σ i) d (hσ i hi) hd
    rw [hy] at this
    constructor
    · rw [le_div_iff₀ hl]; linarith [this.1]
    · rw [div_le_iff₀ hl]; linarith [this.2]
  price := by
    intro i c u hi hc h1 h2
    obtain ⟨d, hd, hy, he⟩ := h i c hi hc
    have hs := hw.sold (σ i) d (hσ i hi) hd
    rw [hy] at hs
    have hv : -c.y ≤ w (σ i) / l := by rw [le_div_iff₀ hl]; linarith [hs.1]
    have a1 := hw.price (σ i) d (l * u) (hσ i hi) hd (by rw [hy]; nlinarith) (by nlinarith)
    have e : w (σ i) = l * (w (σ i) / l) := by field_simp
    have e2 : costOf d (w (σ i)) = m * costOf c (w (σ i) / l) := by
      conv_lhs => rw [e]
      exact he _ hv
    rw [he u h1, e2] at a1
    have a2 : m * (-(k * l / m) * (u - w (σ i) / l)) ≤ m * (costOf c u - costOf c (w (σ i) / l)) := by
      have e3 : m * (-(k * l / m) * (u - w (σ i) / l)) = -k * (l * u - w (σ i)) := by field_simp
      rw [e3]
      linarith
    exact le_of_mul_le_mul_left a2 hm

theorem total_perm {ps ps' : List Nat} {σ : Nat → Nat} (hp : (ps.map σ).Perm ps') (f : Nat → ℝ) : total ps' f = total ps fun i => f (σ i) := by
  unfold total
  rw [← (hp.map f).sum_eq, List.map_map]
  rfl

theorem total_mul (ps : List Nat) (l : ℝ) (f : Nat → ℝ) : total ps (fun i => l * f i) = l * total ps f := by
  unfold total
  exact List.sum_map_mul_left ps f l

theorem total_congr {ps : List Nat} {f g : Nat → ℝ} (h : ∀ i ∈ ps, f i = g i) : total ps f = total ps g := by
  unfold total
  exact sum_congr h

/-- Two books that are alike position by position. -/
structure Alike (orders orders' : List (Curve ℝ)) (ps ps' : List Nat) (σ : Nat → Nat) (l m : ℝ) : Prop where
  l0 : 0 < l
  m0 : 0 < m
  perm : (ps.map σ).Perm ps'
  like : ∀ (i : Nat) (c : Curve ℝ), i ∈ ps → orders[i]? = some c → ∃ d, orders'[σ i]? = some d ∧ Like l m c d

theorem Alike.mem {orders orders' : List (Curve ℝ)} {ps ps' : List Nat} {σ : Nat → Nat} {l m : ℝ} (h : Alike orders orders' ps ps' σ l m) :
    ∀ i ∈ ps, σ i ∈ ps' := fun _ hi => h.perm.subset (List.mem_map_of_mem hi)

theorem Alike.holdings {orders orders' : List (Curve ℝ)} {ps ps' : List Nat} {σ : Nat → Nat} {l m : ℝ} (h : Alike orders orders' ps ps' σ l m)
    (hps : ∀ i ∈ ps, i < orders.length) : total ps' (yAt orders') = l * total ps (yAt orders) := by
  rw [total_perm h.perm, ← total_mul]
  refine total_congr fun i hi => ?_
  have e := List.getElem?_eq_getElem (hps i hi)
  obtain ⟨d, hd, hy, _⟩ := h.like i _ hi e
  unfold yAt
  rw [hd, e]
  exact hy

theorem Alike.cost {orders orders' : List (Curve ℝ)} {ps ps' : List Nat} {σ : Nat → Nat} {l m : ℝ} (h : Alike orders orders' ps ps' σ l m)
    (hps : ∀ i ∈ ps, i < orders.length) {v w : Nat → ℝ} {k : ℝ} (hv : At orders ps v k) (he : ∀ i ∈ ps, w (σ i) = l * v i) :
    (total ps' fun i => costAt orders' i (w i)) = m * total ps fun i => costAt orders i (v i) := by
  rw [total_perm h.perm, ← total_mul]
  refine total_congr fun i hi => ?_
  have e := List.getElem?_eq_getElem (hps i hi)
  obtain ⟨d, hd, hy, hc⟩ := h.like i _ hi e
  rw [costAt_eq hd, costAt_eq e, he i hi, hc _ (hv.sold i _ hi e).1]

/-- Matches for the same amount in books that are alike. -/
theorem Alike.target {orders orders' : List (Curve ℝ)} {ps ps' : List Nat} {σ : Nat → Nat} {l m : ℝ} (h : Alike orders orders' ps ps' σ l m)
    (hg : ∀ c ∈ orders, c.Good) (hg' : ∀ c ∈ orders', c.Good) {ml ml' : List Nat} (hps : Positions orders ml ps)
    (hps' : Positions orders' ml' ps') {x : ℝ} (hx : x < 0) (hl : -x ≤ total ps (yAt orders)) (sp sp' : Bool) :
    ∃ acts acts', matchExact orders x true ml sp = .ok acts ∧ matchExact orders' (l * x) true ml' sp' = .ok acts' ∧
      (∀ i ∈ ps, soldAt acts' (σ i) = l * soldAt acts i) ∧ (acts'.map (·.input)).sum = m * (acts.map (·.input)).sum := by
  obtain ⟨hnd, hlt⟩ := hps.nodup
  obtain ⟨hnd', hlt'⟩ := hps'.nodup
  have hx' : l * x < 0 := mul_neg_of_pos_of_neg h.l0 hx
  obtain ⟨acts, e1, h1, o1, _⟩ := match_of_target hg hps hx hl sp
  obtain ⟨acts', e2, h2, o2, _⟩ := match_of_target hg' hps' hx'
    (by rw [h.holdings hlt]; nlinarith [h.l0]) sp'
  obtain ⟨k, p⟩ := h1.price
  obtain ⟨k', p'⟩ := h2.price
  have q := p'.transfer h.l0 h.m0 h.mem h.like
  have he : ∀ i ∈ ps, soldAt acts i = soldAt acts' (σ i) / l := by
    refine p.of_total hg hlt q ?_
    rw [← h1.output hnd, o1]
    have : total ps' (soldAt acts') = l * x := by rw [← h2.output hnd', o2]
    rw [total_perm h.perm] at this
    have e : total ps (fun i => l * (soldAt acts' (σ i) / l)) = l * x := by
      rw [← this]
      exact total_congr fun i _ => mul_div_cancel₀ _ h.l0.ne'
    rw [total_mul] at e
    exact (mul_left_cancel₀ h.l0.ne' e).symm
  have he' : ∀ i ∈ ps, soldAt acts' (σ i) = l * soldAt acts i := fun i hi => by rw [he i hi, mul_div_cancel₀ _ h.l0.ne']
  exact ⟨acts, acts', e1, e2, he', by rw [h2.input hg' hnd', h1.input hg hnd, h.cost hlt p he']⟩

/-- Matches for the same payment in books that are alike. -/
theorem Alike.source {orders orders' : List (Curve ℝ)} {ps ps' : List Nat} {σ : Nat → Nat} {l m : ℝ} (h : Alike orders orders' ps ps' σ l m)
    (hg : ∀ c ∈ orders, c.Good) (hg' : ∀ c ∈ orders', c.Good) {ml ml' : List Nat} (hps : Positions orders ml ps)
    (hps' : Positions orders' ml' ps') {x : ℝ} (hx : 0 < x) {q : Nat → ℝ}
    (hq : ∀ (i : Nat) (c : Curve ℝ), orders[i]? = some c → c.dxdy (-c.y) = .ok (q i)) (hl : x ≤ total ps q) (sp sp' : Bool) :
    ∃ acts acts', matchExact orders x false ml sp = .ok acts ∧ matchExact orders' (m * x) false ml' sp' = .ok acts' ∧
      (∀ i ∈ ps, soldAt acts' (σ i) = l * soldAt acts i) ∧ (acts'.map (·.output)).sum = l * (acts.map (·.output)).sum := by
  obtain ⟨hnd, hlt⟩ := hps.nodup
  obtain ⟨hnd', hlt'⟩ := hps'.nodup
  obtain ⟨q', hq'⟩ := C70_capital_exists _ hg'
  have hcap : total ps' q' = m * total ps q := by
    rw [total_perm h.perm, ← total_mul]
    refine total_congr fun i hi => ?_
    have e := List.getElem?_eq_getElem (hlt i hi)
    obtain ⟨d, hd, hy, hc⟩ := h.like i _ hi e
    have a := hc (-(orders[i]'(hlt i hi)).y) le_rfl
    rw [costOf_eq (hq i _ e)] at a
    rw [← a, ← costOf_eq (hq' _ _ hd), hy]
    congr 1
    ring
  obtain ⟨acts, e1, h1, o1, _⟩ := match_of_source hg hps hx hq hl sp
  obtain ⟨acts', e2, h2, o2, _⟩ := match_of_source hg' hps' (mul_pos h.m0 hx) hq'
    (by rw [hcap]; exact mul_le_mul_of_nonneg_left hl h.m0.le) sp'
  obtain ⟨k, p⟩ := h1.price
  obtain ⟨k', p'⟩ := h2.price
  have r := p'.transfer h.l0 h.m0 h.mem h.like
  have he : ∀ i ∈ ps, soldAt acts i = soldAt acts' (σ i) / l := by
    refine p.of_cost hg hlt r ?_
    rw [← h1.input hg hnd, o1]
    have a : (total ps' fun i => costAt orders' i (soldAt acts' i)) = m * x := by rw [← h2.input hg' hnd', o2]
    have b := h.cost hlt r (w := soldAt acts') fun i _ => (mul_div_cancel₀ _ h.l0.ne').symm
    rw [a] at b
    exact mul_left_cancel₀ h.m0.ne' b
  have he' : ∀ i ∈ ps, soldAt acts' (σ i) = l * soldAt acts i := fun i hi => by rw [he i hi, mul_div_cancel₀ _ h.l0.ne']
  refine ⟨acts, acts', e1, e2, he', ?_⟩
  rw [h2.output hnd', h1.output hnd, total_perm h.perm, ← total_mul]
  exact total_congr he'

/-! ## The listing -/

/-- **C177** However the orders are listed, each of them sells the same, and the purchase costs the same. The positions that may be used are listed
in two ways, as `ps` and as `ps'`; `σ` takes a position in the first list to that of the same order in the second. -/
theorem C177_listing_target (orders orders' : List (Curve ℝ)) (hg : ∀ c ∈ orders, c.Good) (hg' : ∀ c ∈ orders', c.Good) (ml ml' ps ps' : List Nat)
    (hps : Positions orders ml ps) (hps' : Positions orders' ml' ps') (σ : Nat → Nat) (hσ : (ps.map σ).Perm ps')
    (same : ∀ i ∈ ps, orders'[σ i]? = orders[i]?) (x : ℝ) (hx : x < 0) (hl : -x ≤ total ps (yAt orders)) (sp sp' : Bool) :
    ∃ acts acts', matchExact orders x true ml sp = .ok acts ∧ matchExact orders' x true ml' sp' = .ok acts' ∧
      (∀ i ∈ ps, soldAt acts' (σ i) = soldAt acts i) ∧ (acts'.map (·.input)).sum = (acts.map (·.input)).sum := by
  have h : Alike orders orders' ps ps' σ 1 1 := ⟨one_pos, one_pos, hσ, fun i c hi hc => ⟨c, by rw [same i hi, hc], Like.refl c⟩⟩
  have := h.target hg hg' hps hps' hx hl sp sp'
  simpa only [one_mul] using this

/-- **C177** The same for payments. -/
theorem C177_listing_source (orders orders' : List (Curve ℝ)) (hg : ∀ c ∈ orders, c.Good) (hg' : ∀ c ∈ orders', c.Good) (ml ml' ps ps' : List Nat)
    (hps : Positions orders ml ps) (hps' : Positions orders' ml' ps') (σ : Nat → Nat) (hσ : (ps.map σ).Perm ps')
    (same : ∀ i ∈ ps, orders'[σ i]? = orders[i]?) (x : ℝ) (hx : 0 < x) (q : Nat → ℝ)
    (hq : ∀ (i : Nat) (c : Curve ℝ), orders[i]? = some c → c.dxdy (-c.y) = .ok (q i)) (hl : x ≤ total ps q) (sp sp' : Bool) :
    ∃ acts acts', matchExact orders x false ml sp = .ok acts ∧ matchExact orders' x false ml' sp' = .ok acts' ∧
      (∀ i ∈ ps, soldAt acts' (σ i) = soldAt acts i) ∧ (acts'.map (·.output)).sum = (acts.map (·.output)).sum := by
  have h : Alike orders orders' ps ps' σ 1 1 := ⟨one_pos, one_pos, hσ, fun i c hi hc => ⟨c, by rw [same i hi, hc], Like.refl c⟩⟩
  have := h.source hg hg' hps hps' hx hq hl sp sp'
  simpa only [one_mul] using this

/-- Orders on the same curve with the same holdings sell the same at one price. -/
theorem At.equal {orders : List (Curve ℝ)} (hg : ∀ c ∈ orders, c.Good) {ps : List Nat} {v : Nat → ℝ} {m : ℝ} (hv : At orders ps v m) {i j : Nat}
    {c : Curve ℝ} (hi : i ∈ ps) (hj : j ∈ ps) (hci : orders[i]? = some c) (hcj : orders[j]? = some c) : v i = v j := by
  by_contra hne
  have b1 := hv.sold i c hi hci
  have b2 := hv.sold j c hj hcj
  have a1 := hv.price i c ((v i + v j) / 2) hi hci (by linarith) (by linarith)
  have a2 := hv.price j c ((v i + v j) / 2) hj hcj (by linarith) (by linarith)
  have := cost_mid (hg c (List.mem_of_getElem? hci)) b1.1 b2.1 hne
  nlinarith

/-- **C177** Equal orders are treated equally: two orders with the same curve and the same holdings sell the same, in purchases and for payments. -/
theorem C177_equal (orders : List (Curve ℝ)) (hg : ∀ c ∈ orders, c.Good) (ml ps : List Nat) (hps : Positions orders ml ps) (i j : Nat) (hi : i ∈ ps)
    (hj : j ∈ ps) (same : orders[i]? = orders[j]?) (sp : Bool) :
    (∀ x < 0, -x ≤ total ps (yAt orders) → ∃ acts, matchExact orders x true ml sp = .ok acts ∧ soldAt acts i = soldAt acts j) ∧
    ∀ x > 0, ∀ q : Nat → ℝ, (∀ (i : Nat) (c : Curve ℝ), orders[i]? = some c → c.dxdy (-c.y) = .ok (q i)) → x ≤ total ps q →
      ∃ acts, matchExact orders x false ml sp = .ok acts ∧ soldAt acts i = soldAt acts j := by
  have e := List.getElem?_eq_getElem (hps.nodup.2 i hi)
  constructor
  · intro x hx hl
    obtain ⟨acts, e1, h1, _⟩ := match_of_target hg hps hx hl sp
    obtain ⟨m, p⟩ := h1.price
    exact ⟨acts, e1, p.equal hg hi hj e (same ▸ e)⟩
  · intro x hx q hq hl
    obtain ⟨acts, e1, h1, _⟩ := match_of_source hg hps hx hq hl sp
    obtain ⟨m, p⟩ := h1.price
    exact ⟨acts, e1, p.equal hg hi hj e (same ▸ e)⟩

/-! ## The units -/

/-- The order with the token it sells counted in a unit that is `l` times smaller, and the other token in one that is `m` times smaller. -/
noncomputable def inUnits (l m : ℝ) (c : Curve ℝ) : Curve ℝ :=
  ⟨c.B * Real.sqrt (l / m), c.S * Real.sqrt (l / m), l * c.yint, c.plow * (l / m), c.phigh * (l / m), l * c.y, c.adjN⟩

theorem inUnits_good {l m : ℝ} (hl : 0 < l) (hm : 0 < m) {c : Curve ℝ} (h : c.Good) : (inUnits l m c).Good := by
  have hr : 0 < Real.sqrt (l / m) := Real.sqrt_pos.mpr (div_pos hl hm)
  have hs : Real.sqrt (l / m) ^ 2 = l / m := Real.sq_sqrt (div_pos hl hm).le
  refine ⟨mul_pos h.hB hr, mul_nonneg h.hS hr.le, mul_pos hl h.hz, mul_le_mul_of_nonneg_left h.hy hl.le, mul_nonneg hl.le h.hy0, ?_, ?_, ?_⟩
  · show c.plow * (l / m) = (c.B * Real.sqrt (l / m)) ^ 2
    rw [mul_pow, hs, h.hpl]
  · show c.phigh * (l / m) = (c.B * Real.sqrt (l / m) + c.S * Real.sqrt (l / m)) ^ 2
    rw [← add_mul, mul_pow, hs, h.hph]
  · show c.adjN = decide (c.phigh * (l / m) = c.plow * (l / m))
    rw [h.hadj]
    have : (c.phigh * (l / m) = c.plow * (l / m)) ↔ c.phigh = c.plow := mul_left_inj' (div_pos hl hm).ne'
    simp only [this]

/-- What an order asks, from its parameters. -/
theorem cost_formula {c : Curve ℝ} (h : c.Good) {n : ℝ} (hn : c.n = .ok n) (h0 : 0 < n) (h1 : n < 1) {v : ℝ} (hv : -c.y ≤ v) :
    costOf c v = -(c.yint1 * (1 - n) / (c.B * (c.B + c.S) * (2 - n))) * (c.yint1 * (1 - n) / (2 - n)) * v /
      ((n * c.y + c.yint1 * (1 - n) / (2 - n) * (1 - n)) * (n * (c.y + v) + c.yint1 * (1 - n) / (2 - n) * (1 - n))) := by
  have hB := h.hB
  have hS := h.hS
  have hz1 : 0 < c.yint1 := lt_of_lt_of_le one_pos (le_max_right _ _)
  have hp : c.p = .ok (c.B * (c.B + c.S)) := by
    unfold Curve.p
    rw [h.hpl, h.hph]
    have e : (c.B + c.S) ^ 2 * c.B ^ 2 = (c.B * (c.B + c.S)) ^ 2 := by ring
    rw [e, Curve.sqrtE_ok (by positivity), Real.sqrt_sq (by positivity)]
  have h2 : 0 < 2 - n := by linarith
  have hP : 0 < c.B * (c.B + c.S) := by positivity
  have hx0 : c.x0 = .ok (c.yint1 * (1 - n) / (c.B * (c.B + c.S) * (2 - n))) := by
    unfold Curve.x0
    rw [hn, Py.ok_bind, hp, Py.ok_bind]
    exact UICurve.pyDiv_ok (mul_pos hP h2).ne'
  have hy0 : c.y0 = .ok (c.yint1 * (1 - n) / (2 - n)) := by
    unfold Curve.y0
    rw [hn, Py.ok_bind]
    exact UICurve.pyDiv_ok h2.ne'
  have hw : 0 < c.yint1 * (1 - n) / (2 - n) * (1 - n) := by
    have : 0 < 1 - n := by linarith
    positivity
  apply costOf_eq
  unfold Curve.dxdy
  rw [hx0, Py.ok_bind, hy0, Py.ok_bind, hn, Py.ok_bind]
  have d1 : 0 < n * c.y + c.yint1 * (1 - n) / (2 - n) * (1 - n) := by have := mul_nonneg h0.le h.hy0; linarith
  have d2 : 0 < n * (c.y + v) + c.yint1 * (1 - n) / (2 - n) * (1 - n) := by
    have := mul_nonneg h0.le (show 0 ≤ c.y + v by linarith)
    linarith
  exact UICurve.pyDiv_ok (mul_pos d1 d2).ne'

theorem inUnits_n {l m : ℝ} (hl : 0 < l) (hm : 0 < m) (c : Curve ℝ) : (inUnits l m c).n = c.n := by
  unfold Curve.n
  have : CarbonPair.pyDiv (inUnits l m c).plow (inUnits l m c).phigh = CarbonPair.pyDiv c.plow c.phigh := by
    show CarbonPair.pyDiv (c.plow * (l / m)) (c.phigh * (l / m)) = _
    have hne : l / m ≠ 0 := (div_pos hl hm).ne'
    unfold CarbonPair.pyDiv
    by_cases h : c.phigh = 0
    · rw [h, zero_mul, if_pos rfl, if_pos rfl]
    · rw [if_neg (mul_ne_zero h hne), if_neg h, mul_div_mul_right _ _ hne]
  rw [this]
  rfl

theorem n_ok {c : Curve ℝ} (h : c.Good) : ∃ n, c.n = .ok n ∧ 0 < n ∧ n < 1 := by
  obtain ⟨p, e, h1, _⟩ := par_ok h
  unfold par at e
  rw [Py.bind_eq_ok] at e
  obtain ⟨n, hn, e⟩ := e
  rw [Py.bind_eq_ok] at e
  obtain ⟨_, _, e⟩ := e
  rw [Py.bind_eq_ok] at e
  obtain ⟨_, _, e⟩ := e
  rw [Py.bind_eq_ok] at e
  obtain ⟨_, _, e⟩ := e
  cases e
  exact ⟨n, hn, h1.hn, h1.hn1⟩

/-- An order in other units charges the same, if its capacity is at least one in both units. -/
theorem inUnits_like {l m : ℝ} (hl : 0 < l) (hm : 0 < m) {c : Curve ℝ} (h : c.Good) (h1 : 1 ≤ c.yint) (h2 : 1 ≤ l * c.yint) :
    Like l m c (inUnits l m c) := by
  refine ⟨rfl, fun v hv => ?_⟩
  obtain ⟨n, hn, n0, n1⟩ := n_ok h
  have hr : 0 < Real.sqrt (l / m) := Real.sqrt_pos.mpr (div_pos hl hm)
  have hs : Real.sqrt (l / m) * Real.sqrt (l / m) = l / m := Real.mul_self_sqrt (div_pos hl hm).le
  have e1 : c.yint1 = c.yint := max_eq_left h1
  have e2 : (inUnits l m c).yint1 = l * c.yint := max_eq_left h2
  have hvv : -(inUnits l m c).y ≤ l * v := by show -(l * c.y) ≤ l * v; nlinarith
  rw [cost_formula (inUnits_good hl hm h) ((inUnits_n hl hm c).trans hn) n0 n1 hvv, cost_formula h hn n0 n1 hv, e1, e2]
  show -(l * c.yint * (1 - n) / (c.B * Real.sqrt (l / m) * (c.B * Real.sqrt (l / m) + c.S * Real.sqrt (l / m)) * (2 - n))) *
      (l * c.yint * (1 - n) / (2 - n)) * (l * v) / ((n * (l * c.y) + l * c.yint * (1 - n) / (2 - n) * (1 - n)) *
      (n * (l * c.y + l * v) + l * c.yint * (1 - n) / (2 - n) * (1 - n))) = _
  have hP : c.B * Real.sqrt (l / m) * (c.B * Real.sqrt (l / m) + c.S * Real.sqrt (l / m)) = c.B * (c.B + c.S) * (l / m) := by
    linear_combination c.B * (c.B + c.S) * hs
  rw [hP]
  have hB := h.hB
  have hS := h.hS
  have hz := h.hz
  have hA : 0 < c.B * (c.B + c.S) := by positivity
  generalize c.B * (c.B + c.S) = A at hA
  have h2n : 0 < 2 - n := by linarith
  have h1n : 0 < 1 - n := by linarith
  have hW : 0 < c.yint * (1 - n) / (2 - n) * (1 - n) := by positivity
  have d1 : 0 < n * c.y + c.yint * (1 - n) / (2 - n) * (1 - n) := by have := mul_nonneg n0.le h.hy0; linarith
  have d2 : 0 < n * (c.y + v) + c.yint * (1 - n) / (2 - n) * (1 - n) := by
    have := mul_nonneg n0.le (show 0 ≤ c.y + v by linarith)
    linarith
  have f1 : n * (l * c.y) + l * c.yint * (1 - n) / (2 - n) * (1 - n) = l * (n * c.y + c.yint * (1 - n) / (2 - n) * (1 - n)) := by ring
  have f2 : n * (l * c.y + l * v) + l * c.yint * (1 - n) / (2 - n) * (1 - n) =
      l * (n * (c.y + v) + c.yint * (1 - n) / (2 - n) * (1 - n)) := by ring
  rw [f1, f2]
  generalize n * c.y + c.yint * (1 - n) / (2 - n) * (1 - n) = D at d1
  generalize n * (c.y + v) + c.yint * (1 - n) / (2 - n) * (1 - n) = E at d2
  field_simp

/-- **C177** The result does not depend on the units of the tokens, for orders whose capacity is at least one in both units: a purchase sells the same
amounts in the other unit and costs the same in the other unit, and a payment buys the same. What is missing are capacities below one. -/
theorem C177_units_partial (orders : List (Curve ℝ)) (hg : ∀ c ∈ orders, c.Good) (ml ps : List Nat) (hps : Positions orders ml ps) (l m : ℝ)
    (hl : 0 < l) (hm : 0 < m) (hcap : ∀ c ∈ orders, 1 ≤ c.yint ∧ 1 ≤ l * c.yint) (sp : Bool) :
    (∀ x < 0, -x ≤ total ps (yAt orders) → ∃ acts acts', matchExact orders x true ml sp = .ok acts ∧
      matchExact (orders.map (inUnits l m)) (l * x) true ml sp = .ok acts' ∧ (∀ i ∈ ps, soldAt acts' i = l * soldAt acts i) ∧
      (acts'.map (·.input)).sum = m * (acts.map (·.input)).sum) ∧
    ∀ x > 0, ∀ q : Nat → ℝ, (∀ (i : Nat) (c : Curve ℝ), orders[i]? = some c → c.dxdy (-c.y) = .ok (q i)) → x ≤ total ps q →
      ∃ acts acts', matchExact orders x false ml sp = .ok acts ∧ matchExact (orders.map (inUnits l m)) (m * x) false ml sp = .ok acts' ∧
        (∀ i ∈ ps, soldAt acts' i = l * soldAt acts i) ∧ (acts'.map (·.output)).sum = l * (acts.map (·.output)).sum := by
  have hg' : ∀ c ∈ orders.map (inUnits l m), c.Good := by
    intro c hc
    obtain ⟨d, hd, rfl⟩ := List.mem_map.mp hc
    exact inUnits_good hl hm (hg d hd)
  have hps' : Positions (orders.map (inUnits l m)) ml ps := by
    unfold Positions
    rw [List.length_map]
    exact hps
  have h : Alike orders (orders.map (inUnits l m)) ps ps id l m := ⟨hl, hm, by rw [List.map_id], fun i c _ hc =>
    ⟨inUnits l m c, by rw [id, List.getElem?_map, hc]; rfl,
      inUnits_like hl hm (hg c (List.mem_of_getElem? hc)) (hcap c (List.mem_of_getElem? hc)).1 (hcap c (List.mem_of_getElem? hc)).2⟩⟩
  exact ⟨fun x hx hle => h.target hg hg' hps hps' hx hle sp sp, fun x hx q hq hle => h.source hg hg' hps hps' hx hq hle sp sp⟩

/-- **C177** fails for capacities below one: of an order whose capacity stays at most one when both tokens are counted in units `l` times smaller, every
purchase costs less in the smaller units than it should. -/
theorem C177_units_violated (c : Curve ℝ) (h : c.Good) (l : ℝ) (hl : 1 < l) (hcap : l * c.yint ≤ 1) (x : ℝ) (hx : x < 0) (hy : -x ≤ c.y) (sp : Bool) :
    ∃ acts acts', matchExact [c] x true [] sp = .ok acts ∧ matchExact [inUnits l l c] (l * x) true [] sp = .ok acts' ∧
      (acts'.map (·.input)).sum < l * (acts.map (·.input)).sum := by
  have l0 : 0 < l := by linarith
  have hg : ∀ d ∈ [c], d.Good := by
    intro d hd
    rw [List.mem_singleton] at hd
    rw [hd]
    exact h
  have hg' : ∀ d ∈ [inUnits l l c], d.Good := by
    intro d hd
    rw [List.mem_singleton] at hd
    rw [hd]
    exact inUnits_good l0 l0 h
  have hpos : ∀ d : Curve ℝ, Positions [d] [] [0] := fun d => ⟨List.nodup_nil, by simp, by simp [List.range_succ]⟩
  have ht : ∀ d : Curve ℝ, total [0] (yAt [d]) = d.y := fun d => by
    unfold total yAt
    simp
  obtain ⟨acts, e1, h1, o1, _⟩ := match_of_target hg (hpos c) hx (by rw [ht]; exact hy) sp
  obtain ⟨acts', e2, h2, o2, _⟩ := match_of_target hg' (hpos (inUnits l l c)) (mul_neg_of_pos_of_neg l0 hx)
    (by rw [ht]; show -(l * x) ≤ l * c.y; nlinarith) sp
  refine ⟨acts, acts', e1, e2, ?_⟩
  have hnd : [0].Nodup := by simp
  have s1 : soldAt acts 0 = x := by
    have := h1.output hnd
    rw [o1] at this
    unfold total at this
    simpa using this.symm
  have s2 : soldAt acts' 0 = l * x := by
    have := h2.output hnd
    rw [o2] at this
    unfold total at this
    simpa using this.symm
  have i1 : (acts.map (·.input)).sum = costOf c x := by
    rw [h1.input hg hnd]
    unfold total costAt
    simp [s1]
  have i2 : (acts'.map (·.input)).sum = costOf (inUnits l l c) (l * x) := by
    rw [h2.input hg' hnd]
    unfold total costAt
    simp [s2]
  rw [i1, i2]
  obtain ⟨n, hn, n0, n1⟩ := n_ok h
  have hv : -c.y ≤ x := by linarith
  have hvv : -(inUnits l l c).y ≤ l * x := by show -(l * c.y) ≤ l * x; nlinarith
  have hz := h.hz
  have e1 : c.yint1 = 1 := max_eq_right (by nlinarith)
  have e2 : (inUnits l l c).yint1 = 1 := max_eq_right hcap
  rw [cost_formula (inUnits_good l0 l0 h) ((inUnits_n l0 l0 c).trans hn) n0 n1 hvv, cost_formula h hn n0 n1 hv, e1, e2]
  have hq : Real.sqrt (l / l) = 1 := by rw [div_self l0.ne', Real.sqrt_one]
  show -(1 * (1 - n) / (c.B * Real.sqrt (l / l) * (c.B * Real.sqrt (l / l) + c.S * Real.sqrt (l / l)) * (2 - n))) *
      (1 * (1 - n) / (2 - n)) * (l * x) / ((n * (l * c.y) + 1 * (1 - n) / (2 - n) * (1 - n)) *
      (n * (l * c.y + l * x) + 1 * (1 - n) / (2 - n) * (1 - n))) < _
  rw [hq, mul_one, mul_one]
  have hB := h.hB
  have hS := h.hS
  have h2n : 0 < 2 - n := by linarith
  have h1n : 0 < 1 - n := by linarith
  have hA : 0 < 1 * (1 - n) / (c.B * (c.B + c.S) * (2 - n)) * (1 * (1 - n) / (2 - n)) := by positivity
  have hW : 0 < 1 * (1 - n) / (2 - n) * (1 - n) := by positivity
  set A := 1 * (1 - n) / (c.B * (c.B + c.S) * (2 - n)) * (1 * (1 - n) / (2 - n)) with hAd
  set W := 1 * (1 - n) / (2 - n) * (1 - n) with hWd
  have y0 : 0 < c.y := by linarith
  have d1 : 0 < n * c.y + W := by positivity
  have d2 : 0 < n * (c.y + x) + W := by
    have := mul_nonneg n0.le (show 0 ≤ c.y + x by linarith)
    linarith
  have c1 : n * c.y + W < n * (l * c.y) + W := by
    have : c.y < l * c.y := by nlinarith
    have := mul_lt_mul_of_pos_left this n0
    linarith
  have c2 : n * (c.y + x) + W ≤ n * (l * c.y + l * x) + W := by
    have : c.y + x ≤ l * c.y + l * x := by nlinarith
    have := mul_le_mul_of_nonneg_left this n0.le
    linarith
  have hD : (n * c.y + W) * (n * (c.y + x) + W) < (n * (l * c.y) + W) * (n * (l * c.y + l * x) + W) :=
    mul_lt_mul c1 c2 d2 (d1.trans c1).le
  have num : 0 < A * (l * -x) := by
    have : 0 < -x := by linarith
    positivity
  have g1 : -(1 * (1 - n) / (c.B * (c.B + c.S) * (2 - n))) * (1 * (1 - n) / (2 - n)) * (l * x) = A * (l * -x) := by rw [hAd]; ring
  have g2 : l * (-(1 * (1 - n) / (c.B * (c.B + c.S) * (2 - n))) * (1 * (1 - n) / (2 - n)) * x / ((n * c.y + W) * (n * (c.y + x) + W))) =
      A * (l * -x) / ((n * c.y + W) * (n * (c.y + x) + W)) := by rw [hAd]; ring
  rw [g1, g2]
  exact div_lt_div_of_pos_left num (mul_pos d1 d2) hD

/-! ## A book of three orders, two of them equal -/

private noncomputable def book3 : List (Curve ℝ) :=
  [⟨1, 1, 10, 1, 4, 8, decide ((4 : ℝ) = 1)⟩, ⟨2, 1, 12, 4, 9, 3, decide ((9 : ℝ) = 4)⟩, ⟨1, 1, 10, 1, 4, 8, decide ((4 : ℝ) = 1)⟩]

private theorem book3_good : ∀ c ∈ book3, c.Good := by
  intro c hc
  unfold book3 at hc
  simp only [List.mem_cons, List.not_mem_nil, or_false] at hc
  rcases hc with rfl | rfl | rfl <;> constructor <;> norm_num

private theorem book3_positions : Positions book3 [] [0, 1, 2] := ⟨List.nodup_nil, by simp, by simp [book3, List.range_succ]⟩

private theorem book3_total : total [0, 1, 2] (yAt book3) = 19 := by
  simp only [total, yAt, book3, List.map_cons, List.map_nil, List.sum_cons, List.sum_nil, List.getElem?_cons_zero, List.getElem?_cons_succ,
    Option.map_some, Option.getD_some]
  norm_num

private theorem book3_pays : ∃ q : Nat → ℝ, (∀ (i : Nat) (c : Curve ℝ), book3[i]? = some c → c.dxdy (-c.y) = .ok (q i)) ∧ 0 < total [0, 1, 2] q := by
  obtain ⟨q, hq⟩ := C70_capital_exists _ book3_good
  refine ⟨q, hq, ?_⟩
  apply List.sum_pos
  · intro y hy
    obtain ⟨i, hi, rfl⟩ := List.mem_map.mp hy
    have hi' := (book3_positions.nodup).2 i hi
    have e := List.getElem?_eq_getElem hi'
    have hgc := book3_good _ (List.getElem_mem hi')
    have hy : 0 < (book3[i]).y := by
      simp only [List.mem_cons, List.not_mem_nil, or_false] at hi
      rcases hi with rfl | rfl | rfl <;> simp [book3]
    have := cost_anti hgc le_rfl (show -(book3[i]).y < 0 by linarith)
    rwa [cost_zero hgc, costOf_eq (hq i _ e)] at this
  · simp

/-- The same three orders, the second of them listed first. -/
private noncomputable def book3' : List (Curve ℝ) :=
  [⟨2, 1, 12, 4, 9, 3, decide ((9 : ℝ) = 4)⟩, ⟨1, 1, 10, 1, 4, 8, decide ((4 : ℝ) = 1)⟩, ⟨1, 1, 10, 1, 4, 8, decide ((4 : ℝ) = 1)⟩]

private theorem book3'_good : ∀ c ∈ book3', c.Good := by
  intro c hc
  unfold book3' at hc
  simp only [List.mem_cons, List.not_mem_nil, or_false] at hc
  rcases hc with rfl | rfl | rfl <;> constructor <;> norm_num

private theorem book3'_positions : Positions book3' [] [0, 1, 2] := ⟨List.nodup_nil, by simp, by simp [book3', List.range_succ]⟩

private def swap01 : Nat → Nat
  | 0 => 1
  | 1 => 0
  | i => i

private theorem swap01_same : ∀ i ∈ [0, 1, 2], book3'[swap01 i]? = book3[i]? := by
  intro i hi
  simp only [List.mem_cons, List.not_mem_nil, or_false] at hi
  rcases hi with rfl | rfl | rfl <;> rfl

/-- The order listed second sells the same when it is listed first. -/
example : ∃ acts acts', matchExact book3 (-14) true [] false = .ok acts ∧ matchExact book3' (-14) true [] false = .ok acts' ∧
    soldAt acts' 0 = soldAt acts 1 ∧ (acts'.map (·.input)).sum = (acts.map (·.input)).sum := by
  obtain ⟨a, b, h1, h2, h3, h4⟩ := C177_listing_target book3 book3' book3_good book3'_good [] [] _ _ book3_positions book3'_positions swap01
    (List.Perm.swap 0 1 [2]) swap01_same (-14) (by norm_num) (by rw [book3_total]; norm_num) false false
  exact ⟨a, b, h1, h2, h3 1 (by simp), h4⟩

/-- The same for a payment. -/
example : ∃ x > 0, ∃ acts acts', matchExact book3 x false [] false = .ok acts ∧ matchExact book3' x false [] false = .ok acts' ∧
    soldAt acts' 0 = soldAt acts 1 ∧ (acts'.map (·.output)).sum = (acts.map (·.output)).sum := by
  obtain ⟨q, hq, h0⟩ := book3_pays
  obtain ⟨a, b, h1, h2, h3, h4⟩ := C177_listing_source book3 book3' book3_good book3'_good [] [] _ _ book3_positions book3'_positions swap01
    (List.Perm.swap 0 1 [2]) swap01_same (total [0, 1, 2] q / 2) (by positivity) q hq (by linarith) false false
  exact ⟨_, by positivity, a, b, h1, h2, h3 1 (by simp), h4⟩

/-- The two equal orders sell the same. -/
example : ∃ acts, matchExact book3 (-14) true [] false = .ok acts ∧ soldAt acts 0 = soldAt acts 2 :=
  (C177_equal book3 book3_good [] _ book3_positions 0 2 (by simp) (by simp) rfl false).1 (-14) (by norm_num) (by rw [book3_total]; norm_num)

/-- The token that is sold in thousandths, and the other one in tenths. -/
example : ∃ acts acts', matchExact book3 (-14) true [] false = .ok acts ∧
    matchExact (book3.map (inUnits 1000 10)) (1000 * -14) true [] false = .ok acts' ∧ soldAt acts' 1 = 1000 * soldAt acts 1 ∧
    (acts'.map (·.input)).sum = 10 * (acts.map (·.input)).sum := by
  obtain ⟨a, b, h1, h2, h3, h4⟩ := (C177_units_partial book3 book3_good [] _ book3_positions 1000 10 (by norm_num) (by norm_num) (by
    intro c hc
    unfold book3 at hc
    simp only [List.mem_cons, List.not_mem_nil, or_false] at hc
    rcases hc with rfl | rfl | rfl <;> norm_num) false).1 (-14) (by norm_num) (by rw [book3_total]; norm_num)
  exact ⟨a, b, h1, h2, h3 1 (by simp), h4⟩

/-- An order with a capacity of a hundredth: in hundredths the same purchase costs less. -/
example : ∃ acts acts', matchExact [⟨1, 1, 1 / 100, 1, 4, 1 / 100, decide ((4 : ℝ) = 1)⟩] (-(1 / 200)) true [] false = .ok acts ∧
    matchExact [inUnits 100 100 ⟨1, 1, 1 / 100, 1, 4, 1 / 100, decide ((4 : ℝ) = 1)⟩] (100 * -(1 / 200)) true [] false = .ok acts' ∧
    (acts'.map (·.input)).sum < 100 * (acts.map (·.input)).sum :=
  C177_units_violated _ (by constructor <;> norm_num) 100 (by norm_num) (by norm_num) _ (by norm_num) (by norm_num) false

end Carbon.ExactRouter
