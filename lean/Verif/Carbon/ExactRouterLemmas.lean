import Mathlib.Algebra.BigOperators.Group.List.Basic
import Mathlib.Algebra.Order.BigOperators.Group.List
import Mathlib.Tactic.FieldSimp
import Mathlib.Tactic.Positivity
import Mathlib.Tactic.Linarith
import Mathlib.Tactic.Ring
import Mathlib.Tactic.NormNum
import Verif.Carbon.ExactRouter
import Verif.Carbon.OrderUILemmas

/-!
# Water filling: what the two loops of the exact router compute

All amounts are described by one number, the level `λ`: after trading to it an order with `r = √(x0 y0)` has
`n (y + dy) + y0 (1 - n) = λ r`, that is marginal price `1/λ²`.
-/

namespace Carbon.ExactRouter

open CarbonPair (pyDiv)
open UICurve (pyDiv_ok)

/-- The parameters of a well-formed order. -/
structure Pos (p : Par ℝ) : Prop where
  hn : 0 < p.n
  hn1 : p.n < 1
  hx0 : 0 < p.x0
  hy0 : 0 < p.y0
  hy : 0 ≤ p.y
  hx : p.x = p.x0 * (p.n * p.y - p.y + p.y0 * (2 - p.n)) / (p.n * p.y + p.y0 * (1 - p.n))

/-- Square root of the order's `k`. -/
noncomputable def Par.r (p : Par ℝ) : ℝ := Real.sqrt (p.x0 * p.y0)

/-- The denominator of the curve at the current holdings. -/
def Par.Y (p : Par ℝ) : ℝ := p.n * p.y + p.y0 * (1 - p.n)

/-- The (signed) amount that takes the order to level `l`. -/
noncomputable def lvl (p : Par ℝ) (l : ℝ) : ℝ := (l * p.r - p.Y) / p.n

/-- What the order charges for a (negative) change of its holdings. -/
noncomputable def charge (p : Par ℝ) (v : ℝ) : ℝ := -p.x0 * p.y0 * v / (p.Y * (p.Y + p.n * v))

variable {p : Par ℝ}

theorem Pos.r_pos (h : Pos p) : 0 < p.r := Real.sqrt_pos.mpr (mul_pos h.hx0 h.hy0)
theorem Pos.r_sq (h : Pos p) : p.r ^ 2 = p.x0 * p.y0 := Real.sq_sqrt (mul_pos h.hx0 h.hy0).le
theorem Pos.Y_pos (h : Pos p) : 0 < p.Y := by
  have := h.hn; have := h.hn1; have := h.hy0; have := h.hy
  have : 0 < 1 - p.n := by linarith
  unfold Par.Y; positivity

theorem Pos.Y_end (h : Pos p) {v : ℝ} (hv : -p.y ≤ v) : 0 < p.Y + p.n * v := by
  have h1 := h.hn; have h2 := h.hn1; have h3 := h.hy0
  have : 0 < p.y0 * (1 - p.n) := mul_pos h3 (by linarith)
  have : 0 ≤ p.n * (p.y + v) := mul_nonneg h1.le (by linarith)
  unfold Par.Y; nlinarith

theorem lvl_spec (h : Pos p) (l : ℝ) : p.Y + p.n * lvl p l = l * p.r := by
  have := h.hn
  unfold lvl; field_simp; ring

theorem lvl_mono (h : Pos p) {l m : ℝ} (hlm : l < m) : lvl p l < lvl p m := by
  unfold lvl
  apply div_lt_div_of_pos_right _ h.hn
  have := mul_lt_mul_of_pos_right hlm h.r_pos
  linarith

theorem lvl_pos_iff (h : Pos p) (l : ℝ) : 0 < lvl p l ↔ p.Y < l * p.r := by
  unfold lvl
  rw [div_pos_iff_of_pos_right h.hn, sub_pos]

/-- `charge` is `k/n` times the change of `1/Y`. -/
theorem charge_eq (h : Pos p) {v : ℝ} (hv : 0 < p.Y + p.n * v) :
    charge p v = p.r ^ 2 / p.n * (1 / (p.Y + p.n * v) - 1 / p.Y) := by
  have h1 := h.hn; have h2 := h.Y_pos
  rw [h.r_sq]
  unfold charge
  have h3 := hv.ne'
  have h4 := h2.ne'
  have h5 := h1.ne'
  rw [div_sub_div _ _ h3 h4, div_mul_div_comm, div_eq_div_iff (mul_ne_zero h4 h3) (mul_ne_zero h5 (mul_ne_zero h3 h4))]
  ring

theorem charge_lvl (h : Pos p) {l : ℝ} (hl : 0 < l) : charge p (lvl p l) = (p.r / l - p.r ^ 2 / p.Y) / p.n := by
  have h1 := h.hn; have h2 := h.Y_pos; have h3 := h.r_pos
  have e := lvl_spec h l
  rw [charge_eq h (by rw [e]; positivity), e]
  field_simp

theorem dxdy_eq (o : Nat → Par ℝ) {i : Nat} (h : Pos (o i)) {v : ℝ} (hv : -(o i).y ≤ v) :
    dxdy o i v = .ok (charge (o i) v) := by
  have h1 := h.Y_pos
  have h2 := h.Y_end hv
  unfold dxdy charge
  dsimp only
  have e : (o i).n * ((o i).y + v) + (o i).y0 * (1 - (o i).n) = (o i).Y + (o i).n * v := by unfold Par.Y; ring
  rw [e]
  exact pyDiv_ok (mul_pos h1 h2).ne'

/-! ## List sums -/

theorem sum_split {α : Type} (q : α → Bool) (f : α → ℝ) (l : List α) :
    (l.map f).sum = ((l.filter q).map f).sum + ((l.filter fun a => !q a).map f).sum := by
  induction l with
  | nil => simp
  | cons a l ih =>
    rcases h : q a with _ | _
    · simp only [List.filter_cons, h, List.map_cons, List.sum_cons, ih, Bool.not_false, if_true]
      simp; ring
    · simp only [List.filter_cons, h, List.map_cons, List.sum_cons, ih, Bool.not_true, if_true]
      simp; ring

theorem sum_free {s : List Nat} (hs : s.Nodup) {i : Nat} (hi : i ∈ s) (f : Nat → ℝ) :
    (s.map f).sum = f i + ((free i s).map f).sum := by
  rw [sum_split (fun j => decide (j = i)) f s]
  have h1 : s.filter (fun j => decide (j = i)) = [i] := by
    have := List.Nodup.filter (fun j => decide (j = i)) hs
    apply List.perm_singleton.mp
    rw [List.perm_ext_iff_of_nodup this (List.nodup_singleton i)]
    intro a
    simp only [List.mem_filter, decide_eq_true_eq, List.mem_singleton]
    constructor
    · exact fun h => h.2
    · rintro rfl; exact ⟨hi, rfl⟩
  rw [h1]
  simp [free, decide_not]

theorem sum_lt {α : Type} {l : List α} (hl : l ≠ []) {f g : α → ℝ} (h : ∀ a ∈ l, f a < g a) :
    (l.map f).sum < (l.map g).sum := List.sum_lt_sum_of_ne_nil hl f g h

theorem sum_le {α : Type} {l : List α} {f g : α → ℝ} (h : ∀ a ∈ l, f a ≤ g a) :
    (l.map f).sum ≤ (l.map g).sum := List.sum_le_sum h

/-! ## The formulas -/

/-- Product of `n` over the others, without `j`. -/
theorem prodN_eq {o : Nat → Par ℝ} {l : List Nat} (hl : l.Nodup) (hp : ∀ i ∈ l, Pos (o i)) {j : Nat} (hj : j ∈ l) :
    prodN o l j = (l.map fun i => (o i).n).prod / (o j).n := by
  have hn := (hp j hj).hn
  rw [eq_div_iff hn.ne']
  unfold prodN
  clear hp hn
  induction l with
  | nil => simp at hj
  | cons a l ih =>
    rw [List.nodup_cons] at hl
    by_cases h : a = j
    · subst h
      have : (a :: l).filter (fun x => decide (x ≠ a)) = l := by
        rw [List.filter_cons]
        simp only [ne_eq, not_true_eq_false, decide_false, Bool.false_eq_true, if_false]
        rw [List.filter_eq_self]
        intro b hb
        simp only [decide_eq_true_eq]
        rintro rfl; exact hl.1 hb
      rw [this, List.map_cons, List.prod_cons, mul_comm]
    · have hj' : j ∈ l := by
        rcases List.mem_cons.mp hj with e | e
        · exact absurd e.symm h
        · exact e
      rw [List.filter_cons]
      simp only [ne_eq, h, not_false_eq_true, decide_true, if_true, List.map_cons, List.prod_cons]
      rw [mul_assoc, ← ih hl.2 hj']

theorem sqrt_kk {p q : Par ℝ} (hp : Pos p) (_ : Pos q) : Real.sqrt (p.x0 * p.y0 * q.x0 * q.y0) = p.r * q.r := by
  unfold Par.r
  rw [← Real.sqrt_mul (mul_pos hp.hx0 hp.hy0).le]
  congr 1; ring

/-- The level all orders of the subset are taken to, by target. -/
noncomputable def levelT (o : Nat → Par ℝ) (s : List Nat) (amt : ℝ) : ℝ :=
  (amt + (s.map fun i => (o i).Y / (o i).n).sum) / (s.map fun i => (o i).r / (o i).n).sum

/-- `1 / level`, by source. -/
noncomputable def levelS (o : Nat → Par ℝ) (s : List Nat) (amt : ℝ) : ℝ :=
  (amt + (s.map fun i => (o i).r ^ 2 / (o i).Y / (o i).n).sum) / (s.map fun i => (o i).r / (o i).n).sum

theorem sum_r_pos {o : Nat → Par ℝ} {s : List Nat} (hs : s ≠ []) (hp : ∀ i ∈ s, Pos (o i)) :
    0 < (s.map fun i => (o i).r / (o i).n).sum := by
  have := sum_lt (l := s) hs (f := fun _ => (0 : ℝ)) (g := fun i => (o i).r / (o i).n)
    fun i hi => div_pos (hp i hi).r_pos (hp i hi).hn
  simpa using this

theorem free_nodup {s : List Nat} (hs : s.Nodup) (i : Nat) : (free i s).Nodup := hs.filter _

theorem free_mem {s : List Nat} {i j : Nat} (h : j ∈ free i s) : j ∈ s := (List.mem_filter.mp h).1

theorem sum_const_mul {α : Type} (c : ℝ) (f : α → ℝ) (l : List α) : (l.map fun a => c * f a).sum = c * (l.map f).sum :=
  List.sum_map_mul_left l f c

theorem sum_congr {α : Type} {l : List α} {f g : α → ℝ} (h : ∀ a ∈ l, f a = g a) : (l.map f).sum = (l.map g).sum := by
  rw [List.map_congr_left h]

theorem sum_nonneg' {α : Type} {l : List α} {f : α → ℝ} (h : ∀ a ∈ l, 0 ≤ f a) : 0 ≤ (l.map f).sum :=
  List.sum_nonneg (by intro b hb; obtain ⟨a, ha, rfl⟩ := List.mem_map.mp hb; exact h a ha)

/-- By target every order of the subset is taken to the common level. -/
theorem amtByTarget_eq (o : Nat → Par ℝ) {s : List Nat} (hs : s.Nodup) (hp : ∀ i ∈ s, Pos (o i)) (amt : ℝ) {i : Nat}
    (hi : i ∈ s) : amtByTarget o i amt s = .ok (lvl (o i) (levelT o s amt)) := by
  have hi' := hp i hi
  have hf : ∀ j ∈ free i s, Pos (o j) := fun j hj => hp j (free_mem hj)
  have hfn := free_nodup hs i
  set f := free i s with hfd
  set a := (f.map fun j => (o j).n).prod with ha
  have ha0 : 0 < a := by
    rw [ha]
    apply List.prod_pos
    intro b hb
    obtain ⟨j, hj, rfl⟩ := List.mem_map.mp hb
    exact (hf j hj).hn
  set R := (f.map fun j => (o j).r / (o j).n).sum with hR
  set G := (f.map fun j => (o j).Y / (o j).n).sum with hG
  have hR0 : 0 ≤ R := sum_nonneg' fun j hj => (div_pos (hf j hj).r_pos (hf j hj).hn).le
  have hc : (f.map fun j => prodN o f j * (o j).y0).sum = a * (f.map fun j => (o j).y0 / (o j).n).sum := by
    rw [← sum_const_mul]
    apply sum_congr
    intro j hj
    rw [prodN_eq hfn hf hj]; ring
  have he : (f.map fun j => prodN o f j * PySqrt.sqrt ((o j).x0 * (o j).y0 * (o i).x0 * (o i).y0)).sum =
      a * ((o i).r * R) := by
    rw [hR, ← sum_const_mul, ← sum_const_mul]
    apply sum_congr
    intro j hj
    rw [prodN_eq hfn hf hj]
    show _ * Real.sqrt _ = _
    rw [sqrt_kk (hf j hj) hi']; ring
  have hb : (f.map fun j => (o j).y).sum - (f.map fun j => (o j).y0).sum + (f.map fun j => (o j).y0 / (o j).n).sum = G := by
    rw [hG]
    clear_value f
    clear hc he ha0 ha hfd hfn a hR hR0 hG
    induction f with
    | nil => simp
    | cons j l ih =>
      have ihl := ih fun j hj => hf j (List.mem_cons_of_mem _ hj)
      simp only [List.map_cons, List.sum_cons]
      have : (o j).Y / (o j).n = (o j).y - (o j).y0 + (o j).y0 / (o j).n := by
        have := (hf j List.mem_cons_self).hn
        unfold Par.Y; field_simp; ring
      rw [this]; linarith
  have hr := hi'.r_pos
  have hn := hi'.hn
  have hk := hi'.r_sq
  unfold amtByTarget
  dsimp only
  rw [← hfd, hc, he, ← ha]
  have hden : 0 < (o i).n * (a * ((o i).r * R)) + (o i).x0 * (o i).y0 * a := by
    rw [← hk]; positivity
  rw [pyDiv_ok hden.ne']
  congr 1
  unfold lvl levelT
  rw [sum_free hs hi, sum_free hs hi, ← hfd, ← hR, ← hG, ← hk]
  have hd : -((o i).n * (o i).y + (o i).y0 * (1 - (o i).n)) = -(o i).Y := rfl
  rw [hd]
  have hb' : a * ((f.map fun j => (o j).y).sum - (f.map fun j => (o j).y0).sum + amt) +
      a * (f.map fun j => (o j).y0 / (o j).n).sum = a * (G + amt) := by rw [← hb]; ring
  rw [hb']
  have h1 : (o i).r / (o i).n + R ≠ 0 := by positivity
  have h2 : (o i).n * (a * ((o i).r * R)) + (o i).r ^ 2 * a ≠ 0 := by positivity
  have h3 : (o i).r + (o i).n * R ≠ 0 := by positivity
  have e1 : (o i).r / (o i).n + R = ((o i).r + (o i).n * R) / (o i).n := by field_simp
  have e2 : (o i).n * (a * ((o i).r * R)) + (o i).r ^ 2 * a = a * (o i).r * ((o i).r + (o i).n * R) := by ring
  rw [e1, e2]
  field_simp
  ring

/-- By source too. -/
theorem amtBySrc_eq (o : Nat → Par ℝ) {s : List Nat} (hs : s.Nodup) (hp : ∀ i ∈ s, Pos (o i)) {amt : ℝ} (hamt : 0 ≤ amt)
    {i : Nat} (hi : i ∈ s) : amtBySrc o i amt s = .ok (lvl (o i) (1 / levelS o s amt)) := by
  have hi' := hp i hi
  have hf : ∀ j ∈ free i s, Pos (o j) := fun j hj => hp j (free_mem hj)
  have hfn := free_nodup hs i
  set f := free i s with hfd
  set A := (f.map fun j => (o j).n).prod with hA
  have hA0 : 0 < A := by
    rw [hA]
    apply List.prod_pos
    intro b hb
    obtain ⟨j, hj, rfl⟩ := List.mem_map.mp hb
    exact (hf j hj).hn
  set R := (f.map fun j => (o j).r / (o j).n).sum with hR
  set G := (f.map fun j => (o j).r ^ 2 / (o j).Y / (o j).n).sum with hG
  have hR0 : 0 ≤ R := sum_nonneg' fun j hj => (div_pos (hf j hj).r_pos (hf j hj).hn).le
  have hG0 : 0 ≤ G := sum_nonneg' fun j hj =>
    (div_pos (div_pos (pow_pos (hf j hj).r_pos 2) (hf j hj).Y_pos) (hf j hj).hn).le
  have hXk : ∀ j, Pos (o j) → (o j).n * (o j).x + (o j).x0 * (1 - (o j).n) = (o j).r ^ 2 / (o j).Y := by
    intro j hj
    have hY := hj.Y_pos
    rw [hj.r_sq, hj.hx, eq_div_iff hY.ne']
    unfold Par.Y at *
    field_simp
    ring
  have hc : (f.map fun j => prodN o f j * (o j).x0).sum = A * (f.map fun j => (o j).x0 / (o j).n).sum := by
    rw [← sum_const_mul]
    apply sum_congr
    intro j hj
    rw [prodN_eq hfn hf hj]; ring
  have he : (f.map fun j => prodN o f j * PySqrt.sqrt ((o i).k * (o j).k)).sum = A * ((o i).r * R) := by
    rw [hR, ← sum_const_mul, ← sum_const_mul]
    apply sum_congr
    intro j hj
    rw [prodN_eq hfn hf hj]
    show _ * Real.sqrt _ = _
    have : (o i).k * (o j).k = (o i).x0 * (o i).y0 * (o j).x0 * (o j).y0 := by unfold Par.k; ring
    rw [this, sqrt_kk hi' (hf j hj)]; ring
  have hb : (f.map fun j => (o j).x0 / (o j).n).sum - (f.map fun j => (o j).x0 - (o j).x).sum = G := by
    rw [hG]
    clear_value f
    clear hc he hA0 hA hfd hfn A hR hR0 hG hG0
    induction f with
    | nil => simp
    | cons j l ih =>
      have ihl := ih fun j hj => hf j (List.mem_cons_of_mem _ hj)
      simp only [List.map_cons, List.sum_cons]
      have : (o j).r ^ 2 / (o j).Y / (o j).n = (o j).x0 / (o j).n - ((o j).x0 - (o j).x) := by
        have hn := (hf j List.mem_cons_self).hn
        rw [← hXk j (hf j List.mem_cons_self)]
        field_simp; ring
      rw [this]; linarith
  have hr := hi'.r_pos
  have hn := hi'.hn
  have hY := hi'.Y_pos
  have hx0 := hi'.hx0
  have hk : (o i).k = (o i).r ^ 2 := hi'.r_sq.symm
  have ha : (o i).a = -(o i).x0 * (o i).Y := by unfold Par.a Par.k Par.Y; ring
  have hd : -(o i).n * (o i).x0 + (o i).n * (o i).x + (o i).x0 = (o i).r ^ 2 / (o i).Y := by
    rw [← hXk i hi']; ring
  unfold amtBySrc
  dsimp only
  rw [← hfd, hc, he, ← hA, hd, ha, hk]
  set b := -(A * (f.map fun j => (o j).x0 / (o j).n).sum) * (o i).r ^ 2 + (o i).r ^ 2 / (o i).Y * (A * ((o i).r * R)) +
    (o i).r ^ 2 * A * (-amt + (f.map fun j => (o j).x0 - (o j).x).sum) with hbd
  have hb' : b = A * (o i).r ^ 2 * ((o i).r * R / (o i).Y - (amt + G)) := by
    rw [hbd, ← hb]; field_simp; ring
  have hden : (o i).x0 * (-(o i).x0 * (o i).Y * b * (o i).n + (o i).r ^ 2 * (o i).x0 *
      (A * ((o i).r * R) * (o i).n + (o i).r ^ 2 * A)) =
      (o i).x0 ^ 2 * A * (o i).r ^ 2 * ((o i).n * (o i).Y * (amt + G) + (o i).r ^ 2) := by
    rw [hb']; field_simp; ring
  rw [hden, pyDiv_ok (by positivity)]
  congr 1
  unfold lvl levelS
  rw [sum_free hs hi, sum_free hs hi, ← hfd, ← hR, ← hG, hb']
  have h1 : 0 < (o i).r / (o i).n + R := by positivity
  have h2 : 0 < amt + ((o i).r ^ 2 / (o i).Y / (o i).n + G) := by positivity
  have e1 : 1 / ((amt + ((o i).r ^ 2 / (o i).Y / (o i).n + G)) / ((o i).r / (o i).n + R)) =
      ((o i).r + (o i).n * R) * (o i).Y / ((o i).n * (o i).Y * (amt + G) + (o i).r ^ 2) := by
    rw [one_div_div]
    rw [div_eq_div_iff h2.ne' (by positivity)]
    field_simp
    ring
  rw [e1]
  have h3 : (o i).n * (o i).Y * (amt + G) + (o i).r ^ 2 ≠ 0 := by positivity
  field_simp
  ring

/-- The amounts of the subset sum to the request, by target. -/
theorem levelT_sum (o : Nat → Par ℝ) {s : List Nat} (hs : s ≠ []) (hp : ∀ i ∈ s, Pos (o i)) (amt : ℝ) :
    (s.map fun i => lvl (o i) (levelT o s amt)).sum = amt := by
  have hR := sum_r_pos hs hp
  have e : ∀ l, (s.map fun i => lvl (o i) l).sum =
      l * (s.map fun i => (o i).r / (o i).n).sum - (s.map fun i => (o i).Y / (o i).n).sum := by
    intro l
    rw [← sum_const_mul]
    clear hs hp hR
    induction s with
    | nil => simp
    | cons j t ih =>
      simp only [List.map_cons, List.sum_cons, ih]
      unfold lvl; ring
  rw [e]
  unfold levelT
  field_simp
  ring

/-- The charges of the subset sum to the request, by source. -/
theorem levelS_sum (o : Nat → Par ℝ) {s : List Nat} (hs : s ≠ []) (hp : ∀ i ∈ s, Pos (o i)) {amt : ℝ} (hamt : 0 ≤ amt) :
    0 < levelS o s amt ∧ (s.map fun i => charge (o i) (lvl (o i) (1 / levelS o s amt))).sum = amt := by
  have hR := sum_r_pos hs hp
  have hG : 0 < (s.map fun i => (o i).r ^ 2 / (o i).Y / (o i).n).sum := by
    have := sum_lt (l := s) hs (f := fun _ => (0 : ℝ)) (g := fun i => (o i).r ^ 2 / (o i).Y / (o i).n)
      fun j hj => div_pos (div_pos (pow_pos (hp j hj).r_pos 2) (hp j hj).Y_pos) (hp j hj).hn
    simpa using this
  have hpos : 0 < levelS o s amt := by
    unfold levelS; exact div_pos (by linarith) hR
  refine ⟨hpos, ?_⟩
  have e : ∀ m, 0 < m → (s.map fun i => charge (o i) (lvl (o i) (1 / m))).sum =
      m * (s.map fun i => (o i).r / (o i).n).sum - (s.map fun i => (o i).r ^ 2 / (o i).Y / (o i).n).sum := by
    intro m hm
    rw [← sum_const_mul]
    clear hs hR hG hpos
    induction s with
    | nil => simp
    | cons j t ih =>
      simp only [List.map_cons, List.sum_cons, ih fun i hi => hp i (List.mem_cons_of_mem _ hi)]
      rw [charge_lvl (hp j List.mem_cons_self) (by positivity)]
      rw [div_div_eq_mul_div, div_one]
      ring
  rw [e _ hpos]
  unfold levelS
  field_simp
  ring

/-! ## The loops -/

/-- How the loops measure amounts: `φ` is the signed flow that has to add up (the amount itself by target, minus the
charge by source), `D` the levels that can occur. -/
structure Mode (o : Nat → Par ℝ) (A : List Nat) (φ : Nat → ℝ → ℝ) (D : ℝ → Prop) : Prop where
  pos : ∀ i ∈ A, Pos (o i)
  ypos : ∀ i ∈ A, 0 < (o i).y
  mono : ∀ i ∈ A, ∀ l m, D l → D m → l < m → φ i (lvl (o i) l) < φ i (lvl (o i) m)
  zero : ∀ i ∈ A, φ i 0 = 0
  up : ∀ i ∈ A, ∀ l, D l → 0 < lvl (o i) l → 0 < φ i (lvl (o i) l)
  down : ∀ i ∈ A, ∀ l, D l → lvl (o i) l ≤ 0 → φ i (lvl (o i) l) ≤ 0
  full : ∀ i ∈ A, φ i (-(o i).y) < 0
  exh : ∀ i ∈ A, ∀ l, D l → lvl (o i) l < -(o i).y → φ i (lvl (o i) l) < φ i (-(o i).y)

variable {o : Nat → Par ℝ} {A : List Nat} {φ : Nat → ℝ → ℝ} {D : ℝ → Prop}

/-- The swap function computes, for every subset, the common level at which the flows add up to `t`. -/
def Solves (o : Nat → Par ℝ) (A : List Nat) (φ : Nat → ℝ → ℝ) (D : ℝ → Prop) (swap : Nat → List Nat → Py ℝ) (t : ℝ) :
    Prop :=
  ∀ s, s.Nodup → s ≠ [] → (∀ i ∈ s, i ∈ A) → ∃ l, D l ∧ (∀ i ∈ s, swap i s = .ok (lvl (o i) l)) ∧
    (s.map fun i => φ i (lvl (o i) l)).sum = t

theorem mapM_ok {α β : Type} {l : List α} {f : α → Py β} {g : α → β} (h : ∀ a ∈ l, f a = .ok (g a)) :
    l.mapM f = .ok (l.map g) := by
  induction l with
  | nil => rfl
  | cons a l ih =>
    rw [List.mapM_cons, h a List.mem_cons_self, ih fun b hb => h b (List.mem_cons_of_mem _ hb)]
    rfl

theorem inner_spec (hM : Mode o A φ D) {swap : Nat → List Nat → Py ℝ} {t : ℝ} (ht : t < 0) (hsw : Solves o A φ D swap t)
    {B : List Nat} : ∀ (fuel : Nat) (s : List Nat) (prev : List (Nat × ℝ)), s.length < fuel → s.Nodup → s ≠ [] →
    (∀ i ∈ s, i ∈ A) → (∀ i ∈ B, i ∈ A) →
    (∀ l, D l → (s.map fun i => φ i (lvl (o i) l)).sum = t → ∀ i ∈ B, i ∉ s → 0 < lvl (o i) l) →
    ∃ s' l, inner swap fuel s prev = .ok (s'.map fun i => (i, lvl (o i) l)) ∧ s'.Sublist s ∧ s' ≠ [] ∧ D l ∧
      (∀ i ∈ s', lvl (o i) l ≤ 0) ∧ (s'.map fun i => φ i (lvl (o i) l)).sum = t ∧
      ∀ i ∈ B, i ∉ s' → 0 < lvl (o i) l := by
  intro fuel
  induction fuel with
  | zero => intro s _ h; omega
  | succ fuel ih =>
    intro s prev hlen hnd hne hsA hBA H
    obtain ⟨l, hD, hsw', hsum⟩ := hsw s hnd hne hsA
    have hpart : (s.mapM fun i => do
        let v ← swap i s
        Except.ok (i, v) : Py (List (Nat × ℝ))) = .ok (s.map fun i => (i, lvl (o i) l)) := by
      apply mapM_ok
      intro i hi
      rw [hsw' i hi]; rfl
    unfold inner
    rw [if_neg (by rwa [List.isEmpty_iff])]
    rw [hpart]
    simp only [Py.ok_bind]
    by_cases hall : ∀ i ∈ s, lvl (o i) l ≤ 0
    · rw [if_pos (by simpa [List.all_map] using hall)]
      exact ⟨s, l, rfl, List.Sublist.refl s, hne, hD, hall, hsum, H l hD hsum⟩
    · rw [if_neg (by simpa [List.all_map] using hall)]
      have hfil : (s.filter fun i => !((s.map fun i => (i, lvl (o i) l)).any fun p => p.1 == i && decide (0 < p.2))) =
          s.filter fun i => !decide (0 < lvl (o i) l) := by
        apply List.filter_congr
        intro i hi
        congr 1
        rw [Bool.eq_iff_iff, decide_eq_true_iff, List.any_eq_true]
        constructor
        · rintro ⟨p, hp, h⟩
          obtain ⟨j, _, rfl⟩ := List.mem_map.mp hp
          simp only [Bool.and_eq_true, beq_iff_eq, decide_eq_true_eq] at h
          rw [← h.1]; exact h.2
        · intro h
          exact ⟨_, List.mem_map_of_mem hi, by simpa using h⟩
      rw [hfil]
      set s1 := s.filter fun i => !decide (0 < lvl (o i) l) with hs1
      set P := s.filter fun i => decide (0 < lvl (o i) l) with hP
      have hsub : s1.Sublist s := List.filter_sublist
      have hs1A : ∀ i ∈ s1, i ∈ A := fun i hi => hsA i (hsub.subset hi)
      have hPmem : ∀ i ∈ P, i ∈ s ∧ 0 < lvl (o i) l := by
        intro i hi
        have := List.mem_filter.mp hi
        exact ⟨this.1, by simpa using this.2⟩
      have hPne : P ≠ [] := by
        simp only [not_forall, not_le] at hall
        obtain ⟨i, hi, hpos⟩ := hall
        exact List.ne_nil_of_mem (List.mem_filter.mpr ⟨hi, by simpa using hpos⟩)
      have hsplit := sum_split (fun i => decide (0 < lvl (o i) l)) (fun i => φ i (lvl (o i) l)) s
      rw [hsum, ← hP, ← hs1] at hsplit
      have hPpos : 0 < (P.map fun i => φ i (lvl (o i) l)).sum := by
        have := sum_lt hPne (f := fun _ => (0 : ℝ)) (g := fun i => φ i (lvl (o i) l))
          fun i hi => hM.up i (hsA i (hPmem i hi).1) l hD (hPmem i hi).2
        simpa using this
      have hs1lt : (s1.map fun i => φ i (lvl (o i) l)).sum < t := by linarith
      have hs1ne : s1 ≠ [] := by
        intro h0; rw [h0] at hs1lt; simp at hs1lt; linarith
      have hlen1 : s1.length < fuel := by
        have h1 : P.length + s1.length = s.length := by
          rw [hP, hs1]; exact List.length_eq_length_filter_add (l := s) (fun i => decide (0 < lvl (o i) l)) |>.symm
        have : 0 < P.length := List.length_pos_iff.mpr hPne
        omega
      have hlt : ∀ m, D m → (s1.map fun i => φ i (lvl (o i) m)).sum = t → l < m := by
        intro m hDm hm
        by_contra hle
        rcases (not_lt.mp hle).eq_or_lt with he | hlt
        · rw [he] at hm; linarith
        · have := sum_le (l := s1) (f := fun i => φ i (lvl (o i) m)) (g := fun i => φ i (lvl (o i) l))
            fun i hi => (hM.mono i (hs1A i hi) m l hDm hD hlt).le
          linarith
      obtain ⟨s', m, e, h1, h2, h3, h4, h5, h6⟩ := ih s1 (s.map fun i => (i, lvl (o i) l)) hlen1 (hnd.sublist hsub) hs1ne
        hs1A hBA (by
          intro m hDm hm i hiB hi
          have hlm := hlt m hDm hm
          have hpi := hM.pos i (hBA i hiB)
          refine lt_trans ?_ (lvl_mono hpi hlm)
          by_cases his : i ∈ s
          · by_contra hneg
            exact hi (List.mem_filter.mpr ⟨his, by simpa using hneg⟩)
          · exact H l hD hsum i hiB his)
      exact ⟨s', m, e, h1.trans hsub, h2, h3, h4, h5, h6⟩

/-- What the loops return: every usable order is at the same level, except those that would have to be overdrawn (they
are emptied) and those that would have to be filled up (they are left alone), and the flows add up; or all orders are
emptied and that is not enough. `X` is the requested signed flow. -/
def Filled (o : Nat → Par ℝ) (A : List Nat) (φ : Nat → ℝ → ℝ) (D : ℝ → Prop) (X : ℝ) (res : List (Nat × ℝ)) : Prop :=
  (∃ E s l, res = (E.map fun i => (i, -(o i).y)) ++ (s.map fun i => (i, lvl (o i) l)) ∧ D l ∧ s ≠ [] ∧
    (E ++ s).Nodup ∧ (∀ i ∈ E ++ s, i ∈ A) ∧ (∀ i ∈ E, lvl (o i) l < -(o i).y) ∧
    (∀ i ∈ s, -(o i).y ≤ lvl (o i) l ∧ lvl (o i) l ≤ 0) ∧ (∀ i ∈ A, i ∉ E → i ∉ s → 0 < lvl (o i) l) ∧
    (res.map fun p => φ p.1 p.2).sum = X) ∨
  (∃ E : List Nat, res = (E.map fun i => (i, -(o i).y)) ∧ E.Perm A ∧ X < (res.map fun p => φ p.1 p.2).sum)

theorem outer_spec (hM : Mode o A φ D) {avail : List Nat} (hA : A = avail.filter fun i => decide ((o i).y ≠ 0))
    (hAn : A.Nodup) {σ : ℝ} (hσ : σ * σ = 1) {swap : ℝ → Nat → List Nat → Py ℝ} {flow : Nat → ℝ → Py ℝ} {x : ℝ}
    (hsw : ∀ amt, σ * amt < 0 → Solves o A φ D (swap amt) (σ * amt))
    (hflow : ∀ i ∈ A, flow i (-(o i).y) = .ok (σ * φ i (-(o i).y))) :
    ∀ (fuel : Nat) (E : List Nat), E.Nodup → (∀ i ∈ E, i ∈ A) → A.length - E.length < fuel →
    σ * x - (E.map fun i => φ i (-(o i).y)).sum < 0 →
    (∀ l, D l → ((A.filter fun i => !decide (i ∈ E)).map fun i => φ i (min 0 (lvl (o i) l))).sum =
      σ * x - (E.map fun i => φ i (-(o i).y)).sum → ∀ i ∈ E, lvl (o i) l < -(o i).y) →
    ∃ res, outer swap flow (fun i => (o i).y) avail x fuel (E.map fun i => (i, -(o i).y)) = .ok res ∧
      Filled o A φ D (σ * x) res := by
  intro fuel
  induction fuel with
  | zero => intro E _ _ h; omega
  | succ fuel ih =>
    intro E hEn hEA hlen hT H2
    set T := σ * x - (E.map fun i => φ i (-(o i).y)).sum with hTd
    set B := A.filter fun i => !decide (i ∈ E) with hB
    have hBA : ∀ i ∈ B, i ∈ A := fun i hi => (List.mem_filter.mp hi).1
    have hBE : ∀ i ∈ B, i ∉ E := fun i hi => by simpa using (List.mem_filter.mp hi).2
    have hBn : B.Nodup := hAn.filter _
    have hfl : ((E.map fun i => (i, -(o i).y)).mapM fun p => flow p.1 p.2) =
        .ok (E.map fun i => σ * φ i (-(o i).y)) := by
      rw [List.mapM_map]
      apply mapM_ok
      intro i hi
      exact hflow i (hEA i hi)
    have hsub : (avail.filter fun i => !((E.map fun i => (i, -(o i).y)).any fun p => p.1 == i) && decide ((o i).y ≠ 0)) = B := by
      rw [hB, hA, List.filter_filter]
      apply List.filter_congr
      intro i _
      congr 2
      rw [Bool.eq_iff_iff, decide_eq_true_iff, List.any_eq_true]
      constructor
      · rintro ⟨p, hp, h⟩
        obtain ⟨j, hj, rfl⟩ := List.mem_map.mp hp
        simp only [beq_iff_eq] at h
        rw [← h]; exact hj
      · intro h
        exact ⟨_, List.mem_map_of_mem h, by simp⟩
    have hamt : σ * (x - (E.map fun i => σ * φ i (-(o i).y)).sum) = T := by
      rw [sum_const_mul, mul_sub, ← mul_assoc, hσ, one_mul]
    unfold outer
    rw [hfl]
    simp only [Py.ok_bind]
    rw [hsub]
    by_cases hBnil : B = []
    · rw [hBnil]
      simp only [inner, List.isEmpty_nil, if_true, Py.ok_bind, List.filter_nil, List.append_nil]
      refine ⟨_, rfl, .inr ⟨E, rfl, ?_, ?_⟩⟩
      · rw [List.perm_ext_iff_of_nodup hEn hAn]
        intro i
        refine ⟨hEA i, fun hi => ?_⟩
        by_contra hiE
        have : i ∈ B := List.mem_filter.mpr ⟨hi, by simpa using hiE⟩
        rw [hBnil] at this
        simp at this
      · rw [List.map_map]
        have : (E.map ((fun p : Nat × ℝ => φ p.1 p.2) ∘ fun i => (i, -(o i).y))).sum =
          (E.map fun i => φ i (-(o i).y)).sum := rfl
        rw [this]; linarith
    · have hsolve := hsw (x - (E.map fun i => σ * φ i (-(o i).y)).sum) (by rw [hamt]; exact hT)
      rw [hamt] at hsolve
      obtain ⟨s, l, e, hsB, hsne, hD, hneg, hsum, hdrop⟩ := inner_spec hM hT hsolve (B := B) (B.length + 1) B []
        (by omega) hBn hBnil hBA hBA (fun l _ _ i hi hi' => absurd hi hi')
      rw [e]
      simp only [Py.ok_bind]
      have hsA : ∀ i ∈ s, i ∈ A := fun i hi => hBA i (hsB.subset hi)
      have hsn : s.Nodup := hBn.sublist hsB
      have hW : (B.map fun i => φ i (min 0 (lvl (o i) l))).sum = T := by
        rw [sum_split (fun i => decide (i ∈ s)) _ B]
        have h1 : ((B.filter fun i => !decide (i ∈ s)).map fun i => φ i (min 0 (lvl (o i) l))).sum = 0 := by
          rw [sum_congr (g := fun _ => (0 : ℝ))]
          · simp
          · intro i hi
            obtain ⟨hiB, his⟩ := List.mem_filter.mp hi
            rw [min_eq_left (hdrop i hiB (by simpa using his)).le, hM.zero i (hBA i hiB)]
        have h2 : (B.filter (fun i => decide (i ∈ s))).Perm s := by
          rw [List.perm_ext_iff_of_nodup (hBn.filter _) hsn]
          intro i
          simp only [List.mem_filter, decide_eq_true_eq]
          exact ⟨fun h => h.2, fun h => ⟨hsB.subset h, h⟩⟩
        rw [h1, (h2.map _).sum_eq, add_zero, ← hsum]
        apply sum_congr
        intro i hi
        rw [min_eq_right (hneg i hi)]
      have hElow := H2 l hD hW
      have hex : ((s.map fun i => (i, lvl (o i) l)).filter fun p => decide ((o p.1).y + p.2 < 0)) =
          (s.filter fun i => decide ((o i).y + lvl (o i) l < 0)).map fun i => (i, lvl (o i) l) := by
        rw [List.filter_map]; rfl
      rw [hex]
      set ex := s.filter fun i => decide ((o i).y + lvl (o i) l < 0) with hexd
      have hexm : ∀ i ∈ ex, i ∈ s ∧ lvl (o i) l < -(o i).y := by
        intro i hi
        have := List.mem_filter.mp hi
        refine ⟨this.1, ?_⟩
        have h2 := of_decide_eq_true this.2
        linarith
      by_cases hexn : ex = []
      · have hall : ∀ i ∈ s, -(o i).y ≤ lvl (o i) l := by
          intro i hi
          by_contra hlt
          have : i ∈ ex := List.mem_filter.mpr ⟨hi, decide_eq_true (by linarith)⟩
          rw [hexn] at this
          simp at this
        rw [hexn]
        refine ⟨_, rfl, Or.inl ⟨E, s, l, rfl, hD, hsne, ?_, ?_, hElow, fun i hi => ⟨hall i hi, hneg i hi⟩, ?_, ?_⟩⟩
        · rw [List.nodup_append]
          refine ⟨hEn, hsn, ?_⟩
          intro a ha b hb hab
          subst hab
          exact hBE a (hsB.subset hb) ha
        · intro i hi
          rcases List.mem_append.mp hi with h | h
          · exact hEA i h
          · exact hsA i h
        · intro i hi hiE his
          exact hdrop i (List.mem_filter.mpr ⟨hi, by simpa using hiE⟩) his
        · rw [List.map_append, List.sum_append, List.map_map, List.map_map]
          have e1 : (E.map ((fun p : Nat × ℝ => φ p.1 p.2) ∘ fun i => (i, -(o i).y))).sum =
            (E.map fun i => φ i (-(o i).y)).sum := rfl
          have e2 : (s.map ((fun p : Nat × ℝ => φ p.1 p.2) ∘ fun i => (i, lvl (o i) l))).sum =
            (s.map fun i => φ i (lvl (o i) l)).sum := rfl
          rw [e1, e2, hsum]; ring
      · rw [if_neg (by simpa using hexn)]
        have hexn' : ex.Nodup := hsn.filter _
        have hexA : ∀ i ∈ ex, i ∈ A := fun i hi => hsA i (hexm i hi).1
        have hE2n : (E ++ ex).Nodup := by
          rw [List.nodup_append]
          refine ⟨hEn, hexn', ?_⟩
          intro a ha b hb hab
          subst hab
          exact hBE a (hsB.subset (hexm a hb).1) ha
        have hE2A : ∀ i ∈ E ++ ex, i ∈ A := by
          intro i hi
          rcases List.mem_append.mp hi with h | h
          · exact hEA i h
          · exact hexA i h
        have hexlt : (ex.map fun i => φ i (lvl (o i) l)).sum < (ex.map fun i => φ i (-(o i).y)).sum :=
          sum_lt hexn fun i hi => hM.exh i (hexA i hi) l hD (hexm i hi).2
        have hrest : ((s.filter fun i => !decide ((o i).y + lvl (o i) l < 0)).map fun i => φ i (lvl (o i) l)).sum ≤ 0 := by
          have := sum_le (l := s.filter fun i => !decide ((o i).y + lvl (o i) l < 0)) (f := fun i => φ i (lvl (o i) l))
            (g := fun _ => (0 : ℝ)) fun i hi => by
              have hi' := (List.mem_filter.mp hi).1
              exact hM.down i (hsA i hi') l hD (hneg i hi')
          simpa using this
        have hsp := sum_split (fun i => decide ((o i).y + lvl (o i) l < 0)) (fun i => φ i (lvl (o i) l)) s
        rw [hsum, ← hexd] at hsp
        have hsumE2 : ((E ++ ex).map fun i => φ i (-(o i).y)).sum =
            (E.map fun i => φ i (-(o i).y)).sum + (ex.map fun i => φ i (-(o i).y)).sum := by
          rw [List.map_append, List.sum_append]
        have hlenE2 : (E ++ ex).length ≤ A.length := (List.subperm_of_subset hE2n hE2A).length_le
        have hexlen : 0 < ex.length := List.length_pos_iff.mpr hexn
        have hfin : (E.map fun i => (i, -(o i).y)) ++ ((ex.map fun i => (i, lvl (o i) l)).map fun p => (p.1, -(o p.1).y)) =
            (E ++ ex).map fun i => (i, -(o i).y) := by
          rw [List.map_append, List.map_map]; rfl
        rw [hfin]
        apply ih (E ++ ex) hE2n hE2A
        · rw [List.length_append] at hlenE2 ⊢; omega
        · rw [hsumE2]; linarith
        · intro m hDm hm
          set B2 := A.filter fun i => !decide (i ∈ E ++ ex) with hB2
          have hB2p : B2.Perm (B.filter fun i => !decide (i ∈ ex)) := by
            rw [List.perm_ext_iff_of_nodup (hAn.filter _) (hBn.filter _)]
            intro i
            simp only [hB, List.mem_filter, List.mem_append, Bool.not_eq_true', decide_eq_false_iff_not, not_or]
            tauto
          have hB2A : ∀ i ∈ B2, i ∈ A := fun i hi => (List.mem_filter.mp hi).1
          have hexB : (B.filter fun i => decide (i ∈ ex)).Perm ex := by
            rw [List.perm_ext_iff_of_nodup (hBn.filter _) hexn']
            intro i
            simp only [List.mem_filter, decide_eq_true_eq]
            exact ⟨fun h => h.2, fun h => ⟨hsB.subset (hexm i h).1, h⟩⟩
          have hWsp := sum_split (fun i => decide (i ∈ ex)) (fun i => φ i (min 0 (lvl (o i) l))) B
          rw [hW, (hexB.map _).sum_eq, ← (hB2p.map _).sum_eq] at hWsp
          have hexmin : (ex.map fun i => φ i (min 0 (lvl (o i) l))).sum = (ex.map fun i => φ i (lvl (o i) l)).sum :=
            sum_congr fun i hi => by rw [min_eq_right (hneg i (hexm i hi).1)]
          have hml : m < l := by
            by_contra hge
            have hle : l ≤ m := not_lt.mp hge
            have : (B2.map fun i => φ i (min 0 (lvl (o i) l))).sum ≤ (B2.map fun i => φ i (min 0 (lvl (o i) m))).sum := by
              apply sum_le
              intro i hi
              have hiA := hB2A i hi
              rcases hle.eq_or_lt with he | hlt
              · rw [he]
              · rcases le_or_gt (lvl (o i) m) 0 with h | h
                · have hl := lvl_mono (hM.pos i hiA) hlt
                  rw [min_eq_right h, min_eq_right (by linarith)]
                  exact (hM.mono i hiA l m hD hDm hlt).le
                · rw [min_eq_left h.le, hM.zero i hiA]
                  rcases le_or_gt (lvl (o i) l) 0 with h' | h'
                  · rw [min_eq_right h']; exact hM.down i hiA l hD h'
                  · rw [min_eq_left h'.le, hM.zero i hiA]
            rw [hm, hsumE2] at this
            linarith
          intro i hi
          rcases List.mem_append.mp hi with h | h
          · exact (lvl_mono (hM.pos i (hEA i h)) hml).trans (hElow i h)
          · exact (lvl_mono (hM.pos i (hexA i h)) hml).trans (hexm i h).2

end Carbon.ExactRouter
