import Verif.Carbon.GoalSeek
import Verif.Carbon.OrderUILemmas
import Verif.Tools.Optimizer
import Mathlib.Topology.Order.IntermediateValue
import Mathlib.Topology.Instances.Real.Lemmas
import Mathlib.Algebra.Order.Archimedean.Basic
import Mathlib.Tactic.Linarith
import Mathlib.Tactic.Positivity
import Mathlib.Tactic.FieldSimp
import Mathlib.Tactic.Ring

/-!
# C50: both goal seeks bracket a root
-/

set_option linter.unusedSectionVars false

namespace Carbon

open CarbonPair (pyDiv)

section
variable {K : Type} [Field K] [LinearOrder K] [IsStrictOrderedRing K]

/-- A function that does not raise. -/
def total (f : K → K) : K → Py K := fun x => .ok (f x)

theorem mid_between {a b : K} (h : a < b) : a < (a + b) / 2 ∧ (a + b) / 2 < b := ⟨by linarith, by linarith⟩

namespace Opt

theorem seekEps_pos : (0 : K) < seekEps := by unfold seekEps; positivity

/-- The goal seek of the optimizer has finished with the result after some number of rounds. -/
def Seeks (f : K → Py K) (a b : K) (r : Py (Found K)) : Prop := ∃ n, goalseek f a b n = some r

theorem seekLoop_mono {f : K → Py K} {n : Nat} {a b : K} {r : Py (Found K)} (h : seekLoop f n a b = some r) :
    ∀ m, n ≤ m → seekLoop f m a b = some r := by
  induction n generalizing a b with
  | zero =>
    intro m _
    unfold seekLoop at h
    split at h
    · cases h
    · rename_i hlt
      cases m with
      | zero => unfold seekLoop; rw [if_neg hlt]; exact h
      | succ m => unfold seekLoop; rw [if_neg hlt]; exact h
  | succ n ih =>
    intro m hm
    obtain ⟨m, rfl⟩ : ∃ k, m = k + 1 := ⟨m - 1, by omega⟩
    unfold seekLoop at h ⊢
    by_cases hlt : seekEps < b - a
    · rw [if_pos hlt] at h ⊢
      dsimp only at h ⊢
      cases hc : f ((a + b) / 2) with
      | error e => rw [hc] at h; exact h
      | ok fc =>
        rw [hc] at h
        dsimp only at h ⊢
        by_cases h0 : fc = 0
        · rw [if_pos h0] at h ⊢; exact h
        · rw [if_neg h0] at h ⊢
          cases ha : f a with
          | error e => rw [ha] at h; exact h
          | ok fa =>
            rw [ha] at h
            dsimp only at h ⊢
            split at h
            · rename_i hl; rw [if_pos hl]; exact ih h m (by omega)
            · rename_i hl; rw [if_neg hl]; exact ih h m (by omega)
    · rw [if_neg hlt] at h ⊢; exact h

/-- C50: the outcome is unique. -/
theorem C50_unique {f : K → Py K} {a b : K} {r s : Py (Found K)} (hr : Seeks f a b r) (hs : Seeks f a b s) : r = s := by
  obtain ⟨n, hn⟩ := hr
  obtain ⟨m, hm⟩ := hs
  unfold goalseek at hn hm
  cases ha : f a with
  | error e => rw [ha] at hn hm; exact Option.some.inj (hn.symm.trans hm)
  | ok fa =>
    rw [ha] at hn hm
    dsimp only at hn hm
    cases hb : f b with
    | error e => rw [hb] at hn hm; exact Option.some.inj (hn.symm.trans hm)
    | ok fb =>
      rw [hb] at hn hm
      dsimp only at hn hm
      split at hn
      · rename_i h; rw [if_pos h] at hm; exact Option.some.inj (hn.symm.trans hm)
      · rename_i h
        rw [if_neg h] at hm
        have h1 := seekLoop_mono hn (max n m) (le_max_left _ _)
        have h2 := seekLoop_mono hm (max n m) (le_max_right _ _)
        exact Option.some.inj (h1.symm.trans h2)

theorem seekLoop_done (f : K → K) (n : Nat) {a b : K} (h : b - a ≤ seekEps * 2 ^ n) : ∃ r, seekLoop (total f) n a b = some (.ok r) := by
  induction n generalizing a b with
  | zero =>
    unfold seekLoop
    rw [if_neg (by rw [pow_zero, mul_one] at h; exact not_lt.2 h)]
    exact ⟨_, rfl⟩
  | succ n ih =>
    unfold seekLoop
    split
    · unfold total
      dsimp only
      rw [pow_succ] at h
      split
      · exact ⟨_, rfl⟩
      · split
        · exact ih (by linarith)
        · exact ih (by linarith)
    · exact ⟨_, rfl⟩

/-- C50: the goal seek ends, with a result or by refusing its arguments. -/
theorem C50_terminates [Archimedean K] (f : K → K) (a b : K) :
    (0 < f a * f b → Seeks (total f) a b (.error .value)) ∧ (f a * f b ≤ 0 → ∃ r, Seeks (total f) a b (.ok r)) := by
  constructor
  · intro h
    refine ⟨0, ?_⟩
    unfold goalseek total
    dsimp only
    rw [if_pos h]
  · intro h
    obtain ⟨n, hn⟩ := pow_unbounded_of_one_lt ((b - a) / seekEps) (one_lt_two (α := K))
    rw [div_lt_iff₀ seekEps_pos] at hn
    obtain ⟨r, hr⟩ := seekLoop_done f n (a := a) (b := b) (by rw [mul_comm]; exact hn.le)
    refine ⟨r, n, ?_⟩
    unfold goalseek total
    dsimp only
    rw [if_neg (not_lt.2 h)]
    exact hr

/-- What a result says about the function: it is a root strictly within the interval, or the middle of an interval of length at most
1e-6 within the initial one over which the sign changes, of which the lower end is not a root. -/
def Brackets (f : K → K) (a b : K) : Found K → Prop
  | .raw c => a < c ∧ c < b ∧ f c = 0
  | .simple x => ∃ a' b', a ≤ a' ∧ a' ≤ b' ∧ b' ≤ b ∧ b' - a' ≤ 1 / 10 ^ 6 ∧ x = (a' + b') / 2 ∧ f a' * f b' ≤ 0 ∧ f a' ≠ 0

theorem seekLoop_brackets (f : K → K) (n : Nat) {a b : K} (hab : a ≤ b) (ha : f a ≠ 0) (h : f a * f b ≤ 0) {r : Found K}
    (hr : seekLoop (total f) n a b = some (.ok r)) : Brackets f a b r := by
  induction n generalizing a b with
  | zero =>
    unfold seekLoop at hr
    split at hr
    · cases hr
    · rename_i hlt
      have := Except.ok.inj (Option.some.inj hr)
      subst this
      exact ⟨a, b, le_rfl, hab, le_rfl, not_lt.1 hlt, rfl, h, ha⟩
  | succ n ih =>
    unfold seekLoop at hr
    split at hr
    · rename_i hlt
      have hlt' : a < b := by
        have := seekEps_pos (K := K)
        linarith
      obtain ⟨m1, m2⟩ := mid_between hlt'
      unfold total at hr
      dsimp only at hr
      generalize (a + b) / 2 = c at *
      split at hr
      · rename_i h0
        have := Except.ok.inj (Option.some.inj hr)
        subst this
        exact ⟨m1, m2, h0⟩
      · rename_i h0
        split at hr
        · rename_i hneg
          have := ih m1.le ha hneg.le hr
          cases r with
          | raw x => exact ⟨this.1, this.2.1.trans m2, this.2.2⟩
          | simple x =>
            obtain ⟨a', b', h1, h2, h3, h4⟩ := this
            exact ⟨a', b', h1, h2, h3.trans m2.le, h4⟩
        · rename_i hneg
          have hcb : f c * f b ≤ 0 := by
            push Not at hneg
            rcases lt_or_gt_of_ne ha with h1 | h1 <;> rcases lt_or_gt_of_ne h0 with h2 | h2
            · have : 0 ≤ f b := by nlinarith
              nlinarith
            · nlinarith
            · nlinarith
            · have : f b ≤ 0 := by nlinarith
              nlinarith
          have := ih m2.le h0 hcb hr
          cases r with
          | raw x => exact ⟨m1.trans this.1, this.2.1, this.2.2⟩
          | simple x =>
            obtain ⟨a', b', h1, h2, h3, h4⟩ := this
            exact ⟨a', b', m1.le.trans h1, h2, h3, h4⟩
    · rename_i hlt
      have := Except.ok.inj (Option.some.inj hr)
      subst this
      exact ⟨a, b, le_rfl, hab, le_rfl, not_lt.1 hlt, rfl, h, ha⟩

/-- C50 for the optimizer's goal seek, if the lower end is not itself a root: the result is a root or the middle of an interval of
length at most 1e-6 within the initial interval over which the sign changes. -/
theorem C50_brackets_partial {f : K → K} {a b : K} (hab : a ≤ b) (ha : f a ≠ 0) {r : Found K} (hr : Seeks (total f) a b (.ok r)) :
    f a * f b ≤ 0 ∧ Brackets f a b r := by
  obtain ⟨n, hn⟩ := hr
  unfold goalseek at hn
  have h1 : total f a = .ok (f a) := rfl
  have h2 : total f b = .ok (f b) := rfl
  rw [h1, h2] at hn
  dsimp only at hn
  split at hn
  · cases hn
  · rename_i h
    exact ⟨not_lt.1 h, seekLoop_brackets f n hab ha (not_lt.1 h) hn⟩

end Opt

end

namespace Opt

/-- C50 over the reals: for a continuous function there is a root at most 5e-7 away from the result. -/
theorem C50_root_partial {f : ℝ → ℝ} {a b : ℝ} (hab : a ≤ b) (ha : f a ≠ 0) (hf : ContinuousOn f (Set.Icc a b)) {r : Found ℝ}
    (hr : Seeks (total f) a b (.ok r)) : ∃ x, a ≤ x ∧ x ≤ b ∧ f x = 0 ∧ |r.value - x| ≤ 1 / 2 * (1 / 10 ^ 6) := by
  have h := (C50_brackets_partial hab ha hr).2
  cases r with
  | raw c => exact ⟨c, h.1.le, h.2.1.le, h.2.2, by simp [Found.value]⟩
  | simple y =>
    obtain ⟨a', b', h1, h2, h3, h4, rfl, h6, -⟩ := h
    have hc : ContinuousOn f (Set.Icc a' b') := hf.mono (Set.Icc_subset_Icc h1 h3)
    have : ∃ x ∈ Set.Icc a' b', f x = 0 := by
      rcases le_total (f a') 0 with k | k
      · have k2 : f a' ≤ 0 ∧ 0 ≤ f b' ∨ f a' = 0 := by
          rcases k.lt_or_eq with k | k
          · left; exact ⟨k.le, by nlinarith⟩
          · right; exact k
        rcases k2 with ⟨k1, k2⟩ | k2
        · exact intermediate_value_Icc h2 hc ⟨k1, k2⟩
        · exact ⟨a', ⟨le_rfl, h2⟩, k2⟩
      · have k2 : f b' ≤ 0 ∧ 0 ≤ f a' ∨ f a' = 0 := by
          rcases k.lt_or_eq with k | k
          · left; exact ⟨by nlinarith, k.le⟩
          · right; exact k.symm
        rcases k2 with ⟨k1, k2⟩ | k2
        · exact intermediate_value_Icc' h2 hc ⟨k1, k2⟩
        · exact ⟨a', ⟨le_rfl, h2⟩, k2⟩
    obtain ⟨x, ⟨hx1, hx2⟩, hx⟩ := this
    refine ⟨x, h1.trans hx1, hx2.trans h3, hx, ?_⟩
    show |(a' + b') / 2 - x| ≤ _
    rw [abs_le]
    constructor <;> linarith

/-- C50 fails if the lower end of the interval is a root: the search can move away from it and ends where there is no root. -/
theorem C50_lower_root_violated : ∃ (f : ℚ → ℚ) (a b : ℚ) (r : Found ℚ), f a = 0 ∧ Seeks (total f) a b (.ok r) ∧
    ∀ x, |r.value - x| ≤ 1 / 10 ^ 6 → f x ≠ 0 := by
  refine ⟨fun x => x, 0, 1, .simple (2097151 / 2097152), rfl, ⟨20, by decide +kernel⟩, ?_⟩
  intro x hx
  rw [abs_le] at hx
  simp only [Found.value] at hx
  dsimp only
  intro h
  subst h
  norm_num at hx

/-- C50 fails if the ends are given in the wrong order: the middle of the interval is returned whatever its length. -/
theorem C50_reversed_violated : ∃ (f : ℚ → ℚ) (a b : ℚ) (r : Found ℚ), f a * f b < 0 ∧ Seeks (total f) a b (.ok r) ∧
    ∀ x, |r.value - x| ≤ 1 → f x ≠ 0 := by
  refine ⟨fun x => x - 1, 10, 0, .simple 5, by norm_num, ⟨0, by decide +kernel⟩, ?_⟩
  intro x hx
  rw [abs_le] at hx
  simp only [Found.value] at hx
  dsimp only
  intro h
  have : x = 1 := by linarith
  subst this
  norm_num at hx

example : goalseek (total fun x : ℚ => x - 3) 1 5 5 = some (.ok (.raw 3)) := by decide +kernel
example : goalseek (total fun x : ℚ => x ^ 2 - 2) 0 4 30 = some (.ok (.simple (2965821 / 2097152))) := by decide +kernel

end Opt

namespace UICurve

section
variable {K : Type} [Field K] [LinearOrder K] [IsStrictOrderedRing K]

/-- The goal seek of the order class has finished with the result after some number of rounds. -/
def Seeks (f : K → Py K) (a b eps : K) (r : Py K) : Prop := ∃ n, goalseek f a b n eps = some r

theorem seekLoop_done (f : K → K) {fa eps a0 : K} (h0 : 0 < a0) (he : 0 < eps) (n : Nat) {a b : K} (ha : a0 ≤ a) (hab : a < b)
    (h : b - a < eps * a0 * 2 ^ (n + 1)) : ∃ r, seekLoop (total f) fa eps (n + 1) a b = some (.ok r) := by
  induction n generalizing a b with
  | zero =>
    unfold seekLoop
    obtain ⟨m1, m2⟩ := mid_between hab
    have e1 : (a + b) / 2 - a = (b - a) / 2 := by ring
    have e2 : b - (a + b) / 2 = (b - a) / 2 := by ring
    have hh : (b - a) / 2 < eps * a0 := by rw [zero_add, pow_one] at h; linarith
    generalize (a + b) / 2 = m at *
    unfold total
    dsimp only
    by_cases hp : 0 < f m * fa
    · have hm : 0 < m := by linarith
      rw [if_pos hp, if_pos hp, pyDiv_ok hm.ne']
      dsimp only
      rw [if_pos (by rw [sub_lt_iff_lt_add, div_lt_iff₀ hm]; nlinarith)]
      exact ⟨_, rfl⟩
    · have hm : 0 < a := by linarith
      rw [if_neg hp, if_neg hp, pyDiv_ok hm.ne']
      dsimp only
      rw [if_pos (by rw [sub_lt_iff_lt_add, div_lt_iff₀ hm]; nlinarith)]
      exact ⟨_, rfl⟩
  | succ n ih =>
    unfold seekLoop
    obtain ⟨m1, m2⟩ := mid_between hab
    have e1 : (a + b) / 2 - a = (b - a) / 2 := by ring
    have e2 : b - (a + b) / 2 = (b - a) / 2 := by ring
    have hh : (b - a) / 2 < eps * a0 * 2 ^ (n + 1) := by rw [pow_succ] at h; linarith
    generalize (a + b) / 2 = m at *
    unfold total
    dsimp only
    by_cases hp : 0 < f m * fa
    · have hm : 0 < m := by linarith
      rw [if_pos hp, if_pos hp, pyDiv_ok hm.ne']
      dsimp only
      split
      · exact ⟨_, rfl⟩
      · exact ih (by linarith) m2 (by linarith)
    · have hm : 0 < a := by linarith
      rw [if_neg hp, if_neg hp, pyDiv_ok hm.ne']
      dsimp only
      split
      · exact ⟨_, rfl⟩
      · exact ih ha m1 (by linarith)

/-- C50: with a positive interval whose ends have values of opposite sign the goal seek ends with a result; otherwise it refuses its
arguments. -/
theorem C50_ui_terminates_partial [Archimedean K] (f : K → K) {a b eps : K} (he : 0 < eps) :
    (a < b → f a * f b < 0 → 0 < a → ∃ r, Seeks (total f) a b eps (.ok r)) ∧
      (¬ (a < b ∧ f a * f b < 0) → Seeks (total f) a b eps (.error .value)) := by
  constructor
  · intro hab hs ha
    obtain ⟨n, hn⟩ := pow_unbounded_of_one_lt ((b - a) / (eps * a)) (one_lt_two (α := K))
    have hpos : 0 < eps * a := by positivity
    rw [div_lt_iff₀ hpos] at hn
    obtain ⟨r, hr⟩ := seekLoop_done f (fa := f a) ha he n le_rfl hab (by
      rw [pow_succ]
      have : (0 : K) < 2 ^ n := by positivity
      nlinarith)
    refine ⟨r, n + 1, ?_⟩
    unfold goalseek total
    rw [if_neg (not_not.2 hab)]
    dsimp only
    rw [if_neg (not_not.2 hs)]
    exact hr
  · intro h
    refine ⟨0, ?_⟩
    unfold goalseek total
    by_cases hab : a < b
    · rw [if_neg (not_not.2 hab)]
      dsimp only
      rw [if_pos fun hs => h ⟨hab, hs⟩]
    · rw [if_pos hab]

theorem seekLoop_brackets (f : K → K) {fa eps : K} (n : Nat) {a b : K} (ha : 0 < a) (hab : a < b) (hs : 0 < f a * fa)
    (hb : f b * fa ≤ 0) {m : K} (hr : seekLoop (total f) fa eps n a b = some (.ok m)) :
    ∃ a' b', a ≤ a' ∧ a' < b' ∧ b' ≤ b ∧ b' / a' - 1 < eps ∧ (m = a' ∨ m = b') ∧ 0 < f a' * fa ∧ f b' * fa ≤ 0 := by
  induction n generalizing a b with
  | zero => cases hr
  | succ n ih =>
    unfold seekLoop at hr
    obtain ⟨m1, m2⟩ := mid_between hab
    generalize (a + b) / 2 = c at *
    unfold total at hr
    dsimp only at hr
    by_cases hp : 0 < f c * fa
    · have hm : 0 < c := by linarith
      rw [if_pos hp, if_pos hp, pyDiv_ok hm.ne'] at hr
      dsimp only at hr
      split at hr
      · rename_i hq
        have := Except.ok.inj (Option.some.inj hr)
        subst this
        exact ⟨c, b, m1.le, m2, le_rfl, hq, Or.inl rfl, hp, hb⟩
      · obtain ⟨a', b', h1, h2, h3, h4⟩ := ih hm m2 hp hb hr
        exact ⟨a', b', m1.le.trans h1, h2, h3, h4⟩
    · rw [if_neg hp, if_neg hp, pyDiv_ok ha.ne'] at hr
      dsimp only at hr
      split at hr
      · rename_i hq
        have := Except.ok.inj (Option.some.inj hr)
        subst this
        exact ⟨a, c, le_rfl, m1, m2.le, hq, Or.inr rfl, hs, not_lt.1 hp⟩
      · obtain ⟨a', b', h1, h2, h3, h4⟩ := ih ha m1 hs (not_lt.1 hp) hr
        exact ⟨a', b', h1, h2, h3.trans m2.le, h4⟩

/-- C50 for the goal seek of the order class, on positive intervals: the result is an end of an interval within the initial one,
whose ends differ by less than the relative tolerance and over which the sign changes. -/
theorem C50_ui_brackets_partial {f : K → K} {a b eps m : K} (ha : 0 < a) (hr : Seeks (total f) a b eps (.ok m)) :
    a < b ∧ f a * f b < 0 ∧ ∃ a' b', a ≤ a' ∧ a' < b' ∧ b' ≤ b ∧ b' / a' - 1 < eps ∧ (m = a' ∨ m = b') ∧ f a' * f b' ≤ 0 := by
  obtain ⟨n, hn⟩ := hr
  unfold goalseek at hn
  have h1 : total f a = .ok (f a) := rfl
  have h2 : total f b = .ok (f b) := rfl
  rw [h1, h2] at hn
  dsimp only at hn
  split at hn
  · cases hn
  · rename_i hab
    rw [not_not] at hab
    split at hn
    · cases hn
    · rename_i hs
      rw [not_not] at hs
      have hne : f a ≠ 0 := by
        intro h
        rw [h, zero_mul] at hs
        exact lt_irrefl _ hs
      have hsq : 0 < f a * f a := mul_self_pos.2 hne
      obtain ⟨a', b', k1, k2, k3, k4, k5, k6, k7⟩ := seekLoop_brackets f n ha hab hsq (by rw [mul_comm]; exact hs.le) hn
      refine ⟨hab, hs, a', b', k1, k2, k3, k4, k5, ?_⟩
      by_contra hc
      push Not at hc
      nlinarith [mul_nonneg (sq_nonneg (f a)) hc.le, mul_pos k6 k6]

end

/-- C50 over the reals: for a continuous function on a positive interval there is a root whose relative distance to the result is
less than the tolerance. -/
theorem C50_ui_root_partial {f : ℝ → ℝ} {a b eps m : ℝ} (ha : 0 < a) (hf : ContinuousOn f (Set.Icc a b))
    (hr : Seeks (total f) a b eps (.ok m)) : ∃ x, a ≤ x ∧ x ≤ b ∧ f x = 0 ∧ |m - x| ≤ eps * x := by
  obtain ⟨hab, -, a', b', h1, h2, h3, h4, h5, h6⟩ := C50_ui_brackets_partial ha hr
  have hc : ContinuousOn f (Set.Icc a' b') := hf.mono (Set.Icc_subset_Icc h1 h3)
  have : ∃ x ∈ Set.Icc a' b', f x = 0 := by
    rcases le_total (f a') 0 with k | k
    · have k2 : f a' ≤ 0 ∧ 0 ≤ f b' ∨ f a' = 0 := by
        rcases k.lt_or_eq with k | k
        · left; exact ⟨k.le, by nlinarith⟩
        · right; exact k
      rcases k2 with ⟨k1, k2⟩ | k2
      · exact intermediate_value_Icc h2.le hc ⟨k1, k2⟩
      · exact ⟨a', ⟨le_rfl, h2.le⟩, k2⟩
    · have k2 : f b' ≤ 0 ∧ 0 ≤ f a' ∨ f a' = 0 := by
        rcases k.lt_or_eq with k | k
        · left; exact ⟨by nlinarith, k.le⟩
        · right; exact k.symm
      rcases k2 with ⟨k1, k2⟩ | k2
      · exact intermediate_value_Icc' h2.le hc ⟨k1, k2⟩
      · exact ⟨a', ⟨le_rfl, h2.le⟩, k2⟩
  obtain ⟨x, ⟨hx1, hx2⟩, hx⟩ := this
  have ha' : 0 < a' := lt_of_lt_of_le ha h1
  have hx0 : 0 < x := lt_of_lt_of_le ha' hx1
  rw [sub_lt_iff_lt_add, div_lt_iff₀ ha'] at h4
  have heps : 0 < eps := by
    by_contra hc
    push Not at hc
    nlinarith
  refine ⟨x, h1.trans hx1, hx2.trans h3, hx, ?_⟩
  rw [abs_le]
  constructor <;> rcases h5 with rfl | rfl <;> nlinarith

/-- C50 fails for intervals with a negative lower end: the search stops after one round. -/
theorem C50_ui_negative_violated : ∃ (f : ℚ → ℚ) (a b m : ℚ), a < b ∧ f a * f b < 0 ∧ Seeks (total f) a b (1 / 10 ^ 7) (.ok m) ∧
    ∀ x, |m - x| ≤ 1 → f x ≠ 0 := by
  refine ⟨fun x => x + 5, -6, 6, 0, by norm_num, by norm_num, ⟨1, by decide +kernel⟩, ?_⟩
  intro x hx
  rw [abs_le] at hx
  dsimp only
  intro h
  have : x = -5 := by linarith
  subst this
  norm_num at hx

/-- C50 fails for intervals that begin at zero if the root is in their lower half. -/
theorem C50_ui_zero_violated : ∃ (f : ℚ → ℚ) (a b : ℚ), a < b ∧ f a * f b < 0 ∧ Seeks (total f) a b (1 / 10 ^ 7) (.error .zeroDiv) :=
  ⟨fun x => x - 1, 0, 6, by norm_num, by norm_num, ⟨1, by decide +kernel⟩⟩

example : goalseek (total fun x : ℚ => x - 9) 1 10 40 (1 / 10) = some (.ok (151 / 16)) := by decide +kernel

end UICurve

end Carbon
