import Verif.Helpers.SolTest
import Mathlib.Data.Nat.Size
import Mathlib.Tactic.Linarith
import Mathlib.Tactic.NormNum
import Mathlib.Tactic.FieldSimp

/-!
# C119, C120: range checks of integers and approximate comparisons
-/

namespace Carbon.Prop.SolTest

open Carbon.SolTest Carbon.StdImports

/-! ## C119 -/

theorem toInt_char (x : ℚ) : (0 ≤ x → 0 ≤ toInt x ∧ (toInt x : ℚ) ≤ x ∧ x < toInt x + 1) ∧
    (x < 0 → toInt x ≤ 0 ∧ x ≤ toInt x ∧ (toInt x : ℚ) < x + 1) := by
  unfold toInt
  constructor
  · intro h
    rw [if_pos h]
    exact ⟨Int.floor_nonneg.2 h, Int.floor_le x, Int.lt_floor_add_one x⟩
  · intro h
    rw [if_neg (not_le.2 h)]
    refine ⟨?_, Int.le_ceil x, Int.ceil_lt_add_one x⟩
    rw [Int.ceil_le]
    exact_mod_cast h.le

theorem toInt_int (n : ℤ) : toInt (n : ℚ) = n := by
  unfold toInt
  split <;> simp

theorem check_int (t : T) (n : ℤ) : check t n = (printF t (branch n).1 (branch n).2.1,
    (raiseF t (branch n).1 (branch n).2.1).bind fun _ => .ok (branch n).2.2) := by
  unfold check printRaiseF
  rw [toInt_int]

/-- C119: a fraction is checked like the integer it is truncated to, which is nearer to zero by less than one. -/
theorem C119_trunc (t : T) (x : ℚ) : ∃ n : ℤ, check t x = check t n ∧ |(n : ℚ)| ≤ |x| ∧ |x - n| < 1 := by
  refine ⟨toInt x, ?_, ?_, ?_⟩
  · unfold check
    rw [toInt_int]
  · rcases le_or_gt 0 x with h | h
    · obtain ⟨h1, h2, h3⟩ := (toInt_char x).1 h
      rw [abs_of_nonneg h, abs_of_nonneg (by exact_mod_cast h1)]
      exact h2
    · obtain ⟨h1, h2, h3⟩ := (toInt_char x).2 h
      rw [abs_of_neg h, abs_of_nonpos (by exact_mod_cast h1)]
      linarith
  · rcases le_or_gt 0 x with h | h
    · obtain ⟨h1, h2, h3⟩ := (toInt_char x).1 h
      rw [abs_of_nonneg (by linarith)]
      linarith
    · obtain ⟨h1, h2, h3⟩ := (toInt_char x).2 h
      rw [abs_of_nonpos (by linarith)]
      linarith

theorem branch_cases (n : ℤ) :
    (n < 0 ∧ branch n = (2, true, 0)) ∨ (0 ≤ n ∧ n < 100 ∧ branch n = (2, false, n)) ∨ (100 ≤ n ∧ n < 10000 ∧ branch n = (1, false, n)) ∨
      (2 ^ 256 ≤ n ∧ branch n = (2, true, n)) ∨ (10000 ≤ n ∧ n < 2 ^ 256 ∧ 2 ^ 256 ≤ 10000 * n ∧ branch n = (1, true, n)) ∨
      (10000 ≤ n ∧ 10000 * n < 2 ^ 256 ∧ branch n = (0, false, n)) := by
  unfold branch
  by_cases h1 : n < 0
  · exact .inl ⟨h1, if_pos h1⟩
  rw [if_neg h1]
  by_cases h2 : n < 100
  · exact .inr (.inl ⟨by omega, h2, if_pos h2⟩)
  rw [if_neg h2]
  by_cases h3 : n < 10000
  · exact .inr (.inr (.inl ⟨by omega, h3, if_pos h3⟩))
  rw [if_neg h3]
  by_cases h4 : n ≥ 2 ^ 256
  · exact .inr (.inr (.inr (.inl ⟨h4, if_pos h4⟩)))
  rw [if_neg h4]
  have e : (n : ℚ) ≥ 2 ^ 256 / 10000 ↔ 2 ^ 256 ≤ 10000 * n := by
    rw [ge_iff_le, div_le_iff₀ (by norm_num), mul_comm]
    exact_mod_cast Iff.rfl
  by_cases h5 : (n : ℚ) ≥ 2 ^ 256 / 10000
  · exact .inr (.inr (.inr (.inr (.inl ⟨by omega, by omega, e.1 h5, if_pos h5⟩))))
  · rw [e] at h5
    refine .inr (.inr (.inr (.inr (.inr ⟨by omega, by omega, ?_⟩))))
    rw [if_neg (by rw [e]; exact h5)]

/-- C119: if errors raise, a number that is returned is the given one, is at least 100 and fits 256 bits; all such numbers are returned if
only errors raise. -/
theorem C119_error (t : T) (n r : ℤ) (h : t.raiseLvl = 2) : (check t n).2 = .ok r ↔ r = n ∧ 100 ≤ n ∧ n < 2 ^ 256 := by
  rw [check_int]
  unfold raiseF
  dsimp only
  rw [h]
  rcases branch_cases n with ⟨h1, e⟩ | ⟨h1, h2, e⟩ | ⟨h1, h2, e⟩ | ⟨h1, e⟩ | ⟨h1, h2, h3, e⟩ | ⟨h1, h2, e⟩ <;> rw [e] <;> dsimp only <;>
    simp only [Except.bind, lt_irrefl, if_false, if_true, Int.reduceLT, reduceCtorEq, false_iff, Except.ok.injEq] <;> omega

/-- C119: if warnings raise too, the numbers returned are those from 10000 to the 10000th part of `2 ^ 256`. -/
theorem C119_warning (t : T) (n r : ℤ) (h : t.raiseLvl = 1) : (check t n).2 = .ok r ↔ r = n ∧ 10000 ≤ n ∧ 10000 * n < 2 ^ 256 := by
  rw [check_int]
  unfold raiseF
  dsimp only
  rw [h]
  rcases branch_cases n with ⟨h1, e⟩ | ⟨h1, h2, e⟩ | ⟨h1, h2, e⟩ | ⟨h1, e⟩ | ⟨h1, h2, h3, e⟩ | ⟨h1, h2, e⟩ <;> rw [e] <;> dsimp only <;>
    simp only [Except.bind, lt_irrefl, if_false, if_true, Int.reduceLT, reduceCtorEq, false_iff, Except.ok.injEq] <;> omega

/-- C119: what is raised says on which side the number is, except that negative numbers are reported as overflows. -/
theorem C119_side (t : T) (n : ℤ) (h : t.raiseLvl = 2 ∨ t.raiseLvl = 1) :
    ((check t n).2 = .error (.custom "UnderflowError") ↔ 0 ≤ n ∧ n < 100) ∧
      ((check t n).2 = .error (.custom "OverflowError") ↔ n < 0 ∨ 2 ^ 256 ≤ n) ∧
      (t.raiseLvl = 1 → ((check t n).2 = .error (.custom "UnderflowWarning") ↔ 100 ≤ n ∧ n < 10000)) ∧
      (t.raiseLvl = 1 → ((check t n).2 = .error (.custom "OverflowWarning") ↔ n < 2 ^ 256 ∧ 2 ^ 256 ≤ 10000 * n)) := by
  rw [check_int]
  unfold raiseF
  dsimp only
  rcases h with h | h <;> rw [h] <;>
    rcases branch_cases n with ⟨h1, e⟩ | ⟨h1, h2, e⟩ | ⟨h1, h2, e⟩ | ⟨h1, e⟩ | ⟨h1, h2, h3, e⟩ | ⟨h1, h2, e⟩ <;> rw [e] <;>
    simp [Except.bind, exception] <;> omega

/-- C119: with the default settings nothing raises and what is returned is the number, or zero for negative ones. -/
theorem C119_default_partial (n : ℤ) : (check (T.make none none none) n).2 = .ok (max n 0) ∧ (n < 2 ^ 256 → max n 0 < 2 ^ 256) := by
  refine ⟨?_, fun h => max_lt h (by norm_num)⟩
  rw [check_int]
  unfold raiseF T.make
  dsimp only [Option.getD]
  rcases branch_cases n with ⟨h1, e⟩ | ⟨h1, h2, e⟩ | ⟨h1, h2, e⟩ | ⟨h1, e⟩ | ⟨h1, h2, h3, e⟩ | ⟨h1, h2, e⟩ <;> rw [e] <;>
    simp [Except.bind] <;> omega

/-- C119 fails with the default settings: numbers that do not fit 256 bits are returned as they are. -/
theorem C119_default_violated : ∃ n : ℤ, (check (T.make none none none) n).2 = .ok (2 ^ 256) :=
  ⟨2 ^ 256, by rw [(C119_default_partial _).1]; rfl⟩

/-- C119: setting the raise level to the lowest does not let good numbers pass but fails with a `KeyError`. -/
theorem C119_log (t : T) (n : ℤ) (h : t.raiseLvl = 0) (h1 : 10000 ≤ n) (h2 : 10000 * n < 2 ^ 256) : (check t n).2 = .error .key := by
  rw [check_int]
  unfold raiseF
  dsimp only
  rw [h]
  rcases branch_cases n with ⟨h3, e⟩ | ⟨h3, h4, e⟩ | ⟨h3, h4, e⟩ | ⟨h3, e⟩ | ⟨h3, h4, h5, e⟩ | ⟨h3, h4, e⟩
  all_goals first | omega | skip
  rw [e]
  simp [Except.bind, exception]

/-- C119: a message is printed, once and before anything is raised, exactly if its level is at least the one set; with the default these
are the numbers that are not from 10000 to the 10000th part of `2 ^ 256`. -/
theorem C119_print (t : T) (n : ℤ) :
    ((check t n).1 ≠ [] ↔ t.printLvl ≤ 0 ∨ (t.printLvl ≤ 1 ∧ ¬(10000 ≤ n ∧ 10000 * n < 2 ^ 256)) ∨ (t.printLvl ≤ 2 ∧ ¬(100 ≤ n ∧ n < 2 ^ 256))) ∧
      (check t n).1.length ≤ 1 := by
  rw [check_int]
  unfold printF
  dsimp only
  rcases branch_cases n with ⟨h1, e⟩ | ⟨h1, h2, e⟩ | ⟨h1, h2, e⟩ | ⟨h1, e⟩ | ⟨h1, h2, h3, e⟩ | ⟨h1, h2, e⟩ <;> rw [e] <;> dsimp only <;> split <;>
    simp <;> omega

/-- C119: the number of binary digits: the number is below two to that power and, unless it is zero, not below the power before. -/
theorem C119_bits (n : ℕ) : bindig n = (Nat.size n : ℤ) := by
  unfold bindig
  rw [Int.ceil_eq_iff]
  have h0 : (0 : ℝ) < ((n : ℤ) : ℝ) + 1 := by
    have : (0 : ℝ) ≤ ((n : ℤ) : ℝ) := by exact_mod_cast Nat.zero_le n
    linarith
  constructor
  · rcases Nat.eq_zero_or_pos n with rfl | hn
    · simp
    have h1 : 2 ^ (Nat.size n - 1) ≤ n := by
      have : Nat.size n - 1 < Nat.size n := Nat.sub_lt (Nat.size_pos.2 hn) one_pos
      exact Nat.lt_size.1 this
    have h2 : (2 : ℝ) ^ (Nat.size n - 1) < ((n : ℤ) : ℝ) + 1 := by
      have : ((2 ^ (Nat.size n - 1) : ℕ) : ℝ) ≤ (n : ℝ) := by exact_mod_cast h1
      push_cast at this ⊢
      linarith
    have h3 := Real.logb_lt_logb (by norm_num : (1 : ℝ) < 2) (by positivity) h2
    rw [Real.logb_pow, Real.logb_self_eq_one (by norm_num), mul_one] at h3
    have h4 : ((Nat.size n - 1 : ℕ) : ℝ) = (Nat.size n : ℝ) - 1 := by
      rw [Nat.cast_sub (Nat.size_pos.2 hn), Nat.cast_one]
    rw [h4] at h3
    exact_mod_cast h3
  · have h1 : n + 1 ≤ 2 ^ Nat.size n := Nat.lt_size_self n
    have h2 : ((n : ℤ) : ℝ) + 1 ≤ (2 : ℝ) ^ Nat.size n := by exact_mod_cast h1
    have h3 := Real.logb_le_logb_of_le (by norm_num : (1 : ℝ) < 2) h0 h2
    rw [Real.logb_pow, Real.logb_self_eq_one (by norm_num), mul_one] at h3
    exact_mod_cast h3

example : check (T.make none none none) 50 = ([⟨2, false⟩], .ok 50) ∧ check (T.make none (some 2) none) (-3 / 2) =
    ([⟨2, true⟩], .error (.custom "OverflowError")) ∧ check (T.make none none none) (20000 : ℚ) = ([], .ok 20000) := by
  refine ⟨?_, ?_, ?_⟩ <;> decide +kernel

/-! ## C120 -/

section
variable {K : Type} [Field K] [LinearOrder K] [IsStrictOrderedRing K]

/-- C120: a single number is compared relative to the first, or absolutely if that is zero. -/
theorem C120_single (a b eps : K) : (b ≠ 0 → iseq (.num b) [.num a] eps = .ok (decide (|a - b| ≤ eps * |b|))) ∧
    iseq (.num 0) [.num a] eps = .ok (decide (|a| ≤ eps)) := by
  constructor
  · intro h
    unfold iseq
    dsimp only
    rw [if_neg h]
    congr 1
    rw [Bool.eq_iff_iff, Bool.not_eq_true', decide_eq_false_iff_not, not_lt, decide_eq_true_eq]
    have : a / b - 1 = (a - b) / b := by field_simp
    rw [this, abs_div, div_le_iff₀ (abs_pos.2 h)]
  · unfold iseq
    dsimp only
    rw [if_pos rfl]
    congr 1
    rw [Bool.eq_iff_iff, Bool.not_eq_true', decide_eq_false_iff_not, not_lt, decide_eq_true_eq]

/-- C120: a value that is not a number is compared with all others, exactly. -/
theorem C120_text (s : Str) (args : List (PyVal K)) (eps : K) (h : args ≠ []) :
    ∃ b, iseq (.other s) args eps = .ok b ∧ (b = true ↔ ∀ a ∈ args, a = .other s) := by
  match args, h with
  | .num _ :: _, _ => exact ⟨_, rfl, by simp⟩
  | .other _ :: _, _ => exact ⟨_, rfl, by simp⟩

/-- C120: what is decided for several numbers is decided by the first of them; without any the call raises. -/
theorem C120_first_partial (a b eps : K) (args : List (PyVal K)) :
    iseq (.num b) (.num a :: args) eps = iseq (.num b) [.num a] eps ∧ ∀ v : PyVal K, iseq v [] eps = .error .value :=
  ⟨rfl, fun v => by cases v <;> rfl⟩

/-- C120 fails for more than one number: whatever the others are, they are not compared. -/
theorem C120_rest_violated : ∃ (a b c eps : K), 0 < eps ∧ iseq (.num a) [.num b, .num c] eps = .ok true ∧ iseq (.num a) [.num c] eps = .ok false := by
  refine ⟨1, 1, 2, 1 / 2, by norm_num, ?_, ?_⟩
  · have := ((C120_single (1 : K) 1 (1 / 2)).1 one_ne_zero)
    rw [(C120_first_partial (1 : K) 1 (1 / 2) _).1, this]
    congr 1
    rw [decide_eq_true_eq]
    norm_num
  · rw [(C120_single (2 : K) 1 (1 / 2)).1 one_ne_zero]
    congr 1
    rw [decide_eq_false_iff_not]
    norm_num

/-- C120: testing that a call raises succeeds only if it does. -/
theorem C120_raises_partial {α : Type} (r : Except Str α) :
    (truthy (raises r) = true → ∃ m, r = .error m) ∧ (∀ m, r = .error m → m ≠ [] → truthy (raises r) = true) := by
  cases r with
  | ok a => exact ⟨fun h => (by cases h), fun m h => (by cases h)⟩
  | error m =>
    refine ⟨fun _ => ⟨m, rfl⟩, ?_⟩
    intro m' h hm
    cases h
    cases m with
    | nil => exact absurd rfl hm
    | cons c m => rfl

/-- C120: the text that is returned is that of the exception; without one it is not a text. -/
theorem C120_raises_text {α : Type} (r : Except Str α) :
    (∀ m, raises r = some m ↔ r = .error m) ∧ (raises r = none ↔ ∃ a, r = .ok a) := by
  cases r with
  | ok a => exact ⟨fun m => ⟨fun h => (by cases h), fun h => (by cases h)⟩, fun _ => ⟨a, rfl⟩, fun _ => rfl⟩
  | error m =>
    refine ⟨fun m' => ⟨fun h => ?_, fun h => ?_⟩, fun h => (by cases h), fun ⟨a, h⟩ => (by cases h)⟩
    · cases h; rfl
    · cases h; rfl

/-- C120 fails for exceptions without a text, such as the one of a bare `assert`: the call is taken not to raise. -/
theorem C120_raises_violated : ∃ r : Except Str Unit, (∃ m, r = .error m) ∧ truthy (raises r) = false :=
  ⟨.error [], ⟨[], rfl⟩, rfl⟩

example : iseq (.num (100 : ℚ)) [.num 101] (1 / 50) = .ok true ∧ iseq (.num (100 : ℚ)) [.num 101] (1 / 200) = .ok false ∧
    iseq (.other "a".toList : PyVal ℚ) [.other "a".toList, .other "b".toList] 1 = .ok false := by
  refine ⟨?_, ?_, ?_⟩ <;> decide +kernel

end

end Carbon.Prop.SolTest
