import Verif.Prop.FastRouter
import Verif.Prop.FloorRouter
import Verif.Prop.AlphaRouter
import Verif.Prop.ExactRouter
import Verif.Prop.TradeSpec
import Verif.Prop.GoalSeek

/-!
# Concrete states for the theorems about routers, the reference implementation of trades and goal seeking (C25-C27, C50, C69-C71, C116,
C117, C126, C127)
-/

namespace Carbon.Witness

open Carbon

section Fast
open FastRouter

/-- Two orders. -/
def fastBook : List (Curve ℚ) := [⟨1, 1, 4, 1, 4, 4, false⟩, ⟨2, 1, 3, 4, 9, 3, false⟩]

theorem fast_sane : ∀ o ∈ fastBook, Sane o := by
  intro o ho
  simp only [fastBook, List.mem_cons, List.not_mem_nil, or_false] at ho
  rcases ho with rfl | rfl <;> constructor <;> norm_num

theorem fast_pos : ∀ o ∈ fastBook, 0 < o.y := by
  intro o ho
  simp only [fastBook, List.mem_cons, List.not_mem_nil, or_false] at ho
  rcases ho with rfl | rfl <;> norm_num

theorem fast_some : ∃ o ∈ fastBook, 0 < o.y := ⟨_, List.mem_cons_self .., by norm_num⟩

/-- `C25_total`, `C25_by_target`, `C25_totals`: five units of the two orders. -/
example : ∃ qs acts, QuotesFor rateByTarget 5 fastBook qs ∧ matchByTarget fastBook (-5) = .ok acts ∧
    Distinct fastBook acts ∧ (acts.map Action.input).sum = 5 ∧ ∀ i a, acts[i]? = some a → a.totalInput = ((acts.take (i + 1)).map Action.input).sum := by
  obtain ⟨⟨qs, acts, h1, h2, h3⟩, -⟩ := C25_total fast_sane fast_some (-5) (by norm_num)
  have e : |(-5 : ℚ)| = 5 := by norm_num
  rw [e] at h1 h3
  obtain ⟨h4, -, h5⟩ := C25_by_target fast_sane 5 (by norm_num) qs h1 acts h3
  refine ⟨qs, acts, h1, h2, h4, h5.trans (by norm_num [fastBook]), fun i a ha => (C25_totals 5 qs acts h3 i a ha).1⟩

/-- `C25_by_source`: one unit paid to the two orders. -/
example : ∃ qs acts, QuotesFor rateBySource 1 fastBook qs ∧ matchBySource fastBook 1 = .ok acts ∧ (acts.map Action.input).sum = 1 := by
  obtain ⟨-, qs, acts, h1, h2, h3⟩ := C25_total fast_sane fast_some 1 (by norm_num)
  have e : |(1 : ℚ)| = 1 := by norm_num
  rw [e] at h1 h3
  obtain ⟨-, -, h5⟩ := C25_by_source fast_sane 1 (by norm_num) qs h1 acts h3
  exact ⟨qs, acts, h1, h2, h5.trans (by norm_num [fastBook, cost])⟩

/-- `C25_best_first`. -/
example := C25_best_first fast_sane fast_pos (-5) (by norm_num)

end Fast

section Floor
open FastRouter Prop.FloorRouter

theorem nine_integral : Integral nine :=
  ⟨⟨3 * 2 ^ 32, by norm_num [nine]⟩, ⟨0, by norm_num [nine]⟩, ⟨100, by norm_num [nine]⟩, ⟨100, by norm_num [nine]⟩⟩
theorem nine_sane : Sane (real nine) := by constructor <;> norm_num [real, nine]
theorem nines_integral : ∀ o ∈ [nine], Integral o := by intro o ho; rw [List.mem_singleton.1 ho]; exact nine_integral
theorem nines_sane : ∀ o ∈ [nine], Sane (real o) := by intro o ho; rw [List.mem_singleton.1 ho]; exact nine_sane

/-- `C126_source`. -/
example := C126_source nine_integral nine_sane (x := 10) ⟨10, by norm_num⟩ (by norm_num)
/-- `C126_target`. -/
example := C126_target nine_integral nine_sane (x := 10) ⟨10, by norm_num⟩ (by norm_num)
/-- `C126_total`, `C126_match_target`. -/
example : ∃ acts, Floor.matchByTarget [nine] 10 = .ok acts ∧ (acts.map Action.input).sum = 10 := by
  obtain ⟨qs, acts, h1, h2, h3⟩ := C126_total nines_integral nines_sane ⟨nine, by simp, by norm_num [nine]⟩ (x := 10) ⟨10, by norm_num⟩
    (by norm_num)
  obtain ⟨-, -, h4⟩ := C126_match_target nines_integral nines_sane (x := 10) ⟨10, by norm_num⟩ (by norm_num) qs h1 acts h3
  exact ⟨acts, h2, h4.trans (by norm_num [nine])⟩
/-- `C126_match_source`. -/
example := C126_match_source nines_integral nines_sane (x := 10) ⟨10, by norm_num⟩ (by norm_num) [⟨0, ⟨10, 90⟩⟩]
  ⟨[⟨0, ⟨10, 90⟩⟩], by decide +kernel, List.Perm.refl _⟩ [⟨0, 10, 90, 10, -90⟩] (by decide +kernel)

/-- An order file with two entries. -/
def orderFile : List (Floor.Entry ℚ) := [{ B := some 1, S := some 1, y := some 5 }, { B := some 2, S := some 1, y := some 5, yint := some 7 }]
theorem file_read : Floor.readJson false (some 1) orderFile = .ok [⟨1, 1, 5, 1, 4, 5, false⟩] := by decide +kernel
theorem file_orders : orderFile.mapM (Floor.entryOrder false) = .ok [⟨1, 1, 5, 1, 4, 5, false⟩, ⟨2, 1, 7, 4, 9, 5, false⟩] := by decide +kernel

/-- `C127_prefix_partial`. -/
example := C127_prefix_partial (by simp) file_read
/-- `C127_none_violated`. -/
example := C127_none_violated false orderFile file_orders
/-- `C127_csv_violated`. -/
example := C127_csv_violated (K := ℚ) [(1, 2, 3)] (by simp)
end Floor

section Alpha
open AlphaRouter ExactRouter

/-- `C27_selector`. -/
example := C27_selector ([3, 1, 4, 1, 5] : List ℚ) (by simp) (by simp) 8 2 (by norm_num)
/-- `C27_first_window`. -/
example := C27_first_window ([3, 1, 4, 1, 5] : List ℚ) (by simp) (by simp) 4 2 (by norm_num) (by norm_num)

/-- `C26_source`. -/
example := C26_source (fun i => if i = 0 then (⟨1 / 2, 1, 1, 1, 1⟩ : Par ℝ) else ⟨1 / 3, 2, 1, 4, -1⟩)
    [0, 1] (by simp) (by simp) (by
      intro i hi
      simp only [List.mem_cons, List.not_mem_nil, or_false] at hi
      rcases hi with rfl | rfl <;> constructor <;> norm_num) 1 (by norm_num)

/-- Selling between prices 1 and 16, all of 20 left. -/
noncomputable def exA : Curve ℝ := ⟨1, 3, 20, 1, 16, 20, decide ((16 : ℝ) = 1)⟩
/-- The same prices, nearly exhausted: 10 of 1000000 left. -/
noncomputable def exB : Curve ℝ := ⟨1, 3, 1000000, 1, 16, 10, decide ((16 : ℝ) = 1)⟩

theorem ex_good : ∀ c ∈ [exA, exA, exB], c.Good := by
  intro c hc
  simp only [List.mem_cons, List.not_mem_nil, or_false] at hc
  rcases hc with rfl | rfl | rfl
  · unfold exA; constructor <;> norm_num
  · unfold exA; constructor <;> norm_num
  · unfold exB; constructor <;> norm_num

theorem ex_y (i : Nat) : yAt [exA, exA, exB] i ≤ 20 := by
  match i with
  | 0 => norm_num [yAt, exA]
  | 1 => norm_num [yAt, exA]
  | 2 => norm_num [yAt, exB]
  | _ + 3 => norm_num [yAt]

/-- Two of the three orders hold at most 40 units. -/
theorem choice_two (c : List Nat) (h : Choice [exA, exA, exB] 2 c) : ExactRouter.total c (yAt [exA, exA, exB]) ≤ 40 := by
  obtain ⟨-, h2, h3⟩ := h
  match c with
  | [] => norm_num [ExactRouter.total]
  | [i] => have := ex_y i; simp only [ExactRouter.total, List.map_cons, List.map_nil, List.sum_cons, List.sum_nil]; linarith
  | [i, j] => have := ex_y i; have := ex_y j; simp only [ExactRouter.total, List.map_cons, List.map_nil, List.sum_cons, List.sum_nil]; linarith
  | _ :: _ :: _ :: _ => simp only [List.length_cons] at h3; omega

/-- `C71_by_target_insufficient`. -/
example := C71_by_target_insufficient [exA, exA, exB] (by simp) ex_good (-45) (by norm_num) (some 2) (by simp)
  (fun c hc => by have := choice_two c hc; linarith)

/-- `C71_by_target_most`. -/
example := C71_by_target_most [exA, exA, exB] (by simp) ex_good (-45) (by norm_num) (some 2) (by simp)
  (fun c hc => by have := choice_two c hc; linarith)
  (by
    rw [show List.range [exA, exA, exB].length = [0, 1, 2] from rfl]
    simp only [ExactRouter.total, List.map_cons, List.map_nil, List.sum_cons, List.sum_nil]
    norm_num [yAt, exA, exB])

/-- `C71_best_priced`. -/
example := C71_best_priced [exA, exA, exB] (by simp) ex_good (-38) (by norm_num) (some 2) (by simp)
/-- `C71_counted_le`. -/
example : ∃ q, exA.dxdy (-exA.y) = .ok q ∧ counted exA 10 ≤ q := by
  obtain ⟨q, hq⟩ := C70_capital_exists _ ex_good
  exact ⟨q 0, hq 0 exA rfl, (C71_counted_le exA (ex_good exA (by simp)) 10 (by norm_num) _ (hq 0 exA rfl)).2⟩
/-- `C71_no_default_violated`. -/
example := C71_no_default_violated [exA, exA, exB] (by simp) ex_good 10 (by norm_num) false
end Alpha

section Spec
open Bench Spec Prop.Trade Prop.TradeSpec

/-- An order of the reference implementation. -/
noncomputable def refOrder : RateOrder ℝ := ⟨1000, 1, 4, 4⟩
/-- `C116_inverse`. -/
example : ∃ v, Ref.execute true 10 refOrder = .ok v ∧ Ref.execute false v refOrder = .ok 10 := by
  obtain ⟨v, h, -⟩ := C116_rate (o := refOrder) (by norm_num [refOrder]) (by norm_num [refOrder]) (by norm_num [refOrder])
    (by norm_num [refOrder]) (x := 10) (by norm_num)
  exact ⟨v, h, C116_inverse (by norm_num [refOrder]) (by norm_num [refOrder]) (by norm_num [refOrder]) (by norm_num [refOrder]) h⟩

/-- The same order as the contract stores it. -/
def storedOrder : EncOrder := ⟨1000, 1000, Bench.encodeFloat (2 ^ 48), Bench.encodeFloat (2 ^ 48)⟩

theorem stored_decoded : Bench.decodeOrder storedOrder = .ok refOrder := by
  have h : Bench.decodeFloat (Bench.encodeFloat (2 ^ 48)) = 2 ^ 48 := by decide +kernel
  unfold Bench.decodeOrder storedOrder
  dsimp only
  rw [if_pos rfl, Py.ok_bind, h]
  unfold decodeRate refOrder
  norm_num

/-- `C116_source`. -/
example : ∃ v : ℝ, Ref.execute true 10 refOrder = .ok v ∧ (Bench.tradeBySourceAmount 10 storedOrder : ℝ) ≤ v := by
  obtain ⟨v, h, -⟩ := C116_rate (o := refOrder) (by norm_num [refOrder]) (by norm_num [refOrder]) (by norm_num [refOrder])
    (by norm_num [refOrder]) (x := 10) (by norm_num)
  exact ⟨v, h, C116_source (x := 10) (by norm_num) (by decide) (by decide) stored_decoded (by exact_mod_cast h)⟩
/-- `C116_target`. -/
example := C116_target (x := 39) (by decide) (by decide) stored_decoded (by decide +kernel)

theorem sample_exec : Bench.execute true 10 1000 (1, 1) (4, 1) (4, 1) = .ok 39 ∧ Bench.execute false 39 1000 (1, 1) (4, 1) (4, 1) = .ok 10 := by
  have h1 : Nat.sqrt (1 * 2 ^ 96 / 1) = 2 ^ 48 := Nat.sqrt_eq' (2 ^ 48)
  have h2 : Nat.sqrt (4 * 2 ^ 96 / 1) = 2 ^ 49 := Nat.sqrt_eq' (2 ^ 49)
  refine ⟨?_, ?_⟩
  · unfold Bench.execute Bench.encodeOrder Bench.encodeRate
    simp only [h1, h2]
    decide +kernel
  · unfold Bench.execute Bench.encodeOrder Bench.encodeRate
    simp only [h1, h2]
    decide +kernel

theorem root1 : √(((1 : ℕ) : ℝ) / ((1 : ℕ) : ℝ)) = 1 := by norm_num
theorem root4 : √(((4 : ℕ) : ℝ) / ((1 : ℕ) : ℝ)) = 2 := by
  rw [show (((4 : ℕ) : ℝ) / ((1 : ℕ) : ℝ)) = 2 ^ 2 by norm_num, Real.sqrt_sq (by norm_num)]

theorem sample_ref : Ref.execute true ((10 : ℤ) : ℝ) (requested 1000 (1, 1) (4, 1) (4, 1)) = .ok (2000 / 51) := by
  obtain ⟨n1, n2, n3⟩ := rates_nonneg (y := 1000) (lo := (1, 1)) (hi := (4, 1)) (mid := (4, 1))
  rw [execute_source n1 n2 n3, sourceFunc_ok]
  · unfold requested payout
    dsimp only
    rw [root1, root4]
    norm_num

/-- `C117_source`: 39 is at most 2000/51. -/
example := C117_source (by norm_num) (by norm_num) (by norm_num) (by norm_num) sample_exec.1 sample_ref (by norm_num)
/-- `C117_source_accuracy`. -/
example := C117_source_accuracy (by norm_num) (by norm_num) (by norm_num) (by norm_num) sample_exec.1 (by norm_num) sample_ref (by norm_num)
/-- `C117_target`, `C117_target_accuracy`. -/
example : ∃ v : ℝ, Ref.execute false ((39 : ℤ) : ℝ) (requested 1000 (1, 1) (4, 1) (4, 1)) = .ok v ∧ v ≤ 10 ∧
    10 * (1 - 1 / 2 ^ 45 * (1 + 1 / √(((1 : ℕ) : ℝ) / ((1 : ℕ) : ℝ)))) ≤ v + 4 := by
  obtain ⟨v, h1, h2⟩ := C117_target (d := 39) (by norm_num) (by norm_num) (by norm_num) (by norm_num) (by norm_num) sample_exec.2 (by norm_num)
  have h3 := C117_target_accuracy (d := 39) (by norm_num) (by norm_num) (by norm_num) (by norm_num) (by norm_num) (by norm_num) (by norm_num)
    sample_exec.2 (by norm_num) h1
  exact ⟨v, h1, by exact_mod_cast h2, by simpa using h3⟩

/-- `C117_source_bound`, `C117_source_accuracy_bound`. -/
example : ∃ v w : ℝ, (39 : ℝ) ≤ w ∧ v * (1 - 1 / 2 ^ 44 * (1 + 1 / √(((4 : ℕ) : ℝ) / ((1 : ℕ) : ℝ)))) ≤ (39 + 4) * (1 + 1 / (1000 : ℕ)) ^ 2 := by
  obtain ⟨w, hw, -, h2, -⟩ := C116_rate (o := ⟨((1000 : ℕ) : ℝ), ((1 : ℕ) : ℝ) / ((1 : ℕ) : ℝ), ((4 : ℕ) : ℝ) / ((1 : ℕ) : ℝ),
    ((4 : ℕ) : ℝ) / ((1 : ℕ) : ℝ) * (1 + 1 / ((1000 : ℕ) : ℝ)) ^ 2⟩) (by norm_num) (by norm_num) (by norm_num)
    (by norm_num) (x := ((10 : ℤ) : ℝ)) (by norm_num)
  have hfit : w ≤ ((1000 : ℕ) : ℝ) := h2.trans (by norm_num)
  have h3 := C117_source_bound (by norm_num) (by norm_num) (by norm_num) (by norm_num) sample_exec.1 hw hfit
  have h4 := C117_source_accuracy_bound (by norm_num) (by norm_num) (by norm_num) (by norm_num) sample_exec.1 (by norm_num) sample_ref hw hfit
  exact ⟨_, w, by exact_mod_cast h3, by simpa using h4⟩

end Spec

section Seek
open Opt

/-- `C50_brackets_partial`, `C50_root_partial`: the root of `x - 3` between 1 and 5, and that of `x^2 - 2` between 0 and 4. -/
example := C50_brackets_partial (f := fun x : ℚ => x - 3) (a := 1) (b := 5) (by norm_num) (by norm_num) ⟨5, by decide +kernel⟩ (r := .raw 3)
example := C50_brackets_partial (f := fun x : ℚ => x ^ 2 - 2) (a := 0) (b := 4) (by norm_num) (by norm_num) ⟨30, by decide +kernel⟩
  (r := .simple (2965821 / 2097152))
example : ∃ r : Found ℝ, Opt.Seeks (total fun x : ℝ => x ^ 2 - 2) 0 4 (.ok r) ∧
    ∃ x, 0 ≤ x ∧ x ≤ 4 ∧ x ^ 2 - 2 = 0 ∧ |r.value - x| ≤ 1 / 2 * (1 / 10 ^ 6) := by
  obtain ⟨r, hr⟩ := (C50_terminates (fun x : ℝ => x ^ 2 - 2) 0 4).2 (by norm_num)
  exact ⟨r, hr, C50_root_partial (f := fun x : ℝ => x ^ 2 - 2) (by norm_num) (by norm_num) (by fun_prop) hr⟩
/-- `C50_unique`. -/
example (r : Py (Found ℚ)) (h : Opt.Seeks (total fun x : ℚ => x - 3) 1 5 r) : r = .ok (.raw 3) := C50_unique h ⟨5, by decide +kernel⟩

open UICurve in
/-- `C50_ui_terminates_partial`, `C50_ui_brackets_partial`, `C50_ui_root_partial`. -/
example : ∃ m : ℝ, UICurve.Seeks (total fun x : ℝ => x - 9) 1 10 (1 / 10) (.ok m) ∧
    (∃ x, 1 ≤ x ∧ x ≤ 10 ∧ x - 9 = 0 ∧ |m - x| ≤ 1 / 10 * x) ∧ (1 : ℝ) < 10 := by
  obtain ⟨r, hr⟩ := (C50_ui_terminates_partial (fun x : ℝ => x - 9) (a := 1) (b := 10) (eps := 1 / 10) (by norm_num)).1 (by norm_num)
    (by norm_num) (by norm_num)
  exact ⟨r, hr, C50_ui_root_partial (f := fun x : ℝ => x - 9) (by norm_num) (by fun_prop) hr,
    (C50_ui_brackets_partial (f := fun x : ℝ => x - 9) (by norm_num) hr).1⟩
end Seek

end Carbon.Witness
