import Verif.Prop.Trade
import Verif.Prop.MatchBest
import Verif.Prop.Encoded

/-!
# Concrete states for the theorems about integer quotes, matching and encoded orders (C01-C11, C56-C59, C95)

Each `example` applies the theorem that its comment names to concrete values, so that all hypotheses of the theorem are met at once.
-/

namespace Carbon.Witness

open Carbon Carbon.Bench Carbon.Spec Carbon.Prop.Trade Carbon.Prop.Match

/-- `C01_exact_below`. -/
example : decodeFloat (encodeFloat 12345) = 12345 := C01_exact_below 12345 (by norm_num)

/-- `C01_relative_loss`. -/
example := C01_relative_loss (2 ^ 60 + 12345) (by norm_num)

/-- `C02_representable_exact`. -/
example : decodeFloat (encodeFloat (5 * 2 ^ 60)) = 5 * 2 ^ 60 := C02_representable_exact _ ⟨5, 60, by norm_num, rfl⟩

theorem sample_a : wordValue sampleOrder.A = 1 := by
  have : sampleOrder.A = 281474976710656 + 2 ^ 47 := by decide +kernel
  unfold wordValue; rw [this]; norm_num

theorem sample_b : wordValue sampleOrder.B = 1 := sample_a

theorem sample_y : sampleOrder.y = 10 ^ 20 := rfl
theorem sample_z : sampleOrder.z = 2 * 10 ^ 20 := rfl

theorem sample_source {x : ℤ} (h : 0 ≤ x) (h2 : x ≤ 10 ^ 24) : SourceFits x sampleOrder := by
  have hx : (0 : ℚ) ≤ x := by exact_mod_cast h
  have hx2 : (x : ℚ) ≤ 10 ^ 24 := by exact_mod_cast h2
  unfold SourceFits
  simp only [sample_a, sample_b, sample_y, sample_z]
  push_cast
  refine ⟨by nlinarith, by nlinarith, by norm_num⟩

theorem sample_target {d : ℤ} (h : 0 ≤ d) (h2 : d ≤ 10 ^ 20) : TargetFits d sampleOrder := by
  have hx : (0 : ℚ) ≤ d := by exact_mod_cast h
  have hx2 : (d : ℚ) ≤ 10 ^ 20 := by exact_mod_cast h2
  unfold TargetFits
  simp only [sample_a, sample_b, sample_y, sample_z]
  push_cast
  refine ⟨by nlinarith, by norm_num, by nlinarith, by norm_num⟩

theorem sample_out : curveOut (10 ^ 18 : ℤ) sampleOrder.y sampleOrder.z (wordValue sampleOrder.A) (wordValue sampleOrder.B) ≤ 10 ^ 20 := by
  rw [sample_a, sample_b, sample_y, sample_z]
  unfold curveOut
  norm_num

theorem sample_ne : wordValue sampleOrder.A ≠ 0 := by rw [sample_a]; norm_num

/-- `C03_payout_le_curve`. -/
example := C03_payout_le_curve (10 ^ 18) sampleOrder (by norm_num) (by decide) (by decide)

/-- `C04_cost_ge_curve`. -/
example := C04_cost_ge_curve (10 ^ 18) sampleOrder (by decide +kernel)

/-- `C05_overflow_target`. -/
example : tradeByTargetAmount (3 * 10 ^ 20 - 1) ⟨10 ^ 20, 2 * 10 ^ 20, encodeFloat (2 ^ 48), encodeFloat (2 ^ 48)⟩ = 2 ^ 128 - 1 :=
  C05_overflow_target _ sampleOrder (by
    rw [sample_a, sample_b, sample_y, sample_z]
    unfold curveIn
    norm_num)

/-- `C06_source_exact`. -/
example := C06_source_exact (10 ^ 18) sampleOrder (by norm_num) (by decide) (by decide) sample_ne (sample_source (by norm_num) (by norm_num))

/-- `C06_target_exact`. -/
example := C06_target_exact (10 ^ 18) sampleOrder (by norm_num) (by decide) (by decide) sample_ne (sample_target (by norm_num) (by norm_num))

theorem sample_out_lt : curveOut (10 ^ 18 : ℤ) sampleOrder.y sampleOrder.z (wordValue sampleOrder.A) (wordValue sampleOrder.B) < 2 ^ 128 :=
  lt_of_le_of_lt sample_out (by norm_num)

/-- `C07_galois`. -/
example : tradeByTargetAmount (10 ^ 18) sampleOrder ≤ 10 ^ 18 ↔ 10 ^ 18 ≤ tradeBySourceAmount (10 ^ 18) sampleOrder :=
  C07_galois (10 ^ 18) (10 ^ 18) sampleOrder (by norm_num) (by norm_num) (by decide) (by decide) sample_ne
    (sample_source (by norm_num) (by norm_num)) (sample_target (by norm_num) (by norm_num)) (by norm_num) sample_out_lt

theorem sample_source_val : tradeBySourceAmount (10 ^ 18) sampleOrder = 2233250620347394540 := by decide +kernel
theorem sample_target_val : tradeByTargetAmount (10 ^ 18) sampleOrder = 445930880713489410 := by decide +kernel

/-- `C07_target_of_source`. -/
example := C07_target_of_source (10 ^ 18) sampleOrder (by norm_num) (by decide) (by decide) sample_ne
  (sample_source (by norm_num) (by norm_num)) (by rw [sample_source_val]; exact sample_target (by norm_num) (by norm_num)) (by norm_num)
  sample_out_lt

/-- `C07_source_of_target`. -/
example := C07_source_of_target (10 ^ 18) sampleOrder (by norm_num) (by decide) (by decide) sample_ne
  (by rw [sample_target_val]; exact sample_source (by norm_num) (by norm_num)) (sample_target (by norm_num) (by norm_num))
  (by rw [sample_target_val]; norm_num)
  (by rw [sample_target_val, sample_a, sample_b, sample_y, sample_z]; unfold curveOut; norm_num)

/-- `C07_underpaying`. -/
example : tradeBySourceAmount (10 ^ 18) sampleOrder < 10 ^ 19 :=
  C07_underpaying (10 ^ 18) (10 ^ 19) sampleOrder (by norm_num) (by norm_num) (by decide) (by decide) sample_ne
    (sample_source (by norm_num) (by norm_num)) (sample_target (by norm_num) (by norm_num)) (by norm_num) sample_out_lt
    (by decide +kernel)

/-- `C56_source_accuracy`. -/
example := C56_source_accuracy (10 ^ 18) sampleOrder (by decide) (by decide) sample_ne
  (by refine sample_out.trans ?_; rw [sample_y]; norm_num) (by rw [sample_source_val]; norm_num)

/-- `C56_target_accuracy`. -/
example := C56_target_accuracy (10 ^ 18) sampleOrder sample_ne (by norm_num) (by rw [sample_target_val]; norm_num)

theorem sample_rates : Bench.encodeRate 1 1 = .ok (2 ^ 48) ∧ Bench.encodeRate 4 1 = .ok (2 ^ 49) ∧ Bench.encodeRate 9 4 = .ok (3 * 2 ^ 47) := by
  have h1 : Nat.sqrt (1 * 2 ^ 96 / 1) = 2 ^ 48 := Nat.sqrt_eq' (2 ^ 48)
  have h2 : Nat.sqrt (4 * 2 ^ 96 / 1) = 2 ^ 49 := Nat.sqrt_eq' (2 ^ 49)
  have h3 : Nat.sqrt (9 * 2 ^ 96 / 4) = 3 * 2 ^ 47 := Nat.sqrt_eq' (3 * 2 ^ 47)
  unfold Bench.encodeRate
  simp only [h1, h2, h3]
  decide +kernel

/-- `C57_rate_greatest`. -/
example := C57_rate_greatest 9 4 _ sample_rates.2.2

/-- `C57_order`. -/
example := C57_order 5 (1, 1) (4, 1) (9, 4) ⟨5, 10, encodeFloat (2 ^ 48), encodeFloat (2 ^ 48)⟩
  (by
    unfold Bench.encodeOrder
    rw [sample_rates.1, sample_rates.2.1, sample_rates.2.2]
    decide) (by norm_num)

/-! ## Matching -/

/-- The actions of the sample match by target amount. -/
def fastActs : List Action := [⟨0, 1000, 667⟩, ⟨1, 200, 159⟩]

theorem book_quotes : QuotesFor 1200 book rateByTargetAmount bookQuotes := by
  have : (book.zipIdx.map fun p => (⟨p.2, rateByTargetAmount 1200 p.1⟩ : Quote)) = bookQuotes := by decide +kernel
  unfold QuotesFor; rw [this]

/-- The quotes of the same book by source amount, best price first. -/
def bookQuotesS : List Quote := [⟨0, 667, 1000⟩, ⟨1, 433, 500⟩]

theorem book_quotesS : QuotesFor 900 book rateBySourceAmount bookQuotesS := by
  have : (book.zipIdx.map fun p => (⟨p.2, rateBySourceAmount 900 p.1⟩ : Quote)) = bookQuotesS := by decide +kernel
  unfold QuotesFor; rw [this]

theorem fast_target : matchFast 1200 book bookQuotes defaultFilter rateByTargetAmount = .ok fastActs := by decide +kernel
theorem fast_source : matchFast 900 book bookQuotesS defaultFilter rateBySourceAmount = .ok [⟨0, 667, 1000⟩, ⟨1, 233, 287⟩] := by
  decide +kernel

theorem book_y : ∀ o ∈ book, 0 ≤ o.y := by decide
theorem book_yz : ∀ o ∈ book, 0 ≤ o.y ∧ o.y ≤ o.z := by decide

/-- `C08_total`. -/
example := C08_total 1200 book bookQuotes defaultFilter rateByTargetAmount 1200 book_quotes
/-- `C08_total_input_le`. -/
example : (fastActs.map Action.input).sum ≤ 1200 := C08_total_input_le 1200 (by norm_num) _ _ _ _ _ fast_target
/-- `C08_each_order_once`. -/
example := C08_each_order_once 1200 1200 _ _ _ _ _ book_quotes fast_target
/-- `C08_filtered`. -/
example := C08_filtered 1200 _ _ _ _ _ fast_target
/-- `C09_source`. -/
example := C09_source 900 _ _ _ _ book_y book_quotesS fast_source
/-- `C09_target`. -/
example := C09_target 1200 _ _ _ _ book_quotes fast_target
/-- `C10_fill`. -/
example : (fastActs.map Action.input).sum = min 1200 1500 := C10_fill 1200 (by norm_num) _ _ _ book_yz book_quotes fast_target
/-- `C58_target`. -/
example := C58_target 1200 _ _ _ _ book_quotes fast_target
/-- `C58_source_partial`. -/
example := C58_source_partial 900 _ _ _ _ book_y book_quotesS fast_source

theorem best_target : matchBest 1200 book bookQuotes (fun _ => true) rateByTargetAmount equalizeByTargetAmount =
    .ok [⟨0, 885, 558⟩, ⟨1, 315, 258⟩] := by decide +kernel
theorem best_target2 : matchBest 1200 book bookQuotes defaultFilter rateByTargetAmount equalizeByTargetAmount =
    .ok [⟨0, 885, 558⟩, ⟨1, 315, 258⟩] := by decide +kernel

theorem best_source : matchBest 900 book bookQuotesS (fun _ => true) rateBySourceAmount equalizeBySourceAmount =
    .ok [⟨0, 590, 920⟩, ⟨1, 310, 372⟩] := by decide +kernel
theorem best_source2 : matchBest 900 book bookQuotesS defaultFilter rateBySourceAmount equalizeBySourceAmount =
    .ok [⟨0, 590, 920⟩, ⟨1, 310, 372⟩] := by decide +kernel

/-- `C59_each_order_once`. -/
example := C59_each_order_once 1200 1200 _ _ _ _ _ _ book_quotes (by decide) best_target2
/-- `C59_source`. -/
example := C59_source 900 _ _ _ _ book_y (by decide) book_quotesS best_source2
/-- `C59_target`. -/
example := C59_target 1200 _ _ _ _ (by decide) book_quotes best_target2
/-- `C11_generic_partial`. -/
example := C11_generic_partial 1200 1200 _ _ defaultFilter _ _ book_quotes (by decide) (fun o _ x => min_le_left _ _) _ _ best_target
  (by decide) best_target2
/-- `C11_target_partial`. -/
example := C11_target_partial 1200 _ _ defaultFilter book_quotes (by decide) _ _ best_target (by decide) best_target2

theorem book_fits : ∀ o ∈ book, 0 ≤ o.y ∧ 0 < o.z ∧ wordValue o.A ≠ 0 ∧ wordValue o.B ≠ 0 ∧ TargetFits o.y o := by
  have h1 : wordValue (encodeFloat (2 ^ 47)) = 1 / 2 := by
    have : encodeFloat (2 ^ 47) = 2 ^ 47 := by decide +kernel
    unfold wordValue; rw [this]; norm_num
  have h2 : wordValue (encodeFloat (2 ^ 48)) = 1 := sample_a
  have h3 : wordValue (encodeFloat (2 ^ 46)) = 1 / 4 := by
    have : encodeFloat (2 ^ 46) = 2 ^ 46 := by decide +kernel
    unfold wordValue; rw [this]; norm_num
  intro o ho
  simp only [book, List.mem_cons, List.not_mem_nil, or_false] at ho
  rcases ho with rfl | rfl <;> dsimp only [TargetFits] <;> simp only [h1, h2, h3] <;> norm_num

/-- `C11_source_partial`. -/
example := C11_source_partial 900 _ _ defaultFilter book_fits book_quotesS (by decide) _ _ best_source (by decide) best_source2

/-! ## Encoded orders -/

open EncodedOrder in
/-- `C95_negative`. -/
example := C95_negative (-5) (by norm_num)
/-- `C95_rate`. -/
example := EncodedOrder.C95_rate (9 / 4) (by norm_num)
/-- `C95_agrees`. -/
example := EncodedOrder.C95_agrees 9 4 (by norm_num)
/-- `C95_prices`. -/
example := EncodedOrder.C95_prices 1000 4 1 (by norm_num) (by norm_num) none
/-- `C95_refused`. -/
example := EncodedOrder.C95_refused 1000 4 1 (some 2) (some 2000) none (Or.inr (Or.inr ⟨rfl, rfl⟩))
/-- `C95_marginal_violated`. -/
example := EncodedOrder.C95_marginal_violated 1000 4 1 (9 / 4) (by norm_num) (by norm_num) (by norm_num) (by norm_num) none

end Carbon.Witness
