import Verif.Prop.MargpGap
import Verif.Witness.Optimizer

/-! Instances of the theorems about the convergence of the price search. -/

namespace Carbon.Witness

open Opt CPC

theorem pools_pair : PairPools (Opt.twoPools ℝ) "B".toList "A".toList := by
  refine ⟨pools_tokens, fun c hc => ?_, fun c hc => ?_⟩ <;> rw [twoPools_curves] at hc <;>
    simp only [List.mem_cons, List.not_mem_nil, or_false] at hc <;> rcases hc with rfl | rfl
  · exact ⟨rfl, by norm_num [CPC.y]⟩
  · exact ⟨rfl, by norm_num [CPC.y]⟩
  · exact .inl (pools_named ..)
  · exact .inl (pools_named ..)

theorem log10_one : log10 1 = 0 := by simp [log10]

theorem log10_near {x : ℝ} (h1 : 1 / 10 ≤ x) (h2 : x ≤ 10) : |log10 x| ≤ 1 := by
  have a := log10_mono (by norm_num) h1
  have b := log10_mono (by linarith) h2
  have h10 : Real.log 10 ≠ 0 := (Real.log_pos (by norm_num)).ne'
  have e1 : log10 10 = 1 := div_self h10
  have e2 : log10 (1 / 10) = -1 := by
    unfold log10
    rw [one_div, Real.log_inv, neg_div, div_self h10]
  rw [e1] at b
  rw [e2] at a
  exact abs_le.2 ⟨a, b⟩

/-- The search for the two pools can begin at another price than the one at which they balance. -/
theorem pools_ready_at {r : ℝ} (hr : 0 < r) : Ready (Opt.twoPools ℝ) "B".toList { pstart := some [("A".toList, r)] } (fun _ => r) := by
  refine ⟨twoPools_input.sound, twoPools_input.known, ?_, fun _ => hr⟩
  unfold startPrices
  simp only
  have hone : ∀ t ∈ tokensOf (Opt.twoPools ℝ) "B".toList, dictGet [("A".toList, r)] t = some r := by
    intro t ht
    rw [pools_tokens] at ht
    rw [List.mem_singleton.1 ht]
    rfl
  rw [pstart_ok fun t ht => ⟨r, hone t ht⟩, Py.ok_bind]
  refine congrArg (fun l => Except.ok (some l)) (List.ext_getElem (by simp) fun i h1 h2 => ?_)
  rw [List.getElem_map, hone _ (List.getElem_mem _)]
  simp

theorem log10_sub {x y : ℝ} (hx : 0 < x) (hy : 0 < y) : log10 x - log10 y = log10 (x / y) := by
  unfold log10
  rw [Real.log_div hx.ne' hy.ne']
  ring

/-- The fifth power of a price not above `2` is below `10 ^ 2`. -/
theorem log10_two : log10 2 ≤ 2 / 5 := by
  unfold log10
  rw [div_le_div_iff₀ (Real.log_pos (by norm_num)) (by norm_num)]
  have h : Real.log ((2 : ℝ) ^ 5) ≤ Real.log ((10 : ℝ) ^ 2) := Real.log_le_log (by norm_num) (by norm_num)
  rw [Real.log_pow, Real.log_pow] at h
  push_cast at h
  linarith

/-- C133_pair_default: from the price `1/2` the search finds the price `4/9` up to the precision. -/
theorem pools_half : ∃ n m p, margpRun (Opt.twoPools ℝ) "B".toList { pstart := some [("A".toList, 1 / 2)] } = .ok (.found n m) ∧ n ≤ 20 ∧
    dictGet m.prices "A".toList = some p ∧ |log10 p - log10 (4 / 9)| ≤ 2 / 1000000 := by
  refine C133_pair_default pools_pair (pools_ready_at (by norm_num)) (by norm_num) pools_excess
    ((log10_near (by norm_num) (by norm_num)).trans (by norm_num)) fun _ => ?_
  rw [log10_sub (by norm_num) (by norm_num)]
  have h1 := log10_mono (x := 1) (y := 1 / 2 / (4 / 9)) (by norm_num) (by norm_num)
  have h2 := log10_mono (x := 1 / 2 / (4 / 9)) (y := 2) (by norm_num) (by norm_num)
  rw [log10_one] at h1
  exact abs_le.2 ⟨by linarith, h2.trans log10_two⟩

/-- C133_pair_converges: a precision of one thousandth is reached within eleven iterations. -/
example : True := by
  have := C133_pair_converges (params := { pstart := some [("A".toList, 4 / 9)], eps := some (1 / 1000), maxiter := some 12 }) pools_pair
    (pools_ready { pstart := some [("A".toList, 4 / 9)], eps := some (1 / 1000), maxiter := some 12 } rfl) (by norm_num) pools_excess
    ((log10_near (by norm_num) (by norm_num)).trans (by norm_num)) (fun _ => by rw [sub_self, abs_zero]; norm_num) (N := 10)
    (by unfold MargpParams.epsValue; norm_num) (by unfold MargpParams.maxiterValue; norm_num)
  trivial

example := C133_pair_balance pools_pair twoPools_input.sound

/-- C133_residual: the hypotheses hold where the search begins at the balancing price, and those about the prices as well. -/
example : True := by
  obtain ⟨m, h⟩ := pools_run
  have := C133_residual (pools_ready { pstart := some [("A".toList, 4 / 9)] } rfl) h (by unfold MargpParams.epsValue; norm_num)
  trivial

/-- Two pools that quote the prices `1` and `2`. -/
noncomputable def nearPools : CC ℝ :=
  CC.ofCurves [⟨100, 10, 10, 10, "A/B".toList, some (.str "c1".toList), []⟩, ⟨200, 10, 10, 20, "A/B".toList, some (.str "c2".toList), []⟩]

theorem nearPools_curves : nearPools.curves =
    [⟨100, 10, 10, 10, "A/B".toList, some (.str "c1".toList), []⟩, ⟨200, 10, 10, 20, "A/B".toList, some (.str "c2".toList), []⟩] :=
  CC.ofCurves_curves (by simp)

theorem nearPools_tkns : nearPools.tkns = ["A".toList, "A".toList, "B".toList, "B".toList] := by
  unfold CC.tkns
  rw [nearPools_curves]
  rfl

theorem nearPools_sound : ∀ c ∈ nearPools.curves, Sound c := by
  intro c hc
  rw [nearPools_curves] at hc
  have hp : CarbonPair.unpack "A/B".toList = .ok ("A".toList, "B".toList) := by decide
  simp only [List.mem_cons, List.not_mem_nil, or_false] at hc
  rcases hc with rfl | rfl
  · exact ⟨by norm_num, by norm_num, by norm_num, by norm_num, by norm_num, by norm_num [CPC.y], _, _, hp⟩
  · exact ⟨by norm_num, by norm_num, by norm_num, by norm_num, by norm_num, by norm_num [CPC.y], _, _, hp⟩

theorem nearPools_pair : PairPools nearPools "B".toList "A".toList := by
  refine ⟨?_, fun c hc => ?_, fun c hc => ?_⟩
  · unfold tokensOf
    rw [nearPools_tkns]
    decide +kernel
  all_goals
    rw [nearPools_curves] at hc
    simp only [List.mem_cons, List.not_mem_nil, or_false] at hc
    rcases hc with rfl | rfl
  · exact ⟨rfl, by norm_num [CPC.y]⟩
  · exact ⟨rfl, by norm_num [CPC.y]⟩
  · exact .inl (pools_named ..)
  · exact .inl (pools_named ..)

theorem nearPools_prices : ∀ c ∈ nearPools.curves, 1 ≤ CC.dirPrice c "A".toList "B".toList ∧ CC.dirPrice c "A".toList "B".toList ≤ 2 := by
  intro c hc
  rw [nearPools_curves] at hc
  simp only [List.mem_cons, List.not_mem_nil, or_false] at hc
  rcases hc with rfl | rfl <;> unfold CC.dirPrice <;> rw [if_pos (pools_named ..)] <;> norm_num [CPC.p, CPC.y]

/-- C134_pair: without parameters the search finds the price at which these pools balance. -/
example : ∃ b : ℝ, 0 < b ∧ (∀ i, excess nearPools "B".toList (fun _ => b) i = 0) ∧ ∃ n m p e, margpRun nearPools "B".toList = .ok (.found n m) ∧ n ≤ 20 ∧
    dictGet m.prices "A".toList = some p ∧ 0 < p ∧ |log10 p - log10 b| ≤ 2 / 1000000 ∧ dictGet m.dtokens "A".toList = some e ∧
    |e| ≤ heldBefore "A".toList nearPools.curves * (9 / 1000000) := by
  obtain ⟨b, ⟨hb, hb0⟩, -⟩ := C133_pair_balance nearPools_pair nearPools_sound
  refine ⟨b, hb, hb0, C134_pair nearPools_pair nearPools_sound (by rw [nearPools_tkns]; decide) (lo := 1) (hi := 2) (by norm_num) ?_ ?_ ?_ ?_ hb hb0⟩
  · exact nearPools_prices
  · rw [log10_one, sub_zero]
    exact log10_two
  · rw [log10_one]
    norm_num
  · exact log10_two.trans (by norm_num)

example := C134_pair_optimal nearPools_pair nearPools_sound (by rw [nearPools_tkns]; decide) (lo := 1) (hi := 2) (by norm_num) nearPools_prices
  (by rw [log10_one, sub_zero]; exact log10_two) (by rw [log10_one]; norm_num) (log10_two.trans (by norm_num))

/-- C80_gap: at the price `1`, which does not balance the pools, nobody gets more than reported, and what is left unbalanced. -/
example : True := by
  obtain ⟨m, hm, -⟩ := margp_eq (p := [1]) (cc := nearPools) (target := "B".toList) ⟨nearPools_sound, by rw [nearPools_tkns]; decide,
    by rw [nearPools_pair.length]; rfl, by simp⟩
  have := C80_gap (p := [1]) (cc := nearPools) (target := "B".toList) ⟨nearPools_sound, by rw [nearPools_tkns]; decide,
    by rw [nearPools_pair.length]; rfl, by simp⟩ hm (w := [(0, 0), (0, 0)]) (by rw [nearPools_curves]; rfl) (by
      intro cv hcv
      have hb : cv.2 = (0, 0) := by
        have := (List.of_mem_zip (a := cv.1) (b := cv.2) hcv).2
        simpa using this
      rw [hb]
      exact allowed_zero (nearPools_sound _ (List.of_mem_zip (a := cv.1) (b := cv.2) hcv).1)) (by
      intro t _ _
      exact (net_zero t nearPools.curves 2).le)
  trivial

/-- C133_near_optimal, C133_pair_regular: from the price `1/2`, the reported result is near to the best that the two pools can give. -/
example : ∃ n m p, margpRun (Opt.twoPools ℝ) "B".toList { pstart := some [("A".toList, 1 / 2)] } = .ok (.found n m) ∧ 0 < p ∧
    (|log10 p| ≤ 99999 → ∀ w : List (ℝ × ℝ), w.length = 2 → (∀ cv ∈ (Opt.twoPools ℝ).curves.zip w, Allowed cv.1 cv.2) →
      net "A".toList (Opt.twoPools ℝ).curves w ≤ 0 →
      m.result ≤ net "B".toList (Opt.twoPools ℝ).curves w + pow10 (1 / 1000000) * (9 * 1 * (1 / 1000000) + (pow10 (1 / 1000000) - 1)) *
        ∑ i : Fin (tokensOf (Opt.twoPools ℝ) "B".toList).length, p * holdings (Opt.twoPools ℝ) "B".toList (fun _ => p) i) := by
  obtain ⟨n, m, p, h1, -⟩ := pools_half
  obtain ⟨q, r, k1, -, -, k4⟩ := C133_near_optimal (pools_ready_at (by norm_num)) h1 (by unfold MargpParams.epsValue; norm_num)
  have hl : 0 < (tokensOf (Opt.twoPools ℝ) "B".toList).length := by rw [pools_tokens]; decide
  have hr : r = fun _ => r ⟨0, hl⟩ := by
    funext j
    congr 1
    apply Fin.ext
    have : (tokensOf (Opt.twoPools ℝ) "B".toList).length = 1 := by rw [pools_tokens]; rfl
    have := j.2
    dsimp only
    omega
  refine ⟨n, m, r ⟨0, hl⟩, h1, (k1 _).2, fun hlog w hw ha hn => ?_⟩
  have := k4 (C133_pair_regular pools_pair twoPools_input.sound fun i => (k1 i).1).2 (by rw [hr]; exact fun _ => hlog) w (by rw [twoPools_curves]; exact hw) ha
    (by
      intro t ht hne
      rw [pools_tkns] at ht
      have : t = "A".toList := by
        simp only [List.mem_cons, List.not_mem_nil, or_false] at ht
        tauto
      rw [this]
      exact hn)
  have e1 : MargpParams.epsValue { pstart := some [("A".toList, 1 / 2)] } = 1 / 1000000 := rfl
  have e2 : ((tokensOf (Opt.twoPools ℝ) "B".toList).length : ℝ) = 1 := by rw [pools_tokens]; norm_num
  rw [e1, e2, hr] at this
  exact this

end Carbon.Witness
