import Verif.Prop.MargpConverge

/-!
# How far the marginal price optimizer is from the best trades

The prices that the optimizer finds balance the tokens other than the target token only up to the precision of the search. The theorems bound what
this costs: no other trades that the pools accept, and that leave nothing of the other tokens in the pools, yield more of the target token than
the optimizer reports and the value of what it leaves unbalanced.

* `C80_gap`: the bound in terms of the reported amounts and prices, for any prices.
* `C133_near_optimal`: the bound in terms of the precision and the value of the holdings of the pools.
* `C133_pair_regular`: for pools of one pair the hypothesis about the slopes holds.
* `C134_pair_optimal`: for pools of one pair, without parameters.
-/

namespace Carbon.Opt

open CPC

theorem one_lt_pow10 {s : ℝ} (h : 0 < s) : 1 < pow10 s := by
  unfold pow10
  exact Real.one_lt_exp_iff.2 (mul_pos h (Real.log_pos (by norm_num)))

theorem dictGet_zip_ofFn {ts : List Str} (hn : ts.Nodup) (p : Fin ts.length → ℝ) (i : Fin ts.length) : dictGet (ts.zip (List.ofFn p)) ts[i] = some (p i) := by
  obtain ⟨h1, h2⟩ := dictGet_zip_map (l := List.ofFn p) hn (by simp)
  obtain ⟨v, hv⟩ := h2 ts[i] (List.getElem_mem i.2)
  have := congrArg (fun l => l[(i : ℕ)]?) h1
  simp only [List.getElem?_map, List.getElem?_eq_getElem i.2, Option.map_some, List.getElem?_ofFn, i.2, dif_pos, Option.some.injEq] at this
  have e : (dictGet (ts.zip (List.ofFn p)) ts[i]).getD 0 = p i := this
  rw [hv] at e ⊢
  exact congrArg some e

/-- C80: no other trades that the pools accept, and that ask for nothing of any other token, get more of the target token out of the pools than the
optimizer does, apart from the value of the amounts that the optimizer leaves unbalanced. -/
theorem C80_gap {cc : CC ℝ} {target : Str} {p : List ℝ} (h : Input cc target p) {m : Margp ℝ} (hm : margp cc target p = .ok m)
    {w : List (ℝ × ℝ)} (hw : w.length = cc.curves.length) (ha : ∀ cv ∈ cc.curves.zip w, Allowed cv.1 cv.2)
    (hn : ∀ t ∈ cc.tkns, t ≠ target → net t cc.curves w ≤ 0) :
    ∃ e : Fin (tokensOf cc target).length → ℝ, (∀ i, dictGet m.dtokens (tokensOf cc target)[i] = some (e i)) ∧
      m.result + ∑ i, priceOf m.prices (tokensOf cc target)[i] * e i ≤ net target cc.curves w := by
  obtain ⟨m', g1, g2, g3, g4, g5, g6, g7⟩ := margp_eq h
  rw [hm] at g1
  cases g1
  have hpos := priceOf_pos (ts := tokensOf cc target) h.pos
  rw [← g4] at hpos
  have h1 : priceOf m.prices target = 1 := by rw [g4]; exact priceOf_target
  obtain ⟨k1, -⟩ := worth_le hpos cc.curves h.sound w hw ha
  have hT : ∀ c ∈ cc.curves, c.tknb ∈ cc.tkns.toFinset ∧ c.tknq ∈ cc.tkns.toFinset := by
    intro c hc
    rw [List.mem_toFinset, List.mem_toFinset]
    exact mem_tkns hc
  rw [← worth _ _ _ _ hT, ← worth _ _ _ _ hT] at k1
  have ht : target ∈ cc.tkns.toFinset := List.mem_toFinset.2 h.known
  rw [← Finset.add_sum_erase _ _ ht, ← Finset.add_sum_erase _ _ ht, h1, one_mul, one_mul, ← g7] at k1
  refine ⟨fun i => net (tokensOf cc target)[i] cc.curves (cc.curves.map (tradeOf m.prices)), fun i => g6 _ (token_mem i), ?_⟩
  have k3 : ∑ t ∈ cc.tkns.toFinset.erase target, priceOf m.prices t * net t cc.curves w ≤ 0 := by
    apply Finset.sum_nonpos
    intro t ht
    rw [Finset.mem_erase, List.mem_toFinset] at ht
    exact mul_nonpos_of_nonneg_of_nonpos (hpos t).le (hn t ht.2 ht.1)
  have hset : cc.tkns.toFinset.erase target = (tokensOf cc target).toFinset := by
    ext t
    rw [Finset.mem_erase, List.mem_toFinset, List.mem_toFinset, tokensOf_mem]
    tauto
  have k4 : ∑ i : Fin (tokensOf cc target).length, priceOf m.prices (tokensOf cc target)[i] * net (tokensOf cc target)[i] cc.curves (cc.curves.map (tradeOf m.prices)) =
      ∑ t ∈ cc.tkns.toFinset.erase target, priceOf m.prices t * net t cc.curves (cc.curves.map (tradeOf m.prices)) := by
    rw [hset, List.sum_toFinset _ (tokensOf_nodup cc target)]
    exact Fin.sum_univ_fun_getElem (tokensOf cc target) fun t => priceOf m.prices t * net t cc.curves (cc.curves.map (tradeOf m.prices))
  rw [k4]
  linarith

/-- C133: if the slopes at the prices before the last step determine that step, no other trades that the pools accept, and that ask for nothing of any
other token, get more of the target token out of the pools than the reported ones do, apart from a share of the value of the other tokens in the pools
that the precision bounds. -/
theorem C133_near_optimal {cc : CC ℝ} {target : Str} {params : MargpParams} {start} (h : Ready cc target params start) {n : Nat} {m : Margp ℝ}
    (hr : margpRun cc target params = .ok (.found n m)) (he : params.epsValue ≤ 1) :
    ∃ q p : Fin (tokensOf cc target).length → ℝ, (∀ i, 0 < q i ∧ 0 < p i) ∧ m.prices = (tokensOf cc target).zip (List.ofFn p) ∧
      (∀ i, |log10 (p i) - log10 (q i)| ≤ params.epsValue) ∧
      (IsUnit (slopes cc target q).det → (∀ j, |log10 (p j)| ≤ 99999) → ∀ w : List (ℝ × ℝ), w.length = cc.curves.length →
        (∀ cv ∈ cc.curves.zip w, Allowed cv.1 cv.2) → (∀ t ∈ cc.tkns, t ≠ target → net t cc.curves w ≤ 0) →
        m.result ≤ net target cc.curves w +
          pow10 params.epsValue * (9 * (tokensOf cc target).length * params.epsValue + (pow10 params.epsValue - 1)) * ∑ i, p i * holdings cc target p i) := by
  obtain ⟨q, p, h1, h2, h3, h4⟩ := C133_residual h hr he
  obtain ⟨-, p', -, -, g2, -, -, -, -, -, g8, g9, -⟩ := C133_found h hr
  have hpp : p' = p := by
    rw [h2] at g9
    have := congrArg (fun l => l.map Prod.snd) g9
    simp only [List.map_snd_zip (l₁ := tokensOf cc target) (l₂ := List.ofFn p) (by simp), List.map_snd_zip (l₁ := tokensOf cc target) (l₂ := List.ofFn p') (by simp)] at this
    exact (List.ofFn_injective this).symm
  subst hpp
  refine ⟨q, p', h1, h2, h3, fun hu hl w hw ha hn => ?_⟩
  obtain ⟨e, e1, e2⟩ := C80_gap (input_ofFn h.sound h.known g2) g8 hw ha hn
  rw [Finset.mul_sum]
  have : ∀ i, -(pow10 params.epsValue * (9 * (tokensOf cc target).length * params.epsValue + (pow10 params.epsValue - 1)) * (p' i * holdings cc target p' i)) ≤
      priceOf m.prices (tokensOf cc target)[i] * e i := by
    intro i
    obtain ⟨e', f1, f2⟩ := h4 hu hl i
    rw [e1] at f1
    cases f1
    have hp : priceOf m.prices (tokensOf cc target)[i] = p' i := by
      unfold priceOf
      rw [h2, dictGet_zip_ofFn (tokensOf_nodup cc target)]
      rfl
    rw [hp]
    have := mul_le_mul_of_nonneg_left (neg_le_of_abs_le f2) (g2 i).le
    linarith
  have := Finset.sum_le_sum fun i (_ : i ∈ Finset.univ) => this i
  rw [Finset.sum_neg_distrib] at this
  linarith

/-- C134: for pools of one pair without bounds, of which all quote prices within a factor of `10 ^ (2 / 5)` of each other, the optimizer without parameters
gets all of the target token that can be got for nothing, apart from nine millionths of the value of the other token in the pools. -/
theorem C134_pair_optimal {cc : CC ℝ} {target a : Str} (h : PairPools cc target a) (hs : ∀ c ∈ cc.curves, Sound c) (ht : target ∈ cc.tkns) {lo hi : ℝ}
    (hlo : 0 < lo) (hp : ∀ c ∈ cc.curves, lo ≤ CC.dirPrice c a target ∧ CC.dirPrice c a target ≤ hi) (hw : log10 hi - log10 lo ≤ 2 / 5)
    (hl1 : -9999 ≤ log10 lo) (hl2 : log10 hi ≤ 9999) :
    ∃ n m p, margpRun cc target = .ok (.found n m) ∧ n ≤ 20 ∧ dictGet m.prices a = some p ∧ 0 < p ∧ ∀ w : List (ℝ × ℝ), w.length = cc.curves.length →
      (∀ cv ∈ cc.curves.zip w, Allowed cv.1 cv.2) → net a cc.curves w ≤ 0 →
      m.result ≤ net target cc.curves w + 9 / 1000000 * (p * heldBefore a cc.curves) := by
  obtain ⟨b, ⟨hb, hb0⟩, -⟩ := C133_pair_balance h hs
  obtain ⟨n, m, p, e, r1, r2, r3, r4, -, r6, r7⟩ := C134_pair h hs ht hlo hp hw hl1 hl2 hb hb0
  obtain ⟨_, hR, -⟩ := pair_ready h hs ht
  obtain ⟨-, p', -, -, g2, -, -, -, -, -, g8, g9, -⟩ := C133_found hR r1
  refine ⟨n, m, p, r1, r2, r3, r4, fun w hw ha hn => ?_⟩
  obtain ⟨e', e1, e2⟩ := C80_gap (input_ofFn hs ht g2) g8 hw ha (by
    intro t h1 h2
    have : t ∈ tokensOf cc target := tokensOf_mem.2 ⟨h1, h2⟩
    rw [h.tokens, List.mem_singleton] at this
    rw [this]
    exact hn)
  have hl : (tokensOf cc target).length = 1 := h.length
  have hti : ∀ i : Fin (tokensOf cc target).length, (tokensOf cc target)[i] = a := by
    intro i
    have : ∀ t ∈ tokensOf cc target, t = a := by
      rw [h.tokens]
      simp
    exact this _ (List.getElem_mem i.2)
  have hi : ∀ i, priceOf m.prices (tokensOf cc target)[i] * e' i = p * e := by
    intro i
    have h1 := e1 i
    rw [hti i] at h1 ⊢
    rw [r6] at h1
    cases h1
    unfold priceOf
    rw [r3]
    rfl
  rw [Finset.sum_congr rfl fun i _ => hi i, Finset.sum_const, Finset.card_univ, Fintype.card_fin, hl, one_smul] at e2
  have := mul_le_mul_of_nonneg_left (neg_le_of_abs_le r7) r4.le
  linarith

/-- C133: for pools of one pair without bounds the slope is negative at all prices, so that the hypothesis of `C133_near_optimal` holds. -/
theorem C133_pair_regular {cc : CC ℝ} {target a : Str} (h : PairPools cc target a) (hs : ∀ c ∈ cc.curves, Sound c)
    {q : Fin (tokensOf cc target).length → ℝ} (hq : ∀ i, 0 < q i) : (∀ i, slopes cc target q i i < 0) ∧ IsUnit (slopes cc target q).det := by
  have key : ∀ i, slopes cc target q i i < 0 := by
    intro i
    obtain ⟨hS, hC⟩ := sums_pos h hs
    have hs0 := logStep_pos (q i)
    unfold slopes
    refine div_neg_of_neg_of_pos ?_ hs0
    rw [excess_pair h hs i (hq i), excess_pair h hs i (by rw [Function.update_self]; exact mul_pos (hq i) (pow10_pos _)), Function.update_self]
    have h1 : q i < q i * pow10 (logStep (q i)) := by
      have : 1 < pow10 (logStep (q i)) := one_lt_pow10 hs0
      exact lt_mul_of_one_lt_right (hq i) this
    have h2 := Real.sqrt_lt_sqrt (hq i).le h1
    have h3 := div_lt_div_of_pos_left hS (Real.sqrt_pos.mpr (hq i)) h2
    linarith
  refine ⟨key, ?_⟩
  have hd : ∀ {n : ℕ} (hn : n = 1) (J : Matrix (Fin n) (Fin n) ℝ), (∀ i, J i i < 0) → IsUnit J.det := by
    intro n hn J hJ
    subst hn
    rw [Matrix.det_fin_one]
    exact (hJ 0).ne.isUnit
  exact hd h.length _ key

end Carbon.Opt
