import Verif.Tools.MargpLoop
import Verif.Prop.Margp
import Verif.Prop.CpcAnalysis
import Mathlib.Analysis.Calculus.Deriv.Slope

/-!
# The price search of the marginal price optimizer (C133, C134)
-/

set_option linter.unusedSectionVars false

namespace Carbon

open CarbonPair (pyDiv)

namespace Opt

open Matrix Filter Topology

/-! ## The Jacobian -/

section
variable {K : Type} [Field K] [LinearOrder K] [IsStrictOrderedRing K] {n : Nat}

theorem jacStep_ne {x eps : K} (h : eps ≠ 0) : jacStep x eps ≠ 0 := by
  unfold jacStep
  split
  · rename_i hx
    exact mul_ne_zero (abs_ne_zero.2 hx) h
  · exact h

theorem mapM_total {α β : Type} {f : α → Py β} {g : α → β} (l : List α) (h : ∀ a ∈ l, f a = .ok (g a)) : l.mapM f = .ok (l.map g) := by
  induction l with
  | nil => rfl
  | cons a l ih =>
    rw [List.mapM_cons, h a (by simp), Py.ok_bind, ih fun b hb => h b (List.mem_cons_of_mem _ hb), Py.ok_bind]
    rfl

/-- C133: the Jacobian of a function that does not raise consists of its difference quotients: in column `j` the `j`-th variable alone is moved,
by `eps` times its magnitude, or by `eps` if it is zero. -/
theorem C133_jacobian_quotients {func : (Fin n → K) → Py (Fin n → K)} {g : (Fin n → K) → Fin n → K} (h : ∀ x, func x = .ok (g x))
    (x : Fin n → K) (eps : K) :
    ∃ J, jacobian func x eps = .ok J ∧ ∀ i j, J i j =
      (g (Function.update x j (x j + if x j = 0 then eps else |x j| * eps)) i - g x i) / (if x j = 0 then eps else |x j| * eps) := by
  unfold jacobian
  rw [h x, Py.ok_bind, mapM_total (g := fun j i => (g (Function.update x j (x j + jacStep (x j) eps)) i - g x i) / jacStep (x j) eps) _ (by
    intro j _
    unfold jacColumn
    rw [h, Py.ok_bind]), Py.ok_bind]
  refine ⟨_, rfl, fun i j => ?_⟩
  have e : jacStep (x j) eps = if x j = 0 then eps else |x j| * eps := by
    unfold jacStep
    by_cases hx : x j = 0 <;> simp [hx]
  rw [← e]
  simp [Matrix.of_apply, List.getD_eq_getElem?_getD]

/-- C133: the Jacobian of an affine function is its matrix, at every point and for every step. -/
theorem C133_jacobian_affine {func : (Fin n → K) → Py (Fin n → K)} (A : Matrix (Fin n) (Fin n) K) (b : Fin n → K)
    (h : ∀ x, func x = .ok (A *ᵥ x + b)) (x : Fin n → K) {eps : K} (he : eps ≠ 0) : jacobian func x eps = .ok A := by
  obtain ⟨J, hJ, hq⟩ := C133_jacobian_quotients h x eps
  rw [hJ]
  congr 1
  ext i j
  rw [hq]
  obtain ⟨s, hs⟩ : ∃ s, s = if x j = 0 then eps else |x j| * eps := ⟨_, rfl⟩
  have hs0 : s ≠ 0 := by
    rw [hs]
    split
    · exact he
    · rename_i hx
      exact mul_ne_zero (abs_ne_zero.2 hx) he
  rw [← hs]
  have hup : Function.update x j (x j + s) = x + Pi.single j s := by
    funext k
    by_cases hk : k = j
    · subst hk; simp
    · simp [hk]
  rw [hup, Matrix.mulVec_add]
  simp only [Pi.add_apply, Matrix.mulVec_single]
  simp [hs0]

/-- C133: a function that raises at the point, or at one of the moved points, has no Jacobian: the first error is passed on. -/
theorem C133_jacobian_raises {func : (Fin n → K) → Py (Fin n → K)} {x : Fin n → K} {eps : K} {J : Matrix (Fin n) (Fin n) K}
    (h : jacobian func x eps = .ok J) :
    (∃ y, func x = .ok y) ∧ ∀ j, ∃ z, func (Function.update x j (x j + if x j = 0 then eps else |x j| * eps)) = .ok z := by
  unfold jacobian at h
  rw [Py.bind_eq_ok] at h
  obtain ⟨y, hy, h⟩ := h
  rw [Py.bind_eq_ok] at h
  obtain ⟨cols, hc, -⟩ := h
  refine ⟨⟨y, hy⟩, fun j => ?_⟩
  have : ∀ (l : List (Fin n)) cols, l.mapM (jacColumn func x y eps) = .ok cols → ∀ k ∈ l, ∃ c, jacColumn func x y eps k = .ok c := by
    intro l
    induction l with
    | nil => intro _ _ k hk; cases hk
    | cons a l ih =>
      intro cols hl k hk
      rw [List.mapM_cons, Py.bind_eq_ok] at hl
      obtain ⟨c, hca, hl⟩ := hl
      rw [Py.bind_eq_ok] at hl
      obtain ⟨cs, hcs, -⟩ := hl
      rcases List.mem_cons.1 hk with rfl | hk
      · exact ⟨c, hca⟩
      · exact ih cs hcs k hk
  obtain ⟨c, hcj⟩ := this _ _ hc j (List.mem_finRange j)
  unfold jacColumn at hcj
  rw [Py.bind_eq_ok] at hcj
  obtain ⟨z, hz, -⟩ := hcj
  refine ⟨z, ?_⟩
  rw [← hz]
  congr 2
  unfold jacStep
  by_cases hx : x j = 0 <;> simp [hx]

end

section
variable {n : Nat}

/-- C133: where a function has partial derivatives, the Jacobian tends to them as the step shrinks. -/
theorem C133_jacobian_limit {func : (Fin n → ℝ) → Py (Fin n → ℝ)} {g : (Fin n → ℝ) → Fin n → ℝ} (h : ∀ x, func x = .ok (g x))
    (x : Fin n → ℝ) {D : Matrix (Fin n) (Fin n) ℝ} (hD : ∀ i j, HasDerivAt (fun s => g (Function.update x j s) i) (D i j) (x j)) :
    ∃ J : ℝ → Matrix (Fin n) (Fin n) ℝ, (∀ eps, jacobian func x eps = .ok (J eps)) ∧
      ∀ i j, Tendsto (fun eps => J eps i j) (𝓝[≠] 0) (𝓝 (D i j)) := by
  choose J hJ hq using fun eps => C133_jacobian_quotients h x eps
  refine ⟨J, hJ, fun i j => ?_⟩
  have h1 := (hasDerivAt_iff_tendsto_slope_zero).1 (hD i j)
  have h2 : Tendsto (fun eps : ℝ => if x j = 0 then eps else |x j| * eps) (𝓝[≠] 0) (𝓝[≠] 0) := by
    by_cases hx : x j = 0
    · simp only [hx, if_true]
      exact tendsto_id
    · simp only [hx, if_false]
      rw [tendsto_nhdsWithin_iff]
      refine ⟨?_, ?_⟩
      · have : Tendsto (fun eps : ℝ => |x j| * eps) (𝓝 0) (𝓝 (|x j| * 0)) := tendsto_const_nhds.mul tendsto_id
        rw [mul_zero] at this
        exact this.mono_left nhdsWithin_le_nhds
      · filter_upwards [self_mem_nhdsWithin] with e he
        exact mul_ne_zero (abs_ne_zero.2 hx) he
  have h3 := h1.comp h2
  refine h3.congr fun eps => ?_
  rw [hq]
  simp only [Function.comp, smul_eq_mul, Function.update_eq_self]
  rw [div_eq_inv_mul]

/-! ## The linear solvers -/

theorem normSq_nonneg (v : Fin n → ℝ) : 0 ≤ normSq v := Finset.sum_nonneg fun i _ => sq_nonneg _

theorem normSq_eq_zero {v : Fin n → ℝ} (h : normSq v = 0) : v = 0 := by
  funext i
  have := (Finset.sum_eq_zero_iff_of_nonneg fun i _ => sq_nonneg (v i)).1 h i (Finset.mem_univ i)
  simpa using this

theorem normSq_zero : normSq (0 : Fin n → ℝ) = 0 := by simp [normSq]

theorem abs_le_of_normSq {v : Fin n → ℝ} {e : ℝ} (h : Real.sqrt (normSq v) < e) (i : Fin n) : |v i| ≤ e := by
  have h1 : v i ^ 2 ≤ normSq v := Finset.single_le_sum (f := fun i => v i ^ 2) (fun i _ => sq_nonneg _) (Finset.mem_univ i)
  have h2 := Real.sqrt_le_sqrt h1
  rw [Real.sqrt_sq_eq_abs] at h2
  linarith

/-- An exact solution is the least squares solution if the matrix is invertible. -/
theorem leastSquares_of_unit {J : Matrix (Fin n) (Fin n) ℝ} (hJ : IsUnit J.det) (v d : Fin n → ℝ) : LeastSquares J v d ↔ J *ᵥ d = v := by
  have hinv : ∀ a b : Fin n → ℝ, J *ᵥ a = J *ᵥ b → a = b := by
    intro a b h
    have := congrArg (J⁻¹ *ᵥ ·) h
    simpa [Matrix.mulVec_mulVec, Matrix.nonsing_inv_mul J hJ] using this
  constructor
  · intro h
    have h1 := h.least (J⁻¹ *ᵥ v)
    rw [Matrix.mulVec_mulVec, Matrix.mul_nonsing_inv J hJ, Matrix.one_mulVec, sub_self, normSq_zero] at h1
    exact sub_eq_zero.1 (normSq_eq_zero (le_antisymm h1 (normSq_nonneg _)))
  · intro h
    refine ⟨fun e => ?_, fun e he => ?_⟩
    · rw [h, sub_self, normSq_zero]
      exact normSq_nonneg _
    · rw [h, sub_self, normSq_zero] at he
      have h1 := sub_eq_zero.1 (normSq_eq_zero he)
      rw [hinv e d (by rw [h1, h])]

theorem solve_spec (J : Matrix (Fin n) (Fin n) ℝ) (v : Fin n → ℝ) : LeastSquares J v (solve J v) := by
  unfold solve
  split
  · rename_i h
    rw [leastSquares_of_unit h, Matrix.mulVec_mulVec, Matrix.mul_nonsing_inv J h, Matrix.one_mulVec]
  · exact Classical.choose_spec (exists_leastSquares J v)

/-- The least squares solution is zero exactly if the right side is orthogonal to everything that the matrix can reach. -/
theorem leastSquares_zero {J : Matrix (Fin n) (Fin n) ℝ} {v d : Fin n → ℝ} (h : LeastSquares J v d) (h0 : v ᵥ* J = 0) : d = 0 := by
  have hexp : ∀ a b : Fin n → ℝ, normSq (a - b) = normSq a - 2 * (b ⬝ᵥ a) + normSq b := by
    intro a b
    unfold normSq dotProduct
    rw [Finset.mul_sum, ← Finset.sum_sub_distrib, ← Finset.sum_add_distrib]
    apply Finset.sum_congr rfl
    intro i _
    simp only [Pi.sub_apply]
    ring
  have hdot : v ⬝ᵥ (J *ᵥ d) = 0 := by rw [Matrix.dotProduct_mulVec, h0, zero_dotProduct]
  have h1 := h.least 0
  rw [hexp, hdot, Matrix.mulVec_zero, hexp, dotProduct_zero, normSq_zero] at h1
  have h2 : normSq (J *ᵥ d) = 0 := le_antisymm (by linarith) (normSq_nonneg _)
  have h3 := h.short 0 (by rw [Matrix.mulVec_zero, normSq_eq_zero h2])
  rw [normSq_zero] at h3
  exact normSq_eq_zero (le_antisymm h3 (normSq_nonneg _))

/-! ## The loop -/

theorem pow10_pos (x : ℝ) : 0 < pow10 x := Real.exp_pos _

theorem log_ten : Real.log 10 ≠ 0 := (Real.log_pos (by norm_num)).ne'

theorem pow10_log10 {x : ℝ} (h : 0 < x) : pow10 (log10 x) = x := by
  unfold pow10 log10
  rw [div_mul_cancel₀ _ log_ten, Real.exp_log h]

theorem log10_pow10 (x : ℝ) : log10 (pow10 x) = x := by
  unfold pow10 log10
  rw [Real.log_exp, mul_div_assoc, div_self log_ten, mul_one]

theorem pow10_add (x y : ℝ) : pow10 (x + y) = pow10 x * pow10 y := by
  unfold pow10
  rw [add_mul, Real.exp_add]

theorem pow10_zero : pow10 0 = 1 := by simp [pow10]

/-- One iteration as a map. -/
def nextLog (step : (Fin n → ℝ) → Fin n → ℝ) (plog : Fin n → ℝ) : Fin n → ℝ := fun j => plog j + step plog j

theorem loop_found {f : (Fin n → ℝ) → Py (Fin n → ℝ)} {step : (Fin n → ℝ) → Fin n → ℝ} (hf : ∀ x, newtonStep f x = .ok (step x))
    (start : Fin n → ℝ) (eps : ℝ) (k : Nat) : ∀ (r i : Nat) (plog : Fin n → ℝ), k < r →
      Real.sqrt (normSq (step ((nextLog step)^[k] plog))) < eps →
      (∀ l < k, ¬ Real.sqrt (normSq (step ((nextLog step)^[l] plog))) < eps) →
      newtonLoop f start eps r i plog = .ok (i + k, if i + k = 0 then start else fun j => pow10 ((nextLog step)^[k + 1] plog j)) := by
  induction k with
  | zero =>
    intro r i plog hr hk _
    obtain ⟨r, rfl⟩ := Nat.exists_eq_succ_of_ne_zero (by omega : r ≠ 0)
    unfold newtonLoop
    rw [hf, Py.ok_bind, if_pos (show Real.sqrt (normSq (step plog)) < eps from hk)]
    rfl
  | succ k ih =>
    intro r i plog hr hk hl
    obtain ⟨r, rfl⟩ := Nat.exists_eq_succ_of_ne_zero (by omega : r ≠ 0)
    unfold newtonLoop
    rw [hf, Py.ok_bind, if_neg (show ¬ Real.sqrt (normSq (step plog)) < eps from hl 0 (by omega))]
    have := ih r (i + 1) (nextLog step plog) (by omega) hk fun l hlk => hl (l + 1) (by omega)
    rw [show i + 1 + k = i + (k + 1) by omega] at this
    exact this

theorem loop_exhausted {f : (Fin n → ℝ) → Py (Fin n → ℝ)} {step : (Fin n → ℝ) → Fin n → ℝ} (hf : ∀ x, newtonStep f x = .ok (step x))
    (start : Fin n → ℝ) (eps : ℝ) (r : Nat) : ∀ (i : Nat) (plog : Fin n → ℝ),
      (∀ l < r, ¬ Real.sqrt (normSq (step ((nextLog step)^[l] plog))) < eps) →
      newtonLoop f start eps r i plog = .ok (i + r - 1, fun j => pow10 ((nextLog step)^[r] plog j)) := by
  induction r with
  | zero =>
    intro i plog _
    rfl
  | succ r ih =>
    intro i plog hl
    unfold newtonLoop
    rw [hf, Py.ok_bind, if_neg (show ¬ Real.sqrt (normSq (step plog)) < eps from hl 0 (by omega))]
    have := ih (i + 1) (nextLog step plog) fun l hlk => hl (l + 1) (by omega)
    rw [show i + 1 + r - 1 = i + (r + 1) - 1 by omega] at this
    exact this

end

/-! ## The amounts at some prices -/

/-- What the pools receive of a token other than the target token, if all of them trade to the prices `p`. -/
noncomputable def excess (cc : CC ℝ) (target : Str) (p : Fin (tokensOf cc target).length → ℝ) : Fin (tokensOf cc target).length → ℝ :=
  fun i => net (tokensOf cc target)[i] cc.curves (cc.curves.map (tradeOf ((tokensOf cc target).zip (List.ofFn p))))

/-- How far the decimal logarithm of a price is moved to see its effect. -/
noncomputable def logStep (q : ℝ) : ℝ := if log10 q = 0 then 1 / 100000 else |log10 q| * (1 / 100000)

/-- What a move of the price of token `j` by a small factor does to the amount of token `i`, relative to the move of the logarithm. -/
noncomputable def slopes (cc : CC ℝ) (target : Str) (q : Fin (tokensOf cc target).length → ℝ) :
    Matrix (Fin (tokensOf cc target).length) (Fin (tokensOf cc target).length) ℝ :=
  fun i j => (excess cc target (Function.update q j (q j * pow10 (logStep (q j)))) i - excess cc target q i) / logStep (q j)

theorem input_ofFn {cc : CC ℝ} {target : Str} (hs : ∀ c ∈ cc.curves, CPC.Sound c) (ht : target ∈ cc.tkns)
    {p : Fin (tokensOf cc target).length → ℝ} (hp : ∀ i, 0 < p i) : Input cc target (List.ofFn p) := by
  refine ⟨hs, ht, by simp, fun v hv => ?_⟩
  rw [List.mem_ofFn] at hv
  obtain ⟨i, rfl⟩ := hv
  exact hp i

theorem tokensOf_mem {cc : CC ℝ} {target t : Str} : t ∈ tokensOf cc target ↔ t ∈ cc.tkns ∧ t ≠ target := by
  unfold tokensOf
  simp

theorem token_mem {cc : CC ℝ} {target : Str} (i : Fin (tokensOf cc target).length) : (tokensOf cc target)[i] ∈ cc.tkns :=
  (tokensOf_mem.1 (List.getElem_mem i.2)).1

theorem dtknfromp_margp {cc : CC ℝ} {target : Str} {p : List ℝ} {m : Margp ℝ} (h : margp cc target p = .ok m) :
    dtknfromp cc target p = .ok m.dtokens := by
  unfold margp at h
  split at h
  · cases h
  · split at h
    · cases h
    · rw [Py.bind_eq_ok] at h
      obtain ⟨d, hd, h⟩ := h
      rw [hd]
      split at h
      · cases h
      · cases h
        rfl

theorem dtknLog_ok {cc : CC ℝ} {target : Str} (hs : ∀ c ∈ cc.curves, CPC.Sound c) (ht : target ∈ cc.tkns)
    (plog : Fin (tokensOf cc target).length → ℝ) :
    dtknLog cc target plog = .ok (excess cc target fun j => pow10 (plog j)) := by
  obtain ⟨m, h1, -, -, h4, -, h6, -⟩ := margp_eq (input_ofFn hs ht (p := fun j => pow10 (plog j)) fun i => pow10_pos _)
  unfold dtknLog
  rw [dtknfromp_margp h1, Py.ok_bind]
  congr 1
  funext i
  unfold amounts excess
  rw [h6 _ (token_mem i), h4]
  rfl

/-- The Newton step at some prices. -/
noncomputable def stepAt (cc : CC ℝ) (target : Str) (q : Fin (tokensOf cc target).length → ℝ) : Fin (tokensOf cc target).length → ℝ :=
  solve (slopes cc target q) (-(excess cc target q))

theorem newtonStep_ok {cc : CC ℝ} {target : Str} (hs : ∀ c ∈ cc.curves, CPC.Sound c) (ht : target ∈ cc.tkns)
    (plog : Fin (tokensOf cc target).length → ℝ) :
    newtonStep (dtknLog cc target) plog = .ok (stepAt cc target fun j => pow10 (plog j)) := by
  unfold newtonStep
  rw [dtknLog_ok hs ht, Py.ok_bind]
  obtain ⟨J, hJ, hq⟩ := C133_jacobian_quotients (fun x => dtknLog_ok hs ht x) plog jacEps
  rw [hJ, Py.ok_bind]
  unfold stepAt
  have : J = slopes cc target fun j => pow10 (plog j) := by
    ext i j
    rw [hq]
    unfold slopes logStep
    rw [log10_pow10]
    have e : (if plog j = 0 then (jacEps : ℝ) else |plog j| * jacEps) = if plog j = 0 then 1 / 100000 else |plog j| * (1 / 100000) := rfl
    rw [e]
    congr 2
    congr 1
    funext k
    by_cases hk : k = j
    · subst hk
      simp [pow10_add]
    · simp [hk]
  rw [this]

/-! ## The search -/

/-- The search can begin: valid curves that trade the target token, and positive starting prices. -/
structure Ready (cc : CC ℝ) (target : Str) (params : MargpParams) (start : Fin (tokensOf cc target).length → ℝ) : Prop where
  sound : ∀ c ∈ cc.curves, CPC.Sound c
  known : target ∈ cc.tkns
  begins : startPrices cc target params.pstart = .ok (some (List.ofFn start))
  pos : ∀ i, 0 < start i

theorem curves_ne_nil {cc : CC ℝ} {target : Str} (h : target ∈ cc.tkns) : cc.curves ≠ [] := by
  intro h0
  unfold CC.tkns at h
  rw [h0] at h
  simp at h

theorem margpRun_eq {cc : CC ℝ} {target : Str} {params : MargpParams} {start} (h : Ready cc target params start) :
    margpRun cc target params = searchFrom cc target params.epsValue params.maxiterValue start := by
  unfold margpRun
  rw [if_neg (curves_ne_nil h.known), if_neg (not_not.2 h.known), h.begins, Py.ok_bind]
  show searchFrom cc target params.epsValue params.maxiterValue (fun j => (List.ofFn start).getD j 0) = _
  congr 1
  funext j
  simp [List.getD_eq_getElem?_getD]

/-- The step in the logarithms. -/
noncomputable def logStepAt (cc : CC ℝ) (target : Str) (plog : Fin (tokensOf cc target).length → ℝ) : Fin (tokensOf cc target).length → ℝ :=
  stepAt cc target fun j => pow10 (plog j)

/-- The logarithmic prices before iteration `k`. -/
noncomputable def logsAt (cc : CC ℝ) (target : Str) (start : Fin (tokensOf cc target).length → ℝ) (k : Nat) : Fin (tokensOf cc target).length → ℝ :=
  (nextLog (logStepAt cc target))^[k] fun j => log10 (start j)

/-- The step of iteration `k` is below the precision. -/
def Stops (cc : CC ℝ) (target : Str) (start : Fin (tokensOf cc target).length → ℝ) (eps : ℝ) (k : Nat) : Prop :=
  Real.sqrt (normSq (logStepAt cc target (logsAt cc target start k))) < eps

theorem searchFrom_found {cc : CC ℝ} {target : Str} {start : Fin (tokensOf cc target).length → ℝ} (hs : ∀ c ∈ cc.curves, CPC.Sound c) (ht : target ∈ cc.tkns)
    {eps : ℝ} {maxiter : Int} {k : Nat} (hk : (k : Int) + 1 < maxiter) (h1 : Stops cc target start eps k) (h2 : ∀ l < k, ¬ Stops cc target start eps l) :
    searchFrom cc target eps maxiter start =
      (margp cc target (List.ofFn (if k = 0 then start else fun j => pow10 (logsAt cc target start (k + 1) j)))).bind fun m => .ok (.found k m) := by
  unfold searchFrom
  rw [if_neg (by omega), loop_found (step := logStepAt cc target) (newtonStep_ok hs ht) start eps k maxiter.toNat 0 _ (by omega) h1 h2, Py.ok_bind,
    if_neg (by simp only [Nat.zero_add]; omega)]
  simp only [Nat.zero_add]
  rfl

theorem searchFrom_failed {cc : CC ℝ} {target : Str} {start : Fin (tokensOf cc target).length → ℝ} (hs : ∀ c ∈ cc.curves, CPC.Sound c) (ht : target ∈ cc.tkns)
    {eps : ℝ} {maxiter : Int} (hm : 0 < maxiter) (h : ∀ k : Nat, (k : Int) + 1 < maxiter → ¬ Stops cc target start eps k) :
    searchFrom cc target eps maxiter start = .ok (.failed (maxiter.toNat - 1)) := by
  unfold searchFrom
  rw [if_neg (by omega)]
  by_cases hl : Stops cc target start eps (maxiter.toNat - 1)
  · rw [loop_found (step := logStepAt cc target) (newtonStep_ok hs ht) start eps (maxiter.toNat - 1) maxiter.toNat 0 _ (by omega) hl
      (fun l hl => h l (by omega)), Py.ok_bind, if_pos (by simp only [Nat.zero_add]; omega)]
    simp
  · rw [loop_exhausted (step := logStepAt cc target) (newtonStep_ok hs ht) start eps maxiter.toNat 0 _ (fun l hl' => by
      by_cases e : l = maxiter.toNat - 1
      · rw [e]; exact hl
      · exact h l (by omega)), Py.ok_bind, if_pos (by simp only [Nat.zero_add]; omega)]
    simp

/-- What the search does: it succeeds in the first iteration whose step is small enough, unless that is the last permitted one or later. -/
theorem searchFrom_cases {cc : CC ℝ} {target : Str} (start : Fin (tokensOf cc target).length → ℝ) (eps : ℝ) (maxiter : Int) :
    (∃ k : Nat, (k : Int) + 1 < maxiter ∧ Stops cc target start eps k ∧ ∀ l < k, ¬ Stops cc target start eps l) ∨
      ∀ k : Nat, (k : Int) + 1 < maxiter → ¬ Stops cc target start eps k := by
  classical
  by_cases h : ∃ k : Nat, (k : Int) + 1 < maxiter ∧ Stops cc target start eps k
  · left
    have hex : ∃ k, Stops cc target start eps k := ⟨h.choose, h.choose_spec.2⟩
    refine ⟨Nat.find hex, ?_, Nat.find_spec hex, fun l hl => Nat.find_min hex hl⟩
    have := Nat.find_min' hex h.choose_spec.2
    have := h.choose_spec.1
    omega
  · right
    intro k hk hS
    exact h ⟨k, hk, hS⟩

theorem margp_found {cc : CC ℝ} {target : Str} (hs : ∀ c ∈ cc.curves, CPC.Sound c) (ht : target ∈ cc.tkns) {start : Fin (tokensOf cc target).length → ℝ}
    (hp : ∀ i, 0 < start i) (k : Nat) : ∃ m, margp cc target (List.ofFn (if k = 0 then start else fun j => pow10 (logsAt cc target start (k + 1) j))) = .ok m := by
  obtain ⟨m, hm, -⟩ := margp_eq (input_ofFn hs ht (p := if k = 0 then start else fun j => pow10 (logsAt cc target start (k + 1) j)) (by
    intro i
    split
    · exact hp i
    · exact pow10_pos _))
  exact ⟨m, hm⟩

/-- C133: with valid curves and positive starting prices the search never raises; it reports a failure or prices. -/
theorem C133_total {cc : CC ℝ} {target : Str} {params : MargpParams} {start} (h : Ready cc target params start) (hm : 0 < params.maxiterValue) :
    (∃ n, margpRun cc target params = .ok (.failed n) ∧ (n : Int) = params.maxiterValue - 1) ∨
      ∃ n m, margpRun cc target params = .ok (.found n m) ∧ (n : Int) + 1 < params.maxiterValue := by
  rw [margpRun_eq h]
  rcases searchFrom_cases start params.epsValue params.maxiterValue with ⟨k, h1, h2, h3⟩ | h1
  · right
    obtain ⟨m, hm⟩ := margp_found h.sound h.known h.pos k
    rw [searchFrom_found h.sound h.known h1 h2 h3, hm]
    exact ⟨k, m, rfl, h1⟩
  · left
    rw [searchFrom_failed h.sound h.known hm h1]
    exact ⟨_, rfl, by omega⟩

theorem run_found {cc : CC ℝ} {target : Str} {params : MargpParams} {start} (h : Ready cc target params start) {n : Nat} {m : Margp ℝ}
    (hr : margpRun cc target params = .ok (.found n m)) :
    (n : Int) + 1 < params.maxiterValue ∧ Stops cc target start params.epsValue n ∧ (∀ l < n, ¬ Stops cc target start params.epsValue l) ∧
      margp cc target (List.ofFn (if n = 0 then start else fun j => pow10 (logsAt cc target start (n + 1) j))) = .ok m := by
  rw [margpRun_eq h] at hr
  by_cases hm : 0 < params.maxiterValue
  · rcases searchFrom_cases start params.epsValue params.maxiterValue with ⟨k, h1, h2, h3⟩ | h1
    · obtain ⟨m', hm'⟩ := margp_found h.sound h.known h.pos k
      rw [searchFrom_found h.sound h.known h1 h2 h3, hm'] at hr
      cases hr
      exact ⟨h1, h2, h3, hm'⟩
    · rw [searchFrom_failed h.sound h.known hm h1] at hr
      cases hr
  · unfold searchFrom at hr
    rw [if_pos (by omega)] at hr
    cases hr

/-- C133: prices are reported after a step below the precision, and not after the last permitted iteration. The reported prices `p` are positive,
and the reported amounts are those of the trades to `p`. The last step `d` was computed at prices `q`: it is the least squares solution of the
linearised balance of all tokens other than the target token. In the first iteration the starting prices are reported, afterwards those after the step. -/
theorem C133_found {cc : CC ℝ} {target : Str} {params : MargpParams} {start} (h : Ready cc target params start) {n : Nat} {m : Margp ℝ}
    (hr : margpRun cc target params = .ok (.found n m)) :
    ∃ q p d : Fin (tokensOf cc target).length → ℝ, (∀ i, 0 < q i) ∧ (∀ i, 0 < p i) ∧ (n : Int) + 1 < params.maxiterValue ∧
      LeastSquares (slopes cc target q) (-(excess cc target q)) d ∧ Real.sqrt (normSq d) < params.epsValue ∧
      (n = 0 → q = start ∧ p = start) ∧ (n ≠ 0 → ∀ i, p i = q i * pow10 (d i)) ∧ margp cc target (List.ofFn p) = .ok m ∧
      m.prices = (tokensOf cc target).zip (List.ofFn p) ∧
      ∀ i, dictGet m.dtokens (tokensOf cc target)[i] = some (excess cc target p i) := by
  obtain ⟨h1, h2, h3, h4⟩ := run_found h hr
  obtain ⟨q, hq⟩ : ∃ q : Fin (tokensOf cc target).length → ℝ, q = fun j => pow10 (logsAt cc target start n j) := ⟨_, rfl⟩
  obtain ⟨p, hp⟩ : ∃ p : Fin (tokensOf cc target).length → ℝ, p = if n = 0 then start else fun j => pow10 (logsAt cc target start (n + 1) j) := ⟨_, rfl⟩
  have hpp : ∀ i, 0 < p i := by
    intro i
    rw [hp]
    split
    · exact h.pos i
    · exact pow10_pos _
  rw [← hp] at h4
  obtain ⟨m', g1, -, -, g4, -, g6, -⟩ := margp_eq (input_ofFn h.sound h.known hpp)
  rw [h4] at g1
  cases g1
  refine ⟨q, p, stepAt cc target q, fun i => by rw [hq]; exact pow10_pos _, hpp, h1, solve_spec _ _, ?_, ?_, ?_, h4, g4, ?_⟩
  · rw [hq]
    exact h2
  · rintro rfl
    refine ⟨?_, by rw [hp, if_pos rfl]⟩
    rw [hq]
    funext j
    exact pow10_log10 (h.pos j)
  · intro hn i
    rw [hp, if_neg hn]
    unfold logsAt at hq ⊢
    rw [Function.iterate_succ_apply']
    unfold nextLog logStepAt
    rw [pow10_add]
    subst hq
    rfl
  · intro i
    rw [g6 _ (token_mem i), g4]
    rfl

/-- C133: if the slopes at the prices before the last step determine that step, the tokens other than the target token were balanced there up to
the precision, in proportion to their slopes. `C133_residual` is about the reported prices. -/
theorem C133_residual_before {cc : CC ℝ} {target : Str} {params : MargpParams} {start} (h : Ready cc target params start) {n : Nat} {m : Margp ℝ}
    (hr : margpRun cc target params = .ok (.found n m)) :
    ∃ q p : Fin (tokensOf cc target).length → ℝ, (∀ i, 0 < q i) ∧ m.prices = (tokensOf cc target).zip (List.ofFn p) ∧
      (∀ i, p i = q i ∨ |log10 (p i) - log10 (q i)| ≤ params.epsValue) ∧
      (IsUnit (slopes cc target q).det → ∀ i, |excess cc target q i| ≤ params.epsValue * ∑ j, |slopes cc target q i j|) := by
  obtain ⟨q, p, d, h1, h2, -, h4, h5, h6, h7, -, h9, -⟩ := C133_found h hr
  refine ⟨q, p, h1, h9, ?_, ?_⟩
  · intro i
    by_cases hn : n = 0
    · left
      rw [(h6 hn).1, (h6 hn).2]
    · right
      rw [h7 hn i]
      have e : log10 (q i * pow10 (d i)) = log10 (q i) + d i := by
        have : q i * pow10 (d i) = pow10 (log10 (q i) + d i) := by rw [pow10_add, pow10_log10 (h1 i)]
        rw [this, log10_pow10]
      rw [e]
      have := abs_le_of_normSq h5 i
      simpa using this
  · intro hu i
    have e := (leastSquares_of_unit hu _ _).1 h4
    have e1 : excess cc target q i = - ∑ j, slopes cc target q i j * d j := by
      have := congrFun e i
      simp only [Matrix.mulVec, dotProduct, Pi.neg_apply] at this
      rw [this, neg_neg]
    rw [e1, abs_neg, Finset.mul_sum]
    refine (Finset.abs_sum_le_sum_abs _ _).trans (Finset.sum_le_sum fun j _ => ?_)
    rw [abs_mul, mul_comm]
    exact mul_le_mul_of_nonneg_right (abs_le_of_normSq h5 j) (abs_nonneg _)

/-- C133: no other trades that the pools accept take out more of the target token, if they do not leave less of any other token to the
pools than the reported trades, unless they are the reported trades. -/
theorem C133_optimal {cc : CC ℝ} {target : Str} {params : MargpParams} {start} (h : Ready cc target params start) {n : Nat} {m : Margp ℝ}
    (hr : margpRun cc target params = .ok (.found n m)) :
    ∃ v, m.dxdyvalues = .ok v ∧ m.result = net target cc.curves v ∧ ∀ w : List (ℝ × ℝ), w.length = cc.curves.length →
      (∀ cv ∈ cc.curves.zip w, Allowed cv.1 cv.2) → (∀ t ∈ cc.tkns, t ≠ target → net t cc.curves w ≤ net t cc.curves v) →
      m.result ≤ net target cc.curves w ∧ (m.result = net target cc.curves w → w = v) := by
  obtain ⟨q, p, d, h1, h2, -, -, -, -, -, h8, -, -⟩ := C133_found h hr
  have hin := input_ofFn h.sound h.known h2
  obtain ⟨m', v, g1, g2, g3, g4, g5, -⟩ := C79_balance hin
  rw [h8] at g1
  cases g1
  exact ⟨v, g2, g5, fun w hw ha hn => C80_optimal hin h8 g2 hw ha hn⟩

/-- C133: the number of permitted iterations only decides whether the search is cut off. A search that succeeds in iteration `n` has the same
result whenever more than `n + 1` iterations are permitted, and fails whenever at most `n + 1` are. -/
theorem C133_budget {cc : CC ℝ} {target : Str} {params : MargpParams} {start} (h : Ready cc target params start) {n : Nat} {m : Margp ℝ}
    (hr : margpRun cc target params = .ok (.found n m)) (maxiter : Int) (hm : 0 < maxiter) :
    margpRun cc target { params with maxiter := some maxiter } =
      if (n : Int) + 1 < maxiter then .ok (.found n m) else .ok (.failed (maxiter.toNat - 1)) := by
  obtain ⟨h1, h2, h3, h4⟩ := run_found h hr
  have hR : Ready cc target { params with maxiter := some maxiter } start := ⟨h.sound, h.known, h.begins, h.pos⟩
  have e1 : ({ params with maxiter := some maxiter } : MargpParams).maxiterValue = maxiter := by
    unfold MargpParams.maxiterValue
    simp only
    rw [if_neg (by omega)]
  have e2 : ({ params with maxiter := some maxiter } : MargpParams).epsValue = params.epsValue := rfl
  rw [margpRun_eq hR, e1, e2]
  split
  · rename_i hlt
    rw [searchFrom_found h.sound h.known hlt h2 h3, h4]
    rfl
  · rename_i hlt
    exact searchFrom_failed h.sound h.known hm fun k hk => h3 k (by omega)

/-- C133: a search with a single permitted iteration always fails. -/
theorem C133_single {cc : CC ℝ} {target : Str} {params : MargpParams} {start} (h : Ready cc target params start) (hm : params.maxiterValue = 1) :
    margpRun cc target params = .ok (.failed 0) := by
  rw [margpRun_eq h, hm, searchFrom_failed h.sound h.known (by omega) fun k hk => by omega]
  rfl

/-- The search stops at the starting prices if the linearised balance cannot be improved. -/
theorem run_stationary {cc : CC ℝ} {target : Str} {params : MargpParams} {start} (h : Ready cc target params start) (hm : 1 < params.maxiterValue)
    (he : 0 < params.epsValue) (h0 : excess cc target start ᵥ* slopes cc target start = 0) :
    ∃ m, margpRun cc target params = .ok (.found 0 m) ∧ margp cc target (List.ofFn start) = .ok m := by
  have e : (fun j => pow10 (logsAt cc target start 0 j)) = start := by
    funext j
    exact pow10_log10 (h.pos j)
  have hS : Stops cc target start params.epsValue 0 := by
    unfold Stops logStepAt
    rw [e]
    have hz : stepAt cc target start = 0 := by
      refine leastSquares_zero (solve_spec _ _) ?_
      rw [Matrix.neg_vecMul, h0, neg_zero]
    rw [hz, normSq_zero, Real.sqrt_zero]
    exact he
  obtain ⟨m, hm'⟩ := margp_found h.sound h.known h.pos 0
  rw [margpRun_eq h, searchFrom_found h.sound h.known (by omega) hS (fun l hl => by omega), hm']
  exact ⟨m, rfl, by simpa using hm'⟩

/-- C133: if the starting prices balance all tokens other than the target token, they are reported at once, with these balances. -/
theorem C133_cleared {cc : CC ℝ} {target : Str} {params : MargpParams} {start} (h : Ready cc target params start) (hm : 1 < params.maxiterValue)
    (he : 0 < params.epsValue) (h0 : ∀ i, excess cc target start i = 0) :
    ∃ m, margpRun cc target params = .ok (.found 0 m) ∧ m.prices = (tokensOf cc target).zip (List.ofFn start) ∧
      ∀ t ∈ cc.tkns, t ≠ target → dictGet m.dtokens t = some 0 := by
  obtain ⟨m, h1, h2⟩ := run_stationary h hm he (by rw [show excess cc target start = 0 from funext h0, Matrix.zero_vecMul])
  obtain ⟨m', g1, -, -, g4, -, g6, -⟩ := margp_eq (input_ofFn h.sound h.known h.pos)
  rw [h2] at g1
  cases g1
  refine ⟨m, h1, g4, fun t ht hne => ?_⟩
  obtain ⟨i, hi, rfl⟩ := List.getElem_of_mem (tokensOf_mem.2 ⟨ht, hne⟩)
  rw [g6 _ ht, g4]
  exact congrArg some (h0 ⟨i, hi⟩)

/-- C133: where no price has an effect on any amount the starting prices are reported as the solution, whatever the amounts are. -/
theorem C133_flat {cc : CC ℝ} {target : Str} {params : MargpParams} {start} (h : Ready cc target params start) (hm : 1 < params.maxiterValue)
    (he : 0 < params.epsValue) (h0 : ∀ i j, slopes cc target start i j = 0) :
    ∃ m, margpRun cc target params = .ok (.found 0 m) ∧ ∀ i, dictGet m.dtokens (tokensOf cc target)[i] = some (excess cc target start i) := by
  obtain ⟨m, h1, h2⟩ := run_stationary h hm he (by
    rw [show slopes cc target start = 0 from Matrix.ext h0, Matrix.vecMul_zero])
  obtain ⟨m', g1, -, -, g4, -, g6, -⟩ := margp_eq (input_ofFn h.sound h.known h.pos)
  rw [h2] at g1
  cases g1
  refine ⟨m, h1, fun i => ?_⟩
  rw [g6 _ (token_mem i), g4]
  rfl

/-! ## The starting prices -/

theorem pstart_ok {pstart : List (Str × ℝ)} {tokens : List Str} (h : ∀ t ∈ tokens, ∃ p, dictGet pstart t = some p) :
    pstartPrices pstart tokens = .ok (tokens.map fun t => (dictGet pstart t).getD 0) := by
  unfold pstartPrices
  refine mapM_total tokens fun t ht => ?_
  obtain ⟨p, hp⟩ := h t ht
  simp only [hp, Option.getD_some]

theorem pstart_missing {pstart : List (Str × ℝ)} {tokens : List Str} {t : Str} (ht : t ∈ tokens) (h : dictGet pstart t = none) :
    pstartPrices pstart tokens = .error .key := by
  unfold pstartPrices
  induction tokens with
  | nil => cases ht
  | cons a l ih =>
    rw [List.mapM_cons]
    cases ha : dictGet pstart a with
    | none => rfl
    | some p =>
      have : t ∈ l := by
        rcases List.mem_cons.1 ht with rfl | h'
        · rw [h] at ha; cases ha
        · exact h'
      simp only [Py.ok_bind]
      rw [ih this, Py.error_bind]

/-- C134: starting prices given by the caller must cover every token other than the target token. -/
theorem C134_missing {cc : CC ℝ} {target t : Str} {params : MargpParams} {pstart : List (Str × ℝ)} (ht : target ∈ cc.tkns)
    (hp : params.pstart = some pstart) (hm : t ∈ cc.tkns) (hne : t ≠ target) (h : dictGet pstart t = none) :
    margpRun cc target params = .error .key := by
  unfold margpRun
  rw [if_neg (curves_ne_nil ht), if_neg (not_not.2 ht), hp]
  unfold startPrices
  simp only
  rw [pstart_missing (tokensOf_mem.2 ⟨hm, hne⟩) h]
  rfl

/-- C134: of the starting prices given by the caller only those of the tokens other than the target token matter. -/
theorem C134_excess {cc : CC ℝ} {target : Str} {params : MargpParams} {d e : List (Str × ℝ)}
    (h : ∀ t ∈ cc.tkns, t ≠ target → dictGet d t = dictGet e t) :
    margpRun cc target { params with pstart := some d } = margpRun cc target { params with pstart := some e } := by
  have : pstartPrices d (tokensOf cc target) = pstartPrices e (tokensOf cc target) := by
    by_cases hd : ∀ t ∈ tokensOf cc target, ∃ p, dictGet d t = some p
    · have he : ∀ t ∈ tokensOf cc target, ∃ p, dictGet e t = some p := by
        intro t ht
        rw [← h t (tokensOf_mem.1 ht).1 (tokensOf_mem.1 ht).2]
        exact hd t ht
      rw [pstart_ok hd, pstart_ok he]
      congr 1
      apply List.map_congr_left
      intro t ht
      rw [h t (tokensOf_mem.1 ht).1 (tokensOf_mem.1 ht).2]
    · push Not at hd
      obtain ⟨t, ht, hd⟩ := hd
      have hn : dictGet d t = none := by
        cases hc : dictGet d t with
        | none => rfl
        | some p => exact absurd hc (hd p)
      rw [pstart_missing ht hn, pstart_missing ht (by rw [← h t (tokensOf_mem.1 ht).1 (tokensOf_mem.1 ht).2]; exact hn)]
  unfold margpRun startPrices
  simp only [this]
  rfl

theorem dictGet_zip_map {ts : List Str} {l : List ℝ} (hn : ts.Nodup) (hl : l.length = ts.length) :
    ts.map (fun t => (dictGet (ts.zip l) t).getD 0) = l ∧ ∀ t ∈ ts, ∃ p, dictGet (ts.zip l) t = some p := by
  induction ts generalizing l with
  | nil =>
    cases l with
    | nil => simp
    | cons a l => simp at hl
  | cons a ts ih =>
    cases l with
    | nil => simp at hl
    | cons x l =>
      rw [List.nodup_cons] at hn
      obtain ⟨h1, h2⟩ := ih hn.2 (by simpa using hl)
      have hne : ∀ t ∈ ts, dictGet ((a, x) :: ts.zip l) t = dictGet (ts.zip l) t := by
        intro t ht
        have hat : a ≠ t := fun e => hn.1 (e ▸ ht)
        rw [dictGet, if_neg hat]
      refine ⟨?_, ?_⟩
      · rw [List.zip_cons_cons, List.map_cons]
        have hx : dictGet ((a, x) :: ts.zip l) a = some x := by rw [dictGet, if_pos rfl]
        rw [hx, Option.getD_some]
        congr 1
        refine Eq.trans (List.map_congr_left fun t ht => ?_) h1
        rw [hne t ht]
      · intro t ht
        rw [List.zip_cons_cons]
        rcases List.mem_cons.1 ht with rfl | ht
        · exact ⟨x, by rw [dictGet, if_pos rfl]⟩
        · rw [hne t ht]
          exact h2 t ht

theorem tokensOf_nodup (cc : CC ℝ) (target : Str) : (tokensOf cc target).Nodup := (List.nodup_dedup _).filter _

/-- C134: the starting prices that the optimizer reports, given back to it by token, lead to the same result. -/
theorem C134_roundtrip {cc : CC ℝ} {target : Str} {params : MargpParams} {start} (h : Ready cc target params start) :
    Ready cc target { params with pstart := some ((tokensOf cc target).zip (List.ofFn start)) } start ∧
      margpRun cc target { params with pstart := some ((tokensOf cc target).zip (List.ofFn start)) } = margpRun cc target params := by
  have hR : Ready cc target { params with pstart := some ((tokensOf cc target).zip (List.ofFn start)) } start := by
    refine ⟨h.sound, h.known, ?_, h.pos⟩
    obtain ⟨h1, h2⟩ := dictGet_zip_map (l := List.ofFn start) (tokensOf_nodup cc target) (by simp)
    unfold startPrices
    simp only
    rw [pstart_ok h2, Py.ok_bind, h1]
  refine ⟨hR, ?_⟩
  rw [margpRun_eq hR, margpRun_eq h]
  rfl

/-- C134: without starting prices the search needs a pool, with some of either token left to trade, between the target token and each other token. -/
theorem C134_estimates {cc : CC ℝ} {target : Str} {params : MargpParams} (hs : ∀ c ∈ cc.curves, CPC.Sound c) (ht : target ∈ cc.tkns)
    (hp : params.pstart = none) :
    (∀ t ∈ cc.tkns, t ≠ target → CC.HasPrice cc t target) ∧ (∃ l, startPrices cc target params.pstart = .ok (some l) ∧ l.length = (tokensOf cc target).length ∧
        ∀ (j : Nat) t, (tokensOf cc target)[j]? = some t → ∃ v, l[j]? = some v ∧ cc.priceEstimate t target false = .ok (some v)) ∨
      (∃ t ∈ cc.tkns, t ≠ target ∧ ¬ CC.HasPrice cc t target) ∧
        margpRun cc target params = .error (.custom "price estimates not found; try setting pstart") := by
  obtain ⟨o1, -, o3⟩ := CC.C132_options cc hs [target] (tokensOf cc target) true true
  obtain ⟨m, m1, m2, m3⟩ := CC.C132_matrix cc hs [target] (tokensOf cc target)
  by_cases hall : ∀ t ∈ cc.tkns, t ≠ target → CC.HasPrice cc t target
  · left
    refine ⟨hall, ?_⟩
    have hall' : ∀ q ∈ [target], ∀ b ∈ tokensOf cc target, CC.HasPrice cc b q := by
      intro q hq b hb
      rw [List.mem_singleton.1 hq]
      exact hall b (tokensOf_mem.1 hb).1 (tokensOf_mem.1 hb).2
    obtain ⟨r, hr, hrow⟩ := (o3 m m1 (.inr hall')).1 ⟨rfl, rfl⟩
    subst hr
    refine ⟨r.map fun p => p.getD 0, ?_, ?_, ?_⟩
    · rw [hp]
      unfold startPrices
      simp only
      rw [show cc.priceEstimates [target] (tokensOf cc target) = .ok (.row r) from hrow]
      rfl
    · rw [List.length_map]
      by_cases h0 : tokensOf cc target = []
      · have hr : cc.estimateRow target [] = .ok [] := rfl
        rw [h0] at m1
        unfold CC.priceEstimates CC.estimateRows CC.estimateRows at m1
        rw [hr] at m1
        simp only [Py.ok_bind, CC.unwrapped] at m1
        simp at m1
        rw [h0, m1]
        rfl
      · obtain ⟨t, l, hl⟩ := List.exists_cons_of_ne_nil h0
        obtain ⟨r', v, e1, e2, -⟩ := m3 0 0 target t rfl (by rw [hl]; rfl)
        cases e1
        exact e2
    · intro j t hj
      obtain ⟨r', v, e1, e2, e3, e4, e5, -⟩ := m3 0 j target t rfl hj
      cases e1
      have hb := hall' target (by simp) t (List.mem_of_getElem? hj)
      cases v with
      | none => exact absurd hb (e5.1 rfl)
      | some w =>
        refine ⟨w, ?_, e4⟩
        rw [List.getElem?_map, e3]
        rfl
  · right
    push Not at hall
    obtain ⟨t, h1, h2, h3⟩ := hall
    refine ⟨⟨t, h1, h2, h3⟩, ?_⟩
    have he := (o1 .value).2 ⟨rfl, rfl, target, by simp, t, tokensOf_mem.2 ⟨h1, h2⟩, h3⟩
    unfold margpRun
    rw [if_neg (curves_ne_nil ht), if_neg (not_not.2 ht), hp]
    unfold startPrices
    simp only
    rw [show cc.priceEstimates [target] (tokensOf cc target) = .error .value from he]
    rfl

/-- C134: no iterations are possible with a negative limit, and none is successful with a negative precision. -/
theorem C134_negative {cc : CC ℝ} {target : Str} {params : MargpParams} {start} (h : Ready cc target params start) :
    (params.maxiterValue < 0 → margpRun cc target params = .error (.custom "UnboundLocalError")) ∧
      (0 < params.maxiterValue → params.epsValue < 0 → margpRun cc target params = .ok (.failed (params.maxiterValue.toNat - 1))) := by
  rw [margpRun_eq h]
  refine ⟨fun hm => by unfold searchFrom; rw [if_pos (by omega)], fun hm he => ?_⟩
  refine searchFrom_failed h.sound h.known hm fun k _ hS => ?_
  have := Real.sqrt_nonneg (normSq (logStepAt cc target (logsAt cc target start k)))
  unfold Stops at hS
  linarith

/-- C134: a precision or a number of iterations of zero, or none, stands for one millionth and for fifty. -/
theorem C134_defaults (cc : CC ℝ) (target : Str) (params : MargpParams) :
    (∀ e ∈ [none, some 0], margpRun cc target { params with eps := e } = margpRun cc target { params with eps := some (1 / 1000000) }) ∧
      ∀ k ∈ [none, some 0], margpRun cc target { params with maxiter := k } = margpRun cc target { params with maxiter := some 50 } := by
  have h : (1 / 1000000 : ℝ) ≠ 0 := by norm_num
  constructor
  · intro e he
    simp only [List.mem_cons, List.not_mem_nil, or_false] at he
    unfold margpRun MargpParams.epsValue
    rcases he with rfl | rfl <;> simp only [if_true, if_neg h] <;> rfl
  · intro k hk
    simp only [List.mem_cons, List.not_mem_nil, or_false] at hk
    unfold margpRun MargpParams.maxiterValue
    rcases hk with rfl | rfl <;> rfl

/-! ## A market without arbitrage -/

/-- A pool at its own price does not trade. -/
theorem best_at_own {c : CPC ℝ} (hs : CPC.Sound c) : 0 < c.p ∧ best c c.p = (0, 0) := by
  have hx := hs.hx
  have hy := hs.y_pos
  have hxy := hs.xy
  have hp : c.p = c.y / c.x := rfl
  have hpp : 0 < c.p := by rw [hp]; exact div_pos hy hx
  refine ⟨hpp, ?_⟩
  obtain ⟨hA, hk⟩ := best_allowed hs hpp
  obtain ⟨h1, h2⟩ := best_le hs hpp (allowed_zero hs)
  simp only [mul_zero, add_zero] at h1 h2
  obtain ⟨⟨a, b⟩, hab⟩ : ∃ ab, ab = best c c.p := ⟨_, rfl⟩
  rw [← hab] at h1 h2 hA hk ⊢
  simp only at h1 h2 hk
  have hx' := hA.x
  have hy' := hA.y
  simp only at hx' hy'
  refine (h2 ?_).symm
  rw [hp] at h1 ⊢
  have e : c.y / c.x * a + b = -(a * b) / c.x := by
    rw [← hxy] at hk
    field_simp
    linarith
  rw [e] at h1 ⊢
  have hs' : a * b ≤ 0 := by
    rcases le_total 0 a with ha | ha
    · have : b ≤ 0 := by
        by_contra hb
        push Not at hb
        rw [← hxy] at hk
        nlinarith [mul_pos hb hx, mul_nonneg ha hy.le, mul_nonneg ha hb.le]
      exact mul_nonpos_of_nonneg_of_nonpos ha this
    · have : 0 ≤ b := by
        by_contra hb
        push Not at hb
        rw [← hxy] at hk
        nlinarith [mul_pos_of_neg_of_neg hb (neg_lt_zero.2 hx'), mul_nonneg (neg_nonneg.2 ha) hy.le]
      exact mul_nonpos_of_nonpos_of_nonneg ha this
  refine le_antisymm h1 ?_
  exact div_nonneg (by linarith) hx.le

/-- C134: if all pools agree on the values of the tokens, the search without starting prices ends at once at these values, in units of the
target token. Nothing is traded and nothing is gained. -/
theorem C134_consistent {cc : CC ℝ} {target : Str} {params : MargpParams} (hs : ∀ c ∈ cc.curves, CPC.Sound c) (ht : target ∈ cc.tkns)
    (hp : params.pstart = none) (hm : 1 < params.maxiterValue) (he : 0 < params.epsValue)
    (hall : ∀ t ∈ cc.tkns, t ≠ target → CC.HasPrice cc t target)
    (val : Str → ℝ) (hval : ∀ t, 0 < val t) (hv : ∀ c ∈ cc.curves, c.p = val c.tknb / val c.tknq) :
    ∃ m, margpRun cc target params = .ok (.found 0 m) ∧ m.result = 0 ∧ m.tradeInstructions = .ok [] ∧
      m.prices = (tokensOf cc target).map (fun t => (t, val t / val target)) := by
  rcases C134_estimates (params := params) hs ht hp with ⟨-, l, l1, l2, l3⟩ | ⟨⟨t, h1, h2, h3⟩, -⟩
  swap
  · exact absurd (hall t h1 h2) h3
  have hl : l = (tokensOf cc target).map fun t => val t / val target := by
    apply List.ext_getElem?
    intro j
    rw [List.getElem?_map]
    cases hj : (tokensOf cc target)[j]? with
    | none =>
      rw [List.getElem?_eq_none_iff] at hj
      rw [Option.map_none, List.getElem?_eq_none_iff]
      omega
    | some t =>
      obtain ⟨v, h1, h2⟩ := l3 j t hj
      have hmem := tokensOf_mem.1 (List.mem_of_getElem? hj)
      have h3 := CC.C132_consistent cc hs val hval hv t target (hall t hmem.1 hmem.2)
      have h4 : cc.priceEstimate t target false = .ok (some (val t / val target)) := by
        unfold CC.priceEstimate at h3 ⊢
        rw [if_neg (Ne.symm hmem.2)] at h3 ⊢
        rw [Py.bind_eq_ok] at h3
        obtain ⟨data, hd, h3⟩ := h3
        rw [hd, Py.ok_bind]
        by_cases h0 : data = []
        · rw [if_pos h0] at h3
          cases h3
        · rw [if_neg h0] at h3 ⊢
          exact h3
      rw [h2] at h4
      cases h4
      rw [h1, Option.map_some]
  have hof : l = List.ofFn (n := (tokensOf cc target).length) (fun i => val (tokensOf cc target)[i] / val target) := by
    rw [hl]
    apply List.ext_getElem
    · simp
    · intro i h1 h2
      simp
  have hR : Ready cc target params (fun i => val (tokensOf cc target)[i] / val target) :=
    ⟨hs, ht, by rw [l1, hof], fun i => div_pos (hval _) (hval _)⟩
  have hprice : ∀ t ∈ cc.tkns, priceOf ((tokensOf cc target).zip l) t = val t / val target := by
    intro t htt
    by_cases hne : t = target
    · subst hne
      rw [priceOf_target, div_self (hval _).ne']
    · obtain ⟨h1, h2⟩ := dictGet_zip_map (l := l) (tokensOf_nodup cc target) l2
      unfold priceOf
      have htm := tokensOf_mem.2 ⟨htt, hne⟩
      obtain ⟨p, hpp⟩ := h2 t htm
      rw [hl] at h1
      have := List.map_inj_left.1 h1 t htm
      rw [← hl, hpp] at this
      rw [hpp, Option.getD_some]
      simpa using this
  have htrade : cc.curves.map (tradeOf ((tokensOf cc target).zip l)) = List.replicate cc.curves.length (0, 0) := by
    rw [List.eq_replicate_iff]
    refine ⟨by simp, fun b hb => ?_⟩
    obtain ⟨c, hc, rfl⟩ := List.mem_map.1 hb
    unfold tradeOf
    rw [hprice _ (mem_tkns hc).1, hprice _ (mem_tkns hc).2]
    have : val c.tknb / val target / (val c.tknq / val target) = c.p := by
      rw [hv c hc, div_div_div_cancel_right₀ (hval _).ne']
    rw [this]
    exact (best_at_own (hs c hc)).2
  obtain ⟨m, g1, g2⟩ := run_stationary hR hm he (by
    rw [show excess cc target _ = 0 from funext fun i => ?_, Matrix.zero_vecMul]
    unfold excess
    rw [← hof, htrade, net_zero]
    rfl)
  rw [← hof] at g2
  have hin : Input cc target l := by
    rw [hof]
    exact input_ofFn hs ht hR.pos
  obtain ⟨m', k1, k2, k3, k4, k5, k6, k7⟩ := margp_eq hin
  rw [g2] at k1
  cases k1
  rw [k4, htrade, net_zero] at k7
  refine ⟨m, g1, k7, ?_, ?_⟩
  · refine (C80_profit hin g2 fun t htt _ => ⟨0, ?_, le_rfl⟩).2 k7
    rw [k6 t htt, k4, htrade, net_zero]
  · rw [k4, hl]
    apply List.ext_getElem
    · simp
    · intro i h1 h2
      simp

/-! ## A wrong solution -/

/-- A pool that trades at prices from a quarter to four. -/
noncomputable def narrow : CC ℝ := CC.ofCurves [⟨4, 2, 1, 1, "A/B".toList, some (.str "c".toList), []⟩]

theorem narrow_curves : narrow.curves = [⟨4, 2, 1, 1, "A/B".toList, some (.str "c".toList), []⟩] := CC.ofCurves_curves (by simp)

theorem narrow_sound : ∀ c ∈ narrow.curves, CPC.Sound c := by
  intro c hc
  rw [narrow_curves] at hc
  rw [List.mem_singleton.1 hc]
  exact ⟨by norm_num, by norm_num, by norm_num, by norm_num, by norm_num, by norm_num [CPC.y], "A".toList, "B".toList, by decide +kernel⟩

theorem narrow_tkns : narrow.tkns = ["A".toList, "B".toList] := by
  unfold CC.tkns
  rw [narrow_curves]
  rfl

theorem narrow_tokens : tokensOf narrow "B".toList = ["A".toList] := by
  unfold tokensOf
  rw [narrow_tkns]
  decide +kernel

theorem narrow_best {p : ℝ} (hp : 4 ≤ p) : best ⟨4, 2, 1, 1, "A/B".toList, some (.str "c".toList), []⟩ p = (-1, 2) := by
  have hs := narrow_sound ⟨4, 2, 1, 1, "A/B".toList, some (.str "c".toList), []⟩ (by rw [narrow_curves]; simp)
  have hp0 : 0 < p := by linarith
  obtain ⟨hA, -⟩ := best_allowed hs hp0
  obtain ⟨h1, h2⟩ := best_le hs hp0 (t := (-1, 2)) ⟨by norm_num, by norm_num [CPC.y], by norm_num [CPC.y], by norm_num, by norm_num⟩
  obtain ⟨⟨a, b⟩, hab⟩ : ∃ ab, ab = best ⟨4, 2, 1, 1, "A/B".toList, some (.str "c".toList), []⟩ p := ⟨_, rfl⟩
  rw [← hab] at h1 h2 hA ⊢
  refine (h2 (le_antisymm h1 ?_)).symm
  obtain ⟨q1, q2, q3, q4, q5⟩ := hA
  simp only [CPC.y] at q1 q2 q3 q4 q5 ⊢
  norm_num at q1 q2 q3 q4 q5 ⊢
  have hb : 4 / (2 + a) ≤ 2 + b := by
    rw [div_le_iff₀ q1]
    linarith
  have hc : 4 - 4 / (2 + a) ≤ 4 * (1 + a) := by
    have : 4 - 4 / (2 + a) = 4 * (1 + a) / (2 + a) := by field_simp; ring
    rw [this]
    exact div_le_self (by linarith) (by linarith)
  nlinarith [mul_nonneg (by linarith : (0:ℝ) ≤ p - 4) (by linarith : (0:ℝ) ≤ 1 + a)]

theorem narrow_excess {p : Fin (tokensOf narrow "B".toList).length → ℝ} (hp : ∀ i, 4 ≤ p i) (i) : excess narrow "B".toList p i = -1 := by
  have hi : (tokensOf narrow "B".toList)[i] = "A".toList := by
    have : ∀ t ∈ tokensOf narrow "B".toList, t = "A".toList := by
      rw [narrow_tokens]
      simp
    exact this _ (List.getElem_mem i.2)
  have hpr : 4 ≤ priceOf ((tokensOf narrow "B".toList).zip (List.ofFn p)) "A".toList := by
    obtain ⟨h1, h2⟩ := dictGet_zip_map (l := List.ofFn p) (tokensOf_nodup narrow "B".toList) (by simp)
    obtain ⟨x, hx⟩ := h2 "A".toList (by rw [narrow_tokens]; simp)
    unfold priceOf
    rw [hx, Option.getD_some]
    have := dictGet_zip_mem hx
    rw [List.mem_ofFn] at this
    obtain ⟨k, rfl⟩ := this
    exact hp k
  unfold excess
  rw [hi, narrow_curves]
  have e1 : (⟨4, 2, 1, 1, "A/B".toList, some (.str "c".toList), []⟩ : CPC ℝ).tknb = "A".toList := by
    show (splitSlash "A/B".toList).getD 0 [] = _
    decide +kernel
  have e2 : (⟨4, 2, 1, 1, "A/B".toList, some (.str "c".toList), []⟩ : CPC ℝ).tknq = "B".toList := by
    show (splitSlash "A/B".toList).getD 1 [] = _
    decide +kernel
  rw [List.map_cons, List.map_nil]
  simp only [net]
  unfold tradeOf
  rw [e1, e2, priceOf_target, div_one, narrow_best hpr]
  simp

/-- The search for the narrow pool can begin at the price one hundred. -/
theorem narrow_ready : Ready narrow "B".toList { pstart := some [("A".toList, 100)] } (fun _ => 100) := by
  refine ⟨narrow_sound, by rw [narrow_tkns]; simp, ?_, fun _ => by norm_num⟩
  unfold startPrices
  simp only
  have hone : ∀ t ∈ tokensOf narrow "B".toList, dictGet [("A".toList, (100 : ℝ))] t = some 100 := by
    intro t ht
    rw [narrow_tokens] at ht
    rw [List.mem_singleton.1 ht]
    rfl
  rw [pstart_ok fun t ht => ⟨100, hone t ht⟩, Py.ok_bind]
  refine congrArg (fun l => Except.ok (some l)) (List.ext_getElem (by simp) fun i h1 h2 => ?_)
  rw [List.getElem_map, hone _ (List.getElem_mem _)]
  simp

theorem narrow_run : ∃ m, margpRun narrow "B".toList { pstart := some [("A".toList, 100)] } = .ok (.found 0 m) ∧ dictGet m.dtokens "A".toList = some (-1) := by
  obtain ⟨m, h1, h2⟩ := C133_flat narrow_ready (by decide) (by unfold MargpParams.epsValue; norm_num) (by
    intro i j
    unfold slopes
    have h100 : ∀ i, excess narrow "B".toList (fun _ => 100) i = -1 := fun i => narrow_excess (fun _ => by norm_num) i
    rw [h100, narrow_excess, sub_self, zero_div]
    intro k
    have hstep : 0 ≤ logStep (100 : ℝ) := by
      unfold logStep
      split
      · norm_num
      · positivity
    have hpow : 1 ≤ pow10 (logStep 100) := by
      unfold pow10
      exact Real.one_le_exp (mul_nonneg hstep (Real.log_nonneg (by norm_num)))
    by_cases hk : k = j
    · subst hk
      rw [Function.update_self]
      linarith
    · rw [Function.update_of_ne hk]
      norm_num)
  refine ⟨m, h1, ?_⟩
  have hl : 0 < (tokensOf narrow "B".toList).length := by rw [narrow_tokens]; simp
  have := h2 ⟨0, hl⟩
  rw [narrow_excess fun _ => by norm_num] at this
  have e : (tokensOf narrow "B".toList)[(⟨0, hl⟩ : Fin _)] = "A".toList := by
    have : ∀ t ∈ tokensOf narrow "B".toList, t = "A".toList := by
      rw [narrow_tokens]
      simp
    exact this _ (List.getElem_mem hl)
  rw [e] at this
  exact this

/-- C133: a search that reports success need not have balanced the other tokens: outside of the ranges of all pools no price has an effect,
and the starting prices are accepted. -/
theorem C133_balanced_violated : ¬ ∀ (cc : CC ℝ) (target : Str) (params : MargpParams) (start) (n : Nat) (m : Margp ℝ), Ready cc target params start →
    margpRun cc target params = .ok (.found n m) → ∀ t ∈ cc.tkns, t ≠ target → ∀ d, dictGet m.dtokens t = some d → |d| < 1 := by
  intro h
  obtain ⟨m, h1, h2⟩ := narrow_run
  have := h _ _ _ _ _ _ narrow_ready h1 "A".toList (by rw [narrow_tkns]; simp) (by decide) _ h2
  norm_num at this

/-- C133: a search whose starting prices are the solution fails if one iteration is permitted. -/
theorem C133_last_violated : ∃ (cc : CC ℝ) (target : Str) (start : _) (pstart : List (Str × ℝ)) (m : Margp ℝ),
    Ready cc target { pstart := some pstart } start ∧ margpRun cc target { pstart := some pstart } = .ok (.found 0 m) ∧
      margpRun cc target { maxiter := some 1, pstart := some pstart } = .ok (.failed 0) := by
  obtain ⟨m, h1, h2⟩ := narrow_run
  refine ⟨_, _, _, _, m, narrow_ready, h1, ?_⟩
  exact C133_budget narrow_ready h1 1 (by norm_num)

/-! ## Examples -/

/-- The Jacobian of an affine map, and of the square, at a point. -/
example : jacobian (n := 2) (fun x => .ok (![![1, 2], ![3, 4]] *ᵥ x + ![5, 6])) ![7, (0 : ℚ)] (1 / 10) = .ok ![![1, 2], ![3, 4]] :=
  C133_jacobian_affine (Matrix.of ![![1, 2], ![3, 4]]) ![5, 6] (fun _ => rfl) _ (by norm_num)

example : (jacobian (n := 1) (fun x => .ok ![x 0 ^ 2]) ![(3 : ℚ)] (1 / 10)).map (fun J => J 0 0) = .ok (63 / 10) := by decide +kernel

/-- The pool has no place to go: the reported trades are still the best for what they take. -/
example : ∃ m v, margpRun narrow "B".toList { pstart := some [("A".toList, 100)] } = .ok (.found 0 m) ∧ m.dxdyvalues = .ok v ∧
    m.result = net "B".toList narrow.curves v := by
  obtain ⟨m, h1, -⟩ := narrow_run
  obtain ⟨v, h2, h3, -⟩ := C133_optimal narrow_ready h1
  exact ⟨m, v, h1, h2, h3⟩

/-- Without the price of a token the search does not begin. -/
example : margpRun narrow "B".toList { pstart := some [("C".toList, 100)] } = .error .key :=
  C134_missing (t := "A".toList) (by rw [narrow_tkns]; simp) rfl (by rw [narrow_tkns]; simp) (by decide) rfl

/-- Two pools that agree on the values 6, 3 and 1 of three tokens: nothing can be gained, and the prices are those values in units of `B`. -/
example : ∃ m, margpRun CC.agreeing "B".toList = .ok (.found 0 m) ∧ m.result = 0 ∧ m.tradeInstructions = .ok [] ∧
    m.prices = [("A".toList, 2), ("C".toList, 1 / 3)] := by
  obtain ⟨val, hv⟩ : ∃ val : Str → ℝ, val = fun t => if t = "A".toList then 6 else if t = "B".toList then 3 else 1 := ⟨_, rfl⟩
  have hA : val "A".toList = 6 := by rw [hv]; simp
  have hB : val "B".toList = 3 := by rw [hv]; simp
  have hC : val "C".toList = 1 := by rw [hv]; simp
  have hcs : CC.agreeing.curves = [⟨2, 1, 1, 2, "A/B".toList, some (.int 0), []⟩, ⟨3, 1, 1, 3, "B/C".toList, some (.int 1), []⟩] := by
    unfold CC.agreeing
    rw [CC.ofCurves_curves]
    simp
  have a1 : (⟨2, 1, 1, 2, "A/B".toList, some (.int 0), []⟩ : CPC ℝ).tknb = "A".toList := by unfold CPC.tknb; decide +kernel
  have a2 : (⟨2, 1, 1, 2, "A/B".toList, some (.int 0), []⟩ : CPC ℝ).tknq = "B".toList := by unfold CPC.tknq; decide +kernel
  have a3 : (⟨3, 1, 1, 3, "B/C".toList, some (.int 1), []⟩ : CPC ℝ).tknb = "B".toList := by unfold CPC.tknb; decide +kernel
  have a4 : (⟨3, 1, 1, 3, "B/C".toList, some (.int 1), []⟩ : CPC ℝ).tknq = "C".toList := by unfold CPC.tknq; decide +kernel
  have htk : CC.agreeing.tkns = ["A".toList, "B".toList, "B".toList, "C".toList] := by
    unfold CC.tkns
    rw [hcs]
    simp only [List.map_cons, List.map_nil, a1, a2, a3, a4]
    rfl
  have hto : tokensOf CC.agreeing "B".toList = ["A".toList, "C".toList] := by
    unfold tokensOf
    rw [htk]
    decide +kernel
  have key := C134_consistent (cc := CC.agreeing) (target := "B".toList) (params := {}) (by
      intro c hc
      rw [hcs] at hc
      simp only [List.mem_cons, List.not_mem_nil, or_false] at hc
      rcases hc with rfl | rfl
      · exact ⟨by norm_num, by norm_num, by norm_num, by norm_num, by norm_num, by norm_num [CPC.y], "A".toList, "B".toList, by decide +kernel⟩
      · exact ⟨by norm_num, by norm_num, by norm_num, by norm_num, by norm_num, by norm_num [CPC.y], "B".toList, "C".toList, by decide +kernel⟩)
    (by rw [htk]; simp) rfl (by decide) (by unfold MargpParams.epsValue; norm_num) (by
      intro t ht hne
      rw [htk] at ht
      simp only [List.mem_cons, List.not_mem_nil, or_false] at ht
      rcases ht with rfl | rfl | rfl | rfl
      · exact Or.inr ⟨_, by rw [hcs]; exact List.mem_cons_self, by
          norm_num [CPC.atBoundary, CPC.atXmin, CPC.atXmax, CPC.xMin, CPC.xMax, CPC.yMin, CPC.y], Or.inl ⟨a1, a2⟩⟩
      · exact absurd rfl hne
      · exact absurd rfl hne
      · exact Or.inr ⟨_, by rw [hcs]; exact List.mem_cons_of_mem _ List.mem_cons_self, by
          norm_num [CPC.atBoundary, CPC.atXmin, CPC.atXmax, CPC.xMin, CPC.xMax, CPC.yMin, CPC.y], Or.inr ⟨a3, a4⟩⟩)
    val (by
      intro t; rw [hv]; dsimp only
      split
      · norm_num
      · split <;> norm_num) (by
      intro c hc
      rw [hcs] at hc
      simp only [List.mem_cons, List.not_mem_nil, or_false] at hc
      rcases hc with rfl | rfl
      · rw [a1, a2, hA, hB]
        norm_num [CPC.p, CPC.y]
      · rw [a3, a4, hB, hC]
        norm_num [CPC.p, CPC.y])
  obtain ⟨m, h1, h2, h3, h4⟩ := key
  refine ⟨m, h1, h2, h3, ?_⟩
  rw [h4, hto]
  simp only [List.map_cons, List.map_nil, hA, hB, hC]
  norm_num

end Opt

end Carbon
