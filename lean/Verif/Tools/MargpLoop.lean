import Verif.Tools.Optimizer
import Verif.Tools.CpcAnalysis
import Mathlib.LinearAlgebra.Matrix.NonsingularInverse
import Mathlib.Analysis.SpecialFunctions.Log.Basic
import Mathlib.Analysis.InnerProductSpace.PiL2
import Mathlib.Analysis.InnerProductSpace.Projection.FiniteDimensional

/-!
# The price search of the marginal price optimizer (optimizer.py:1047-1065, 1115-1340)

Vectors over the tokens are functions on the indices, in the order of the tokens. NumPy's linear solvers are given by what they solve; their
rounding and the cutoff for small singular values are not modelled.
-/

set_option linter.unusedSectionVars false

namespace Carbon

open CarbonPair (pyDiv)

namespace Opt

open Matrix

/-! ## The Jacobian -/

section
variable {K : Type} [Field K] [LinearOrder K] [IsStrictOrderedRing K] {n : Nat}

/-- `Dxj`, the step for one variable (optimizer.py:1062). -/
def jacStep (x eps : K) : K := if x ≠ 0 then |x| * eps else eps

/-- One column of the Jacobian (optimizer.py:1062-1064). -/
def jacColumn (func : (Fin n → K) → Py (Fin n → K)) (x y : Fin n → K) (eps : K) (j : Fin n) : Py (Fin n → K) := do
  let z ← func (Function.update x j (x j + jacStep (x j) eps))
  .ok fun i => (z i - y i) / jacStep (x j) eps

/-- `jacobian` (optimizer.py:1048-1065), for functions with as many values as arguments; NumPy refuses others. A step of zero, for which NumPy
yields no number, divides to zero here. -/
def jacobian (func : (Fin n → K) → Py (Fin n → K)) (x : Fin n → K) (eps : K) : Py (Matrix (Fin n) (Fin n) K) := do
  let y ← func x
  let cols ← (List.finRange n).mapM (jacColumn func x y eps)
  .ok (Matrix.of fun i j => cols.getD j 0 i)

end

/-- `JACEPS` (optimizer.py:1047). -/
noncomputable def jacEps : ℝ := 1 / 100000

/-! ## The linear solvers -/

section
variable {n : Nat}

/-- The square of `np.linalg.norm` of a vector. -/
def normSq (v : Fin n → ℝ) : ℝ := ∑ i, v i ^ 2

/-- What `np.linalg.lstsq` returns: of the vectors with the smallest distance `‖J d - v‖` the one with the smallest norm. -/
structure LeastSquares (J : Matrix (Fin n) (Fin n) ℝ) (v d : Fin n → ℝ) : Prop where
  least : ∀ e, normSq (J *ᵥ d - v) ≤ normSq (J *ᵥ e - v)
  short : ∀ e, normSq (J *ᵥ e - v) = normSq (J *ᵥ d - v) → normSq d ≤ normSq e

theorem normSq_eq (v : Fin n → ℝ) : normSq v = ‖(WithLp.toLp 2 v : EuclideanSpace ℝ (Fin n))‖ ^ 2 := by
  rw [EuclideanSpace.norm_sq_eq]
  unfold normSq
  simp

/-- `np.linalg.lstsq` has something to return for every matrix and vector. -/
theorem exists_leastSquares (J : Matrix (Fin n) (Fin n) ℝ) (v : Fin n → ℝ) : ∃ d, LeastSquares J v d := by
  obtain ⟨T, hT⟩ : ∃ T : EuclideanSpace ℝ (Fin n) →ₗ[ℝ] EuclideanSpace ℝ (Fin n), T = Matrix.toEuclideanLin J := ⟨_, rfl⟩
  have hTe : ∀ e : Fin n → ℝ, T (WithLp.toLp 2 e) = WithLp.toLp 2 (J *ᵥ e) := by
    intro e
    rw [hT]
    exact Matrix.toLpLin_toLp ..
  obtain ⟨V, hV⟩ : ∃ V : EuclideanSpace ℝ (Fin n), V = WithLp.toLp 2 v := ⟨_, rfl⟩
  obtain ⟨w, hw⟩ : ∃ w, w = (LinearMap.range T).starProjection V := ⟨_, rfl⟩
  have hwm : w ∈ LinearMap.range T := by rw [hw]; exact Submodule.starProjection_apply_mem _ _
  obtain ⟨e0, he0⟩ := hwm
  obtain ⟨D, hD⟩ : ∃ D, D = (LinearMap.ker T)ᗮ.starProjection e0 := ⟨_, rfl⟩
  have hDm : D ∈ (LinearMap.ker T)ᗮ := by rw [hD]; exact Submodule.starProjection_apply_mem _ _
  have hk : e0 - D ∈ LinearMap.ker T := by
    have := Submodule.sub_starProjection_mem_orthogonal (K := (LinearMap.ker T)ᗮ) e0
    rw [Submodule.orthogonal_orthogonal] at this
    rw [hD]
    exact this
  have hTD : T D = w := by
    rw [LinearMap.mem_ker, map_sub, sub_eq_zero] at hk
    rw [← hk, he0]
  have hortho : V - w ∈ (LinearMap.range T)ᗮ := by
    rw [hw]
    exact Submodule.sub_starProjection_mem_orthogonal _
  have hpyth : ∀ e, ‖T e - V‖ ^ 2 = ‖T e - w‖ ^ 2 + ‖w - V‖ ^ 2 := by
    intro e
    have h0 : inner ℝ (T e - w) (w - V) = 0 := by
      have hm : T e - w ∈ LinearMap.range T := Submodule.sub_mem _ ⟨e, rfl⟩ ⟨e0, he0⟩
      have := (Submodule.mem_orthogonal _ _).1 hortho _ hm
      rw [← neg_sub w V, inner_neg_right, neg_eq_zero] at this
      exact this
    have := norm_add_sq_real (T e - w) (w - V)
    rw [h0] at this
    simpa using this
  have hof : ∀ X : EuclideanSpace ℝ (Fin n), X = WithLp.toLp 2 (WithLp.ofLp X) := fun X => rfl
  have hns : ∀ e : Fin n → ℝ, normSq (J *ᵥ e - v) = ‖T (WithLp.toLp 2 e) - V‖ ^ 2 := by
    intro e
    rw [normSq_eq, hTe, hV]
    rfl
  refine ⟨WithLp.ofLp D, fun e => ?_, fun e h => ?_⟩
  · rw [hns, hns, hpyth, hpyth, ← hof D, hTD]
    simp only [sub_self, norm_zero]
    nlinarith [sq_nonneg ‖T (WithLp.toLp 2 e) - w‖]
  · rw [hns, hns, hpyth, hpyth, ← hof D, hTD] at h
    have h1 : ‖T (WithLp.toLp 2 e) - w‖ ^ 2 = 0 := by simpa using h
    have h2 : T (WithLp.toLp 2 e) = w := by simpa [sub_eq_zero] using h1
    have h3 : WithLp.toLp 2 e - D ∈ LinearMap.ker T := by rw [LinearMap.mem_ker, map_sub, h2, hTD, sub_self]
    have h4 : inner ℝ (WithLp.toLp 2 e - D) D = 0 := (Submodule.mem_orthogonal _ _).1 hDm _ h3
    have h5 := norm_add_sq_real (WithLp.toLp 2 e - D) D
    rw [h4] at h5
    rw [normSq_eq, normSq_eq, ← hof D]
    simp only [sub_add_cancel] at h5
    rw [h5]
    nlinarith [sq_nonneg ‖WithLp.toLp 2 e - D‖]

open Classical in
/-- `np.linalg.solve`, or `np.linalg.lstsq` for singular matrices (optimizer.py:1272-1277). -/
noncomputable def solve (J : Matrix (Fin n) (Fin n) ℝ) (v : Fin n → ℝ) : Fin n → ℝ :=
  if IsUnit J.det then J⁻¹ *ᵥ v else Classical.choose (exists_leastSquares J v)

/-! ## The iteration -/

/-- `np.log10` (optimizer.py:1244) of positive prices. -/
noncomputable def log10 (x : ℝ) : ℝ := Real.log x / Real.log 10

/-- `np.exp(p * np.log(10))` (optimizer.py:1180, 1282). -/
noncomputable def pow10 (x : ℝ) : ℝ := Real.exp (x * Real.log 10)

/-- The Newton step at some logarithmic prices (optimizer.py:1263-1277). -/
noncomputable def newtonStep (f : (Fin n → ℝ) → Py (Fin n → ℝ)) (plog : Fin n → ℝ) : Py (Fin n → ℝ) := do
  let dtkn ← f plog
  let J ← jacobian f plog jacEps
  .ok (solve J (-dtkn))

/-- The loop (optimizer.py:1255-1307), from iteration `i` on with `r` iterations left: the last iteration and the prices after it. -/
noncomputable def newtonLoop (f : (Fin n → ℝ) → Py (Fin n → ℝ)) (start : Fin n → ℝ) (eps : ℝ) : Nat → Nat → (Fin n → ℝ) → Py (Nat × (Fin n → ℝ))
  | 0, i, plog => .ok (i - 1, fun j => pow10 (plog j))
  | r + 1, i, plog => do
    let d ← newtonStep f plog
    if Real.sqrt (normSq d) < eps then .ok (i, if i = 0 then start else fun j => pow10 (plog j + d j))
    else newtonLoop f start eps r (i + 1) (fun j => plog j + d j)

end

/-! ## The optimizer -/

/-- `tuple(pstart[t] for t in tokens_t)` (optimizer.py:1137). -/
def pstartPrices (pstart : List (Str × ℝ)) (tokens : List Str) : Py (List ℝ) :=
  tokens.mapM fun t =>
    match dictGet pstart t with
    | none => .error .key
    | some p => .ok p

/-- The numbers of a row of estimates. Estimates are requested such that missing ones raise. -/
def rowOf : CC.Estimates ℝ → List ℝ
  | .row r => r.map fun p => p.getD 0
  | .matrix _ => []

/-- The starting prices (optimizer.py:1127-1146), where `pstart` is a dict, or the column of a data frame for the target token; also the
result for `MO_PSTART` (optimizer.py:1149-1152). `price_estimates` is optimizer.py:1036-1045. -/
noncomputable def startPrices (cc : CC ℝ) (target : Str) (pstart : Option (List (Str × ℝ))) : Py (Option (List ℝ)) :=
  match pstart with
  | some d => do
    let l ← pstartPrices d (tokensOf cc target)
    .ok (some l)
  | none =>
    match cc.priceEstimates [target] (tokensOf cc target) with
    | .ok e => .ok (some (rowOf e))
    | .error _ => .ok none

/-- `sum_by_tkn[t]` (optimizer.py:1211). -/
def amounts (d : List (Str × ℝ)) (tokens : List Str) : Fin tokens.length → ℝ := fun i => (dictGet d tokens[i]).getD 0

/-- `dtknfromp_f(p)` (optimizer.py:1165-1220) as used in the loop, for the decimal logarithms of the prices. -/
noncomputable def dtknLog (cc : CC ℝ) (target : Str) (plog : Fin (tokensOf cc target).length → ℝ) : Py (Fin (tokensOf cc target).length → ℝ) := do
  let d ← dtknfromp cc target (List.ofFn fun j => pow10 (plog j))
  .ok (amounts d (tokensOf cc target))

/-- The parameters (optimizer.py:1117-1119, 1127), without those for output. -/
structure MargpParams where
  eps : Option ℝ := none
  maxiter : Option Int := none
  pstart : Option (List (Str × ℝ)) := none

open Classical in
/-- `P("eps") or self.MOEPS` (optimizer.py:1118). -/
noncomputable def MargpParams.epsValue (p : MargpParams) : ℝ :=
  match p.eps with
  | some e => if e = 0 then 1 / 1000000 else e
  | none => 1 / 1000000

/-- `P("maxiter") or self.MOMAXITER` (optimizer.py:1119). -/
def MargpParams.maxiterValue (p : MargpParams) : Int :=
  match p.maxiter with
  | some m => if m = 0 then 50 else m
  | none => 50

/-- The result of the optimizer: one with an error message (optimizer.py:1311-1325), or one with prices and amounts (optimizer.py:1327-1340);
both have the number of the last iteration. -/
inductive MargpRun where
  | failed (iterations : Nat)
  | found (iterations : Nat) (m : Margp ℝ)

/-- The loop and the result (optimizer.py:1242-1340), from the starting prices on. Without an iteration `i` is not bound. -/
noncomputable def searchFrom (cc : CC ℝ) (target : Str) (eps : ℝ) (maxiter : Int) (start : Fin (tokensOf cc target).length → ℝ) : Py MargpRun :=
  if maxiter ≤ 0 then .error (.custom "UnboundLocalError")
  else do
    let r ← newtonLoop (dtknLog cc target) start eps maxiter.toNat 0 (fun j => log10 (start j))
    if (r.1 : Int) = maxiter - 1 then .ok (.failed r.1)
    else do
      let m ← margp cc target (List.ofFn r.2)
      .ok (.found r.1 m)

/-- The end of `margp_optimizer` from the starting prices on (optimizer.py:1240-1340). -/
noncomputable def searchOption (cc : CC ℝ) (target : Str) (eps : ℝ) (maxiter : Int) : Option (List ℝ) → Py MargpRun
  | none => .error (.custom "price estimates not found; try setting pstart")
  | some l => searchFrom cc target eps maxiter fun j => l.getD j 0

/-- `margp_optimizer` (optimizer.py:1078-1340) for a target token. -/
noncomputable def margpRun (cc : CC ℝ) (target : Str) (params : MargpParams := {}) : Py MargpRun :=
  if cc.curves = [] then .error .assertion
  else if target ∉ cc.tkns then .error .assertion
  else do
    let s ← startPrices cc target params.pstart
    searchOption cc target params.epsValue params.maxiterValue s

end Opt

end Carbon
