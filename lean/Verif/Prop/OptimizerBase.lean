import Verif.Tools.Optimizer
import Verif.Prop.CpcContainer
import Mathlib.Analysis.SpecificLimits.Basic

/-!
# Self-financing constraints (C83), numerical derivatives and extrema (C84)
-/

set_option linter.unusedSectionVars false

namespace Carbon

namespace Opt

/-! ## Self-financing constraints -/

section
variable {K : Type} [Field K] [LinearOrder K] [IsStrictOrderedRing K]

theorem SFC.make_cases {data : List (Str × Constr K)} {ts : Option (List Str)} {s : SFC K} (h : SFC.make data ts = .ok s) :
    s.data = data ∧ s.tokens = ts.getD (data.map Prod.fst) ∧ (∀ t ∈ data.map Prod.fst, t ∈ s.tokens) ∧
      ∃ c, data.filter (fun kv => kv.2.isVar) = [(s.optVar, c)] := by
  unfold SFC.make at h
  split at h
  · rename_i kv hkv
    cases ts with
    | none =>
      cases h
      exact ⟨rfl, rfl, fun t ht => ht, kv.2, hkv⟩
    | some ts =>
      dsimp only at h
      split at h
      · rename_i hall
        cases h
        refine ⟨rfl, rfl, fun t ht => ?_, kv.2, hkv⟩
        simpa using List.all_eq_true.1 hall t ht
      · cases h
  · cases h

/-- C83: constraints can be built exactly if there is one optimization variable and the tokens, if they are given, cover the
constraints; otherwise an assertion fails. -/
theorem C83_build (data : List (Str × Constr K)) (ts : Option (List Str)) :
    ((data.countP fun kv => kv.2.isVar) = 1 ∧ (∀ l, ts = some l → ∀ t ∈ data.map Prod.fst, t ∈ l) → ∃ s, SFC.make data ts = .ok s) ∧
      (¬ ((data.countP fun kv => kv.2.isVar) = 1 ∧ ∀ l, ts = some l → ∀ t ∈ data.map Prod.fst, t ∈ l) → SFC.make data ts = .error .assertion) := by
  rw [List.countP_eq_length_filter]
  constructor
  · rintro ⟨h1, h2⟩
    obtain ⟨kv, hkv⟩ := List.length_eq_one_iff.1 h1
    unfold SFC.make
    rw [hkv]
    cases ts with
    | none => exact ⟨_, rfl⟩
    | some l =>
      dsimp only
      rw [if_pos (List.all_eq_true.2 fun t ht => by simpa using h2 l rfl t ht)]
      exact ⟨_, rfl⟩
  · intro hn
    unfold SFC.make
    split
    · rename_i kv hkv
      rw [hkv] at hn
      cases ts with
      | none => exact absurd ⟨rfl, fun l hl => by cases hl⟩ hn
      | some l =>
        dsimp only
        rw [if_neg]
        intro hall
        refine hn ⟨rfl, fun l' hl' t ht => ?_⟩
        cases hl'
        simpa using List.all_eq_true.1 hall t ht
    · rfl

theorem dictGet_mem {β : Type} {d : List (Str × β)} {t : Str} {v : β} (h : dictGet d t = some v) : (t, v) ∈ d := by
  induction d with
  | nil => cases h
  | cons kv d ih =>
    obtain ⟨k, w⟩ := kv
    unfold dictGet at h
    split at h
    · rename_i e
      cases h
      rw [← e]
      simp
    · exact List.mem_cons_of_mem _ (ih h)

theorem dictGet_of_mem {β : Type} {d : List (Str × β)} (hd : (d.map Prod.fst).Nodup) {t : Str} {v : β} (h : (t, v) ∈ d) : dictGet d t = some v := by
  induction d with
  | nil => cases h
  | cons kv d ih =>
    obtain ⟨k, w⟩ := kv
    rw [List.map_cons, List.nodup_cons] at hd
    unfold dictGet
    rcases List.mem_cons.1 h with e | h
    · cases e
      rw [if_pos rfl]
    · rw [if_neg, ih hd.2 h]
      rintro rfl
      exact hd.1 (List.mem_map.2 ⟨_, h, rfl⟩)

/-- C83: reading a known token gives its constraint, zero if it has none, and a marker exactly for the optimization variable; reading
any other token fails. -/
theorem C83_get {data : List (Str × Constr K)} (hd : (data.map Prod.fst).Nodup) {ts : Option (List Str)} {s : SFC K}
    (h : SFC.make data ts = .ok s) (t : Str) :
    (t ∉ s.tokens → s.get t = .error .assertion ∧ s.isOptVar t = .error .assertion ∧ s.isConstraint t = .error .assertion) ∧
      (t ∈ s.tokens → ∃ c, s.get t = .ok c ∧ (∀ v, (t, v) ∈ data → c = v) ∧ (t ∉ data.map Prod.fst → c = .amount 0) ∧
        (c.isVar = true ↔ t = s.optVar) ∧ s.isOptVar t = .ok (decide (t = s.optVar)) ∧ s.isConstraint t = .ok (decide (t ≠ s.optVar))) := by
  obtain ⟨rfl, -, hk, c0, hc0⟩ := SFC.make_cases h
  constructor
  · intro ht
    unfold SFC.isConstraint SFC.isOptVar SFC.get
    rw [if_pos ht, if_pos ht]
    exact ⟨rfl, rfl, rfl⟩
  · intro ht
    have mem0 : (s.optVar, c0) ∈ s.data ∧ c0.isVar = true := by
      have : (s.optVar, c0) ∈ s.data.filter fun kv => kv.2.isVar := by rw [hc0]; simp
      simpa using List.mem_filter.1 this
    refine ⟨(dictGet s.data t).getD (.amount 0), ?_, ?_, ?_, ?_, ?_, ?_⟩
    · unfold SFC.get
      rw [if_neg (not_not.2 ht)]
    · intro v hv
      rw [dictGet_of_mem hd hv]
      rfl
    · intro hn
      cases e : dictGet s.data t with
      | none => rfl
      | some v => exact absurd (List.mem_map.2 ⟨_, dictGet_mem e, rfl⟩) hn
    · constructor
      · intro hv
        cases e : dictGet s.data t with
        | none => rw [e] at hv; cases hv
        | some v =>
          rw [e, Option.getD_some] at hv
          have : (t, v) ∈ s.data.filter fun kv => kv.2.isVar := List.mem_filter.2 ⟨dictGet_mem e, hv⟩
          rw [hc0, List.mem_singleton] at this
          exact congrArg Prod.fst this
      · rintro rfl
        rw [dictGet_of_mem hd mem0.1]
        exact mem0.2
    · unfold SFC.isOptVar
      rw [if_neg (not_not.2 ht)]
    · unfold SFC.isConstraint SFC.isOptVar
      rw [if_neg (not_not.2 ht), Py.ok_bind]
      simp

/-- C83: the constraints describe an arbitrage exactly if every token other than the optimization variable is held at zero. -/
theorem C83_arbitrage {data : List (Str × Constr K)} (hd : (data.map Prod.fst).Nodup) {ts : Option (List Str)} {s : SFC K}
    (h : SFC.make data ts = .ok s) : s.isArb = true ↔ ∀ t ∈ s.tokens, t ≠ s.optVar → s.get t = .ok (.amount 0) := by
  obtain ⟨e1, -, hk, c0, hc0⟩ := SFC.make_cases h
  subst e1
  have mem0 : (s.optVar, c0) ∈ s.data ∧ c0.isVar = true := by
    have : (s.optVar, c0) ∈ s.data.filter fun kv => kv.2.isVar := by rw [hc0]; simp
    simpa using List.mem_filter.1 this
  have hne : c0 ≠ .amount 0 := by rintro rfl; cases mem0.2
  have hmem : (s.optVar, c0) ∈ s.data.filter fun kv => decide (kv.2 ≠ .amount 0) := List.mem_filter.2 ⟨mem0.1, by simpa using hne⟩
  have main : (s.data.filter fun kv => decide (kv.2 ≠ .amount 0)).length = 1 ↔ ∀ kv ∈ s.data, kv.1 ≠ s.optVar → kv.2 = .amount 0 := by
    constructor
    · intro hl kv hkv hne'
      by_contra hn
      obtain ⟨a, ha⟩ := List.length_eq_one_iff.1 hl
      have h1 : kv ∈ s.data.filter fun kv => decide (kv.2 ≠ .amount 0) := List.mem_filter.2 ⟨hkv, by simpa using hn⟩
      rw [ha, List.mem_singleton] at h1 hmem
      rw [h1, ← hmem] at hne'
      exact hne' rfl
    · intro hall
      have hnd : s.data.Nodup := List.Nodup.of_map _ hd
      have hsub : ∀ kv ∈ s.data.filter fun kv => decide (kv.2 ≠ .amount 0), kv = (s.optVar, c0) := by
        intro kv hkv
        obtain ⟨m1, m2⟩ := List.mem_filter.1 hkv
        have m2 : kv.2 ≠ .amount 0 := by simpa using m2
        have ek : kv.1 = s.optVar := by
          by_contra hn
          exact m2 (hall kv m1 hn)
        have g1 := dictGet_of_mem hd (t := kv.1) (v := kv.2) m1
        have g2 := dictGet_of_mem hd mem0.1
        rw [ek, g2] at g1
        exact Prod.ext ek (Option.some.inj g1).symm
      have hf : (s.data.filter fun kv => decide (kv.2 ≠ .amount 0)).Nodup := hnd.filter _
      generalize s.data.filter (fun kv => decide (kv.2 ≠ .amount 0)) = l at *
      match l with
      | [] => cases hmem
      | [a] => rfl
      | a :: b :: l =>
        have ea := hsub a (by simp)
        have eb := hsub b (by simp)
        rw [ea, eb] at hf
        simp at hf
  have right : (∀ kv ∈ s.data, kv.1 ≠ s.optVar → kv.2 = .amount 0) ↔ ∀ t ∈ s.tokens, t ≠ s.optVar → s.get t = .ok (.amount 0) := by
    constructor
    · intro hall t ht hn
      obtain ⟨c, g1, g2, g3, -⟩ := (C83_get hd h t).2 ht
      rw [g1]
      congr 1
      by_cases hm : t ∈ s.data.map Prod.fst
      · obtain ⟨kv, hkv, rfl⟩ := List.mem_map.1 hm
        rw [g2 kv.2 hkv]
        exact hall kv hkv hn
      · exact g3 hm
    · intro hall kv hkv hn
      have ht := hk kv.1 (List.mem_map.2 ⟨kv, hkv, rfl⟩)
      obtain ⟨c, g1, g2, -⟩ := (C83_get hd h kv.1).2 ht
      have := hall kv.1 ht hn
      rw [g1] at this
      rw [← g2 kv.2 hkv]
      exact Except.ok.inj this
  unfold SFC.isArb
  split
  · rename_i hl
    refine ⟨fun _ => right.1 ?_, fun _ => rfl⟩
    obtain ⟨a, ha⟩ := List.length_eq_one_iff.1 hl
    intro kv hkv hn
    have hm := mem0.1
    rw [ha, List.mem_singleton] at hkv hm
    rw [hkv, ← hm] at hn
    exact absurd rfl hn
  · rw [decide_eq_true_eq, main, right]

/-- C83: the constructor for arbitrage gives constraints that describe an arbitrage in the target token. -/
theorem C83_arb (target : Str) : ∃ s : SFC K, SFC.arb target = .ok s ∧ s.optVar = target ∧ s.isArb = true ∧ s.tokens = [target] :=
  ⟨_, rfl, rfl, rfl, rfl⟩

example : (SFC.make [("A".toList, .amount (3 : ℚ)), ("B".toList, .optVar)] (some ["A".toList, "B".toList, "C".toList])).map
    (fun s => (s.optVar, s.isArb, s.get "C".toList, s.get "A".toList)) = .ok ("B".toList, false, .ok (.amount 0), .ok (.amount 3)) := by
  decide +kernel

example : (SFC.make [("A".toList, .amount (0 : ℚ)), ("B".toList, .pays)]).map (fun s => (s.optVar, s.isArb)) = .ok ("B".toList, true) := by
  decide +kernel

/-! ## Derivatives -/

theorem derivEps_pos : (0 : K) < derivEps := by unfold derivEps; positivity

/-- C84: the numerical derivatives of a quadratic function are its derivatives. -/
theorem C84_quadratic (a b c x : K) :
    deriv (fun x => a * x ^ 2 + b * x + c) x = 2 * a * x + b ∧ deriv2 (fun x => a * x ^ 2 + b * x + c) x = 2 * a := by
  have h := (derivEps_pos (K := K)).ne'
  unfold deriv deriv2
  dsimp only
  generalize (derivEps : K) = e at h
  constructor <;> field_simp <;> ring

/-- C84: the error of the first derivative of a cubic function is its leading coefficient times the square of the step; the second
derivative is exact. -/
theorem C84_cubic (d a b c x : K) :
    deriv (fun x => d * x ^ 3 + a * x ^ 2 + b * x + c) x - (3 * d * x ^ 2 + 2 * a * x + b) = d * (1 / 10 ^ 6) ^ 2 ∧
      deriv2 (fun x => d * x ^ 3 + a * x ^ 2 + b * x + c) x = 6 * d * x + 2 * a := by
  have h := (derivEps_pos (K := K)).ne'
  have e : (1 / 10 ^ 6 : K) = derivEps := rfl
  rw [e]
  unfold deriv deriv2
  dsimp only
  generalize (derivEps : K) = e at h
  constructor <;> field_simp <;> ring

/-- C84: Newton's method reaches the extremum of a quadratic function in one step from anywhere and stays there; on a linear function it
reports an error. -/
theorem C84_newton (a b c x0 : K) (n : Nat) :
    (a ≠ 0 → ∃ m, findminmaxNr (fun x => a * x ^ 2 + b * x + c) x0 (n + 1) = some m ∧ 2 * a * m + b = 0) ∧
      (a = 0 → findminmaxNr (fun x => a * x ^ 2 + b * x + c) x0 (n + 1) = none) := by
  constructor
  · intro ha
    refine ⟨-b / (2 * a), ?_, by field_simp; ring⟩
    have step : ∀ x, x - deriv (fun x => a * x ^ 2 + b * x + c) x / deriv2 (fun x => a * x ^ 2 + b * x + c) x = -b / (2 * a) := by
      intro x
      rw [(C84_quadratic a b c x).1, (C84_quadratic a b c x).2]
      field_simp
      ring
    have h2 : ∀ x, deriv2 (fun x => a * x ^ 2 + b * x + c) x ≠ 0 := by
      intro x
      rw [(C84_quadratic a b c x).2]
      exact mul_ne_zero two_ne_zero ha
    induction n with
    | zero =>
      unfold findminmaxNr
      unfold findminmaxNr
      dsimp only
      rw [if_neg (h2 _), step]
    | succ n ih =>
      unfold findminmaxNr
      rw [ih]
      dsimp only
      rw [if_neg (h2 _), step]
  · rintro rfl
    induction n with
    | zero =>
      unfold findminmaxNr
      unfold findminmaxNr
      dsimp only
      rw [if_pos (by rw [(C84_quadratic 0 b c x0).2, mul_zero])]
    | succ n ih =>
      unfold findminmaxNr
      rw [ih]

/-- C84: the distance of gradient descent on a quadratic function from the minimum shrinks by the same factor in every step. -/
theorem C84_descent (a b c x0 rate m : K) (hm : 2 * a * m + b = 0) (n : Nat) :
    findminGd (fun x => a * x ^ 2 + b * x + c) x0 rate n - m = (1 - 2 * a * rate) ^ n * (x0 - m) := by
  induction n with
  | zero => unfold findminGd; ring
  | succ n ih =>
    unfold findminGd
    dsimp only
    rw [(C84_quadratic a b c _).1]
    generalize findminGd (fun x => a * x ^ 2 + b * x + c) x0 rate n = x at ih
    have hb : b = -(2 * a * m) := by linarith
    rw [hb, pow_succ]
    have : x - rate * (2 * a * x + -(2 * a * m)) - m = (1 - 2 * a * rate) * (x - m) := by ring
    rw [this, ih]
    ring

/-- C84: gradient ascent on a function is gradient descent on its negative. -/
theorem C84_ascent (f : K → K) (x0 rate : K) (n : Nat) : findmaxGd f x0 rate n = findminGd (fun x => -f x) x0 rate n := by
  induction n with
  | zero => rfl
  | succ n ih =>
    unfold findmaxGd findminGd
    rw [ih]
    unfold deriv
    ring

/-- C84: the positive and the negative part of a vector add up to the vector; each is of its sign and they do not overlap. -/
theorem C84_parts (l : List K) :
    List.zipWith (· + ·) (posx l) (negx l) = l ∧ (∀ v ∈ posx l, 0 ≤ v) ∧ (∀ v ∈ negx l, v ≤ 0) ∧
      ∀ v ∈ List.zipWith (· * ·) (posx l) (negx l), v = 0 := by
  unfold posx negx
  refine ⟨?_, ?_, ?_, ?_⟩
  · induction l with
    | nil => rfl
    | cons a l ih =>
      rw [List.map_cons, List.map_cons, List.zipWith_cons_cons, ih]
      congr 1
      rw [max_add_min, zero_add]
  · intro v hv
    obtain ⟨a, -, rfl⟩ := List.mem_map.1 hv
    exact le_max_left _ _
  · intro v hv
    obtain ⟨a, -, rfl⟩ := List.mem_map.1 hv
    exact min_le_left _ _
  · intro v hv
    induction l with
    | nil => simp at hv
    | cons a l ih =>
      rw [List.map_cons, List.map_cons, List.zipWith_cons_cons, List.mem_cons] at hv
      rcases hv with rfl | hv
      · rw [max_mul_min, zero_mul]
      · exact ih hv

end

/-- C84: with a small positive rate gradient descent converges to the minimum of a quadratic function. -/
theorem C84_converges {a b c x0 rate m : ℝ} (hr : 0 < a * rate) (hr1 : a * rate < 1) (hm : 2 * a * m + b = 0) :
    Filter.Tendsto (fun n => findminGd (fun x => a * x ^ 2 + b * x + c) x0 rate n) Filter.atTop (nhds m) := by
  have h : Filter.Tendsto (fun n => (1 - 2 * a * rate) ^ n * (x0 - m)) Filter.atTop (nhds (0 * (x0 - m))) := by
    apply Filter.Tendsto.mul_const
    apply tendsto_pow_atTop_nhds_zero_of_abs_lt_one
    rw [abs_lt]
    constructor <;> linarith
  rw [zero_mul] at h
  have e : (fun n => findminGd (fun x => a * x ^ 2 + b * x + c) x0 rate n) = fun n => (1 - 2 * a * rate) ^ n * (x0 - m) + m := by
    funext n
    rw [← C84_descent a b c x0 rate m hm n]
    ring
  rw [e]
  simpa using h.add_const m

example : findminmaxNr (fun x : ℚ => 3 * x ^ 2 - 12 * x + 1) 100 1 = some 2 := by decide +kernel

example : findminGd (fun x : ℚ => 3 * x ^ 2 - 12 * x + 1) 10 (1 / 12) 3 = 3 := by decide +kernel

example : posx [3, -4, (0 : ℚ)] = [3, 0, 0] ∧ negx [3, -4, (0 : ℚ)] = [0, -4, 0] := by decide +kernel

end Opt

end Carbon
