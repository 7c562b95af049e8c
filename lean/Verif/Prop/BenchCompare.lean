import Verif.Bench.Compare
import Verif.Prop.TradeSpec

/-!
# What the benchmark of the trade functions checks (C168)
-/

namespace Carbon.Prop.BenchCompare

open Bench Prop.TradeSpec
open CarbonPair (pyDiv)

/-- A positive expected value accepts exactly the values within one of the two tolerances. -/
theorem C168_accepts {a e m r : ℝ} (he : 0 < e) (hm : 0 ≤ m) : almostEqual a e m r = .ok () ↔ |a - e| ≤ m ∨ |a - e| ≤ r * e := by
  unfold almostEqual pyDiv
  by_cases h : a = e
  · subst h
    simp [hm]
  · simp only [ne_eq, h, not_false_eq_true, if_true, he.ne', if_false, Py.ok_bind, div_le_iff₀ he]
    split <;> simp_all

/-- A negative expected value accepts everything. -/
theorem C168_negative_violated {a e m r : ℝ} (he : e < 0) (hr : 0 ≤ r) : almostEqual a e m r = .ok () := by
  unfold almostEqual pyDiv
  by_cases h : a = e
  · simp [h]
  · have : |a - e| / e ≤ r := (div_nonpos_of_nonneg_of_nonpos (abs_nonneg _) he.le).trans hr
    simp [h, he.ne, Py.ok_bind, this]

/-- If nothing is expected then everything else raises, whatever is tolerated. -/
theorem C168_zero_violated {a m r : ℝ} (ha : a ≠ 0) : almostEqual a 0 m r = .error .zeroDiv := by
  unfold almostEqual pyDiv
  simp [ha]

/-- What a test of the file asks for. -/
def SameTask (t u : TradeTest) : Prop :=
  t.bySource = u.bySource ∧ t.amount = u.amount ∧ t.liquidity = u.liquidity ∧ t.lowest = u.lowest ∧ t.highest = u.highest ∧ t.marginal = u.marginal

/-- The two implementations on a test, and the comparison. -/
def Passes (m r : ℝ) (t : TradeTest) (i : ℤ) (s : ℝ) : Prop :=
  execute t.bySource t.amount t.liquidity t.lowest t.highest t.marginal = .ok i ∧
    Ref.execute t.bySource (t.amount : ℝ) (requested t.liquidity t.lowest t.highest t.marginal) = .ok s ∧ almostEqual i s m r = .ok ()

theorem runTest_ok {fi : ℤ → Str} {fs : ℝ → Str} {m r : ℝ} {t u : TradeTest} :
    runTest fi fs m r t = .ok u ↔ ∃ i s, Passes m r t i s ∧ u = { t with implOut := fi i, specOut := fs s } := by
  unfold runTest Passes
  simp only [Py.bind_eq_ok]
  constructor
  · rintro ⟨i, hi, s, hs, ⟨⟩, ha, h⟩
    exact ⟨i, s, ⟨hi, hs, ha⟩, (Except.ok.inj h).symm⟩
  · rintro ⟨i, s, ⟨hi, hs, ha⟩, rfl⟩
    exact ⟨i, hi, s, hs, (), ha, rfl⟩

theorem mapM_ok {α β : Type} (f : α → Py β) : ∀ (l : List α) (l' : List β), l.mapM f = .ok l' ↔ List.Forall₂ (fun a b => f a = .ok b) l l'
  | [], l' => by
    constructor
    · intro h
      cases l' with
      | nil => exact .nil
      | cons => cases h
    · intro h; cases h; rfl
  | a :: l, l' => by
    rw [List.mapM_cons]
    simp only [Py.bind_eq_ok]
    constructor
    · rintro ⟨b, hb, bs, hbs, h⟩
      cases h
      exact .cons hb ((mapM_ok f l bs).1 hbs)
    · intro h
      cases h with
      | cons hb hbs => exact ⟨_, hb, _, (mapM_ok f l _).2 hbs, rfl⟩

/-- A run that ends without an error has compared both implementations on every test, and the file keeps the tests and has the outputs; a run
that ends with an error leaves the file. -/
theorem C168_run (fi : ℤ → Str) (fs : ℝ → Str) (m r : ℝ) (file : List TradeTest) :
    ((runTrades fi fs m r file).1 = .ok () ↔ ∀ t ∈ file, ∃ i s, Passes m r t i s) ∧
    ((runTrades fi fs m r file).1 = .ok () → List.Forall₂ (fun t u => SameTask t u ∧ ∃ i s, Passes m r t i s ∧ u.implOut = fi i ∧ u.specOut = fs s)
      file (runTrades fi fs m r file).2) ∧
    ((runTrades fi fs m r file).1 ≠ .ok () → (runTrades fi fs m r file).2 = file) := by
  have key : ∀ l : List TradeTest, (∃ l', l.mapM (runTest fi fs m r) = .ok l') ↔ ∀ t ∈ l, ∃ i s, Passes m r t i s := by
    intro l
    induction l with
    | nil => exact ⟨fun _ => by simp, fun _ => ⟨[], rfl⟩⟩
    | cons t l ih =>
      simp only [List.forall_mem_cons, ← ih]
      constructor
      · rintro ⟨l', h⟩
        have h := (mapM_ok _ _ _).1 h
        cases h with
        | cons hb hbs =>
          obtain ⟨i, s, hp, -⟩ := runTest_ok.1 hb
          exact ⟨⟨i, s, hp⟩, _, (mapM_ok _ _ _).2 hbs⟩
      · rintro ⟨⟨i, s, hp⟩, l', h⟩
        exact ⟨_, (mapM_ok _ _ _).2 (.cons (runTest_ok.2 ⟨i, s, hp, rfl⟩) ((mapM_ok _ _ _).1 h))⟩
  unfold runTrades
  cases h : file.mapM (runTest fi fs m r) with
  | error e =>
    refine ⟨⟨fun hh => (by cases hh), fun hh => ?_⟩, fun hh => (by cases hh), fun _ => rfl⟩
    obtain ⟨l', hl⟩ := (key file).2 hh
    rw [h] at hl
    cases hl
  | ok l =>
    refine ⟨⟨fun _ => (key file).1 ⟨l, h⟩, fun _ => rfl⟩, fun _ => ?_, fun hh => absurd rfl hh⟩
    refine ((mapM_ok _ _ _).1 h).imp fun t u htu => ?_
    obtain ⟨i, s, hp, rfl⟩ := runTest_ok.1 htu
    exact ⟨⟨rfl, rfl, rfl, rfl, rfl, rfl⟩, i, s, hp, rfl, rfl⟩

/-- Running the benchmark again changes nothing. -/
theorem C168_again (fi : ℤ → Str) (fs : ℝ → Str) (m r : ℝ) (file : List TradeTest) :
    runTrades fi fs m r (runTrades fi fs m r file).2 = runTrades fi fs m r file := by
  unfold runTrades
  cases h : file.mapM (runTest fi fs m r) with
  | error e => simp only [h]
  | ok l =>
    have : l.mapM (runTest fi fs m r) = .ok l := by
      rw [mapM_ok] at h ⊢
      induction h with
      | nil => exact .nil
      | cons hb _ ih =>
        refine .cons ?_ ih
        obtain ⟨i, s, hp, rfl⟩ := runTest_ok.1 hb
        exact runTest_ok.2 ⟨i, s, hp, rfl⟩
    simp only [this]

/-- Payments to full orders pass the relative test if the amount given and the rate are not too small: the trade functions differ from the
reference by at most four units and a relative error that depends on the marginal rate. -/
theorem C168_source_passes {x : ℤ} {y : ℕ} {lo hi mid : ℕ × ℕ} {i : ℤ} {s m r : ℝ} (hx : 0 ≤ x) (hy : 0 < y)
    (hlo : lo.1 * mid.2 ≤ mid.1 * lo.2) (hfull : hi.1 * mid.2 = mid.1 * hi.2) (hex : Bench.execute true x y lo hi mid = .ok i) (hi0 : i ≠ 0)
    (hs : Ref.execute true (x : ℝ) (requested y lo hi mid) = .ok s) (hs0 : 0 < s) (hfit : s ≤ y) (hm : 0 ≤ m)
    (htol : 4 + 1 / 2 ^ 44 * (1 + 1 / √((mid.1 : ℝ) / mid.2)) * s ≤ max m (r * s)) : almostEqual i s m r = .ok () := by
  rw [C168_accepts hs0 hm]
  have h1 := C117_source hx hy hlo hfull hex hs hfit
  have h2 := C117_source_accuracy hx hy hlo hfull hex hi0 hs hfit
  have h3 : |(i : ℝ) - s| ≤ max m (r * s) := by
    rw [abs_le]
    constructor <;> linarith
  exact le_max_iff.1 h3

/-- Purchases from full orders likewise; here the lowest rate matters. -/
theorem C168_target_passes {d : ℤ} {y : ℕ} {lo hi mid : ℕ × ℕ} {i : ℤ} {s m r : ℝ} (hd : 0 ≤ d) (hdy : d ≤ y) (hd128 : d ≤ 2 ^ 128) (hy : 0 < y)
    (hlo0 : 0 < lo.1) (hlo : lo.1 * mid.2 ≤ mid.1 * lo.2) (hfull : hi.1 * mid.2 = mid.1 * hi.2) (hex : Bench.execute false d y lo hi mid = .ok i)
    (hi0 : i < 2 ^ 128 - 1) (hs : Ref.execute false (d : ℝ) (requested y lo hi mid) = .ok s) (hs0 : 0 < s) (hm : 0 ≤ m)
    (htol : 4 + 1 / 2 ^ 45 * (1 + 1 / √((lo.1 : ℝ) / lo.2)) * i ≤ max m (r * s)) : almostEqual i s m r = .ok () := by
  rw [C168_accepts hs0 hm]
  obtain ⟨v, hv, h1⟩ := C117_target hd hdy hy hlo hfull hex hi0
  rw [hs] at hv
  cases hv
  have h2 := C117_target_accuracy hd hdy hd128 hy hlo0 hlo hfull.ge hex hi0 hs
  have h3 : |(i : ℝ) - s| ≤ max m (r * s) := by
    rw [abs_le]
    constructor <;> linarith
  exact le_max_iff.1 h3

theorem sampleRoots : Nat.sqrt (1 * 2 ^ 96 / 1) = 2 ^ 48 ∧ Nat.sqrt (4 * 2 ^ 96 / 1) = 2 ^ 49 :=
  ⟨Nat.sqrt_eq' (2 ^ 48), Nat.sqrt_eq' (2 ^ 49)⟩

theorem sampleSource : Bench.execute true (10 ^ 12) (2 * 10 ^ 12) (1, 1) (4, 1) (4, 1) = .ok (2 * 10 ^ 12) := by
  unfold Bench.execute Bench.encodeOrder Bench.encodeRate
  simp only [sampleRoots.1, sampleRoots.2]
  decide +kernel

theorem sampleTarget : Bench.execute false (10 ^ 12) (2 * 10 ^ 12) (1, 1) (4, 1) (4, 1) = .ok 333333333334 := by
  unfold Bench.execute Bench.encodeOrder Bench.encodeRate
  simp only [sampleRoots.1, sampleRoots.2]
  decide +kernel

theorem sampleRef (x : ℝ) : Ref.execute true x (requested (2 * 10 ^ 12) (1, 1) (4, 1) (4, 1)) = Ref.sourceFunc x (2 * 10 ^ 12) 1 2 ∧
    Ref.execute false x (requested (2 * 10 ^ 12) (1, 1) (4, 1) (4, 1)) = Ref.targetFunc x (2 * 10 ^ 12) 1 2 := by
  have e : √(4 : ℝ) = 2 := by rw [show (4 : ℝ) = 2 ^ 2 by norm_num, Real.sqrt_sq (by norm_num)]
  constructor
  · rw [execute_source (by norm_num [requested]) (by norm_num [requested]) (by norm_num [requested])]
    norm_num [requested, e]
  · rw [execute_target (by norm_num [requested]) (by norm_num [requested]) (by norm_num [requested])]
    norm_num [requested, e]

/-- A payment and a purchase that meet the hypotheses, with the tolerances of the second file of the benchmark. -/
example : almostEqual ((2 * 10 ^ 12 : ℤ) : ℝ) (2 * 10 ^ 12) 0 (9 / 10 ^ 10) = .ok () ∧
    almostEqual ((333333333334 : ℤ) : ℝ) (10 ^ 12 / 3) 0 (9 / 10 ^ 10) = .ok () := by
  have e : √(4 : ℝ) = 2 := by rw [show (4 : ℝ) = 2 ^ 2 by norm_num, Real.sqrt_sq (by norm_num)]
  constructor
  · refine C168_source_passes (by norm_num) (by norm_num) (by norm_num) (by norm_num) sampleSource (by norm_num) ?_ (by norm_num) (by norm_num) le_rfl ?_
    · rw [(sampleRef _).1, sourceFunc_ok]
      norm_num [payout]
    · norm_num [e]
  · refine C168_target_passes (by norm_num) (by norm_num) (by norm_num) (by norm_num) (by norm_num) (by norm_num) (by norm_num) sampleTarget
      (by norm_num) ?_ (by norm_num) le_rfl ?_
    · rw [(sampleRef _).2, targetFunc_ok]
      norm_num [charge]
    · norm_num [e]

end Carbon.Prop.BenchCompare
